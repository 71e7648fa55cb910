import Verif.Proofs.RsMutations

/-! Lemmas for the groups of equal traces of the backend. -/

namespace Ficus.Rs
open Spec

theorem groupedBy_of_perm {A K : Type} [DecidableEq K] {key : A → K} {l : List A} {gs gs' : List (List A)}
    (h : GroupedBy key l gs) (hp : gs'.Perm gs) : GroupedBy key l gs' where
  isClass := fun g hg => h.isClass g (hp.subset hg)
  covers := fun x hx => hp.symm.subset (h.covers x hx)
  distinct := by
    refine (hp.pairwise_iff ?_).2 h.distinct
    intro g g' hgg a ha b hb e
    exact hgg b hb a ha e.symm

theorem take_succ_nat {A : Type} (f : A → List Nat) (a b : A) (i : Nat) (ha : i < (f a).length)
    (hb : i < (f b).length) :
    ((f a).take i, (f a).getD i 0) = ((f b).take i, (f b).getD i 0) ↔ (f a).take (i + 1) = (f b).take (i + 1) := by
  rw [List.take_add_one, List.take_add_one, List.getElem?_eq_getElem ha, List.getElem?_eq_getElem hb,
    List.getD_eq_getElem?_getD, List.getD_eq_getElem?_getD,
    List.getElem?_eq_getElem ha, List.getElem?_eq_getElem hb, Prod.mk.injEq]
  simp only [Option.getD_some]
  constructor
  · rintro ⟨h1, h2⟩; rw [h1, h2]
  · intro h
    have := List.append_inj h (by simp; omega)
    exact ⟨this.1, by simpa using this.2⟩

/-- A list of computations that all succeed with a relation, over numbered elements: the flattened results group. -/
theorem mapM_zipIdx_choose {A B : Type} [Inhabited B] (f : A × Nat → Option B) (l : List A) (R : A → B → Prop)
    (h : ∀ a ∈ l, ∀ n, ∃ b, f (a, n) = some b ∧ R a b) :
    ∃ r : List B, l.zipIdx.mapM f = some r ∧ List.Forall₂ R l r := by
  have : ∀ n, ∃ r : List B, (l.zipIdx n).mapM f = some r ∧ List.Forall₂ R l r := by
    induction l with
    | nil => intro n; exact ⟨[], rfl, .nil⟩
    | cons a l ih =>
      intro n
      obtain ⟨b, hb, hR⟩ := h a (by simp) n
      obtain ⟨r, hr, hall⟩ := ih (fun x hx => h x (by simp [hx])) (n + 1)
      refine ⟨b :: r, ?_, .cons hR hall⟩
      rw [List.zipIdx_cons, List.mapM_cons, hb, hr]; rfl
  exact this 0

/-- Refining every group of a grouping. -/
theorem groupedBy_refine {A K L : Type} [DecidableEq K] [DecidableEq L] {key : A → K} {key' : A → L} {l : List A}
    {gs : List (List A)} (h : GroupedBy key l gs) {rs : List (List (List A))}
    (hr : List.Forall₂ (fun g r => GroupedBy key' g r) gs rs) : GroupedBy (fun a => (key a, key' a)) l rs.flatten := by
  classical
  have hnd : gs.Nodup := by
    refine h.distinct.imp_of_mem ?_
    intro g g' hg _ hd e
    subst e
    obtain ⟨a, ha⟩ := List.exists_mem_of_ne_nil g (h.ne_nil hg)
    exact hd a ha a ha rfl
  have hlen := hr.length_eq
  let F : List A → List (List A) := fun g => (rs[gs.idxOf g]?).getD []
  have hF : rs = gs.map F := by
    apply List.ext_getElem (by simp [hlen])
    intro i h1 h2
    have hi : i < gs.length := by omega
    simp [F, hnd.idxOf_getElem i hi, List.getElem?_eq_getElem h1]
  have hR : ∀ g ∈ gs, GroupedBy key' g (F g) := by
    intro g hg
    obtain ⟨i, hi, rfl⟩ := List.getElem_of_mem hg
    have h1 : i < rs.length := by omega
    have := hr.get (i := i) hi h1
    simpa [F, hnd.idxOf_getElem i hi, List.getElem?_eq_getElem h1] using this
  rw [hF, ← List.flatMap_def]
  exact h.refine F hR

variable {E : Type} [HasName E]

/-- The hashes of the names of a pointed trace. -/
def pointerHashes (hash : String → Nat) (p : Pointer E) : List Nat := p.1.map (fun e => hash (name e))

theorem hashesToTraces_eq (hash : String → Nat) (index : Nat) (group : List (Pointer E))
    (h : ∀ p ∈ group, index < p.1.length) :
    hashesToTraces hash index group = some (groupAll (fun p => (pointerHashes hash p).getD index 0) group) := by
  unfold hashesToTraces groupAll
  have : ∀ d : Dict Nat (List (Pointer E)),
      group.foldlM (fun d p => do return groupInto d (← pointerHash hash index p) p) d =
      some (group.foldl (fun d p => groupInto d ((pointerHashes hash p).getD index 0) p) d) := by
    induction group with
    | nil => intro d; rfl
    | cons p ps ih =>
      intro d
      have hp := h p (by simp)
      have h1 : pointerHash hash index p = some ((pointerHashes hash p).getD index 0) := by
        simp [pointerHash, pointerHashes, List.getElem?_eq_getElem hp]
      rw [List.foldlM_cons, h1]
      exact ih (fun q hq => h q (by simp [hq])) _
  exact this []

theorem updateGroup_spec (it : Iter) (hash : String → Nat) (index visit : Nat) (group : List (Pointer E))
    (h : ∀ p ∈ group, index < p.1.length) :
    ∃ r, updateGroup it hash index visit group = some r ∧
      GroupedBy (fun p => (pointerHashes hash p).getD index 0) group r := by
  unfold updateGroup
  by_cases h1 : group.length = 1
  · obtain ⟨x, rfl⟩ := List.length_eq_one_iff.1 h1
    exact ⟨_, by simp, groupedBy_singleton _ x⟩
  · rw [if_neg h1, hashesToTraces_eq hash index group h]
    exact ⟨_, rfl, groupedBy_of_perm (groupAll_grouped _ group) (it.perm _ _ _)⟩

theorem groupLoop_spec (it : Iter) (hash : String → Nat) (visit len : Nat) (l : List (Pointer E))
    (hlen : ∀ p ∈ l, p.1.length = len) :
    ∀ (fuel index : Nat) (groups : List (List (Pointer E))), len ≤ index + fuel →
      GroupedBy (fun p => (pointerHashes hash p).take index) l groups →
      ∃ r, groupLoop it hash visit len fuel index groups = some r ∧ GroupedBy (pointerHashes hash) l r := by
  have hl : ∀ p ∈ l, (pointerHashes hash p).length = len := fun p hp => by simp [pointerHashes, hlen p hp]
  intro fuel
  induction fuel with
  | zero =>
    intro index groups hf hg
    refine ⟨groups, rfl, hg.change ?_⟩
    intro a ha b hb
    have h1 := hl a ha
    have h2 := hl b hb
    rw [List.take_of_length_le (by omega), List.take_of_length_le (by omega)]
  | succ fuel ih =>
    intro index groups hf hg
    unfold groupLoop
    by_cases hi : index ≥ len
    · rw [if_pos hi]
      refine ⟨groups, rfl, hg.change ?_⟩
      intro a ha b hb
      have h1 := hl a ha
      have h2 := hl b hb
      rw [List.take_of_length_le (by omega), List.take_of_length_le (by omega)]
    · rw [if_neg hi]
      obtain ⟨rs, hrs, hR⟩ := mapM_zipIdx_choose
        (fun g : List (Pointer E) × Nat => updateGroup it hash index (Nat.pair (Nat.pair visit index) g.2) g.1) groups
        (fun g r => GroupedBy (fun p => (pointerHashes hash p).getD index 0) g r) (by
          intro g hgm n
          apply updateGroup_spec
          intro p hp
          have := hlen p (hg.mem hgm hp)
          omega)
      unfold updateGroups
      rw [hrs]
      simp only [Option.bind_eq_bind, Option.bind_some, Option.pure_def]
      by_cases hall : groups.all (fun g => decide (g.length = 1)) = true
      · rw [if_pos hall]
        refine ⟨groups, rfl, hg.change ?_⟩
        intro a ha b hb
        constructor
        · intro hab
          have hm := hg.covers b hb
          have h1 := List.all_eq_true.1 hall _ hm
          obtain ⟨x, hx⟩ := List.length_eq_one_iff.1 (of_decide_eq_true h1)
          have hax : a ∈ l.filter (fun y => decide ((pointerHashes hash y).take index =
              (pointerHashes hash b).take index)) := by simp [ha, hab]
          have hbx : b ∈ l.filter (fun y => decide ((pointerHashes hash y).take index =
              (pointerHashes hash b).take index)) := by simp [hb]
          rw [hx] at hax hbx
          rw [List.mem_singleton.1 hax, List.mem_singleton.1 hbx]
        · intro hab; rw [hab]
      · rw [if_neg hall]
        apply ih (index + 1) _ (by omega)
        refine (groupedBy_refine hg hR).change ?_
        intro a ha b hb
        apply take_succ_nat
        · rw [hl a ha]; omega
        · rw [hl b hb]; omega

theorem processGroup_spec (it : Iter) (hash : String → Nat) (visit len : Nat) (l : List (Pointer E)) (hne : l ≠ [])
    (hlen : ∀ p ∈ l, p.1.length = len) :
    ∃ r, processGroup it hash visit l = some r ∧ GroupedBy (pointerHashes hash) l r := by
  unfold processGroup
  by_cases h1 : l.length = 1
  · obtain ⟨x, rfl⟩ := List.length_eq_one_iff.1 h1
    exact ⟨_, by simp, groupedBy_singleton _ x⟩
  · rw [if_neg h1]
    obtain ⟨x, xs, rfl⟩ := List.exists_cons_of_ne_nil hne
    simp only [List.head?_cons, Option.bind_eq_bind, Option.bind_some]
    rw [hlen x (by simp)]
    apply groupLoop_spec it hash visit len _ hlen len 0 _ (by omega)
    exact groupedBy_const _ _ (by simp) (by simp)

/-- The groups are the classes of equal hashes, sorted by their first indices. -/
theorem pointerGroups_spec (it : Iter) (hash : String → Nat) (log : List (List E)) :
    ∃ gs, pointerGroups it hash log = some gs ∧ GroupedBy (pointerHashes hash) log.zipIdx gs ∧
      gs.Pairwise (fun g g' => firstIndex g ≤ firstIndex g') := by
  have hg : GroupedBy (fun p : Pointer E => p.1.length) log.zipIdx
      ((it.order "split.rs:57" 0 (lenToTraces log)).map Prod.snd) :=
    groupedBy_of_perm (groupAll_grouped (fun p : Pointer E => p.1.length) log.zipIdx) ((it.perm _ _ _).map _)
  obtain ⟨rs, hrs, hR⟩ := mapM_zipIdx_choose
    (fun kv : (Nat × List (Pointer E)) × Nat => processGroup it hash kv.2 kv.1.2)
    (it.order "split.rs:57" 0 (lenToTraces log))
    (fun kv r => GroupedBy (pointerHashes hash) kv.2 r) (by
      intro kv hkv n
      have hm : kv.2 ∈ (it.order "split.rs:57" 0 (lenToTraces log)).map Prod.snd := List.mem_map.2 ⟨kv, hkv, rfl⟩
      obtain ⟨x, _, hx⟩ := hg.isClass _ hm
      apply processGroup_spec it hash n x.1.length kv.2 (hg.ne_nil hm)
      intro p hp
      rw [hx] at hp
      exact of_decide_eq_true (List.mem_filter.1 hp).2)
  have hall : GroupedBy (pointerHashes hash) log.zipIdx rs.flatten := by
    refine (groupedBy_refine hg (rs := rs) (key' := pointerHashes hash) ?_).change ?_
    · exact List.forall₂_map_left_iff.2 hR
    · intro a _ b _
      constructor
      · intro h; exact congrArg Prod.snd h
      · intro h
        have : a.1.length = b.1.length := by
          have := congrArg List.length h
          simpa [pointerHashes] using this
        simp only [this, h]
  have hempty : rs.flatten.any List.isEmpty = false := by
    rw [List.any_eq_false]
    intro g hgm
    have := hall.ne_nil hgm
    simp [this]
  unfold pointerGroups
  rw [hrs]
  simp only [Option.bind_eq_bind, Option.bind_some, hempty, Bool.false_eq_true, if_false, Option.pure_def]
  refine ⟨_, rfl, groupedBy_of_perm hall (List.perm_insertionSort _ _), ?_⟩
  have : Std.Total (fun g g' : List (Pointer E) => firstIndex g ≤ firstIndex g') := ⟨fun a b => Nat.le_total _ _⟩
  have : IsTrans (List (Pointer E)) (fun g g' => firstIndex g ≤ firstIndex g') := ⟨fun a b c => Nat.le_trans⟩
  exact List.pairwise_insertionSort _ _

omit [HasName E] in
theorem zipIdx_sorted (log : List (List E)) : log.zipIdx.Pairwise (fun p q : Pointer E => p.2 < q.2) := by
  have : (log.zipIdx.map Prod.snd).Pairwise (· < ·) := by
    rw [List.zipIdx_map_snd]; exact List.pairwise_lt_range'
  exact List.pairwise_map.1 this

omit [HasName E] in
/-- The pointers of a log are its traces with their indices. -/
theorem mem_pointers (log : List (List E)) (p : Pointer E) : p ∈ log.zipIdx ↔ log[p.2]? = some p.1 := by
  rw [List.mem_zipIdx_iff_getElem?]

theorem namesAt_of_mem (log : List (List E)) (p : Pointer E) (hp : p ∈ log.zipIdx) :
    namesAt log p.2 = some (p.1.map name) := by
  rw [mem_pointers] at hp; simp [namesAt, hp]

theorem namesAt_iff (log : List (List E)) {i j : Nat} (hi : i < log.length) (h : namesAt log j = namesAt log i) :
    j < log.length := by
  by_contra hj
  have : log[j]? = none := by rw [List.getElem?_eq_none_iff]; omega
  simp [namesAt, this, List.getElem?_eq_getElem hi] at h

/-- The first index of a group has the least index of its class. -/
theorem group_head (log : List (List E)) (gs : List (List (Pointer E)))
    (h : GroupedBy (fun p : Pointer E => p.1.map name) log.zipIdx gs) (g : List (Pointer E)) (hg : g ∈ gs) :
    ∃ p tl, g = p :: tl ∧ firstIndex g = p.2 ∧ p.2 < log.length ∧ FirstOfVariant log p.2 ∧
      g.map Prod.snd = (List.range log.length).filter (fun j => decide (namesAt log j = namesAt log p.2)) := by
  obtain ⟨x, hx, hgx⟩ := h.isClass g hg
  have hsorted : g.Pairwise (fun p q : Pointer E => p.2 < q.2) := by
    rw [hgx]; exact (zipIdx_sorted log).sublist List.filter_sublist
  cases hgc : g with
  | nil => exact absurd hgc (h.ne_nil hg)
  | cons p tl =>
    have hpg : p ∈ g := by rw [hgc]; simp
    have hpl : p ∈ log.zipIdx := h.mem hg hpg
    have hnx : p.1.map name = x.1.map name := by
      rw [hgx] at hpg; exact of_decide_eq_true (List.mem_filter.1 hpg).2
    have hlt : p.2 < log.length := by
      have := (mem_pointers log p).1 hpl
      exact (List.getElem?_eq_some_iff.1 this).1
    refine ⟨p, tl, rfl, rfl, hlt, ?_, ?_⟩
    · intro j hj e
      have hjl : j < log.length := by omega
      have hjm : ((log[j], j) : Pointer E) ∈ log.zipIdx := by
        rw [mem_pointers]; exact List.getElem?_eq_getElem hjl
      have hjg : ((log[j], j) : Pointer E) ∈ g := by
        rw [hgx, List.mem_filter]
        refine ⟨hjm, decide_eq_true ?_⟩
        rw [namesAt_of_mem log p hpl, namesAt_of_mem log (log[j], j) hjm] at e
        have := Option.some.inj e
        rw [← hnx]; exact this
      rw [hgc] at hjg hsorted
      rcases List.mem_cons.1 hjg with h1 | h1
      · have := congrArg Prod.snd h1
        simp only at this; omega
      · have := (List.pairwise_cons.1 hsorted).1 _ h1
        simp only at this; omega
    · rw [← hgc, hgx]
      have hr : List.range log.length = log.zipIdx.map Prod.snd := by
        rw [List.zipIdx_map_snd, List.range_eq_range']
      rw [hr, List.filter_map]
      congr 1
      apply List.filter_congr
      intro q hq
      simp only [Function.comp_apply, namesAt_of_mem log q hq, namesAt_of_mem log p hpl, Option.some.injEq, hnx]

/-- A sorted grouping by names is the list of the classes in the order of their first traces. -/
theorem groups_eq_classes (log : List (List E)) (gs : List (List (Pointer E)))
    (h : GroupedBy (fun p : Pointer E => p.1.map name) log.zipIdx gs)
    (hs : gs.Pairwise (fun g g' => firstIndex g ≤ firstIndex g')) :
    gs.map (fun g => g.map Prod.snd) = variantClasses log ∧
      gs.map firstIndex = (List.range log.length).filter (fun i => decide (FirstOfVariant log i)) := by
  have hheads : gs.map firstIndex = (List.range log.length).filter (fun i => decide (FirstOfVariant log i)) := by
    have hlt : (gs.map firstIndex).Pairwise (· < ·) := by
      rw [List.pairwise_map]
      refine (hs.and h.distinct).imp_of_mem ?_
      rintro g g' hg hg' ⟨hle, hd⟩
      obtain ⟨p, tl, hgp, hfp, hpl, -, -⟩ := group_head log gs h g hg
      obtain ⟨q, tl', hgq, hfq, hql, -, -⟩ := group_head log gs h g' hg'
      have hpm : p ∈ g := by rw [hgp]; simp
      have hqm : q ∈ g' := by rw [hgq]; simp
      have h1 := (mem_pointers log p).1 (h.mem hg hpm)
      have h2 := (mem_pointers log q).1 (h.mem hg' hqm)
      have hne : p.2 ≠ q.2 := by
        intro e
        rw [e, h2] at h1
        have : p.1 = q.1 := (Option.some.inj h1).symm
        exact hd p hpm q hqm (by rw [this])
      rw [hfp, hfq] at hle ⊢
      omega
    have hlt' : ((List.range log.length).filter (fun i => decide (FirstOfVariant log i))).Pairwise (· < ·) :=
      List.pairwise_lt_range.sublist List.filter_sublist
    refine List.Perm.eq_of_pairwise (le := (· < ·)) (fun a b _ _ hab hba => absurd hab (by omega)) hlt hlt' ?_
    refine (List.perm_ext_iff_of_nodup (hlt.imp (fun h => Nat.ne_of_lt h)) (hlt'.imp (fun h => Nat.ne_of_lt h))).2 ?_
    intro i
    rw [List.mem_map, List.mem_filter, List.mem_range]
    constructor
    · rintro ⟨g, hg, rfl⟩
      obtain ⟨p, tl, hgp, hfp, hpl, hfirst, -⟩ := group_head log gs h g hg
      rw [hfp]; exact ⟨hpl, decide_eq_true hfirst⟩
    · rintro ⟨hi, hf⟩
      have hf := of_decide_eq_true hf
      have him : ((log[i], i) : Pointer E) ∈ log.zipIdx := by
        rw [mem_pointers]; exact List.getElem?_eq_getElem hi
      have hc := h.covers _ him
      refine ⟨_, hc, ?_⟩
      obtain ⟨p, tl, hgp, hfp, hpl, hfirst, hidx⟩ := group_head log gs h _ hc
      rw [hfp]
      have hpm := (List.mem_filter.1 (by rw [hgp]; simp : p ∈ _)) |>.2
      have hpl' : p ∈ log.zipIdx := by
        have : p ∈ log.zipIdx.filter (fun y => decide (y.1.map name = (log[i]).map name)) := by
          rw [hgp]; simp
        exact (List.mem_filter.1 this).1
      have hsame : namesAt log p.2 = namesAt log i := by
        have : p ∈ log.zipIdx.filter (fun y => decide (y.1.map name = (log[i]).map name)) := by
          rw [hgp]; simp
        rw [namesAt_of_mem log p hpl', namesAt_of_mem log _ him, of_decide_eq_true (List.mem_filter.1 this).2]
      rcases Nat.lt_trichotomy p.2 i with h1 | h1 | h1
      · exact absurd hsame (hf _ h1)
      · exact h1
      · exact absurd hsame.symm (hfirst _ h1)
  refine ⟨?_, hheads⟩
  unfold variantClasses
  rw [← hheads, List.map_map]
  apply List.map_congr_left
  intro g hg
  obtain ⟨p, tl, hgp, hfp, hpl, hfirst, hidx⟩ := group_head log gs h g hg
  rw [hidx, Function.comp_apply, hfp]

theorem names_of_hashes (hash : String → Nat) {s t : List E}
    (h : ∀ e ∈ s, ∀ e' ∈ t, hash (name e) = hash (name e') → name e = name e') :
    s.map (fun e => hash (name e)) = t.map (fun e => hash (name e)) ↔ s.map name = t.map name := by
  induction s generalizing t with
  | nil => cases t <;> simp
  | cons a s ih =>
    cases t with
    | nil => simp
    | cons b t =>
      simp only [List.map_cons, List.cons.injEq]
      rw [ih (fun e he e' he' => h e (by simp [he]) e' (by simp [he']))]
      constructor
      · rintro ⟨h1, h2⟩; exact ⟨h a (by simp) b (by simp) h1, h2⟩
      · rintro ⟨h1, h2⟩; exact ⟨by rw [h1], h2⟩

theorem pointerGroups_names (it : Iter) (hash : String → Nat) (log : List (List E)) (hh : HashTells hash log) :
    ∃ gs, pointerGroups it hash log = some gs ∧ GroupedBy (fun p : Pointer E => p.1.map name) log.zipIdx gs ∧
      gs.Pairwise (fun g g' => firstIndex g ≤ firstIndex g') := by
  obtain ⟨gs, h1, h2, h3⟩ := pointerGroups_spec it hash log
  refine ⟨gs, h1, h2.change ?_, h3⟩
  intro a ha b hb
  have hm : ∀ p ∈ log.zipIdx, p.1 ∈ log := fun p hp => List.mem_of_getElem? ((mem_pointers log p).1 hp)
  exact names_of_hashes hash (fun e he e' he' => hh _ (hm a ha) e he _ (hm b hb) e' he')

theorem groupsIndices_eq (it : Iter) (hash : String → Nat) (log : List (List E)) (hh : HashTells hash log) :
    groupsIndices it hash log = some (variantClasses log) := by
  obtain ⟨gs, h1, h2, h3⟩ := pointerGroups_names it hash log hh
  unfold groupsIndices
  rw [h1]
  simp only [Option.bind_eq_bind, Option.bind_some, Option.pure_def, (groups_eq_classes log gs h2 h3).1]

theorem splitTraces_eq (it : Iter) (hash : String → Nat) (log : List (List E)) (hh : HashTells hash log) :
    splitTraces it hash log = some ((variantClasses log).map (fun g => g.filterMap (fun i => log[i]?))) := by
  obtain ⟨gs, h1, h2, h3⟩ := pointerGroups_names it hash log hh
  unfold splitTraces
  rw [h1]
  simp only [Option.bind_eq_bind, Option.bind_some, Option.pure_def, ← (groups_eq_classes log gs h2 h3).1, List.map_map,
    Option.some.injEq]
  apply List.map_congr_left
  intro g hg
  rw [Function.comp_apply, List.filterMap_map, ← List.filterMap_eq_map]
  apply List.filterMap_congr
  intro p hp
  exact ((mem_pointers log p).1 (h2.mem hg hp)).symm

theorem filterByVariants_eq (it : Iter) (hash : String → Nat) (log : List (List E)) (hh : HashTells hash log) :
    filterByVariants it hash log = some (firstTraces log) := by
  obtain ⟨gs, h1, h2, h3⟩ := pointerGroups_names it hash log hh
  have hk : (gs.map (fun g => g.map Prod.snd)).mapM List.head? = some (gs.map firstIndex) := by
    rw [List.mapM_map]
    apply mapM_total
    intro g hg
    obtain ⟨p, tl, hgp, hfp, -, -, -⟩ := group_head log gs h2 g hg
    rw [Function.comp_apply, hfp, hgp]; rfl
  unfold filterByVariants groupsIndices
  rw [h1]
  simp only [Option.bind_eq_bind, Option.bind_some, Option.pure_def]
  rw [hk]
  simp only [Option.bind_some, filterTracesBy_eq, Option.some.injEq, (groups_eq_classes log gs h2 h3).2]
  unfold firstTraces
  have hr : List.range log.length = log.zipIdx.map Prod.snd := by
    rw [List.zipIdx_map_snd, List.range_eq_range']
  rw [List.filterMap_filter]
  conv_rhs => rw [hr, List.filterMap_map]
  rw [← List.filterMap_eq_map, List.filterMap_filter]
  apply List.filterMap_congr
  intro p hp
  have hp' := (mem_pointers log p).1 hp
  have hlt : p.2 < log.length := (List.getElem?_eq_some_iff.1 hp').1
  simp only [Function.comp_apply, hp', List.mem_filter, List.mem_range, hlt, true_and, decide_eq_true_eq]
  by_cases hf : FirstOfVariant log p.2 <;> simp [hf]

end Ficus.Rs
