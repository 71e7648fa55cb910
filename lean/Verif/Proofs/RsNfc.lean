import Verif.Model.RsNfc
import Verif.Spec.RsNfc
import Verif.Proofs.Dict
import Verif.Proofs.RsInfo
import Mathlib.Tactic

namespace Ficus.Rs.Nfc
open Spec Spec.Nfc

/-! ### The graph -/

theorem mem_insertSet (s : List String) (x y : String) : y ∈ insertSet s x ↔ y ∈ s ∨ y = x := by
  unfold insertSet
  split
  · rename_i h
    exact ⟨Or.inl, fun h' => h'.elim id (fun e => e ▸ h)⟩
  · simp

theorem graph_fold (rels : List (String × String)) (g : Dict String (List String)) (a b : String) :
    b ∈ ((rels.foldl (fun g r =>
      match g.get? r.1 with
      | some children => g.set r.1 (insertSet children r.2)
      | none => g.set r.1 [r.2]) g).get? a).getD [] ↔ b ∈ (g.get? a).getD [] ∨ (a, b) ∈ rels := by
  induction rels generalizing g with
  | nil => simp
  | cons r rs ih =>
    rw [List.foldl_cons, ih, List.mem_cons]
    obtain ⟨x, y⟩ := r
    simp only [Prod.mk.injEq]
    by_cases hx : a = x
    · subst hx
      cases hg : g.get? a with
      | none => simp
      | some ch => simp [mem_insertSet, or_assoc]
    · have hx' : x ≠ a := fun e => hx e.symm
      cases hg : g.get? x with
      | none => simp [Dict.get?_set_ne _ _ hx', hx]
      | some ch => simp [Dict.get?_set_ne _ _ hx', hx]

theorem mem_kids (it : Iter) (rels : List (String × String)) (n : Nat) (a b : String) :
    b ∈ kids it (graph (it.order "w3_relations" n rels)) a ↔ (a, b) ∈ rels := by
  have h := graph_fold (it.order "w3_relations" n rels) [] a b
  have h0 : (Dict.get? ([] : Dict String (List String)) a).getD [] = [] := rfl
  rw [h0, (it.perm _ _ _).mem_iff] at h
  simp only [List.not_mem_nil, false_or] at h
  rw [← h]
  change b ∈ kids it _ a ↔ b ∈ (Dict.get? (graph (it.order "w3_relations" n rels)) a).getD []
  generalize graph (it.order "w3_relations" n rels) = g
  unfold kids
  cases e : g.get? a with
  | some ch => exact (it.perm _ _ _).mem_iff
  | none => rfl

theorem mem_allClasses (rels : List (String × String)) (a : String) : a ∈ allClasses rels ↔ Related rels a := by
  have : ∀ (rels : List (String × String)) s, a ∈ rels.foldl (fun s r => insertSet (insertSet s r.1) r.2) s ↔ a ∈ s ∨ Related rels a := by
    intro rels
    induction rels with
    | nil => intro s; simp [Related]
    | cons r rs ih =>
      intro s
      rw [List.foldl_cons, ih, mem_insertSet, mem_insertSet]
      obtain ⟨x, y⟩ := r
      unfold Related
      simp only [List.mem_cons, Prod.mk.injEq]
      constructor
      · rintro ((( h | rfl) | rfl) | ⟨b, h⟩)
        · exact Or.inl h
        · exact Or.inr ⟨y, Or.inl (Or.inl ⟨rfl, rfl⟩)⟩
        · exact Or.inr ⟨x, Or.inr (Or.inl ⟨rfl, rfl⟩)⟩
        · exact Or.inr ⟨b, h.imp Or.inr Or.inr⟩
      · rintro (h | ⟨b, (⟨rfl, rfl⟩ | h) | (⟨rfl, rfl⟩ | h)⟩)
        · exact Or.inl (Or.inl (Or.inl h))
        · exact Or.inl (Or.inl (Or.inr rfl))
        · exact Or.inr ⟨b, Or.inl h⟩
        · exact Or.inl (Or.inr rfl)
        · exact Or.inr ⟨b, Or.inr h⟩
  rw [allClasses, this]; simp

/-! ### The search -/

section
variable (next : String → List String) (second : String)

/-- The classes after `k` steps, with repetitions. -/
def level (q : List String) : Nat → List String
  | 0 => q
  | k + 1 => (level q k).flatMap next

/-- The number of turns of the loop for the first levels. -/
def work (q : List String) : Nat → Nat
  | 0 => 0
  | k + 1 => work q k + (level next q k).length

theorem search_pass (q r : List String) (fuel : Nat) : search next second (q.length + fuel) (q ++ r) =
    if ∃ c ∈ q, second ∈ next c then some true else search next second fuel (r ++ q.flatMap next) := by
  induction q generalizing r with
  | nil => simp
  | cons c q ih =>
    have e : (c :: q).length + fuel = (q.length + fuel) + 1 := by simp; omega
    rw [e, List.cons_append, search]
    by_cases hc : second ∈ next c
    · rw [if_pos hc, if_pos ⟨c, by simp, hc⟩]
    · rw [if_neg hc, List.append_assoc, ih]
      have : (∃ d ∈ c :: q, second ∈ next d) ↔ ∃ d ∈ q, second ∈ next d := by simp [hc]
      simp only [this, List.flatMap_cons, List.append_assoc]

theorem search_levels (q : List String) (k fuel : Nat) (h : ∀ j < k, ∀ c ∈ level next q j, second ∉ next c) :
    search next second (work next q k + fuel) q = search next second fuel (level next q k) := by
  induction k generalizing fuel with
  | zero => simp [work, level]
  | succ k ih =>
    rw [work, Nat.add_assoc, ih _ (fun j hj => h j (by omega))]
    have := search_pass next second (level next q k) [] fuel
    rw [List.append_nil] at this
    rw [this, if_neg (by rintro ⟨c, hc, hs⟩; exact h k (by omega) c hc hs), List.nil_append, level]

theorem search_mono (fuel : Nat) (q : List String) (b : Bool) (h : search next second fuel q = some b) (n : Nat) :
    search next second (fuel + n) q = some b := by
  induction fuel generalizing q with
  | zero =>
    cases q with
    | nil => rw [search] at h; rw [search]; exact h
    | cons c q => rw [search] at h; cases h
  | succ fuel ih =>
    cases q with
    | nil => rw [search] at h; rw [search]; exact h
    | cons c q =>
      rw [search] at h
      have e : fuel + 1 + n = (fuel + n) + 1 := by omega
      rw [e, search]
      split at h
      · rename_i hc; rw [if_pos hc]; exact h
      · rename_i hc; rw [if_neg hc]; exact ih _ h

theorem search_unique {f1 f2 : Nat} {q : List String} {b1 b2 : Bool} (h1 : search next second f1 q = some b1)
    (h2 : search next second f2 q = some b2) : b1 = b2 := by
  have e1 := search_mono next second f1 q b1 h1 f2
  have e2 := search_mono next second f2 q b2 h2 f1
  rw [Nat.add_comm, e2] at e1
  exact (Option.some.inj e1).symm

/-- The search finds the class if it is there on some level. -/
theorem search_found (q : List String) (k : Nat) (h : ∃ c ∈ level next q k, second ∈ next c) :
    ∃ fuel, search next second fuel q = some true := by
  classical
  let P := fun k => ∃ c ∈ level next q k, second ∈ next c
  have hP : ∃ k, P k := ⟨k, h⟩
  refine ⟨work next q (Nat.find hP) + ((level next q (Nat.find hP)).length + 0), ?_⟩
  rw [search_levels next second q (Nat.find hP) _ (fun j hj c hc hs => Nat.find_min hP hj ⟨c, hc, hs⟩)]
  have := search_pass next second (level next q (Nat.find hP)) [] 0
  rw [List.append_nil] at this
  rw [this, if_pos (Nat.find_spec hP)]

theorem search_ends (q : List String) (k : Nat) (hk : level next q k = []) (h : ∀ j, ∀ c ∈ level next q j, second ∉ next c) :
    search next second (work next q k) q = some false := by
  have := search_levels next second q k 0 (fun j _ => h j)
  rw [Nat.add_zero] at this
  rw [this, hk, search]

theorem work_ge (q : List String) (h : ∀ k, level next q k ≠ []) (k : Nat) : k ≤ work next q k := by
  induction k with
  | zero => exact Nat.zero_le _
  | succ k ih =>
    rw [work]
    have := List.length_pos_iff.mpr (h k)
    omega

theorem search_runs (q : List String) (hne : ∀ k, level next q k ≠ []) (h : ∀ j, ∀ c ∈ level next q j, second ∉ next c)
    (fuel : Nat) : search next second fuel q = none := by
  cases hs : search next second fuel q with
  | none => rfl
  | some b =>
    exfalso
    obtain ⟨n, hn⟩ := Nat.exists_eq_add_of_le (work_ge next q hne fuel)
    have h1 := search_mono next second fuel q b hs n
    rw [← hn] at h1
    have h2 := search_levels next second q fuel 0 (fun j _ => h j)
    rw [Nat.add_zero, h1] at h2
    cases hl : level next q fuel with
    | nil => exact hne fuel hl
    | cons c l => rw [hl, search] at h2; cases h2

theorem level_walk (a c : String) (k : Nat) : c ∈ level next [a] k ↔ ∃ w : List String, w.length = k + 1 ∧ w.head? = some a ∧
    w.getLast? = some c ∧ w.IsChain (fun x y => y ∈ next x) := by
  induction k generalizing c with
  | zero =>
    simp only [level, List.mem_singleton]
    constructor
    · rintro rfl; exact ⟨[c], rfl, rfl, rfl, List.isChain_singleton _⟩
    · rintro ⟨w, hw, h1, h2, _⟩
      obtain ⟨x, rfl⟩ := List.length_eq_one_iff.mp hw
      simp at h1 h2; rw [← h1, ← h2]
  | succ k ih =>
    rw [level, List.mem_flatMap]
    constructor
    · rintro ⟨d, hd, hc⟩
      obtain ⟨w, hw, h1, h2, h3⟩ := (ih d).mp hd
      have hw0 : w ≠ [] := by intro e; rw [e] at hw; simp at hw
      refine ⟨w ++ [c], by simp [hw], by rw [List.head?_append_of_ne_nil _ hw0]; exact h1, by simp, ?_⟩
      rw [List.isChain_append]
      refine ⟨h3, List.isChain_singleton _, ?_⟩
      intro x hx y hy
      rw [h2] at hx
      cases hx
      simp at hy
      subst hy; exact hc
    · rintro ⟨w, hw, h1, h2, h3⟩
      obtain ⟨v, x, rfl⟩ : ∃ v x, w = v ++ [x] := ⟨w.dropLast, w.getLast (by intro e; rw [e] at hw; simp at hw), (List.dropLast_append_getLast _).symm⟩
      have hx : x = c := by simpa using h2
      subst hx
      have hv : v.length = k + 1 := by simpa using hw
      have hv0 : v ≠ [] := by intro e; rw [e] at hv; simp at hv
      obtain ⟨c1, _, c3⟩ := List.isChain_append.mp h3
      refine ⟨v.getLast hv0, (ih _).mpr ⟨v, hv, by rwa [List.head?_append_of_ne_nil _ hv0] at h1, List.getLast?_eq_some_getLast hv0, c1⟩, ?_⟩
      exact c3 _ (List.getLast?_eq_some_getLast hv0) _ rfl

end

/-! ### Levels and relations -/

theorem reaches_level {rels : List (String × String)} {next : String → List String} (hn : ∀ a b, b ∈ next a ↔ (a, b) ∈ rels)
    (a b : String) : Reaches rels a b ↔ ∃ k, ∃ c ∈ level next [a] k, b ∈ next c := by
  constructor
  · intro h
    induction h with
    | single h => exact ⟨0, a, by simp [level], (hn _ _).mpr h⟩
    | tail _ h ih =>
      obtain ⟨k, c, hc, hb⟩ := ih
      exact ⟨k + 1, _, List.mem_flatMap.mpr ⟨c, hc, hb⟩, (hn _ _).mpr h⟩
  · rintro ⟨k, c, hc, hb⟩
    induction k generalizing b c with
    | zero =>
      rw [level, List.mem_singleton] at hc
      subst hc
      exact Relation.TransGen.single ((hn _ _).mp hb)
    | succ k ih =>
      rw [level, List.mem_flatMap] at hc
      obtain ⟨d, hd, hcd⟩ := hc
      exact Relation.TransGen.tail (ih c d hd hcd) ((hn _ _).mp hb)

theorem levels_cycle {rels : List (String × String)} {next : String → List String} (hn : ∀ a b, b ∈ next a ↔ (a, b) ∈ rels)
    (a : String) : (∀ k, level next [a] k ≠ []) ↔ ReachesCycle rels a := by
  constructor
  · intro h
    obtain ⟨c, hc⟩ := List.exists_mem_of_ne_nil _ (h (rels.length + 1))
    obtain ⟨w, hw, h1, _, h3⟩ := (level_walk next a c _).mp hc
    cases w with
    | nil => simp at hw
    | cons x w =>
      have hx : x = a := by simpa using h1
      subst hx
      have h4 : (x :: w).IsChain (Reaches rels) := h3.imp (fun y z hy => Relation.TransGen.single ((hn _ _).mp hy))
      have : IsTrans String (Reaches rels) := ⟨fun _ _ _ => Relation.TransGen.trans⟩
      have h5 := List.isChain_iff_pairwise.mp h4
      rw [List.pairwise_cons] at h5
      by_contra hno
      have hnd : w.Nodup := by
        refine h5.2.imp_of_mem (fun {y z} hy hz hyz e => ?_)
        subst e
        exact hno ⟨y, Or.inr (h5.1 y hy), hyz⟩
      have hsub : w ⊆ rels.map Prod.snd := by
        intro y hy
        have := h5.1 y hy
        obtain ⟨z, _, hz⟩ := Relation.TransGen.tail'_iff.mp this
        exact List.mem_map.mpr ⟨(z, y), hz, rfl⟩
      have hlen := (hnd.subperm hsub).length_le
      simp at hlen hw
      omega
  · rintro ⟨c, hac, hcc⟩ k
    have : ∃ d ∈ level next [a] k, Reaches rels d c := by
      induction k with
      | zero =>
        refine ⟨a, by simp [level], ?_⟩
        rcases hac with rfl | h
        · exact hcc
        · exact h
      | succ k ih =>
        obtain ⟨d, hd, hdc⟩ := ih
        obtain ⟨e, he, hec⟩ := Relation.TransGen.head'_iff.mp hdc
        refine ⟨e, List.mem_flatMap.mpr ⟨d, hd, (hn _ _).mpr he⟩, ?_⟩
        rcases Relation.reflTransGen_iff_eq_or_transGen.mp hec with h | h
        · subst h; exact hcc
        · exact h
    obtain ⟨d, hd, _⟩ := this
    exact List.ne_nil_of_mem hd

/-- What the search answers, and when. -/
theorem search_spec {rels : List (String × String)} {next : String → List String} (hn : ∀ a b, b ∈ next a ↔ (a, b) ∈ rels)
    (a b : String) :
    ((∃ fuel, search next b fuel [a] = some true) ↔ Reaches rels a b) ∧
    ((∃ fuel, search next b fuel [a] = some false) ↔ ¬ Reaches rels a b ∧ ¬ ReachesCycle rels a) := by
  have hmiss : ¬ Reaches rels a b → ∀ j, ∀ c ∈ level next [a] j, b ∉ next c :=
    fun h j c hc hb => h ((reaches_level hn a b).mpr ⟨j, c, hc, hb⟩)
  have hyes : Reaches rels a b → ∃ fuel, search next b fuel [a] = some true := by
    intro h
    obtain ⟨k, hk⟩ := (reaches_level hn a b).mp h
    exact search_found next b [a] k hk
  have hno : ¬ Reaches rels a b → ¬ ReachesCycle rels a → ∃ fuel, search next b fuel [a] = some false := by
    intro h hc
    rw [← levels_cycle hn] at hc
    push Not at hc
    obtain ⟨k, hk⟩ := hc
    exact ⟨_, search_ends next b [a] k hk (hmiss h)⟩
  have hrun : ¬ Reaches rels a b → ReachesCycle rels a → ∀ fuel, search next b fuel [a] = none :=
    fun h hc fuel => search_runs next b [a] ((levels_cycle hn a).mpr hc) (hmiss h) fuel
  constructor
  · refine ⟨fun ⟨f, hf⟩ => ?_, hyes⟩
    by_contra h
    by_cases hc : ReachesCycle rels a
    · rw [hrun h hc] at hf; cases hf
    · obtain ⟨f', hf'⟩ := hno h hc
      exact Bool.noConfusion (search_unique next b hf hf')
  · refine ⟨fun ⟨f, hf⟩ => ⟨fun h => ?_, fun hc => ?_⟩, fun ⟨h, hc⟩ => hno h hc⟩
    · obtain ⟨f', hf'⟩ := hyes h
      exact Bool.noConfusion (search_unique next b hf hf')
    · by_cases h : Reaches rels a b
      · obtain ⟨f', hf'⟩ := hyes h
        exact Bool.noConfusion (search_unique next b hf hf')
      · rw [hrun h hc] at hf; cases hf

/-! ### The closure -/

/-- Membership in the closure. -/
def inClosure (d : Dict String (List String)) (a b : String) : Prop := ∃ l, d.get? a = some l ∧ b ∈ l

theorem inClosure_add (d : Dict String (List String)) (x y a b : String) :
    inClosure (addToClosure d x y) a b ↔ inClosure d a b ∨ (a = x ∧ b = y) := by
  unfold addToClosure inClosure
  by_cases hx : a = x
  · subst hx
    cases hg : d.get? a with
    | none => simp
    | some ch => simp [mem_insertSet]
  · have hx' : x ≠ a := fun e => hx e.symm
    cases hg : d.get? x with
    | none => simp [Dict.get?_set_ne _ _ hx', hx]
    | some ch => simp [Dict.get?_set_ne _ _ hx', hx]

theorem closure_fold (next : String → List String) (fuel : Nat) (ps : List (String × String)) (d : Dict String (List String)) :
    (((ps.foldlM (closureStep next fuel) d).isSome = true ↔
      ∀ p ∈ ps, p.2 ∈ next p.1 ∨ (search next p.2 fuel [p.1]).isSome = true)) ∧
    ∀ e, ps.foldlM (closureStep next fuel) d = some e → ∀ a b, inClosure e a b ↔
      inClosure d a b ∨ ((a, b) ∈ ps ∧ b ∉ next a ∧ search next b fuel [a] = some true) := by
  induction ps generalizing d with
  | nil =>
    refine ⟨by simp, ?_⟩
    intro e he a b
    cases he
    simp
  | cons p ps ih =>
    obtain ⟨x, y⟩ := p
    rw [List.foldlM_cons]
    unfold closureStep
    by_cases hd : y ∈ next x
    · simp only [hd, if_true]
      obtain ⟨i1, i2⟩ := ih d
      refine ⟨?_, ?_⟩
      · refine Iff.trans i1 ?_
        simp [hd]
      · intro e he a b
        rw [i2 e he a b]
        simp only [List.mem_cons, Prod.mk.injEq]
        constructor
        · rintro (h | ⟨h1, h2⟩)
          · exact Or.inl h
          · exact Or.inr ⟨Or.inr h1, h2⟩
        · rintro (h | ⟨⟨rfl, rfl⟩ | h1, h2⟩)
          · exact Or.inl h
          · exact absurd hd h2.1
          · exact Or.inr ⟨h1, h2⟩
    · simp only [hd, if_false]
      cases hs : search next y fuel [x] with
      | none =>
        refine ⟨?_, fun e he => ?_⟩
        · simp only [Option.map_none]
          constructor
          · intro h; cases h
          · intro h
            have := h (x, y) (by simp)
            simp [hd, hs] at this
        · cases he
      | some found =>
        obtain ⟨i1, i2⟩ := ih (if found = true then addToClosure d x y else d)
        refine ⟨Iff.trans i1 ?_, ?_⟩
        · simp [hs]
        · intro e he a b
          rw [i2 e he a b]
          simp only [List.mem_cons, Prod.mk.injEq]
          cases found with
          | true =>
            rw [if_pos rfl, inClosure_add]
            constructor
            · rintro ((h | ⟨rfl, rfl⟩) | ⟨h1, h2⟩)
              · exact Or.inl h
              · exact Or.inr ⟨Or.inl ⟨rfl, rfl⟩, hd, hs⟩
              · exact Or.inr ⟨Or.inr h1, h2⟩
            · rintro (h | ⟨⟨rfl, rfl⟩ | h1, h2⟩)
              · exact Or.inl (Or.inl h)
              · exact Or.inl (Or.inr ⟨rfl, rfl⟩)
              · exact Or.inr ⟨h1, h2⟩
          | false =>
            rw [if_neg (by simp)]
            constructor
            · rintro (h | ⟨h1, h2⟩)
              · exact Or.inl h
              · exact Or.inr ⟨Or.inr h1, h2⟩
            · rintro (h | ⟨⟨rfl, rfl⟩ | h1, h2⟩)
              · exact Or.inl h
              · rw [hs] at h2; exact absurd h2.2 (by simp)
              · exact Or.inr ⟨h1, h2⟩

theorem reaches_related {rels : List (String × String)} {a b : String} (h : Reaches rels a b) : Related rels a ∧ Related rels b := by
  obtain ⟨c, hc, _⟩ := Relation.TransGen.head'_iff.mp h
  obtain ⟨d, _, hd⟩ := Relation.TransGen.tail'_iff.mp h
  exact ⟨⟨c, Or.inl hc⟩, ⟨d, Or.inr hd⟩⟩

end Ficus.Rs.Nfc
