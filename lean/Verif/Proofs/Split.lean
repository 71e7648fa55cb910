import Verif.Model.Split
import Verif.Spec.Split
import Verif.Proofs.Dict
import Mathlib.Data.List.Count
import Mathlib.Data.List.Perm.Basic
import Mathlib.Tactic.ByContra

/-! Lemmas for the trace variants. -/

namespace Ficus
open Spec

section grouping
variable {A K : Type} [DecidableEq K]

/-- The pure grouping fold. -/
def groupAll (key : A → K) (l : List A) : Dict K (List A) := l.foldl (fun d a => groupInto d (key a) a) []

theorem groupInto_wf {d : Dict K (List A)} (h : d.WF) (k : K) (a : A) : (groupInto d k a).WF := by
  unfold groupInto; split <;> exact Dict.WF_set h _ _

theorem groupInto_get? (d : Dict K (List A)) (k k' : K) (a : A) :
    Dict.get? (groupInto d k a) k' = if k = k' then some ((Dict.get? d k).getD [] ++ [a]) else Dict.get? d k' := by
  unfold groupInto
  cases h : Dict.get? d k with
  | some g => simp [Dict.get?_set]
  | none => simp [Dict.get?_set]

theorem groupAll_wf (key : A → K) (l : List A) : (groupAll key l).WF := by
  unfold groupAll
  have : ∀ d : Dict K (List A), d.WF → (l.foldl (fun d a => groupInto d (key a) a) d).WF := by
    induction l with
    | nil => intro d h; exact h
    | cons a l ih => intro d h; exact ih _ (groupInto_wf h _ _)
  exact this [] (by simp [Dict.WF, Dict.keys])

theorem groupFold_get? (key : A → K) (l : List A) (d : Dict K (List A)) (k : K) :
    Dict.get? (l.foldl (fun d a => groupInto d (key a) a) d) k =
      if l.filter (fun y => decide (key y = k)) = [] then Dict.get? d k
      else some ((Dict.get? d k).getD [] ++ l.filter (fun y => decide (key y = k))) := by
  induction l generalizing d with
  | nil => simp
  | cons a l ih =>
    rw [List.foldl_cons, ih, groupInto_get?]
    by_cases h : key a = k
    · subst h
      have : (a :: l).filter (fun y => decide (key y = key a)) = a :: l.filter (fun y => decide (key y = key a)) := by
        simp
      rw [this, if_pos rfl, if_neg (List.cons_ne_nil _ _)]
      by_cases h2 : l.filter (fun y => decide (key y = key a)) = []
      · rw [if_pos h2, h2]
      · rw [if_neg h2]; simp
    · have : (a :: l).filter (fun y => decide (key y = k)) = l.filter (fun y => decide (key y = k)) := by
        simp [h]
      rw [this, if_neg h]

theorem groupAll_get? (key : A → K) (l : List A) (k : K) :
    Dict.get? (groupAll key l) k =
      if l.filter (fun y => decide (key y = k)) = [] then none else some (l.filter (fun y => decide (key y = k))) := by
  unfold groupAll; rw [groupFold_get?]; simp

theorem groupAll_mem (key : A → K) (l : List A) (k : K) (g : List A) :
    (k, g) ∈ groupAll key l ↔ g = l.filter (fun y => decide (key y = k)) ∧ g ≠ [] := by
  rw [← Dict.get?_eq_some_iff (groupAll_wf key l), groupAll_get?]
  by_cases h : l.filter (fun y => decide (key y = k)) = []
  · rw [if_pos h]
    constructor
    · intro h; cases h
    · rintro ⟨rfl, h2⟩; exact absurd h h2
  · rw [if_neg h]
    constructor
    · intro h2; cases h2; exact ⟨rfl, h⟩
    · rintro ⟨rfl, _⟩; rfl

theorem groupAll_grouped (key : A → K) (l : List A) : GroupedBy key l ((groupAll key l).map Prod.snd) where
  isClass := by
    intro g hg
    obtain ⟨⟨k, g'⟩, hm, rfl⟩ := List.mem_map.1 hg
    obtain ⟨h1, h2⟩ := (groupAll_mem key l k g').1 hm
    obtain ⟨x, hx⟩ := List.exists_mem_of_ne_nil _ h2
    have hx2 := hx
    rw [h1, List.mem_filter] at hx2
    refine ⟨x, hx2.1, ?_⟩
    rw [of_decide_eq_true hx2.2]; exact h1
  covers := by
    intro x hx
    refine List.mem_map.2 ⟨(key x, l.filter (fun y => decide (key y = key x))), ?_, rfl⟩
    rw [groupAll_mem]
    refine ⟨rfl, List.ne_nil_of_mem (a := x) ?_⟩
    simp [List.mem_filter, hx]
  distinct := by
    rw [List.pairwise_map]
    have hn : (groupAll key l).Pairwise (fun p q => p.1 ≠ q.1) := by
      have := groupAll_wf key l
      unfold Dict.WF Dict.keys at this
      rw [List.Nodup, List.pairwise_map] at this
      exact this
    refine hn.imp_of_mem ?_
    rintro ⟨k, g⟩ ⟨k', g'⟩ hp hq hne a ha b hb
    have h1 := ((groupAll_mem key l k g).1 hp).1
    have h2 := ((groupAll_mem key l k' g').1 hq).1
    simp only at ha hb hne
    rw [h1, List.mem_filter] at ha
    rw [h2, List.mem_filter] at hb
    rw [of_decide_eq_true ha.2, of_decide_eq_true hb.2]; exact hne

variable {L : Type} [DecidableEq L]

/-- Only the kernel of the key matters. -/
theorem _root_.Ficus.Spec.GroupedBy.change {key : A → K} {key' : A → L} {l : List A} {gs : List (List A)} (h : GroupedBy key l gs)
    (hk : ∀ a ∈ l, ∀ b ∈ l, key a = key b ↔ key' a = key' b) : GroupedBy key' l gs := by
  have hf : ∀ x ∈ l, l.filter (fun y => decide (key y = key x)) = l.filter (fun y => decide (key' y = key' x)) := by
    intro x hx
    apply List.filter_congr
    intro y hy
    exact decide_eq_decide.2 (hk y hy x hx)
  refine ⟨?_, ?_, ?_⟩
  · intro g hg
    obtain ⟨x, hx, rfl⟩ := h.isClass g hg
    exact ⟨x, hx, hf x hx⟩
  · intro x hx; rw [← hf x hx]; exact h.covers x hx
  · refine h.distinct.imp_of_mem ?_
    intro g g' hg hg' hd a ha b hb
    obtain ⟨x, hx, rfl⟩ := h.isClass g hg
    obtain ⟨y, hy, rfl⟩ := h.isClass g' hg'
    have ha' := (List.mem_filter.1 ha).1
    have hb' := (List.mem_filter.1 hb).1
    rw [Ne, ← hk a ha' b hb']; exact hd a ha b hb

theorem _root_.Ficus.Spec.GroupedBy.mem {key : A → K} {l : List A} {gs : List (List A)} (h : GroupedBy key l gs) {g : List A} (hg : g ∈ gs)
    {x : A} (hx : x ∈ g) : x ∈ l := by
  obtain ⟨y, _, rfl⟩ := h.isClass g hg
  exact (List.mem_filter.1 hx).1

theorem _root_.Ficus.Spec.GroupedBy.ne_nil {key : A → K} {l : List A} {gs : List (List A)} (h : GroupedBy key l gs) {g : List A}
    (hg : g ∈ gs) : g ≠ [] := by
  obtain ⟨y, hy, rfl⟩ := h.isClass g hg
  exact List.ne_nil_of_mem (a := y) (by simp [hy])

theorem _root_.Ficus.Spec.GroupedBy.same {key : A → K} {l : List A} {gs : List (List A)} (h : GroupedBy key l gs) {g : List A}
    (hg : g ∈ gs) {a b : A} (ha : a ∈ g) (hb : b ∈ g) : key a = key b := by
  obtain ⟨y, hy, rfl⟩ := h.isClass g hg
  rw [of_decide_eq_true (List.mem_filter.1 ha).2, of_decide_eq_true (List.mem_filter.1 hb).2]

/-- Refining every class of one key by a second key groups by both keys. -/
theorem _root_.Ficus.Spec.GroupedBy.refine {key : A → K} {key' : A → L} {l : List A} {gs : List (List A)} (h : GroupedBy key l gs)
    (R : List A → List (List A)) (hR : ∀ g ∈ gs, GroupedBy key' g (R g)) :
    GroupedBy (fun x => (key x, key' x)) l (gs.flatMap R) := by
  have hff : ∀ x, (l.filter (fun y => decide (key y = key x))).filter (fun y => decide (key' y = key' x)) =
      l.filter (fun y => decide ((key y, key' y) = (key x, key' x))) := by
    intro x
    rw [List.filter_filter]
    apply List.filter_congr
    intro y _
    by_cases h1 : key y = key x <;> by_cases h2 : key' y = key' x <;> simp [h1, h2]
  refine ⟨?_, ?_, ?_⟩
  · intro c hc
    obtain ⟨g, hg, hcg⟩ := List.mem_flatMap.1 hc
    obtain ⟨x, hx, hgx⟩ := h.isClass g hg
    obtain ⟨z, hz, rfl⟩ := (hR g hg).isClass c hcg
    have hzl : z ∈ l := h.mem hg hz
    have hzx : key z = key x := by
      rw [hgx] at hz; exact of_decide_eq_true (List.mem_filter.1 hz).2
    refine ⟨z, hzl, ?_⟩
    rw [← hff z, hgx, hzx]
  · intro x hx
    refine List.mem_flatMap.2 ⟨_, h.covers x hx, ?_⟩
    rw [← hff x]
    exact (hR _ (h.covers x hx)).covers x (by simp [hx])
  · rw [List.pairwise_flatMap]
    refine ⟨?_, ?_⟩
    · intro g hg
      refine (hR g hg).distinct.imp ?_
      intro c c' hd a ha b hb e
      exact hd a ha b hb (congrArg Prod.snd e)
    · refine h.distinct.imp_of_mem ?_
      intro g g' hg hg' hd c hc c' hc' a ha b hb e
      exact hd a ((hR g hg).mem hc ha) b ((hR g' hg').mem hc' hb) (congrArg Prod.fst e)

theorem groupedBy_singleton (key : A → K) (x : A) : GroupedBy key [x] [[x]] := by
  refine ⟨?_, ?_, by simp⟩
  · intro g hg; simp at hg; subst hg; exact ⟨x, by simp, by simp⟩
  · intro y hy; simp at hy; subst hy; simp

theorem groupedBy_const (key : A → K) (l : List A) (hne : l ≠ []) (hc : ∀ a ∈ l, ∀ b ∈ l, key a = key b) :
    GroupedBy key l [l] := by
  have hf : ∀ x ∈ l, l.filter (fun y => decide (key y = key x)) = l := by
    intro x hx; rw [List.filter_eq_self]; intro y hy; simp [hc y hy x hx]
  refine ⟨?_, ?_, by simp⟩
  · intro g hg
    simp at hg; subst hg
    obtain ⟨x, hx⟩ := List.exists_mem_of_ne_nil _ hne
    exact ⟨x, hx, (hf x hx).symm⟩
  · intro x hx; rw [hf x hx]; simp

/-- The groups together are the list, with multiplicities. -/
theorem _root_.Ficus.Spec.GroupedBy.perm {key : A → K} {l : List A} {gs : List (List A)} (h : GroupedBy key l gs) :
    gs.flatten.Perm l := by
  classical
  rw [List.perm_iff_count]
  intro x
  rw [List.count_flatten]
  have hsum : ∀ m : List (List A), (∀ g ∈ m, List.count x g = 0) → (m.map (List.count x)).sum = 0 := by
    intro m hm
    induction m with
    | nil => rfl
    | cons a m ih => simp [hm a (by simp), ih (fun g hg => hm g (by simp [hg]))]
  by_cases hx : x ∈ l
  · have hc := h.covers x hx
    obtain ⟨s, t, hst⟩ := List.append_of_mem hc
    have hd := h.distinct
    rw [hst, List.pairwise_append] at hd
    obtain ⟨_, h2, h3⟩ := hd
    rw [List.pairwise_cons] at h2
    have hxm : x ∈ l.filter (fun y => decide (key y = key x)) := by simp [hx]
    have zs : ∀ g ∈ s, List.count x g = 0 := by
      intro g hg
      rw [List.count_eq_zero]; intro hxg
      exact h3 g hg _ (by simp) x hxg x hxm rfl
    have zt : ∀ g ∈ t, List.count x g = 0 := by
      intro g hg
      rw [List.count_eq_zero]; intro hxg
      exact h2.1 g hg x hxm x hxg rfl
    rw [hst, List.map_append, List.map_cons, List.sum_append, List.sum_cons, hsum s zs, hsum t zt,
      List.count_filter (by simp)]
    omega
  · rw [List.count_eq_zero.2 hx]
    apply hsum
    intro g hg
    rw [List.count_eq_zero]; intro hxg
    exact hx (h.mem hg hxg)

end grouping

variable {E : Type} [HasName E]

theorem foldlM_group (index : Nat) (group : List (Trace E)) (h : ∀ t ∈ group, index < t.events.length)
    (d : Dict Int (List (Trace E))) :
    group.foldlM (fun d t => do return groupInto d (← hashAt index t) t) d =
      .ok (group.foldl (fun d t => groupInto d ((hashVariant t).getD index 0) t) d) := by
  induction group generalizing d with
  | nil => rfl
  | cons t ts ih =>
    have ht := h t (by simp)
    have h1 : hashAt index t = .ok ((hashVariant t).getD index 0) := by
      simp [hashAt, hashVariant, ht]
    rw [List.foldlM_cons, h1]
    simp only [bind, Except.bind, pure, Except.pure]
    exact ih (fun x hx => h x (by simp [hx])) _

/-- Refining one group: no error, and a grouping by the hash at the index. -/
theorem refineGroup_spec (index : Nat) (group : List (Trace E)) (h : ∀ t ∈ group, index < t.events.length) :
    ∃ r, refineGroup index group = .ok r ∧ GroupedBy (fun t => (hashVariant t).getD index 0) group r := by
  unfold refineGroup
  by_cases h1 : group.length = 1
  · obtain ⟨x, rfl⟩ := List.length_eq_one_iff.1 h1
    exact ⟨_, by simp, groupedBy_singleton _ x⟩
  · rw [if_neg h1, foldlM_group index group h]
    exact ⟨_, rfl, groupAll_grouped (fun t => (hashVariant t).getD index 0) group⟩

theorem mapM_choose {A B : Type} (f : A → Except PyErr B) (l : List A) (R : A → B → Prop)
    (h : ∀ a ∈ l, ∃ b, f a = .ok b ∧ R a b) :
    ∃ r : List B, l.mapM f = .ok r ∧ List.Forall₂ R l r := by
  induction l with
  | nil => exact ⟨[], rfl, .nil⟩
  | cons a l ih =>
    obtain ⟨b, hb, hR⟩ := h a (by simp)
    obtain ⟨r, hr, hall⟩ := ih (fun x hx => h x (by simp [hx]))
    refine ⟨b :: r, ?_, .cons hR hall⟩
    rw [List.mapM_cons, hb]; simp only [bind, Except.bind]; rw [hr]; rfl

theorem mapM_fun {A B : Type} [Inhabited B] (f : A → Except PyErr B) (l : List A) (R : A → B → Prop)
    (h : ∀ a ∈ l, ∃ b, f a = .ok b ∧ R a b) :
    ∃ F : A → B, l.mapM f = .ok (l.map F) ∧ ∀ a ∈ l, R a (F a) := by
  refine ⟨fun a => match f a with | .ok b => b | .error _ => default, ?_, ?_⟩
  · induction l with
    | nil => rfl
    | cons a l ih =>
      obtain ⟨b, hb, _⟩ := h a (by simp)
      rw [List.mapM_cons, hb, ih (fun x hx => h x (by simp [hx]))]
      simp only [bind, Except.bind, List.map_cons, hb]; rfl
  · intro a ha
    obtain ⟨b, hb, hR⟩ := h a ha
    simp only [hb]; exact hR

omit [HasName E] in
theorem take_succ_kernel {A : Type} (f : A → List Int) (a b : A) (i : Nat) (ha : i < (f a).length)
    (hb : i < (f b).length) :
    ((f a).take i, (f a).getD i 0) = ((f b).take i, (f b).getD i 0) ↔ (f a).take (i + 1) = (f b).take (i + 1) := by
  rw [List.take_add_one, List.take_add_one, List.getElem?_eq_getElem ha, List.getElem?_eq_getElem hb,
    List.getD_eq_getElem?_getD, List.getD_eq_getElem?_getD,
    List.getElem?_eq_getElem ha, List.getElem?_eq_getElem hb, Prod.mk.injEq]
  simp only [Option.getD_some]
  constructor
  · rintro ⟨h1, h2⟩; rw [h1, h2]
  · intro h
    have := List.append_inj h (by simp; omega)
    exact ⟨this.1, by simpa using this.2⟩

theorem variantLoop_spec (len : Nat) (l : List (Trace E)) (hlen : ∀ t ∈ l, t.events.length = len) :
    ∀ (fuel index : Nat) (groups : List (List (Trace E))), len ≤ index + fuel →
      GroupedBy (fun t => (hashVariant t).take index) l groups →
      ∃ r, variantLoop len fuel index groups = .ok r ∧ GroupedBy hashVariant l r := by
  have hl : ∀ t ∈ l, (hashVariant t).length = len := fun t ht => by simp [hashVariant, hlen t ht]
  intro fuel
  induction fuel with
  | zero =>
    intro index groups hf hg
    refine ⟨groups, rfl, hg.change ?_⟩
    intro a ha b hb
    have h1 := hl a ha
    have h2 := hl b hb
    rw [List.take_of_length_le (by omega), List.take_of_length_le (by omega)]
  | succ fuel ih =>
    intro index groups hf hg
    unfold variantLoop
    by_cases hi : index ≥ len
    · rw [if_pos hi]
      refine ⟨groups, rfl, hg.change ?_⟩
      intro a ha b hb
      have h1 := hl a ha
      have h2 := hl b hb
      rw [List.take_of_length_le (by omega), List.take_of_length_le (by omega)]
    · rw [if_neg hi]
      obtain ⟨F, hF, hR⟩ := mapM_fun (refineGroup index) groups
        (fun g r => GroupedBy (fun t => (hashVariant t).getD index 0) g r) (by
          intro g hgm
          apply refineGroup_spec
          intro t ht
          have := hlen t (hg.mem hgm ht)
          omega)
      rw [hF]
      simp only [bind, Except.bind]
      by_cases hall : groups.all (fun g => decide (g.length = 1)) = true
      · rw [if_pos hall]
        refine ⟨groups, rfl, hg.change ?_⟩
        intro a ha b hb
        constructor
        · intro hab
          have hm := hg.covers b hb
          have h1 := List.all_eq_true.1 hall _ hm
          obtain ⟨x, hx⟩ := List.length_eq_one_iff.1 (of_decide_eq_true h1)
          have hax : a ∈ l.filter (fun y => decide ((hashVariant y).take index = (hashVariant b).take index)) := by
            simp [ha, hab]
          have hbx : b ∈ l.filter (fun y => decide ((hashVariant y).take index = (hashVariant b).take index)) := by
            simp [hb]
          rw [hx] at hax hbx
          rw [List.mem_singleton.1 hax, List.mem_singleton.1 hbx]
        · intro hab; rw [hab]
      · rw [if_neg hall]
        apply ih (index + 1) _ (by omega)
        have := hg.refine F hR
        rw [List.flatMap_def] at this
        refine this.change ?_
        intro a ha b hb
        apply take_succ_kernel
        · rw [hl a ha]; omega
        · rw [hl b hb]; omega

theorem splitSameLength_spec (l : List (Trace E)) (len : Nat) (hne : l ≠ []) (hlen : ∀ t ∈ l, t.events.length = len) :
    ∃ r, splitSameLength l = .ok r ∧ GroupedBy hashVariant l r := by
  unfold splitSameLength
  by_cases h1 : l.length = 1
  · obtain ⟨x, rfl⟩ := List.length_eq_one_iff.1 h1
    exact ⟨_, by simp, groupedBy_singleton _ x⟩
  · rw [if_neg h1]
    obtain ⟨x, xs, rfl⟩ := List.exists_cons_of_ne_nil hne
    simp only [List.head?_cons]
    rw [hlen x (by simp)]
    apply variantLoop_spec len _ hlen len 0 _ (by omega)
    exact groupedBy_const _ _ (by simp) (by simp)

/-- The result of `split_log_by_traces` is the partition by the sequences of name hashes. -/
theorem splitLogByTraces_spec (log : Log E) :
    ∃ gs, splitLogByTraces log = .ok gs ∧ GroupedBy hashVariant log.traces gs := by
  have hg := groupAll_grouped (fun t : Trace E => t.events.length) log.traces
  obtain ⟨F, hF, hR⟩ := mapM_fun splitSameLength ((groupAll (fun t : Trace E => t.events.length) log.traces).map Prod.snd)
    (fun g r => GroupedBy hashVariant g r) (by
      intro g hgm
      obtain ⟨x, _, hx⟩ := hg.isClass g hgm
      apply splitSameLength_spec g x.events.length (hg.ne_nil hgm)
      intro t ht
      rw [hx] at ht
      exact of_decide_eq_true (List.mem_filter.1 ht).2)
  have hm : (groupAll (fun t : Trace E => t.events.length) log.traces).mapM (fun kv => splitSameLength kv.2) =
      ((groupAll (fun t : Trace E => t.events.length) log.traces).map Prod.snd).mapM splitSameLength := by
    rw [List.mapM_map]; rfl
  unfold splitLogByTraces
  refine ⟨(((groupAll (fun t : Trace E => t.events.length) log.traces).map Prod.snd).map F).flatten, ?_, ?_⟩
  · show (do return (← (groupAll (fun t : Trace E => t.events.length) log.traces).mapM
        (fun kv : Nat × List (Trace E) => splitSameLength kv.2)).flatten) = _
    rw [hm, hF]; rfl
  · rw [← List.flatMap_def]
    refine (hg.refine F hR).change ?_
    intro a _ b _
    constructor
    · intro h; exact congrArg Prod.snd h
    · intro h
      have : a.events.length = b.events.length := by
        have := congrArg List.length h
        simpa [hashVariant] using this
      rw [this, h]

/-! ### Merging -/

omit [HasName E] in
theorem mergeLoop_eq (u : Nat → E) (ts : List (List E)) (i : Nat) :
    mergeLoop u i ts = (ts.zipIdx i).flatMap (fun p => p.1 ++ [u p.2]) := by
  induction ts generalizing i with
  | nil => rfl
  | cons t ts ih => simp [mergeLoop, ih, List.zipIdx_cons]

omit [HasName E] in
/-- A window without separators lies within one trace. -/
theorem mergeLoop_window (u : Nat → E) (ts : List (List E)) (i : Nat) (w : List E) (hw : w <:+: mergeLoop u i ts)
    (hne : w ≠ []) (hu : ∀ j, u j ∉ w) : ∃ t ∈ ts, w <:+: t := by
  induction ts generalizing i with
  | nil =>
    simp only [mergeLoop] at hw
    exact absurd (List.eq_nil_of_infix_nil hw) hne
  | cons t ts ih =>
    obtain ⟨a, b, hab⟩ := hw
    have e : a ++ (w ++ b) = t ++ ([u i] ++ mergeLoop u (i + 1) ts) := by
      rw [← List.append_assoc, hab]; simp [mergeLoop]
    rcases List.append_eq_append_iff.1 e with ⟨c, hc, hd⟩ | ⟨c, hc, hd⟩
    · -- the window starts inside the trace or exactly behind it
      rcases List.append_eq_append_iff.1 hd with ⟨c', hc', hd'⟩ | ⟨c', hc', hd'⟩
      · exact ⟨t, by simp, ⟨a, c', by rw [hc, hc']; simp⟩⟩
      · cases c' with
        | nil => exact ⟨t, by simp, ⟨a, [], by rw [hc, hc']; simp⟩⟩
        | cons x c' =>
          rw [List.singleton_append, List.cons_append, List.cons.injEq] at hd'
          exact absurd (by rw [hc', hd'.1]; simp) (hu i)
    · cases c with
      | nil =>
        simp only [List.nil_append] at hd
        cases w with
        | nil => exact absurd rfl hne
        | cons x w =>
          rw [List.singleton_append, List.cons_append, List.cons.injEq] at hd
          exact absurd (by rw [hd.1]; simp) (hu i)
      | cons x c =>
        rw [List.singleton_append, List.cons_append, List.cons.injEq] at hd
        obtain ⟨t', ht', hw'⟩ := ih (i + 1) ⟨c, b, by rw [List.append_assoc]; exact hd.2.symm⟩
        exact ⟨t', by simp [ht'], hw'⟩

theorem mergeLoop_count (u : Nat → E) (ts : List (List E)) (i j : Nat)
    (hinj : ∀ a b, name (u a) = name (u b) → a = b) (hfresh : ∀ t ∈ ts, ∀ e ∈ t, name e ≠ name (u j)) :
    ((mergeLoop u i ts).map name).count (name (u j)) = if i ≤ j ∧ j < i + ts.length then 1 else 0 := by
  induction ts generalizing i with
  | nil => simp [mergeLoop]
  | cons t ts ih =>
    have h0 : (t.map name).count (name (u j)) = 0 := by
      rw [List.count_eq_zero]
      intro hm
      obtain ⟨e, he, hn⟩ := List.mem_map.1 hm
      exact hfresh t (by simp) e he hn
    simp only [mergeLoop, List.map_append, List.count_append, List.map_cons, List.map_nil, h0,
      ih (i + 1) (fun t ht => hfresh t (by simp [ht])), List.length_cons]
    by_cases hij : i = j
    · subst hij
      simp
    · have h1 : ([name (u i)] : List String).count (name (u j)) = 0 := by
        rw [List.count_eq_zero]; simp only [List.mem_singleton]
        intro h; exact hij (hinj _ _ h).symm
      rw [h1]
      simp only [Nat.zero_add]
      congr 1
      apply propext
      constructor <;> (rintro ⟨h1, h2⟩; constructor <;> omega)

end Ficus
