import Verif.Proofs.RsGraph
import Verif.Props.RsRepeatSets

/-! Property C131: the graph of activities of the backend. -/

namespace Ficus.Rs
open Spec

theorem eventsSet_some (log : List (List Nat)) (r : RepeatSet) (h : InsideLog log r) : eventsSet log r = some (wordAt log r).dedup := by
  obtain ⟨t, ht, hb⟩ := h
  unfold eventsSet wordAt
  rw [ht]
  simp only [Option.bind_eq_bind, Option.bind_some, Option.getD_some]
  rw [if_pos (Or.inr hb)]
  rfl

/-- The node for a repeat set inside the log. -/
def nodeOf (log : List (List Nat)) (level : Nat) (nameOf : RepeatSet → String) (r : RepeatSet) : RNode :=
  { repeatSet := some r, classes := (wordAt log r).dedup, children := [], level := level, name := nameOf r }

theorem createNode_some (log : List (List Nat)) (level : Nat) (nameOf : RepeatSet → String) (r : RepeatSet) (h : InsideLog log r) :
    createNode log level nameOf r = some (nodeOf log level nameOf r) := by
  unfold createNode
  rw [eventsSet_some log r h]
  rfl

theorem created_eq (log : List (List Nat)) (level : Nat) (nameOf : RepeatSet → String) (rs : List RepeatSet)
    (h : ∀ r ∈ rs, InsideLog log r) : rs.mapM (createNode log level nameOf) = some (rs.map (nodeOf log level nameOf)) := by
  induction rs with
  | nil => rfl
  | cons r rs ih =>
    rw [List.mapM_cons, createNode_some _ _ _ _ (h r (by simp)), ih (fun r hr => h r (by simp [hr]))]
    rfl

/-- Stable sorting keeps the order of the elements with the same measure. -/
theorem filter_orderedInsert {α : Type} (m : α → Nat) (k : Nat) (a : α) (l : List α) (hl : l.Pairwise (fun x y => m y ≤ m x)) :
    (l.orderedInsert (fun x y => m y ≤ m x) a).filter (fun x => decide (m x = k)) =
      (a :: l).filter (fun x => decide (m x = k)) := by
  induction l with
  | nil => rfl
  | cons b l ih =>
    rw [List.orderedInsert]
    by_cases h : m b ≤ m a
    · rw [if_pos h]
    · rw [if_neg h, List.filter_cons, ih (List.pairwise_cons.1 hl).2]
      simp only [List.filter_cons, decide_eq_true_eq]
      by_cases hb : m b = k
      · have : ¬ m a = k := by omega
        simp [hb, this]
      · simp [hb]

theorem filter_insertionSort {α : Type} (m : α → Nat) (k : Nat) (l : List α) :
    (l.insertionSort (fun x y => m y ≤ m x)).filter (fun x => decide (m x = k)) = l.filter (fun x => decide (m x = k)) := by
  have : Std.Total (fun x y : α => m y ≤ m x) := ⟨fun a b => by omega⟩
  have : IsTrans α (fun x y : α => m y ≤ m x) := ⟨fun a b c h1 h2 => by omega⟩
  induction l with
  | nil => rfl
  | cons a l ih =>
    rw [List.insertionSort_cons, filter_orderedInsert m k a _ (List.pairwise_insertionSort _ _), List.filter_cons, ih,
      List.filter_cons]

theorem insertionSort_map {α β : Type} (f : α → β) (m : β → Nat) (l : List α) :
    (l.map f).insertionSort (fun x y => m y ≤ m x) = (l.insertionSort (fun x y => m (f y) ≤ m (f x))).map f := by
  have ho : ∀ (a : α) (l : List α), (l.map f).orderedInsert (fun x y => m y ≤ m x) (f a) =
      (l.orderedInsert (fun x y => m (f y) ≤ m (f x)) a).map f := by
    intro a l
    induction l with
    | nil => rfl
    | cons b l ih =>
      rw [List.map_cons, List.orderedInsert, List.orderedInsert]
      by_cases h : m (f b) ≤ m (f a)
      · rw [if_pos h, if_pos h]; rfl
      · rw [if_neg h, if_neg h, ih]; rfl
  induction l with
  | nil => rfl
  | cons a l ih => rw [List.map_cons, List.insertionSort_cons, ih, ho, List.insertionSort_cons]

/-- The repeat sets in the order of the nodes. -/
def sortedRepeats (log : List (List Nat)) (rs : List RepeatSet) : List RepeatSet :=
  rs.insertionSort (fun x y => classCount log y ≤ classCount log x)

theorem classCount_eq (log : List (List Nat)) (r : RepeatSet) : classCount log r = (wordAt log r).dedup.length := by
  unfold classCount
  rw [List.card_toFinset]

theorem sortedNodes_eq (log : List (List Nat)) (level : Nat) (nameOf : RepeatSet → String) (rs : List RepeatSet) :
    (rs.map (nodeOf log level nameOf)).insertionSort (fun first second => second.size ≤ first.size) =
      (sortedRepeats log rs).map (nodeOf log level nameOf) := by
  unfold sortedRepeats
  simp only [classCount_eq]
  exact insertionSort_map (nodeOf log level nameOf) RNode.size rs

theorem ready_sorted (log : List (List Nat)) (level : Nat) (nameOf : RepeatSet → String) (rs : List RepeatSet)
    (hd : rs.Pairwise (fun x y => ¬ SameSet (wordAt log x) (wordAt log y))) :
    Ready ((sortedRepeats log rs).map (nodeOf log level nameOf)) := by
  refine ⟨?_, ?_, ?_, ?_⟩
  · intro n hn
    obtain ⟨r, -, rfl⟩ := List.mem_map.1 hn
    rfl
  · intro n hn
    obtain ⟨r, -, rfl⟩ := List.mem_map.1 hn
    exact List.nodup_dedup _
  · rw [List.pairwise_map]
    have : Std.Total (fun x y : RepeatSet => classCount log y ≤ classCount log x) := ⟨fun a b => by omega⟩
    have : IsTrans RepeatSet (fun x y : RepeatSet => classCount log y ≤ classCount log x) := ⟨fun a b c h1 h2 => by omega⟩
    refine (List.pairwise_insertionSort (fun x y : RepeatSet => classCount log y ≤ classCount log x) rs).imp ?_
    intro x y h
    rw [classCount_eq, classCount_eq] at h
    exact h
  · rw [List.pairwise_map]
    have hp : (sortedRepeats log rs).Perm rs := List.perm_insertionSort _ _
    have : rs.Pairwise (fun x y => ¬ SameSet (nodeOf log level nameOf x).classes (nodeOf log level nameOf y).classes) := by
      refine hd.imp ?_
      intro x y h hs
      exact h (fun z => by simpa [nodeOf] using hs z)
    exact (hp.pairwise_iff (fun {x y} h hs => h (fun z => (hs z).symm))).2 this

theorem strictlyAbove_iff (ns : List RNode) (hr : Ready ns) {p c : Nat} {a b : RNode} (ha : ns[p]? = some a) (hb : ns[c]? = some b) :
    StrictlyAbove a b ↔ (cls ns c).length < (cls ns p).length ∧ containsAt ns (cls ns c) p = true := by
  have hpl : p < ns.length := (List.getElem?_eq_some_iff.1 ha).1
  have hcl : c < ns.length := (List.getElem?_eq_some_iff.1 hb).1
  have e1 : cls ns p = a.classes := by unfold cls; rw [ha]; rfl
  have e2 : cls ns c = b.classes := by unfold cls; rw [hb]; rfl
  rw [containsAt_iff ns _ p hpl, e1, e2]
  constructor
  · rintro ⟨h1, x, hx, hx'⟩
    refine ⟨?_, h1⟩
    have := hr.larger hpl hcl (by rintro rfl; rw [ha] at hb; cases hb; exact hx' hx) (by rw [e1, e2]; exact h1)
    rwa [e1, e2] at this
  · rintro ⟨h1, h2⟩
    refine ⟨h2, ?_⟩
    by_contra hc
    push Not at hc
    have hn := hr.nodup_at p
    rw [e1] at hn
    have := (List.subperm_of_subset hn hc).length_le
    omega

theorem strictlyAbove_strip (a b : RNode) : StrictlyAbove (strip a) (strip b) ↔ StrictlyAbove a b := Iff.rfl

theorem greatest_iff (ns : List RNode) (hr : Ready ns) (top : Nat)
    (htop : ∀ j, j < ns.length → (j < top ↔ (cls ns j).length = (cls ns 0).length)) {p : Nat} {a : RNode} (ha : ns[p]? = some a) :
    OfGreatestSize ns a ↔ p < top := by
  have hpl : p < ns.length := (List.getElem?_eq_some_iff.1 ha).1
  have e1 : cls ns p = a.classes := by unfold cls; rw [ha]; rfl
  rw [htop p hpl]
  constructor
  · intro h
    have h0 : ns[0]? = some ns[0] := List.getElem?_eq_getElem (by omega)
    have := h ns[0] (List.getElem_mem _)
    have e0 : cls ns 0 = ns[0].classes := by unfold cls; rw [h0]; rfl
    have := hr.sorted_at (Nat.zero_le p) hpl
    rw [e0, e1] at *
    omega
  · intro h b hb
    obtain ⟨j, hj⟩ := List.mem_iff_getElem?.1 hb
    have := hr.sorted_at (Nat.zero_le j) (List.getElem?_eq_some_iff.1 hj).1
    have e2 : cls ns j = b.classes := by unfold cls; rw [hj]; rfl
    rw [← e1, ← e2]
    omega

theorem par_iff (ns : List RNode) (hr : Ready ns) (top : Nat)
    (htop : ∀ j, j < ns.length → (j < top ↔ (cls ns j).length = (cls ns 0).length)) {p c : Nat} {a b : RNode}
    (ha : ns[p]? = some a) (hb : ns[c]? = some b) (hc : top ≤ c) : par ns top p c = true ↔ ParentOf ns a b := by
  have hpl : p < ns.length := (List.getElem?_eq_some_iff.1 ha).1
  have hcl : c < ns.length := (List.getElem?_eq_some_iff.1 hb).1
  have hany : (List.range' top (c - top)).any (mid ns c) = true ↔ ∃ d ∈ ns, StrictlyAbove d b ∧ ¬ OfGreatestSize ns d := by
    rw [List.any_eq_true]
    constructor
    · rintro ⟨q, hq, hm⟩
      rw [List.mem_range'_1] at hq
      have hql : q < ns.length := by omega
      have hqe := List.getElem?_eq_getElem hql
      refine ⟨ns[q], List.getElem_mem _, (strictlyAbove_iff ns hr hqe hb).2 ?_, ?_⟩
      · simpa [mid] using hm
      · rw [greatest_iff ns hr top htop hqe]; omega
    · rintro ⟨d, hd, h1, h2⟩
      obtain ⟨q, hq⟩ := List.mem_iff_getElem?.1 hd
      rw [greatest_iff ns hr top htop hq] at h2
      obtain ⟨h3, h4⟩ := (strictlyAbove_iff ns hr hq hb).1 h1
      refine ⟨q, ?_, by simp [mid, h3, h4]⟩
      rw [List.mem_range'_1]
      refine ⟨by omega, ?_⟩
      by_contra hlt
      have := hr.sorted_at (p := c) (c := q) (by omega) (List.getElem?_eq_some_iff.1 hq).1
      omega
  unfold par ParentOf
  rw [greatest_iff ns hr top htop ha]
  by_cases h : (List.range' top (c - top)).any (mid ns c) = true
  · rw [if_pos h]
    obtain ⟨d, hd, h1, h2⟩ := hany.1 h
    rw [Bool.and_eq_true, decide_eq_true_eq]
    constructor
    · rintro ⟨⟨h3, h4⟩, h5⟩
      exact ⟨(strictlyAbove_iff ns hr ha hb).2 (by simpa [mid] using h5), fun hlt => by omega⟩
    · rintro ⟨h3, h4⟩
      have h5 := (strictlyAbove_iff ns hr ha hb).1 h3
      refine ⟨⟨?_, ?_⟩, by simp [mid, h5.1, h5.2]⟩
      · by_contra hlt
        exact h2 (h4 (by omega) d hd h1)
      · by_contra hlt
        have := hr.sorted_at (p := c) (c := p) (by omega) hpl
        omega
  · rw [if_neg h]
    have hall : ∀ d ∈ ns, StrictlyAbove d b → OfGreatestSize ns d := by
      intro d hd h1
      by_contra h2
      exact h (hany.2 ⟨d, hd, h1, h2⟩)
    rw [Bool.and_eq_true, decide_eq_true_eq]
    constructor
    · rintro ⟨h1, h2⟩
      refine ⟨(strictlyAbove_iff ns hr ha hb).2 ⟨?_, h2⟩, fun _ => hall⟩
      have h3 := (htop p hpl).1 h1
      have h4 : ¬ (cls ns c).length = (cls ns 0).length := fun he => by have := (htop c hcl).2 he; omega
      have := hr.sorted_at (Nat.zero_le c) hcl
      omega
    · rintro ⟨h1, -⟩
      exact ⟨(greatest_iff ns hr top htop ha).1 (hall a (List.mem_of_getElem? ha) h1), ((strictlyAbove_iff ns hr ha hb).1 h1).2⟩

theorem exists_parent (ns : List RNode) {d b : RNode} (hd : d ∈ ns) (h : StrictlyAbove d b) : ∃ a ∈ ns, ParentOf ns a b := by
  by_cases hall : ∀ d ∈ ns, StrictlyAbove d b → OfGreatestSize ns d
  · exact ⟨d, hd, h, fun _ => hall⟩
  · push Not at hall
    obtain ⟨e, he, h1, h2⟩ := hall
    exact ⟨e, he, h1, fun hg => absurd hg h2⟩

theorem takeWhile_top (ns : List RNode) (hr : Ready ns) (first : RNode) (h0 : ns[0]? = some first) :
    ∀ j, j < ns.length → (j < (ns.takeWhile (fun n => decide (n.size = first.size))).length ↔
      (cls ns j).length = (cls ns 0).length) := by
  have key : ∀ (l : List RNode), l.Pairwise (fun a b => b.size ≤ a.size) → (∀ n ∈ l, n.size ≤ first.size) →
      ∀ (j : Nat) (n : RNode), l[j]? = some n →
        (j < (l.takeWhile (fun n => decide (n.size = first.size))).length ↔ n.size = first.size) := by
    intro l
    induction l with
    | nil => intro _ _ j n h; simp at h
    | cons a l ih =>
      intro hp hle j n hj
      rw [List.takeWhile_cons]
      by_cases ha : a.size = first.size
      · rw [if_pos (by simpa using ha)]
        cases j with
        | zero => simp at hj; subst hj; simp [ha]
        | succ j =>
          have := ih (List.pairwise_cons.1 hp).2 (fun n hn => hle n (by simp [hn])) j n (by simpa using hj)
          simpa using this
      · rw [if_neg (by simpa using ha)]
        have hn : n.size ≤ a.size := by
          cases j with
          | zero => simp at hj; subst hj; exact le_refl _
          | succ j => exact (List.pairwise_cons.1 hp).1 n (List.mem_of_getElem? (by simpa using hj))
        have := hle a (by simp)
        simp; omega
  intro j hj
  have hjs := List.getElem?_eq_getElem hj
  have e1 : cls ns j = ns[j].classes := by unfold cls; rw [hjs]; rfl
  have e0 : cls ns 0 = first.classes := by unfold cls; rw [h0]; rfl
  rw [e1, e0]
  refine key ns hr.sorted ?_ j ns[j] hjs
  intro n hn
  obtain ⟨k, hk⟩ := List.mem_iff_getElem?.1 hn
  have := hr.sorted_at (Nat.zero_le k) (List.getElem?_eq_some_iff.1 hk).1
  have e2 : cls ns k = n.classes := by unfold cls; rw [hk]; rfl
  rw [e2, e0] at this
  exact this

/-- The whole of `build_repeat_set_tree_from_repeats` on sorted nodes. -/
theorem grow_result (ns : List RNode) (hr : Ready ns) (nodes : List RNode) (tops : List Nat)
    (h : growNodes ns = (nodes, tops)) :
    nodes.map strip = ns ∧
    (tops.Pairwise (· < ·) ∧ ∀ i, i ∈ tops ↔ ∃ b, ns[i]? = some b ∧ ∀ a ∈ ns, ¬ StrictlyAbove a b) ∧
    ∀ p, (kids nodes p).Pairwise (· < ·) ∧ ∀ c, c ∈ kids nodes p ↔
      ∃ a b, ns[p]? = some a ∧ ns[c]? = some b ∧ ParentOf ns a b := by
  have hbare : ns.map strip = ns := by
    conv_rhs => rw [← List.map_id ns]
    refine List.map_congr_left (fun n hn => ?_)
    have := hr.bare n hn
    unfold strip
    cases n
    simp_all
  have hkids0 : ∀ p, kids ns p = [] := by
    intro p
    unfold kids
    cases hp : ns[p]? with
    | none => rfl
    | some n => simpa using hr.bare n (List.mem_of_getElem? hp)
  cases hns : ns with
  | nil =>
    rw [hns] at h
    simp only [growNodes, Prod.mk.injEq] at h
    obtain ⟨rfl, rfl⟩ := h
    simp [kids]
  | cons first rest =>
    rw [← hns]
    have h0 : ns[0]? = some first := by rw [hns]; rfl
    set top := (ns.takeWhile (fun n => decide (n.size = first.size))).length with htopdef
    have htop := takeWhile_top ns hr first h0
    rw [← htopdef] at htop
    have h' : (match ns[top]? with
        | none => (ns, List.range top)
        | some next =>
          let st := (List.range' top (ns.length - top)).foldl growStep
            { nodes := ns, tops := List.range top, currentLength := next.size, levels := [[]] }
          (st.nodes, st.tops)) = (nodes, tops) := by
      rw [htopdef]
      subst hns
      exact h
    have hnoneabove : ∀ i b, ns[i]? = some b → i < top → ∀ a ∈ ns, ¬ StrictlyAbove a b := by
      intro i b hb hi a ha hab
      obtain ⟨p, hp⟩ := List.mem_iff_getElem?.1 ha
      have hlt := ((strictlyAbove_iff ns hr hp hb).1 hab).1
      have h1 := hr.sorted_at (Nat.zero_le p) (List.getElem?_eq_some_iff.1 hp).1
      have h2 := (htop i (List.getElem?_eq_some_iff.1 hb).1).1 hi
      omega
    have htle : top ≤ ns.length := (List.takeWhile_sublist _).length_le
    cases ht : ns[top]? with
    | none =>
      rw [ht] at h'
      simp only [Prod.mk.injEq] at h'
      obtain ⟨rfl, rfl⟩ := h'
      have hge : ns.length ≤ top := List.getElem?_eq_none_iff.1 ht
      refine ⟨hbare, ⟨List.pairwise_lt_range, ?_⟩, ?_⟩
      · intro i
        rw [List.mem_range]
        constructor
        · intro hi
          have hil : i < ns.length := by omega
          exact ⟨ns[i], List.getElem?_eq_getElem hil, hnoneabove i _ (List.getElem?_eq_getElem hil) hi⟩
        · rintro ⟨b, hb, -⟩
          have := (List.getElem?_eq_some_iff.1 hb).1
          omega
      · intro p
        rw [hkids0]
        refine ⟨List.Pairwise.nil, ?_⟩
        intro c
        simp only [List.not_mem_nil, false_iff]
        rintro ⟨a, b, ha, hb, hpar⟩
        exact hnoneabove c b hb (by have := (List.getElem?_eq_some_iff.1 hb).1; omega) a (List.mem_of_getElem? ha) hpar.1
    | some next =>
      rw [ht] at h'
      have htl : top < ns.length := (List.getElem?_eq_some_iff.1 ht).1
      have hnext : next.size = (cls ns top).length := by unfold cls; rw [ht]; rfl
      simp only [Prod.mk.injEq, hnext] at h'
      have inv := grown_spec ns hr top htl (fun j h1 h2 => hr.sorted_at h1 h2)
      rw [← h'.1, ← h'.2]
      refine ⟨inv.strip, ?_, ?_⟩
      · rw [inv.tops]
        have hrange : List.range top ++ List.range' top (ns.length - top) = List.range ns.length := by
          rw [List.range_eq_range', List.range_eq_range']
          have := List.range'_append (s := 0) (m := top) (n := ns.length - top) (step := 1)
          simp only [one_mul, Nat.zero_add] at this
          rw [this, show top + (ns.length - top) = ns.length by omega]
        refine ⟨?_, ?_⟩
        · have hsub : (List.range top ++ (List.range' top (ns.length - top)).filter (orphan ns top)).Sublist
              (List.range ns.length) := by
            rw [← hrange]
            exact (List.Sublist.refl _).append List.filter_sublist
          exact List.pairwise_lt_range.sublist hsub
        · intro i
          rw [List.mem_append, List.mem_range, List.mem_filter, List.mem_range'_1]
          constructor
          · rintro (hi | ⟨hi, ho⟩)
            · have hil : i < ns.length := by omega
              exact ⟨ns[i], List.getElem?_eq_getElem hil, hnoneabove i _ (List.getElem?_eq_getElem hil) hi⟩
            · have hil : i < ns.length := by omega
              have hie := List.getElem?_eq_getElem hil
              refine ⟨ns[i], hie, ?_⟩
              intro d hd hab
              obtain ⟨a, ha, hpar⟩ := exists_parent ns hd hab
              obtain ⟨p, hp⟩ := List.mem_iff_getElem?.1 ha
              unfold orphan at ho
              rw [List.all_eq_true] at ho
              have := ho p (List.mem_range.2 (List.getElem?_eq_some_iff.1 hp).1)
              rw [(par_iff ns hr top htop hp hie hi.1).2 hpar] at this
              cases this
          · rintro ⟨b, hb, hnone⟩
            have hil := (List.getElem?_eq_some_iff.1 hb).1
            rcases Nat.lt_or_ge i top with hlt | hge
            · exact Or.inl hlt
            · refine Or.inr ⟨by omega, ?_⟩
              unfold orphan
              rw [List.all_eq_true]
              intro p hp
              cases hq : par ns top p i with
              | false => rfl
              | true =>
                have hpl : p < ns.length := List.mem_range.1 hp
                have := (par_iff ns hr top htop (List.getElem?_eq_getElem hpl) hb hge).1 hq
                exact absurd this.1 (hnone _ (List.getElem_mem _))
      · intro p
        rw [inv.kids]
        refine ⟨(List.pairwise_lt_range' (s := top) (n := ns.length - top)).filter _, ?_⟩
        intro c
        rw [List.mem_filter, List.mem_range'_1]
        constructor
        · rintro ⟨hc, hpar⟩
          have hcl : c < ns.length := by omega
          have hpl : p < ns.length := by
            by_contra hge
            have : containsAt ns (cls ns c) p = true := by
              unfold par at hpar
              split at hpar
              · simp [mid] at hpar; exact hpar.2.2
              · simp at hpar; exact hpar.2
            exact hge (containsAt_lt ns _ p this)
          exact ⟨ns[p], ns[c], List.getElem?_eq_getElem hpl, List.getElem?_eq_getElem hcl,
            (par_iff ns hr top htop (List.getElem?_eq_getElem hpl) (List.getElem?_eq_getElem hcl) hc.1).1 hpar⟩
        · rintro ⟨a, b, ha, hb, hpar⟩
          have hcl := (List.getElem?_eq_some_iff.1 hb).1
          have hge : top ≤ c := by
            by_contra hlt
            exact hnoneabove c b hb (by omega) a (List.mem_of_getElem? ha) hpar.1
          exact ⟨by omega, (par_iff ns hr top htop ha hb hge).2 hpar⟩

theorem parentOf_strip (ns ms : List RNode) (h : ms.map strip = ns) (a b : RNode) :
    ParentOf ns (strip a) (strip b) ↔ ParentOf ms a b := by
  have hg : ∀ n : RNode, OfGreatestSize ns (strip n) ↔ OfGreatestSize ms n := by
    intro n
    unfold OfGreatestSize
    rw [← h]
    simp [strip]
  unfold ParentOf
  rw [hg, strictlyAbove_strip]
  refine and_congr_right (fun _ => imp_congr_right (fun _ => ?_))
  constructor
  · intro hall d hd hab
    rw [← hg]
    exact hall (strip d) (by rw [← h]; exact List.mem_map_of_mem hd) hab
  · intro hall d hd hab
    rw [← h] at hd
    obtain ⟨d', hd', rfl⟩ := List.mem_map.1 hd
    rw [hg]
    exact hall d' hd' hab

/-- C131a: for repeat sets inside the log with pairwise different sets of classes, the graph has one node per repeat set, with the
classes, the name and the level asked for; the larger sets come first, and those of the same size keep their order. -/
theorem C131_nodes (log : List (List Nat)) (repeats : List RepeatSet) (level : Nat) (nameOf : RepeatSet → String)
    (hi : ∀ r ∈ repeats, InsideLog log r) (hd : repeats.Pairwise (fun x y => ¬ SameSet (wordAt log x) (wordAt log y))) :
    ∃ nodes tops rs, buildGraph log repeats level nameOf = some (nodes, tops) ∧
      List.Forall₂ (NodeFor log level nameOf) rs nodes ∧
      rs.Perm repeats ∧ rs.Pairwise (fun x y => classCount log y ≤ classCount log x) ∧
      ∀ k, rs.filter (fun r => decide (classCount log r = k)) = repeats.filter (fun r => decide (classCount log r = k)) := by
  have hready := ready_sorted log level nameOf repeats hd
  set ns := (sortedRepeats log repeats).map (nodeOf log level nameOf) with hns
  have hb : ∃ nodes tops, buildGraph log repeats level nameOf = some (nodes, tops) ∧ nodes.map strip = ns := by
    unfold buildGraph
    rw [created_eq log level nameOf repeats hi]
    simp only [Option.bind_eq_bind, Option.bind_some]
    rw [sortedNodes_eq, ← hns]
    exact ⟨_, _, rfl, (grow_result ns hready _ _ rfl).1⟩
  obtain ⟨nodes, tops, h1, h2⟩ := hb
  refine ⟨nodes, tops, sortedRepeats log repeats, h1, ?_, List.perm_insertionSort _ _, ?_, fun k => filter_insertionSort _ k _⟩
  · rw [hns] at h2
    rw [List.forall₂_iff_get]
    have hlen : (sortedRepeats log repeats).length = nodes.length := by
      have := congrArg List.length h2
      simpa using this.symm
    refine ⟨hlen, ?_⟩
    intro i h3 h4
    have hget := congrArg (fun l => l[i]?) h2
    simp only [List.getElem?_map, List.getElem?_eq_getElem h4, List.getElem?_eq_getElem h3, Option.map_some,
      Option.some.injEq] at hget
    simp only [List.get_eq_getElem]
    have e1 := congrArg RNode.repeatSet hget
    have e2 := congrArg RNode.level hget
    have e3 := congrArg RNode.name hget
    have e4 := congrArg RNode.classes hget
    simp only [strip, nodeOf] at e1 e2 e3 e4
    refine ⟨e1, e2, e3, ?_, ?_⟩
    · rw [e4]; exact List.nodup_dedup _
    · rw [e4]; intro x; simp
  · have : Std.Total (fun x y : RepeatSet => classCount log y ≤ classCount log x) := ⟨fun a b => by omega⟩
    have : IsTrans RepeatSet (fun x y : RepeatSet => classCount log y ≤ classCount log x) := ⟨fun a b c h1 h2 => by omega⟩
    exact List.pairwise_insertionSort (fun x y : RepeatSet => classCount log y ≤ classCount log x) repeats

/-- C131b: the nodes that are returned are exactly those whose set of classes is not strictly inside another one, and the children of
a node are exactly those whose parent it is in the sense of `ParentOf`; both without duplicates, in the order of the nodes. -/
theorem C131_edges (log : List (List Nat)) (repeats : List RepeatSet) (level : Nat) (nameOf : RepeatSet → String)
    (hi : ∀ r ∈ repeats, InsideLog log r) (hd : repeats.Pairwise (fun x y => ¬ SameSet (wordAt log x) (wordAt log y)))
    (nodes : List RNode) (tops : List Nat) (h : buildGraph log repeats level nameOf = some (nodes, tops)) :
    (tops.Pairwise (· < ·) ∧ ∀ i, i ∈ tops ↔ ∃ b, nodes[i]? = some b ∧ ∀ a ∈ nodes, ¬ StrictlyAbove a b) ∧
    ∀ (p : Nat) (a : RNode), nodes[p]? = some a → a.children.Pairwise (· < ·) ∧
      ∀ c, c ∈ a.children ↔ ∃ b, nodes[c]? = some b ∧ ParentOf nodes a b := by
  have hready := ready_sorted log level nameOf repeats hd
  set ns := (sortedRepeats log repeats).map (nodeOf log level nameOf) with hns
  have hg : nodes.map strip = ns ∧
      (tops.Pairwise (· < ·) ∧ ∀ i, i ∈ tops ↔ ∃ b, ns[i]? = some b ∧ ∀ a ∈ ns, ¬ StrictlyAbove a b) ∧
      ∀ p, (kids nodes p).Pairwise (· < ·) ∧ ∀ c, c ∈ kids nodes p ↔
        ∃ a b, ns[p]? = some a ∧ ns[c]? = some b ∧ ParentOf ns a b := by
    refine grow_result ns hready nodes tops ?_
    unfold buildGraph at h
    rw [created_eq log level nameOf repeats hi] at h
    simp only [Option.bind_eq_bind, Option.bind_some] at h
    rw [sortedNodes_eq, ← hns] at h
    exact Option.some.inj h
  obtain ⟨h1, ⟨h2, h3⟩, h4⟩ := hg
  refine ⟨⟨h2, ?_⟩, ?_⟩
  · intro i
    rw [h3, strip_map_get ns nodes h1]
    constructor
    · rintro ⟨b, hb, hn⟩
      cases hi' : nodes[i]? with
      | none => rw [hi'] at hb; cases hb
      | some n =>
        rw [hi'] at hb
        cases hb
        exact ⟨n, rfl, fun a ha hab => hn (strip a) (by rw [← h1]; exact List.mem_map_of_mem ha) hab⟩
    · rintro ⟨b, hb, hn⟩
      rw [hb]
      refine ⟨strip b, rfl, ?_⟩
      intro a ha hab
      rw [← h1] at ha
      obtain ⟨a', ha', rfl⟩ := List.mem_map.1 ha
      exact hn a' ha' hab
  · intro p a ha
    have hk : kids nodes p = a.children := by unfold kids; rw [ha]; rfl
    rw [← hk]
    refine ⟨(h4 p).1, ?_⟩
    intro c
    rw [(h4 p).2, strip_map_get ns nodes h1, strip_map_get ns nodes h1, ha]
    constructor
    · rintro ⟨a', b', ha', hb', hpar⟩
      cases ha'
      cases hc : nodes[c]? with
      | none => rw [hc] at hb'; cases hb'
      | some b =>
        rw [hc] at hb'
        cases hb'
        exact ⟨b, rfl, (parentOf_strip ns nodes h1 a b).1 hpar⟩
    · rintro ⟨b, hb, hpar⟩
      rw [hb]
      exact ⟨strip a, strip b, rfl, rfl, (parentOf_strip ns nodes h1 a b).2 hpar⟩

/-- C131c: the graph of the repeat sets found by `build_repeat_sets` is always defined and has the properties above. -/
theorem C131_graph_of_repeat_sets (it : Iter) (wordHash : List Nat → Option Nat) (log : List (List Nat))
    (patterns : List (List SubArray)) (level : Nat) (nameOf : RepeatSet → String) (r : List RepeatSet)
    (h : buildRepeatSets it wordHash log patterns = some r) :
    ∃ nodes tops, buildGraph log r level nameOf = some (nodes, tops) ∧ nodes.length = r.length ∧
      (∀ i, i ∈ tops ↔ ∃ b, nodes[i]? = some b ∧ ∀ a ∈ nodes, ¬ StrictlyAbove a b) ∧
      ∀ (p : Nat) (a : RNode), nodes[p]? = some a → ∀ c, c ∈ a.children ↔ ∃ b, nodes[c]? = some b ∧ ParentOf nodes a b := by
  obtain ⟨-, h2, h3, -⟩ := C130_selection it wordHash log patterns r h
  obtain ⟨nodes, tops, rs, h4, h5, h6, -⟩ := C131_nodes log r level nameOf (fun x hx => (h3 x hx).1) h2
  obtain ⟨h7, h8⟩ := C131_edges log r level nameOf (fun x hx => (h3 x hx).1) h2 nodes tops h4
  exact ⟨nodes, tops, h4, by rw [← h5.length_eq, h6.length_eq], h7.2, fun p a ha => (h8 p a ha).2⟩

theorem strictlyAbove_length {a b : RNode} (hb : b.classes.Nodup) (h : StrictlyAbove a b) : b.classes.length < a.classes.length := by
  obtain ⟨h1, x, hx, hx'⟩ := h
  have : (x :: b.classes).Subperm a.classes := by
    refine List.subperm_of_subset (List.nodup_cons.2 ⟨hx', hb⟩) ?_
    intro y hy
    rcases List.mem_cons.1 hy with rfl | hy
    · exact hx
    · exact h1 y hy
  have := this.length_le
  simp only [List.length_cons] at this
  omega

/-- C131d: children have fewer classes than their parents, so that there are no cycles, and every node is reachable from one of the
nodes that are returned: no repeat set is lost. -/
theorem C131_all_reachable (log : List (List Nat)) (repeats : List RepeatSet) (level : Nat) (nameOf : RepeatSet → String)
    (hi : ∀ r ∈ repeats, InsideLog log r) (hd : repeats.Pairwise (fun x y => ¬ SameSet (wordAt log x) (wordAt log y)))
    (nodes : List RNode) (tops : List Nat) (h : buildGraph log repeats level nameOf = some (nodes, tops)) :
    (∀ a ∈ nodes, ∀ c ∈ a.children, ∃ b, nodes[c]? = some b ∧ b.classes.length < a.classes.length) ∧
    ∀ i, i < nodes.length → ∃ t ∈ tops, Reaches nodes t i := by
  obtain ⟨⟨-, h1⟩, h2⟩ := C131_edges log repeats level nameOf hi hd nodes tops h
  have hnd : ∀ n ∈ nodes, n.classes.Nodup := by
    obtain ⟨nodes', tops', rs, h3, h4, -⟩ := C131_nodes log repeats level nameOf hi hd
    rw [h] at h3
    cases h3
    intro n hn
    obtain ⟨k, hk, rfl⟩ := List.mem_iff_getElem.1 hn
    have := (List.forall₂_iff_get.1 h4).2 k (by rw [(List.forall₂_iff_get.1 h4).1]; exact hk) hk
    exact this.nodup
  refine ⟨?_, ?_⟩
  · intro a ha c hc
    obtain ⟨p, hp⟩ := List.mem_iff_getElem?.1 ha
    obtain ⟨b, hb, hpar⟩ := ((h2 p a hp).2 c).1 hc
    exact ⟨b, hb, strictlyAbove_length (hnd b (List.mem_of_getElem? hb)) hpar.1⟩
  · have hbound : ∀ l : List RNode, ∃ m, ∀ n ∈ l, n.classes.length ≤ m := by
      intro l
      induction l with
      | nil => exact ⟨0, by simp⟩
      | cons n l ih =>
        obtain ⟨m, hm⟩ := ih
        refine ⟨max n.classes.length m, ?_⟩
        intro x hx
        rcases List.mem_cons.1 hx with rfl | hx
        · exact le_max_left _ _
        · exact (hm x hx).trans (le_max_right _ _)
    obtain ⟨m, hm⟩ := hbound nodes
    have key : ∀ (d i : Nat) (b : RNode), nodes[i]? = some b → m - b.classes.length ≤ d → ∃ t ∈ tops, Reaches nodes t i := by
      intro d
      induction d with
      | zero =>
        intro i b hb hle
        refine ⟨i, (h1 i).2 ⟨b, hb, ?_⟩, Reaches.refl i⟩
        intro a ha hab
        have := strictlyAbove_length (hnd b (List.mem_of_getElem? hb)) hab
        have := hm a ha
        omega
      | succ d ih =>
        intro i b hb hle
        by_cases hnone : ∀ a ∈ nodes, ¬ StrictlyAbove a b
        · exact ⟨i, (h1 i).2 ⟨b, hb, hnone⟩, Reaches.refl i⟩
        · push Not at hnone
          obtain ⟨d', hd', hab⟩ := hnone
          obtain ⟨a, ha, hpar⟩ := exists_parent nodes hd' hab
          obtain ⟨p, hp⟩ := List.mem_iff_getElem?.1 ha
          have hlt := strictlyAbove_length (hnd b (List.mem_of_getElem? hb)) hpar.1
          have := hm a ha
          obtain ⟨t, ht, hreach⟩ := ih p a hp (by omega)
          exact ⟨t, ht, Reaches.step hreach hp (((h2 p a hp).2 i).2 ⟨b, hb, hpar⟩)⟩
    intro i hi
    exact key _ i nodes[i] (List.getElem?_eq_getElem hi) (le_refl _)

/-! ### Concrete cases -/

/-- The children of the nodes of a graph, and the nodes returned. -/
def shape (g : Option (List RNode × List Nat)) : Option (List (List Nat × List Nat) × List Nat) :=
  g.map (fun g => (g.1.map (fun n => (n.classes, n.children)), g.2))

/-- Repeat sets over one trace. -/
def exChain : List RepeatSet := [⟨0, 1, 0⟩, ⟨0, 2, 0⟩, ⟨0, 3, 0⟩, ⟨0, 4, 0⟩]

/-- C131e: a node may have several parents, one above the other: the set with the class 1 is a child both of the set with 1, 2 and
of the set with 1, 2, 3, which contains the former; but it is not a child of the largest set. -/
theorem C131_redundant_edges :
    shape (buildGraph [[1, 2, 3, 4]] exChain 0 (fun _ => "")) =
      some ([([1, 2, 3, 4], [1]), ([1, 2, 3], [2, 3]), ([1, 2], [3]), ([1], [])], [0]) := by decide +kernel

/-- C131f: a set inside one of the largest sets need not be below it: the set with the class 3 is inside the set with 1, 2, 3, but it is
only a child of the set with 3, 4, which is not below the former. -/
theorem C131_inside_but_not_below :
    shape (buildGraph [[1, 2, 3, 4]] [⟨0, 3, 0⟩, ⟨2, 2, 0⟩, ⟨2, 1, 0⟩] 0 (fun _ => "")) =
      some ([([1, 2, 3], []), ([3, 4], [2]), ([3], [])], [0, 1]) := by decide +kernel

theorem exChain_ok : (∀ r ∈ exChain, InsideLog [[1, 2, 3, 4]] r) ∧
    exChain.Pairwise (fun x y => ¬ SameSet (wordAt [[1, 2, 3, 4]] x) (wordAt [[1, 2, 3, 4]] y)) :=
  ⟨inside_of _ _ (by decide), by decide⟩

example : ∃ nodes tops, buildGraph [[1, 2, 3, 4]] exChain 0 (fun _ => "") = some (nodes, tops) ∧ nodes.length = 4 ∧
    ∀ i, i < 4 → ∃ t ∈ tops, Reaches nodes t i := by
  obtain ⟨nodes, tops, rs, h1, h2, h3, -⟩ := C131_nodes [[1, 2, 3, 4]] exChain 0 (fun _ => "") exChain_ok.1 exChain_ok.2
  have hl : nodes.length = 4 := by rw [← h2.length_eq, h3.length_eq]; rfl
  refine ⟨nodes, tops, h1, hl, ?_⟩
  rw [← hl]
  exact (C131_all_reachable _ _ _ _ exChain_ok.1 exChain_ok.2 nodes tops h1).2

example : ∃ nodes tops, buildGraph exClassLog [⟨0, 2, 0⟩, ⟨2, 2, 0⟩, ⟨0, 5, 1⟩] 1 (fun _ => "n") = some (nodes, tops) ∧
    nodes.length = 3 ∧ (∀ i, i ∈ tops ↔ ∃ b, nodes[i]? = some b ∧ ∀ a ∈ nodes, ¬ StrictlyAbove a b) := by
  obtain ⟨nodes, tops, h1, h2, h3, -⟩ := C131_graph_of_repeat_sets plainOrder (polyHash true id) exClassLog exPatterns 1
    (fun _ => "n") [⟨0, 2, 0⟩, ⟨2, 2, 0⟩, ⟨0, 5, 1⟩] (by decide +kernel)
  exact ⟨nodes, tops, h1, h2, h3⟩

end Ficus.Rs
