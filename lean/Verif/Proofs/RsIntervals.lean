import Verif.Spec.RsIntervals

/-! Proofs about the tree of intervals. -/

namespace Ficus.Rs.Itv
open Spec.Itv

variable {α δ : Type} [LinearOrder α] [DecidableEq δ]

theorem mem_sortLeft (l : List (Interval α δ)) (x : Interval α δ) : x ∈ sortLeft l ↔ x ∈ l := by
  unfold sortLeft; exact (List.perm_insertionSort _ _).mem_iff

theorem length_sortLeft (l : List (Interval α δ)) : (sortLeft l).length = l.length := by
  unfold sortLeft; exact (List.perm_insertionSort _ _).length_eq

theorem sortLeft_sorted (l : List (Interval α δ)) : (sortLeft l).Pairwise (fun x y => x.left ≤ y.left) := by
  have : Std.Total (fun x y : Interval α δ => x.left ≤ y.left) := ⟨fun x y => le_total x.left y.left⟩
  have : IsTrans (Interval α δ) (fun x y => x.left ≤ y.left) := ⟨fun _ _ _ h1 h2 => le_trans h1 h2⟩
  exact List.pairwise_insertionSort _ l

/-- A child of a node. -/
def child (n : Node α δ) : Side → Option Nat
  | .left => n.leftChild
  | .right => n.rightChild

theorem length_setChild (nodes : List (Node α δ)) (parent : Option (Nat × Side)) (k : Nat) :
    (setChild nodes parent k).length = nodes.length := by
  unfold setChild
  split <;> simp

theorem setChild_get {nodes : List (Node α δ)} (parent : Option (Nat × Side)) (k i : Nat) (n : Node α δ) (h : nodes[i]? = some n) :
    ∃ n', (setChild nodes parent k)[i]? = some n' ∧ n'.center = n.center ∧ n'.intervals = n.intervals ∧
      ∀ s, child n' s = if parent = some (i, s) then some k else child n s := by
  unfold setChild
  split
  · exact ⟨n, h, rfl, rfl, by simp⟩
  · rename_i j
    by_cases hj : j = i
    · subst hj
      exact ⟨{ n with leftChild := some k }, by simp [h], rfl, rfl, by intro s; cases s <;> simp [child]⟩
    · exact ⟨n, by simp [h, hj], rfl, rfl, by intro s; simp [hj]⟩
  · rename_i j
    by_cases hj : j = i
    · subst hj
      exact ⟨{ n with rightChild := some k }, by simp [h], rfl, rfl, by intro s; cases s <;> simp [child]⟩
    · exact ⟨n, by simp [h, hj], rfl, rfl, by intro s; simp [hj]⟩

/-- The node with an index stands for some intervals. -/
def Repr (nodes : List (Node α δ)) : Nat → Nat → List (Interval α δ) → Prop
  | 0, _, _ => False
  | k + 1, i, l => ∃ n, nodes[i]? = some n ∧ n.intervals ≠ [] ∧
      (∀ x, x ∈ n.intervals ↔ x ∈ l ∧ ¬ x.right < n.center ∧ ¬ n.center < x.left) ∧
      ((n.leftChild = none ∧ ∀ x ∈ l, ¬ x.right < n.center) ∨
        ∃ j l', n.leftChild = some j ∧ Repr nodes k j l' ∧ ∀ x, x ∈ l' ↔ x ∈ l ∧ x.right < n.center) ∧
      ((n.rightChild = none ∧ ∀ x ∈ l, ¬ x.right < n.center → ¬ n.center < x.left) ∨
        ∃ j l', n.rightChild = some j ∧ Repr nodes k j l' ∧ ∀ x, x ∈ l' ↔ x ∈ l ∧ ¬ x.right < n.center ∧ n.center < x.left)

theorem repr_mono {nodes : List (Node α δ)} {k k' i : Nat} {l : List (Interval α δ)} (hk : k ≤ k') (h : Repr nodes k i l) :
    Repr nodes k' i l := by
  induction k generalizing k' i l with
  | zero => exact h.elim
  | succ k ih =>
    obtain ⟨k', rfl⟩ : ∃ m, k' = m + 1 := ⟨k' - 1, by omega⟩
    obtain ⟨n, h1, h2, h3, h4, h5⟩ := h
    refine ⟨n, h1, h2, h3, h4.imp id ?_, h5.imp id ?_⟩
    · rintro ⟨j, l', e, hr, hm⟩; exact ⟨j, l', e, ih (by omega) hr, hm⟩
    · rintro ⟨j, l', e, hr, hm⟩; exact ⟨j, l', e, ih (by omega) hr, hm⟩

/-- The parents that wait for a child. -/
def waiting (queue : List (Option (Nat × Side) × List (Interval α δ))) : List (Nat × Side) := queue.filterMap (·.1)

theorem waiting_append (a b : List (Option (Nat × Side) × List (Interval α δ))) : waiting (a ++ b) = waiting a ++ waiting b :=
  List.filterMap_append ..

theorem waiting_pending (k : Nat) (s : Side) (l : List (Interval α δ)) : waiting (pending k s l) = if 0 < l.length then [(k, s)] else [] := by
  unfold pending waiting
  split <;> simp

theorem mem_waiting {queue : List (Option (Nat × Side) × List (Interval α δ))} {w : Nat × Side} :
    w ∈ waiting queue ↔ ∃ e ∈ queue, e.1 = some w := by simp [waiting]

theorem build_spec (fuel : Nat) (nodes : List (Node α δ)) (bs : List α) (queue : List (Option (Nat × Side) × List (Interval α δ)))
    (t : Tree α δ) (h : build fuel nodes bs queue = .tree t) (hv : ∀ e ∈ queue, ∀ x ∈ e.2, x.left ≤ x.right)
    (hp : ∀ w ∈ waiting queue, w.1 < nodes.length) (hn : (waiting queue).Nodup) :
    nodes.length + queue.length ≤ t.nodes.length ∧
    (∀ i n, nodes[i]? = some n → ∃ n', t.nodes[i]? = some n' ∧ n'.center = n.center ∧ n'.intervals = n.intervals ∧
      ∀ s, (i, s) ∉ waiting queue → child n' s = child n s) ∧
    (∀ e ∈ queue, ∃ j, nodes.length ≤ j ∧ j < t.nodes.length ∧ Repr t.nodes (t.nodes.length - j) j e.2 ∧
      ∀ i s n', e.1 = some (i, s) → t.nodes[i]? = some n' → child n' s = some j) ∧
    (∀ e q, queue = e :: q → Repr t.nodes (t.nodes.length - nodes.length) nodes.length e.2) ∧
    (∀ b ∈ bs, b ∈ t.boundaries) ∧ ∀ e ∈ queue, ∀ x ∈ e.2, x.left ∈ t.boundaries := by
  induction fuel generalizing nodes bs queue with
  | zero =>
    cases queue with
    | nil =>
      rw [build] at h
      cases h
      exact ⟨by simp, fun i n hi => ⟨n, hi, rfl, rfl, fun _ _ => rfl⟩, by simp, by simp, fun _ hb => hb, by simp⟩
    | cons e q => rw [build] at h; cases h
  | succ fuel ih =>
    cases queue with
    | nil =>
      rw [build] at h
      cases h
      exact ⟨by simp, fun i n hi => ⟨n, hi, rfl, rfl, fun _ _ => rfl⟩, by simp, by simp, fun _ hb => hb, by simp⟩
    | cons e q =>
      obtain ⟨parent, l⟩ := e
      rw [build] at h
      simp only at h
      split at h
      · cases h
      · rename_i median hmed
        have hmedm : median ∈ l := (mem_sortLeft l median).mp (List.mem_of_getElem? hmed)
        generalize hlefts : (sortLeft l).filter (fun x => decide (x.right < median.left)) = lefts at h
        generalize hrights : (sortLeft l).filter (fun x => !decide (x.right < median.left) && decide (median.left < x.left)) = rights at h
        generalize hmids : (sortLeft l).filter (fun x => !decide (x.right < median.left) && !decide (median.left < x.left)) = mids at h
        have ml : ∀ x, x ∈ lefts ↔ x ∈ l ∧ x.right < median.left := by
          intro x; rw [← hlefts]; simp [mem_sortLeft]
        have mr : ∀ x, x ∈ rights ↔ x ∈ l ∧ ¬ x.right < median.left ∧ median.left < x.left := by
          intro x; rw [← hrights]; simp [mem_sortLeft]
        have mm : ∀ x, x ∈ mids ↔ x ∈ l ∧ ¬ x.right < median.left ∧ ¬ median.left < x.left := by
          intro x; rw [← hmids]; simp [mem_sortLeft]
        have hw : waiting ((parent, l) :: q) = parent.toList ++ waiting q := by
          unfold waiting
          cases parent <;> simp
        have hlen : (setChild nodes parent nodes.length ++ [(⟨none, none, median.left, mids⟩ : Node α δ)]).length = nodes.length + 1 := by
          simp [length_setChild]
        have hw' : ∀ w, w ∈ waiting (q ++ (pending nodes.length .left lefts ++ pending nodes.length .right rights)) ↔
            w ∈ waiting q ∨ (w = (nodes.length, .left) ∧ 0 < lefts.length) ∨ (w = (nodes.length, .right) ∧ 0 < rights.length) := by
          intro w
          simp only [waiting_append, waiting_pending, List.mem_append]
          refine or_congr Iff.rfl (or_congr ?_ ?_) <;> split <;> simp [*]
        have hold : ∀ w ∈ waiting q, w.1 < nodes.length := fun w hwm => hp w (by rw [hw]; simp [hwm])
        obtain ⟨r1, r2, r3, _, r5, r6⟩ := ih _ _ _ h
          (by
            intro e he x hx
            simp only [List.mem_append, pending] at he
            rcases he with he | he | he
            · exact hv e (by simp [he]) x hx
            · split at he
              · simp only [List.mem_singleton] at he; subst he
                exact hv (parent, l) (by simp) x ((ml x).mp hx).1
              · simp at he
            · split at he
              · simp only [List.mem_singleton] at he; subst he
                exact hv (parent, l) (by simp) x ((mr x).mp hx).1
              · simp at he)
          (by
            intro w hwm
            rw [hlen]
            rcases (hw' w).mp hwm with h1 | ⟨rfl, _⟩ | ⟨rfl, _⟩
            · have := hold w h1; omega
            · simp
            · simp)
          (by
            simp only [waiting_append, waiting_pending]
            have hq : (waiting q).Nodup := by rw [hw] at hn; exact (List.nodup_append.mp hn).2.1
            have hd : ∀ w ∈ waiting q, ∀ s, w ≠ (nodes.length, s) := by
              intro w hwm s e
              have := hold w hwm
              rw [e] at this
              simp at this
            rw [List.nodup_append]
            refine ⟨hq, ?_, ?_⟩
            · split <;> split <;> simp
            · intro a ha b hb e
              subst e
              simp only [List.mem_append] at hb
              rcases hb with hb | hb
              · split at hb
                · exact hd a ha .left (by simpa using hb)
                · simp at hb
              · split at hb
                · exact hd a ha .right (by simpa using hb)
                · simp at hb)
        rw [hlen] at r1 r3
        have hnew : (setChild nodes parent nodes.length ++ [(⟨none, none, median.left, mids⟩ : Node α δ)])[nodes.length]? =
            some ⟨none, none, median.left, mids⟩ := by
          rw [List.getElem?_append_right (by simp [length_setChild])]
          simp [length_setChild]
        have hlt : nodes.length < t.nodes.length := by omega
        have hrepr : Repr t.nodes (t.nodes.length - nodes.length) nodes.length l := by
          obtain ⟨m, hm⟩ : ∃ m, t.nodes.length - nodes.length = m + 1 := ⟨t.nodes.length - nodes.length - 1, by omega⟩
          rw [hm]
          obtain ⟨n', g1, g2, g3, g4⟩ := r2 nodes.length _ hnew
          simp only at g2 g3
          refine ⟨n', g1, ?_, ?_, ?_, ?_⟩
          · rw [g3]
            have := (mm median).mpr ⟨hmedm, not_lt.mpr (hv (parent, l) (by simp) median hmedm), lt_irrefl _⟩
            exact List.ne_nil_of_mem this
          · intro x; rw [g3, g2]; exact mm x
          · rw [g2]
            by_cases hl : 0 < lefts.length
            · right
              have he : (some (nodes.length, Side.left), lefts) ∈ q ++ (pending nodes.length .left lefts ++ pending nodes.length .right rights) := by
                simp [pending, hl]
              obtain ⟨j, k1, k2, k3, k4⟩ := r3 _ he
              exact ⟨j, lefts, k4 _ .left n' rfl g1, repr_mono (by omega) k3, ml⟩
            · left
              refine ⟨g4 .left (fun hc => ?_), fun x hx hlt => hl (List.length_pos_of_mem ((ml x).mpr ⟨hx, hlt⟩))⟩
              rcases (hw' _).mp hc with h1 | ⟨_, h1⟩ | ⟨h1, _⟩
              · have := hold _ h1; simp at this
              · exact hl h1
              · simp at h1
          · rw [g2]
            by_cases hl : 0 < rights.length
            · right
              have he : (some (nodes.length, Side.right), rights) ∈ q ++ (pending nodes.length .left lefts ++ pending nodes.length .right rights) := by
                simp [pending, hl]
              obtain ⟨j, k1, k2, k3, k4⟩ := r3 _ he
              exact ⟨j, rights, k4 _ .right n' rfl g1, repr_mono (by omega) k3, mr⟩
            · left
              refine ⟨g4 .right (fun hc => ?_), fun x hx h1 h2 => hl (List.length_pos_of_mem ((mr x).mpr ⟨hx, h1, h2⟩))⟩
              rcases (hw' _).mp hc with h1 | ⟨h1, _⟩ | ⟨_, h1⟩
              · have := hold _ h1; simp at this
              · simp at h1
              · exact hl h1
        refine ⟨?_, ?_, ?_, ?_, ?_, ?_⟩
        · simp only [List.length_append, List.length_cons] at r1 ⊢
          omega
        · intro i n hi
          have hil : i < nodes.length := (List.getElem?_eq_some_iff.mp hi).1
          obtain ⟨n1, a1, a2, a3, a4⟩ := setChild_get parent nodes.length i n hi
          have a5 : (setChild nodes parent nodes.length ++ [(⟨none, none, median.left, mids⟩ : Node α δ)])[i]? = some n1 := by
            rw [List.getElem?_append_left (by simpa [length_setChild] using hil)]; exact a1
          obtain ⟨n2, b1, b2, b3, b4⟩ := r2 i n1 a5
          refine ⟨n2, b1, b2.trans a2, b3.trans a3, fun s hs => ?_⟩
          rw [hw] at hs
          simp only [List.mem_append, Option.mem_toList, not_or] at hs
          rw [b4 s, a4 s, if_neg hs.1]
          intro hc
          rcases (hw' _).mp hc with h1 | ⟨h1, _⟩ | ⟨h1, _⟩
          · exact hs.2 h1
          · simp at h1; omega
          · simp at h1; omega
        · intro e he
          simp only [List.mem_cons] at he
          rcases he with rfl | he
          · refine ⟨nodes.length, Nat.le_refl _, hlt, hrepr, ?_⟩
            intro i s n' e1 hn'
            simp only at e1
            have hil : i < nodes.length := hp (i, s) (by rw [hw, e1]; simp)
            obtain ⟨n, hi⟩ : ∃ n, nodes[i]? = some n := ⟨nodes[i], by simp [hil]⟩
            obtain ⟨n1, a1, a2, a3, a4⟩ := setChild_get parent nodes.length i n hi
            have a5 : (setChild nodes parent nodes.length ++ [(⟨none, none, median.left, mids⟩ : Node α δ)])[i]? = some n1 := by
              rw [List.getElem?_append_left (by simpa [length_setChild] using hil)]; exact a1
            obtain ⟨n2, b1, b2, b3, b4⟩ := r2 i n1 a5
            rw [hn'] at b1
            cases b1
            rw [b4 s, a4 s, if_pos e1]
            intro hc
            rcases (hw' _).mp hc with h1 | ⟨h1, _⟩ | ⟨h1, _⟩
            · rw [hw, e1] at hn
              simp only [Option.toList_some, List.singleton_append, List.nodup_cons] at hn
              exact hn.1 h1
            · simp at h1; omega
            · simp at h1; omega
          · obtain ⟨j, k1, k2, k3, k4⟩ := r3 e (by simp [he])
            exact ⟨j, by omega, k2, k3, k4⟩
        · intro e q' e1
          cases e1
          exact hrepr
        · intro b hb; exact r5 b (by simp [hb])
        · intro e he x hx
          simp only [List.mem_cons] at he
          rcases he with rfl | he
          · refine r5 _ (List.mem_append_right _ (List.mem_flatMap.mpr ⟨x, (mem_sortLeft l x).mpr hx, by simp⟩))
          · exact r6 e (by simp [he]) x hx

/-- How many intervals are in the queue. -/
def load (queue : List (Option (Nat × Side) × List (Interval α δ))) : Nat := (queue.map (fun e => e.2.length)).sum

theorem load_pending (k : Nat) (s : Side) (l : List (Interval α δ)) : load (pending k s l) = l.length := by
  unfold pending load
  split
  · simp
  · simp only [List.map_nil, List.sum_nil]; omega

theorem three_parts (l : List (Interval α δ)) (f g : Interval α δ → Bool) :
    (l.filter f).length + (l.filter (fun x => !f x && g x)).length + (l.filter (fun x => !f x && !g x)).length = l.length := by
  induction l with
  | nil => rfl
  | cons x l ih =>
    simp only [List.filter_cons]
    cases f x <;> cases g x <;> simp <;> omega

theorem median_some {l : List (Interval α δ)} (h : l ≠ []) : ∃ x, (sortLeft l)[(sortLeft l).length / 2]? = some x := by
  have : 0 < l.length := List.length_pos_iff.mpr h
  exact ⟨(sortLeft l)[(sortLeft l).length / 2]'(by rw [length_sortLeft]; omega), by simp⟩

theorem build_ends (fuel : Nat) (nodes : List (Node α δ)) (bs : List α) (queue : List (Option (Nat × Side) × List (Interval α δ)))
    (hf : load queue ≤ fuel) (hv : ∀ e ∈ queue, ∀ x ∈ e.2, x.left ≤ x.right) (he : ∀ e ∈ queue, e.2 ≠ []) :
    ∃ t, build fuel nodes bs queue = .tree t := by
  induction fuel generalizing nodes bs queue with
  | zero =>
    cases queue with
    | nil => exact ⟨_, by rw [build]⟩
    | cons e q =>
      have := List.length_pos_iff.mpr (he e (by simp))
      simp only [load, List.map_cons, List.sum_cons] at hf
      omega
  | succ fuel ih =>
    cases queue with
    | nil => exact ⟨_, by rw [build]⟩
    | cons e q =>
      obtain ⟨parent, l⟩ := e
      obtain ⟨median, hmed⟩ := median_some (he (parent, l) (by simp))
      rw [build]
      simp only [hmed]
      have hmedm : median ∈ l := (mem_sortLeft l median).mp (List.mem_of_getElem? hmed)
      refine ih _ _ _ ?_ ?_ ?_
      · have h3 := three_parts (sortLeft l) (fun x => decide (x.right < median.left)) (fun x => decide (median.left < x.left))
        rw [length_sortLeft] at h3
        have hm : 0 < ((sortLeft l).filter (fun x => !decide (x.right < median.left) && !decide (median.left < x.left))).length := by
          refine List.length_pos_of_mem (a := median) ?_
          have := hv (parent, l) (by simp) median hmedm
          simp [mem_sortLeft, hmedm, this]
        have happ : ∀ a b : List (Option (Nat × Side) × List (Interval α δ)), load (a ++ b) = load a + load b := by
          intro a b; simp [load]
        rw [happ, happ, load_pending, load_pending]
        simp only [load, List.map_cons, List.sum_cons] at hf ⊢
        omega
      · intro e hm x hx
        simp only [List.mem_append, pending] at hm
        rcases hm with hm | hm | hm
        · exact hv e (by simp [hm]) x hx
        · split at hm
          · simp only [List.mem_singleton] at hm; subst hm
            exact hv (parent, l) (by simp) x ((mem_sortLeft l x).mp (List.mem_filter.mp hx).1)
          · simp at hm
        · split at hm
          · simp only [List.mem_singleton] at hm; subst hm
            exact hv (parent, l) (by simp) x ((mem_sortLeft l x).mp (List.mem_filter.mp hx).1)
          · simp at hm
      · intro e hm
        simp only [List.mem_append, pending] at hm
        rcases hm with hm | hm | hm
        · exact he e (by simp [hm])
        · split at hm
          · rename_i hpos
            simp only [List.mem_singleton] at hm; subst hm
            exact List.length_pos_iff.mp hpos
          · simp at hm
        · split at hm
          · rename_i hpos
            simp only [List.mem_singleton] at hm; subst hm
            exact List.length_pos_iff.mp hpos
          · simp at hm

theorem build_endless (fuel : Nat) (nodes : List (Node α δ)) (bs : List α) (queue : List (Option (Nat × Side) × List (Interval α δ)))
    (hx : ∃ e ∈ queue, ∃ x ∈ e.2, x.right < x.left) (he : ∀ e ∈ queue, e.2 ≠ []) : build fuel nodes bs queue = .more := by
  induction fuel generalizing nodes bs queue with
  | zero =>
    cases queue with
    | nil => obtain ⟨e, h, _⟩ := hx; simp at h
    | cons e q => rw [build]
  | succ fuel ih =>
    cases queue with
    | nil => obtain ⟨e, h, _⟩ := hx; simp at h
    | cons e q =>
      obtain ⟨parent, l⟩ := e
      obtain ⟨median, hmed⟩ := median_some (he (parent, l) (by simp))
      rw [build]
      simp only [hmed]
      refine ih _ _ _ ?_ ?_
      · obtain ⟨e, hm, x, hxe, hlt⟩ := hx
        simp only [List.mem_cons] at hm
        rcases hm with rfl | hm
        · by_cases h1 : x.right < median.left
          · have hxm : x ∈ (sortLeft l).filter (fun x => decide (x.right < median.left)) := by simp [mem_sortLeft, h1, hxe]
            refine ⟨(some (nodes.length, .left), _), ?_, x, hxm, hlt⟩
            rw [pending, if_pos (List.length_pos_of_mem hxm)]
            simp
          · have hxm : x ∈ (sortLeft l).filter (fun x => !decide (x.right < median.left) && decide (median.left < x.left)) := by
              have : median.left < x.left := lt_of_le_of_lt (not_lt.mp h1) hlt
              simp only [List.mem_filter, mem_sortLeft, h1, this]
              exact ⟨hxe, rfl⟩
            refine ⟨(some (nodes.length, .right), _), ?_, x, hxm, hlt⟩
            rw [show pending nodes.length Side.right ((sortLeft l).filter (fun x => !decide (x.right < median.left) && decide (median.left < x.left))) =
              [(some (nodes.length, .right), _)] from by rw [pending, if_pos (List.length_pos_of_mem hxm)]]
            simp
        · exact ⟨e, by simp [hm], x, hxe, hlt⟩
      · intro e hm
        simp only [List.mem_append, pending] at hm
        rcases hm with hm | hm | hm
        · exact he e (by simp [hm])
        · split at hm
          · rename_i hpos
            simp only [List.mem_singleton] at hm; subst hm
            exact List.length_pos_iff.mp hpos
          · simp at hm
        · split at hm
          · rename_i hpos
            simp only [List.mem_singleton] at hm; subst hm
            exact List.length_pos_iff.mp hpos
          · simp at hm

theorem mem_addTo (r : List (Interval α δ)) (x y : Interval α δ) : y ∈ addTo r x ↔ y ∈ r ∨ y = x := by
  unfold addTo
  split
  · rename_i h
    constructor
    · exact Or.inl
    · rintro (h1 | rfl)
      · exact h1
      · exact h
  · simp

theorem nodup_addTo (r : List (Interval α δ)) (x : Interval α δ) (h : r.Nodup) : (addTo r x).Nodup := by
  unfold addTo
  split
  · exact h
  · rename_i hx
    rw [List.nodup_append]
    refine ⟨h, by simp, ?_⟩
    intro a ha b hb e
    simp only [List.mem_singleton] at hb
    rw [e, hb] at ha
    exact hx ha

theorem foldlM_sets {β : Type} (f : List (Interval α δ) → β → Option (List (Interval α δ))) (Q : β → Interval α δ → Prop) (l : List β)
    (hf : ∀ r, ∀ y ∈ l, ∃ r', f r y = some r' ∧ (∀ x, x ∈ r' ↔ x ∈ r ∨ Q y x) ∧ (r.Nodup → r'.Nodup)) (r : List (Interval α δ)) :
    ∃ r', l.foldlM f r = some r' ∧ (∀ x, x ∈ r' ↔ x ∈ r ∨ ∃ y ∈ l, Q y x) ∧ (r.Nodup → r'.Nodup) := by
  induction l generalizing r with
  | nil => exact ⟨r, rfl, by simp, id⟩
  | cons y l ih =>
    obtain ⟨r1, h1, h2, h3⟩ := hf r y (by simp)
    obtain ⟨r2, k1, k2, k3⟩ := ih (fun r y hy => hf r y (by simp [hy])) r1
    refine ⟨r2, by rw [List.foldlM_cons, h1]; exact k1, fun x => ?_, fun h => k3 (h3 h)⟩
    rw [k2, h2]
    simp [or_assoc]

theorem contains_iff (x : Interval α δ) (p : α) : x.contains p = true ↔ x.left ≤ p ∧ p ≤ x.right := by simp [Interval.contains]

theorem search_spec {nodes : List (Node α δ)} (p : α) (k i : Nat) (l : List (Interval α δ)) (h : Repr nodes k i l)
    (r : List (Interval α δ)) : ∃ r', search nodes p k i r = some r' ∧ (∀ x, x ∈ r' ↔ x ∈ r ∨ x ∈ l ∧ x.left ≤ p ∧ p ≤ x.right) ∧
      (r.Nodup → r'.Nodup) := by
  induction k generalizing i l r with
  | zero => exact h.elim
  | succ k ih =>
    obtain ⟨n, hn, hne, hm, hl, hr⟩ := h
    rw [search, hn]
    simp only
    obtain ⟨r', h1, h2, h3⟩ := foldlM_sets (fun result x => do
        let result := if x.contains p then addTo result x else result
        let result ← match n.leftChild with
          | some c => if p < n.center then search nodes p k c result else some result
          | none => some result
        match n.rightChild with
          | some c => if n.center < p then search nodes p k c result else some result
          | none => some result)
      (fun y x => (x = y ∧ x.left ≤ p ∧ p ≤ x.right) ∨
        (x ∈ l ∧ x.right < n.center ∧ x.left ≤ p ∧ p ≤ x.right) ∨
        (x ∈ l ∧ ¬ x.right < n.center ∧ n.center < x.left ∧ x.left ≤ p ∧ p ≤ x.right)) n.intervals
      (by
        intro r y _
        obtain ⟨r0, e0, m0, d0⟩ : ∃ r0, (if y.contains p then addTo r y else r) = r0 ∧
            (∀ x, x ∈ r0 ↔ x ∈ r ∨ (x = y ∧ x.left ≤ p ∧ p ≤ x.right)) ∧ (r.Nodup → r0.Nodup) := by
          refine ⟨_, rfl, ?_, ?_⟩
          · intro x
            split
            · rename_i hc
              rw [contains_iff] at hc
              rw [mem_addTo]
              constructor
              · rintro (h | rfl)
                · exact Or.inl h
                · exact Or.inr ⟨rfl, hc⟩
              · rintro (h | ⟨h, _⟩)
                · exact Or.inl h
                · exact Or.inr h
            · rename_i hc
              rw [contains_iff] at hc
              constructor
              · exact Or.inl
              · rintro (h | ⟨rfl, h⟩)
                · exact h
                · exact absurd h hc
          · intro h
            split
            · exact nodup_addTo _ _ h
            · exact h
        obtain ⟨r1, e1, m1, d1⟩ : ∃ r1, (match n.leftChild with
            | some c => if p < n.center then search nodes p k c r0 else some r0
            | none => some r0) = some r1 ∧
            (∀ x, x ∈ r1 ↔ x ∈ r0 ∨ (x ∈ l ∧ x.right < n.center ∧ x.left ≤ p ∧ p ≤ x.right)) ∧ (r0.Nodup → r1.Nodup) := by
          rcases hl with ⟨hl, hno⟩ | ⟨j, l', hl, hrep, hmem⟩
          · rw [hl]
            exact ⟨r0, rfl, fun x => by
              constructor
              · exact Or.inl
              · rintro (h | ⟨h1, h2, _⟩)
                · exact h
                · exact absurd h2 (hno x h1), id⟩
          · rw [hl]
            simp only
            by_cases hp : p < n.center
            · rw [if_pos hp]
              obtain ⟨r1, e1, m1, d1⟩ := ih j l' hrep r0
              exact ⟨r1, e1, fun x => by rw [m1, hmem, and_assoc], d1⟩
            · rw [if_neg hp]
              exact ⟨r0, rfl, fun x => by
                constructor
                · exact Or.inl
                · rintro (h | ⟨_, h2, _, h3⟩)
                  · exact h
                  · exact absurd (lt_of_le_of_lt h3 h2) hp, id⟩
        obtain ⟨r2, e2, m2, d2⟩ : ∃ r2, (match n.rightChild with
            | some c => if n.center < p then search nodes p k c r1 else some r1
            | none => some r1) = some r2 ∧
            (∀ x, x ∈ r2 ↔ x ∈ r1 ∨ (x ∈ l ∧ ¬ x.right < n.center ∧ n.center < x.left ∧ x.left ≤ p ∧ p ≤ x.right)) ∧
            (r1.Nodup → r2.Nodup) := by
          rcases hr with ⟨hr, hno⟩ | ⟨j, l', hr, hrep, hmem⟩
          · rw [hr]
            exact ⟨r1, rfl, fun x => by
              constructor
              · exact Or.inl
              · rintro (h | ⟨h1, h2, h3, _⟩)
                · exact h
                · exact absurd h3 (hno x h1 h2), id⟩
          · rw [hr]
            simp only
            by_cases hp : n.center < p
            · rw [if_pos hp]
              obtain ⟨r2, e2, m2, d2⟩ := ih j l' hrep r1
              exact ⟨r2, e2, fun x => by rw [m2, hmem, and_assoc, and_assoc], d2⟩
            · rw [if_neg hp]
              exact ⟨r1, rfl, fun x => by
                constructor
                · exact Or.inl
                · rintro (h | ⟨_, _, h2, h3, _⟩)
                  · exact h
                  · exact absurd (lt_of_lt_of_le h2 h3) hp, id⟩
        refine ⟨r2, ?_, fun x => ?_, fun h => d2 (d1 (d0 h))⟩
        · simp only [e0]
          cases hc : n.leftChild with
          | none =>
            rw [hc] at e1
            simp only at e1 ⊢
            obtain rfl := Option.some.inj e1
            exact e2
          | some c =>
            rw [hc] at e1
            simp only at e1 ⊢
            by_cases hp : p < n.center
            · rw [if_pos hp] at e1 ⊢
              rw [e1]
              exact e2
            · rw [if_neg hp] at e1 ⊢
              obtain rfl := Option.some.inj e1
              exact e2
        · rw [m2, m1, m0]
          simp only [or_assoc]) r
    refine ⟨r', h1, fun x => ?_, h3⟩
    rw [h2]
    refine or_congr Iff.rfl ?_
    constructor
    · rintro ⟨y, hy, ⟨rfl, h⟩ | ⟨h, _, h'⟩ | ⟨h, _, _, h'⟩⟩
      · exact ⟨((hm _).mp hy).1, h⟩
      · exact ⟨h, h'⟩
      · exact ⟨h, h'⟩
    · rintro ⟨hx, h⟩
      obtain ⟨y, hy⟩ := List.exists_mem_of_ne_nil _ hne
      by_cases h1 : x.right < n.center
      · exact ⟨y, hy, Or.inr (Or.inl ⟨hx, h1, h⟩)⟩
      · by_cases h2 : n.center < x.left
        · exact ⟨y, hy, Or.inr (Or.inr ⟨hx, h1, h2, h⟩)⟩
        · exact ⟨x, (hm x).mpr ⟨hx, h1, h2⟩, Or.inl ⟨rfl, h⟩⟩

/-! ### The tree of some intervals -/

/-- A tree that stands for some intervals. -/
structure For (intervals : List (Interval α δ)) (t : Tree α δ) : Prop where
  repr : Repr t.nodes t.nodes.length 0 intervals
  bounds : ∀ x ∈ intervals, x.left ∈ t.boundaries

theorem new_for {fuel : Nat} {intervals : List (Interval α δ)} {t : Tree α δ} (hv : ∀ x ∈ intervals, x.left ≤ x.right)
    (h : new fuel intervals = .tree t) : For intervals t := by
  unfold new at h
  obtain ⟨_, _, _, h4, _, h6⟩ := build_spec fuel [] [] [(none, intervals)] t h (by simpa using hv) (by simp [waiting]) (by simp [waiting])
  exact ⟨by simpa using h4 _ _ rfl, fun x hx => h6 (none, intervals) (by simp) x hx⟩

theorem tree_search {intervals : List (Interval α δ)} {t : Tree α δ} (h : For intervals t) (p : α) (r : List (Interval α δ)) :
    ∃ r', t.search p r = some r' ∧ (∀ x, x ∈ r' ↔ x ∈ r ∨ x ∈ intervals ∧ x.left ≤ p ∧ p ≤ x.right) ∧ (r.Nodup → r'.Nodup) :=
  search_spec p _ _ _ h.repr r

theorem ordered_found (it : Iter) {intervals set : List (Interval α δ)} {P : Interval α δ → Prop}
    (hm : ∀ x, x ∈ set ↔ x ∈ intervals ∧ P x) (hn : set.Nodup) : Found intervals (ordered it set) P := by
  unfold ordered
  refine ⟨fun x => by rw [mem_sortLeft, (it.perm _ _ _).mem_iff, hm], ?_, sortLeft_sorted _⟩
  unfold sortLeft
  exact (List.perm_insertionSort _ _).nodup_iff.mpr ((it.perm _ _ _).nodup_iff.mpr hn)

/-! ### The bounds of the envelopes -/

theorem smaller_prefix (l : List α) (h : l.Pairwise (· ≤ ·)) (x : α) (i : Nat) (y : α) (hi : l[i]? = some y) :
    y < x ↔ i < (l.filter (fun y => decide (y < x))).length := by
  induction l generalizing i with
  | nil => simp at hi
  | cons a l ih =>
    rw [List.pairwise_cons] at h
    by_cases ha : a < x
    · rw [List.filter_cons_of_pos (by simpa using ha), List.length_cons]
      cases i with
      | zero =>
        simp only [List.getElem?_cons_zero, Option.some.injEq] at hi
        subst hi
        simp [ha]
      | succ i =>
        rw [List.getElem?_cons_succ] at hi
        rw [ih h.2 i hi]
        omega
    · have hnone : ∀ z ∈ a :: l, ¬ z < x := by
        intro z hz hzx
        rcases List.mem_cons.mp hz with rfl | hz
        · exact ha hzx
        · exact ha (lt_of_le_of_lt (h.1 z hz) hzx)
      have : (a :: l).filter (fun y => decide (y < x)) = [] := by
        rw [List.filter_eq_nil_iff]
        intro z hz
        simpa using hnone z hz
      rw [this]
      have := hnone y (List.mem_of_getElem? hi)
      simp only [List.length_nil, Nat.not_lt_zero, iff_false]
      exact this

theorem sorted_get {l : List α} (h : l.Pairwise (· ≤ ·)) {i j : Nat} {x y : α} (hi : l[i]? = some x) (hj : l[j]? = some y) (hij : i ≤ j) :
    x ≤ y := by
  rcases Nat.lt_or_eq_of_le hij with hlt | rfl
  · obtain ⟨hi', rfl⟩ := List.getElem?_eq_some_iff.mp hi
    obtain ⟨hj', rfl⟩ := List.getElem?_eq_some_iff.mp hj
    exact List.pairwise_iff_getElem.mp h i j hi' hj' hlt
  · rw [hi] at hj
    exact le_of_eq (Option.some.inj hj)

theorem position {bs : List α → α → Nat} (hb : BinarySearch bs) {l : List α} (h : l.Pairwise (· ≤ ·)) (x : α) :
    bs l x ≤ l.length ∧ ∀ i y, l[i]? = some y → (y < x → i < bs l x) ∧ (x < y → bs l x ≤ i) := by
  obtain ⟨h1, h2⟩ := hb l h x
  by_cases hx : x ∈ l
  · have h1 := h1 hx
    refine ⟨Nat.le_of_lt (List.getElem?_eq_some_iff.mp h1).1, fun i y hi => ⟨fun hlt => ?_, fun hlt => ?_⟩⟩
    · by_contra hc
      exact absurd hlt (not_lt.mpr (sorted_get h h1 hi (Nat.le_of_not_lt hc)))
    · by_contra hc
      exact absurd hlt (not_lt.mpr (sorted_get h hi h1 (Nat.le_of_lt (Nat.lt_of_not_le hc))))
  · have h2 := h2 hx
    rw [h2]
    refine ⟨List.length_filter_le _ _, fun i y hi => ⟨fun hlt => (smaller_prefix l h x i y hi).mp hlt, fun hlt => ?_⟩⟩
    by_contra hc
    exact absurd ((smaller_prefix l h x i y hi).mpr (Nat.lt_of_not_le hc)) (not_lt.mpr (le_of_lt hlt))

theorem sorted_boundaries (l : List α) : (l.insertionSort (· ≤ ·)).Pairwise (· ≤ ·) := List.pairwise_insertionSort _ l

theorem envelopes_spec (it : Iter) {bs : List α → α → Nat} (hb : BinarySearch bs) {intervals : List (Interval α δ)} {t : Tree α δ}
    (h : For intervals t) (hv : ∀ x ∈ intervals, x.left ≤ x.right) {left right : α} (hlr : left < right) :
    ∃ r, t.envelopes it bs left right = some r ∧
      ∃ P : Interval α δ → Prop, Found intervals r (fun x => left ≤ x.left ∧ x.right ≤ right ∧ P x) ∧
        ∀ x ∈ intervals, x.left ≠ right → x.right ≤ right → left ≤ x.left → P x := by
  unfold Tree.envelopes
  rw [if_neg (not_le.mpr hlr)]
  obtain ⟨r0, e0, m0, d0⟩ := tree_search h left []
  obtain ⟨b, hbd⟩ : ∃ b, b = t.boundaries.insertionSort (· ≤ ·) := ⟨_, rfl⟩
  have hs : b.Pairwise (· ≤ ·) := hbd ▸ sorted_boundaries _
  obtain ⟨hl1, hl2⟩ := position hb hs left
  obtain ⟨hr1, hr2⟩ := position hb hs right
  have hfl : bs b left ≤ bs b right := by
    by_contra hc
    have hlt : bs b right < b.length := by omega
    have hg : b[bs b right]? = some b[bs b right] := List.getElem?_eq_getElem hlt
    rcases lt_or_ge b[bs b right] right with hy | hy
    · exact absurd ((hr2 _ _ hg).1 hy) (Nat.lt_irrefl _)
    · exact hc ((hl2 _ _ hg).2 (lt_of_lt_of_le hlr hy))
  obtain ⟨r1, e1, m1, d1⟩ := foldlM_sets (fun result x => t.search x result)
    (fun y x => x ∈ intervals ∧ x.left ≤ y ∧ y ≤ x.right) ((b.take (bs b right)).drop (bs b left))
    (fun r y _ => tree_search h y r) r0
  simp only [← hbd, e0, Option.bind_eq_bind, Option.bind_some, if_pos (And.intro hfl hr1), e1]
  refine ⟨_, rfl, fun x => (x.left ≤ left ∧ left ≤ x.right) ∨
    ∃ y ∈ (b.take (bs b right)).drop (bs b left), x.left ≤ y ∧ y ≤ x.right, ordered_found it ?_ ((d1 (d0 List.nodup_nil)).filter _), ?_⟩
  · intro x
    rw [List.mem_filter, m1, m0]
    simp only [List.not_mem_nil, false_or, Bool.and_eq_true, decide_eq_true_eq]
    constructor
    · rintro ⟨⟨h1, h2⟩ | ⟨y, hy, h1, h2⟩, h3, h4⟩
      · exact ⟨h1, h3, h4, Or.inl h2⟩
      · exact ⟨h1, h3, h4, Or.inr ⟨y, hy, h2⟩⟩
    · rintro ⟨h1, h3, h4, h2 | ⟨y, hy, h2⟩⟩
      · exact ⟨Or.inl ⟨h1, h2⟩, h3, h4⟩
      · exact ⟨Or.inr ⟨y, hy, h1, h2⟩, h3, h4⟩
  · intro x hx hne hxr hxl
    have hle := hv x hx
    rcases (le_iff_lt_or_eq.mp hxl).symm with he | hlt
    · exact Or.inl ⟨le_of_eq he.symm, he ▸ hle⟩
    · right
      have hmem : x.left ∈ b := by rw [hbd, List.mem_insertionSort]; exact h.bounds x hx
      obtain ⟨i, hi⟩ := List.getElem?_of_mem hmem
      have h1 := (hl2 i _ hi).2 hlt
      have h2 := (hr2 i _ hi).1 (lt_of_le_of_ne (le_trans hle hxr) hne)
      refine ⟨x.left, ?_, le_refl _, hle⟩
      refine List.mem_of_getElem? (i := i - bs b left) ?_
      rw [List.getElem?_drop, List.getElem?_take, if_pos (by omega), show bs b left + (i - bs b left) = i by omega]
      exact hi

theorem range_spec (it : Iter) {intervals : List (Interval α δ)} {t : Tree α δ} (h : For intervals t) (range : List α) :
    ∃ r, t.forRange it range = some r ∧ Found intervals r (fun x => ∃ y ∈ range, x.left ≤ y ∧ y ≤ x.right) := by
  obtain ⟨r, e, m, d⟩ := foldlM_sets (fun result x => t.search x result)
    (fun y x => x ∈ intervals ∧ x.left ≤ y ∧ y ≤ x.right) range (fun r y _ => tree_search h y r) []
  unfold Tree.forRange
  rw [e]
  refine ⟨_, rfl, ordered_found it ?_ (d List.nodup_nil)⟩
  intro x
  rw [m]
  simp only [List.not_mem_nil, false_or]
  constructor
  · rintro ⟨y, hy, h1, h2⟩; exact ⟨h1, y, hy, h2⟩
  · rintro ⟨h1, y, hy, h2⟩; exact ⟨y, hy, h1, h2⟩

theorem valid_of_tree {fuel : Nat} {intervals : List (Interval α δ)} {t : Tree α δ} (h : new fuel intervals = .tree t) :
    intervals ≠ [] ∧ ∀ x ∈ intervals, x.left ≤ x.right := by
  by_cases he : intervals = []
  · subst he
    cases fuel with
    | zero => rw [new, build] at h; cases h
    | succ fuel => rw [new, build] at h; simp [sortLeft] at h
  · refine ⟨he, fun x hx => ?_⟩
    by_contra hc
    rw [new, build_endless _ _ _ _ ⟨(none, intervals), by simp, x, hx, not_le.mp hc⟩ (by simpa using he)] at h
    cases h

theorem never_panics (fuel : Nat) (nodes : List (Node α δ)) (bs : List α) (queue : List (Option (Nat × Side) × List (Interval α δ)))
    (he : ∀ e ∈ queue, e.2 ≠ []) : build fuel nodes bs queue ≠ .panic := by
  induction fuel generalizing nodes bs queue with
  | zero =>
    cases queue with
    | nil => rw [build]; simp
    | cons e q => rw [build]; simp
  | succ fuel ih =>
    cases queue with
    | nil => rw [build]; simp
    | cons e q =>
      obtain ⟨parent, l⟩ := e
      obtain ⟨median, hmed⟩ := median_some (he (parent, l) (by simp))
      rw [build]
      simp only [hmed]
      refine ih _ _ _ ?_
      intro e hm
      simp only [List.mem_append, pending] at hm
      rcases hm with hm | hm | hm
      · exact he e (by simp [hm])
      · split at hm
        · rename_i hpos
          simp only [List.mem_singleton] at hm; subst hm
          exact List.length_pos_iff.mp hpos
        · simp at hm
      · split at hm
        · rename_i hpos
          simp only [List.mem_singleton] at hm; subst hm
          exact List.length_pos_iff.mp hpos
        · simp at hm

/-! ### Two binary searches -/

/-- The first position of an element. -/
def firstPosition (l : List α) (x : α) : Nat := (l.filter (fun y => decide (y < x))).length

/-- The last position of an element. -/
def lastPosition (l : List α) (x : α) : Nat :=
  if x ∈ l then (l.filter (fun y => decide (y ≤ x))).length - 1 else (l.filter (fun y => decide (y < x))).length

theorem firstPosition_spec : BinarySearch (firstPosition (α := α)) := by
  intro l h x
  refine ⟨fun hx => ?_, fun _ => rfl⟩
  unfold firstPosition
  induction l with
  | nil => simp at hx
  | cons a l ih =>
    rw [List.pairwise_cons] at h
    by_cases ha : a < x
    · rw [List.filter_cons_of_pos (by simpa using ha), List.length_cons, List.getElem?_cons_succ]
      refine ih h.2 ?_
      rcases List.mem_cons.mp hx with rfl | hx
      · exact absurd ha (lt_irrefl _)
      · exact hx
    · have hax : a = x := by
        rcases List.mem_cons.mp hx with rfl | hx
        · rfl
        · exact le_antisymm (h.1 x hx) (not_lt.mp ha)
      subst hax
      have : (a :: l).filter (fun y => decide (y < a)) = [] := by
        rw [List.filter_eq_nil_iff]
        intro z hz
        rcases List.mem_cons.mp hz with rfl | hz
        · simp
        · simpa using h.1 z hz
      rw [this]
      rfl

theorem lastPosition_spec : BinarySearch (lastPosition (α := α)) := by
  intro l h x
  refine ⟨fun hx => ?_, fun hx => by rw [lastPosition, if_neg hx]⟩
  rw [lastPosition, if_pos hx]
  induction l with
  | nil => simp at hx
  | cons a l ih =>
    rw [List.pairwise_cons] at h
    have hax : a ≤ x := by
      rcases List.mem_cons.mp hx with rfl | hx
      · exact le_refl _
      · exact h.1 x hx
    rw [List.filter_cons_of_pos (by simpa using hax), List.length_cons]
    by_cases hxl : x ∈ l
    · have hpos : 0 < (l.filter (fun y => decide (y ≤ x))).length := List.length_pos_of_mem (a := x) (by simp [hxl])
      rw [show (l.filter (fun y => decide (y ≤ x))).length + 1 - 1 = ((l.filter (fun y => decide (y ≤ x))).length - 1) + 1 by omega,
        List.getElem?_cons_succ]
      exact ih h.2 hxl
    · have he : x = a := (List.mem_cons.mp hx).resolve_right hxl
      subst he
      have : l.filter (fun y => decide (y ≤ x)) = [] := by
        rw [List.filter_eq_nil_iff]
        intro z hz hc
        simp only [decide_eq_true_eq] at hc
        exact hxl (le_antisymm hc (h.1 z hz) ▸ hz)
      rw [this]
      rfl

end Ficus.Rs.Itv
