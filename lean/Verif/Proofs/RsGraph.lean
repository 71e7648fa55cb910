import Verif.Proofs.RsRepeatSets

/-! Lemmas for the graph of activities of the backend. -/

namespace Ficus.Rs
open Spec

/-- A node without its children. -/
def strip (n : RNode) : RNode := { n with children := [] }

/-- The children of the node behind a pointer. -/
def kids (ns : List RNode) (j : Nat) : List Nat := ((ns[j]?).map RNode.children).getD []

/-- The classes of the node behind a pointer. -/
def cls (ns : List RNode) (j : Nat) : List Nat := ((ns[j]?).map RNode.classes).getD []

theorem strip_map_get (ns ms : List RNode) (h : ms.map strip = ns) (j : Nat) : ns[j]? = (ms[j]?).map strip := by
  rw [← h, List.getElem?_map]

theorem cls_strip (ns ms : List RNode) (h : ms.map strip = ns) (j : Nat) : cls ms j = cls ns j := by
  unfold cls
  rw [strip_map_get ns ms h]
  cases ms[j]? <;> rfl

theorem containsAt_strip (ns ms : List RNode) (h : ms.map strip = ns) (c : List Nat) (p : Nat) :
    containsAt ms c p = containsAt ns c p := by
  unfold containsAt
  rw [strip_map_get ns ms h]
  cases ms[p]? <;> rfl

theorem containsAt_iff (ns : List RNode) (c : List Nat) (p : Nat) (hp : p < ns.length) :
    containsAt ns c p = true ↔ ∀ x ∈ c, x ∈ cls ns p := by
  unfold containsAt cls
  rw [List.getElem?_eq_getElem hp]
  simp [RNode.covers]

theorem containsAt_lt (ns : List RNode) (c : List Nat) (p : Nat) (h : containsAt ns c p = true) : p < ns.length := by
  by_contra hc
  unfold containsAt at h
  rw [List.getElem?_eq_none (by omega)] at h
  cases h

theorem pushChild_strip (i : Nat) (ms : List RNode) (p : Nat) : (pushChild i ms p).map strip = ms.map strip := by
  unfold pushChild
  apply List.ext_getElem?
  intro j
  rw [List.getElem?_map, List.getElem?_map, List.getElem?_modify]
  cases ms[j]? with
  | none => simp
  | some n => by_cases h : p = j <;> simp [h, strip]

theorem pushChild_kids (i : Nat) (ms : List RNode) (p j : Nat) (hp : p < ms.length) :
    kids (pushChild i ms p) j = kids ms j ++ if j = p then [i] else [] := by
  unfold kids pushChild
  rw [List.getElem?_modify]
  by_cases h : p = j
  · subst h
    rw [List.getElem?_eq_getElem hp]; simp
  · have h' : ¬ j = p := fun e => h e.symm
    cases ms[j]? <;> simp [h, h']

theorem pushChildren (i : Nat) (parents : List Nat) (ms : List RNode) (hp : ∀ p ∈ parents, p < ms.length)
    (hn : parents.Nodup) : (parents.foldl (pushChild i) ms).map strip = ms.map strip ∧
      ∀ j, kids (parents.foldl (pushChild i) ms) j = kids ms j ++ if j ∈ parents then [i] else [] := by
  induction parents generalizing ms with
  | nil => simp
  | cons p parents ih =>
    have hlen : (pushChild i ms p).length = ms.length := by simp [pushChild]
    rw [List.nodup_cons] at hn
    obtain ⟨h1, h2⟩ := ih (pushChild i ms p) (fun q hq => by rw [hlen]; exact hp q (by simp [hq])) hn.2
    rw [List.foldl_cons]
    refine ⟨h1.trans (pushChild_strip i ms p), ?_⟩
    intro j
    rw [h2, pushChild_kids i ms p j (hp p (by simp))]
    by_cases hj : j = p
    · subst hj; simp [hn.1]
    · simp [hj]

/-- A node that is not of the greatest size and contains the classes of the node `c`. -/
def mid (ns : List RNode) (c q : Nat) : Bool :=
  decide ((cls ns c).length < (cls ns q).length) && containsAt ns (cls ns c) q

/-- The parents of the node `c`. -/
def par (ns : List RNode) (top p c : Nat) : Bool :=
  if (List.range' top (c - top)).any (mid ns c) then decide (top ≤ p ∧ p < c) && mid ns c p
  else decide (p < top) && containsAt ns (cls ns c) p

/-- The node has no parent. -/
def orphan (ns : List RNode) (top c : Nat) : Bool := (List.range ns.length).all (fun p => ! par ns top p c)

/-- What the nodes have to satisfy before the loop. -/
structure Ready (ns : List RNode) : Prop where
  bare : ∀ n ∈ ns, n.children = []
  nodup : ∀ n ∈ ns, n.classes.Nodup
  sorted : ns.Pairwise (fun a b => b.size ≤ a.size)
  distinct : ns.Pairwise (fun a b => ¬ SameSet a.classes b.classes)

theorem Ready.sorted_at {ns : List RNode} (h : Ready ns) {p c : Nat} (hpc : p ≤ c) (hc : c < ns.length) :
    (cls ns c).length ≤ (cls ns p).length := by
  unfold cls
  rw [List.getElem?_eq_getElem hc, List.getElem?_eq_getElem (by omega)]
  rcases Nat.lt_or_ge p c with hlt | hge
  · exact List.pairwise_iff_getElem.1 h.sorted p c (by omega) hc hlt
  · obtain rfl : p = c := by omega
    simp

theorem Ready.nodup_at {ns : List RNode} (h : Ready ns) (p : Nat) : (cls ns p).Nodup := by
  unfold cls
  cases hp : ns[p]? with
  | none => simp
  | some n => simpa using h.nodup n (List.mem_of_getElem? hp)

theorem sameSet_of_subset {u v : List Nat} (hu : u.Nodup) (h : ∀ x ∈ u, x ∈ v) (hl : v.length ≤ u.length) (_hv : v.Nodup) :
    SameSet u v := by
  have hs : u.Subperm v := List.subperm_of_subset hu h
  have hp : u.Perm v := hs.perm_of_length_le hl
  exact fun x => hp.mem_iff

theorem Ready.larger {ns : List RNode} (h : Ready ns) {p c : Nat} (hp : p < ns.length) (hc : c < ns.length) (hne : p ≠ c)
    (hcov : ∀ x ∈ cls ns c, x ∈ cls ns p) : (cls ns c).length < (cls ns p).length := by
  by_contra hlt
  have hs := sameSet_of_subset (h.nodup_at c) hcov (by omega) (h.nodup_at p)
  unfold cls at hs
  rw [List.getElem?_eq_getElem hc, List.getElem?_eq_getElem hp] at hs
  simp only [Option.map_some, Option.getD_some] at hs
  rcases Nat.lt_or_gt_of_ne hne with hlt' | hgt
  · exact List.pairwise_iff_getElem.1 h.distinct p c hp hc hlt' (fun x => (hs x).symm)
  · exact List.pairwise_iff_getElem.1 h.distinct c p hc hp hgt hs

/-- The invariant of the loop. -/
structure GrownInv (ns : List RNode) (top i : Nat) (st : Grown) : Prop where
  strip : st.nodes.map strip = ns
  kids : ∀ j, kids st.nodes j = (List.range' top (i - top)).filter (fun c => par ns top j c)
  tops : st.tops = List.range top ++ (List.range' top (i - top)).filter (orphan ns top)
  some : st.levels ≠ []
  flat : st.levels.flatten = List.range' top (i - top)
  above : ∀ j, top ≤ j → j < i → st.currentLength ≤ (cls ns j).length
  below : ∀ j, i ≤ j → j < ns.length → (cls ns j).length ≤ st.currentLength
  drop : st.levels.dropLast.flatten = (List.range' top (i - top)).filter (fun j => decide (st.currentLength < (cls ns j).length))

theorem dropLast_getLastD {α : Type} (l : List (List α)) (h : l ≠ []) : l.dropLast ++ [l.getLastD []] = l := by
  rw [List.getLastD_eq_getLast?, List.getLast?_eq_some_getLast h]
  exact List.dropLast_append_getLast h

theorem range'_snoc (top i : Nat) (h : top ≤ i) : List.range' top (i + 1 - top) = List.range' top (i - top) ++ [i] := by
  rw [show i + 1 - top = (i - top) + 1 by omega, List.range'_1_concat, show top + (i - top) = i by omega]

theorem growStep_inv (ns : List RNode) (hr : Ready ns) (top i : Nat) (ht : top ≤ i) (hi : i < ns.length) (st : Grown)
    (h : GrownInv ns top i st) : GrownInv ns top (i + 1) (growStep st i) := by
  set s := (cls ns i).length with hs
  have hcl : ((st.nodes[i]?).map RNode.classes).getD [] = cls ns i := cls_strip ns st.nodes h.strip i
  have hlen : st.nodes.length = ns.length := by rw [← h.strip]; simp
  -- the levels after the comparison of sizes
  obtain ⟨levels, hlev, hne, hflat, hdrop⟩ : ∃ levels, levels = (if s < st.currentLength then st.levels ++ [[]] else st.levels) ∧
      levels ≠ [] ∧ levels.flatten = List.range' top (i - top) ∧
      levels.dropLast.flatten = (List.range' top (i - top)).filter (fun j => decide (s < (cls ns j).length)) := by
    refine ⟨_, rfl, ?_⟩
    by_cases hsm : s < st.currentLength
    · rw [if_pos hsm]
      refine ⟨by simp, by simp [h.flat], ?_⟩
      rw [List.dropLast_concat, h.flat]
      symm
      rw [List.filter_eq_self]
      intro j hj
      rw [List.mem_range'_1] at hj
      have := h.above j hj.1 (by omega)
      simp; omega
    · rw [if_neg hsm]
      refine ⟨h.some, h.flat, ?_⟩
      have : st.currentLength = s := by
        have := h.below i (le_refl i) hi
        omega
      rw [h.drop, this]
  have hcur : (if s < st.currentLength then s else st.currentLength) = s := by
    have := h.below i (le_refl i) hi
    split <;> omega
  -- the parents
  set ps1 := levels.dropLast.reverse.flatten.filter (containsAt st.nodes (cls ns i)) with hps1
  have hmem1 : ∀ q, q ∈ ps1 ↔ (top ≤ q ∧ q < i) ∧ mid ns i q = true := by
    intro q
    rw [hps1, List.mem_filter]
    have : q ∈ levels.dropLast.reverse.flatten ↔ q ∈ levels.dropLast.flatten := by simp [List.mem_flatten]
    rw [this, hdrop, List.mem_filter, List.mem_range'_1, containsAt_strip ns st.nodes h.strip]
    unfold mid
    rw [Bool.and_eq_true, decide_eq_true_eq]
    constructor
    · rintro ⟨⟨⟨a, b⟩, c⟩, d⟩; exact ⟨⟨a, by omega⟩, c, d⟩
    · rintro ⟨⟨a, b⟩, c, d⟩; exact ⟨⟨⟨a, by omega⟩, c⟩, d⟩
  have hnd1 : ps1.Nodup := by
    refine List.Nodup.filter _ ?_
    have hp : levels.dropLast.reverse.flatten.Perm levels.dropLast.flatten := (List.reverse_perm _).flatten
    rw [hp.nodup_iff, hdrop]
    exact (List.nodup_range' (s := top)).filter _
  have hany : (List.range' top (i - top)).any (mid ns i) = true ↔ ps1 ≠ [] := by
    rw [List.any_eq_true]
    constructor
    · rintro ⟨q, hq, hm⟩
      rw [List.mem_range'_1] at hq
      exact List.ne_nil_of_mem ((hmem1 q).2 ⟨⟨hq.1, by omega⟩, hm⟩)
    · intro hne
      obtain ⟨q, hq⟩ := List.exists_mem_of_ne_nil _ hne
      obtain ⟨h1, h2⟩ := (hmem1 q).1 hq
      exact ⟨q, List.mem_range'_1.2 ⟨h1.1, by omega⟩, h2⟩
  set ps := (if ps1 = [] then st.tops.filter (fun t => containsAt st.nodes (cls ns i) t && decide (t ≠ i)) else ps1) with hps
  have hmem : ∀ q, q ∈ ps ↔ par ns top q i = true := by
    intro q
    unfold par
    by_cases he : ps1 = []
    · rw [hps, if_pos he, if_neg (fun hc => (hany.1 hc) he), List.mem_filter, Bool.and_eq_true, Bool.and_eq_true,
        containsAt_strip ns st.nodes h.strip, h.tops]
      simp only [List.mem_append, List.mem_range, List.mem_filter, List.mem_range'_1, decide_eq_true_eq]
      constructor
      · rintro ⟨h1 | ⟨h1, -⟩, h2, h3⟩
        · exact ⟨h1, h2⟩
        · exfalso
          have hql : q < ns.length := by omega
          have hlt := hr.larger hql hi h3 ((containsAt_iff ns _ q hql).1 h2)
          have hm : q ∈ ps1 := (hmem1 q).2 ⟨⟨h1.1, by omega⟩, by unfold mid; simp [hlt, h2]⟩
          rw [he] at hm; cases hm
      · rintro ⟨h1, h2⟩
        exact ⟨Or.inl h1, h2, by omega⟩
    · rw [hps, if_neg he, if_pos (hany.2 he), hmem1]
      simp
  have hnd : ps.Nodup := by
    rw [hps]
    split
    · refine List.Nodup.filter _ ?_
      rw [h.tops]
      refine List.Nodup.append List.nodup_range ((List.nodup_range' (s := top)).filter _) ?_
      intro x hx hx'
      rw [List.mem_range] at hx
      rw [List.mem_filter, List.mem_range'_1] at hx'
      omega
    · exact hnd1
  have hplt : ∀ p ∈ ps, p < st.nodes.length := by
    intro p hp
    rw [hlen]
    have := (hmem p).1 hp
    unfold par at this
    split at this <;> simp at this <;> omega
  obtain ⟨hst, hk⟩ := pushChildren i ps st.nodes hplt hnd
  have hempty : ps = [] ↔ orphan ns top i = true := by
    unfold orphan
    rw [List.all_eq_true]
    constructor
    · intro he p _
      cases hp : par ns top p i with
      | false => rfl
      | true => have := (hmem p).2 hp; rw [he] at this; cases this
    · intro hall
      by_contra hne
      obtain ⟨p, hp⟩ := List.exists_mem_of_ne_nil _ hne
      have h1 := hall p (List.mem_range.2 (by rw [← hlen]; exact hplt p hp))
      rw [(hmem p).1 hp] at h1; cases h1
  have hgrow : growStep st i =
      Grown.mk (ps.foldl (pushChild i) st.nodes) (if ps = [] then st.tops ++ [i] else st.tops) s (pushLast i levels) := by
    unfold growStep
    simp only [hcl, decide_eq_true_eq, ← hs]
    rw [hcur, ← hlev]
  rw [hgrow]
  have hr' := range'_snoc top i ht
  refine ⟨hst.trans h.strip, ?_, ?_, ?_, ?_, ?_, ?_, ?_⟩
  · intro j
    simp only
    rw [hk, h.kids, hr', List.filter_append]
    congr 1
    by_cases hj : par ns top j i = true
    · rw [if_pos ((hmem j).2 hj)]; simp [hj]
    · rw [if_neg (fun hc => hj ((hmem j).1 hc))]; simp [hj]
  · simp only
    rw [hr', List.filter_append, ← List.append_assoc, ← h.tops]
    by_cases he : ps = []
    · rw [if_pos he]; simp [hempty.1 he]
    · rw [if_neg he]
      have : ¬ orphan ns top i = true := fun hc => he (hempty.2 hc)
      simp [this]
  · simp [pushLast]
  · simp only [pushLast]
    have := congrArg List.flatten (dropLast_getLastD levels hne)
    rw [List.flatten_append] at this
    simp only [List.flatten_append, List.flatten_cons, List.flatten_nil, List.append_nil] at this ⊢
    rw [hr', ← hflat, ← this]; simp
  · intro j h1 h2
    exact hr.sorted_at (by omega) hi
  · intro j h1 h2
    exact hr.sorted_at (by omega) h2
  · simp only [pushLast, List.dropLast_concat]
    rw [hdrop, hr', List.filter_append]
    simp [hs]

theorem growAll_inv (ns : List RNode) (hr : Ready ns) (top : Nat) (n i : Nat) (ht : top ≤ i) (hn : i + n = ns.length) (st : Grown)
    (h : GrownInv ns top i st) : GrownInv ns top ns.length ((List.range' i n).foldl growStep st) := by
  induction n generalizing i st with
  | zero => rw [← hn]; simpa using h
  | succ n ih =>
    rw [List.range'_succ, List.foldl_cons]
    exact ih (i + 1) (by omega) (by omega) _ (growStep_inv ns hr top i ht (by omega) st h)

/-- What `growStep` makes of the sorted nodes. -/
theorem grown_spec (ns : List RNode) (hr : Ready ns) (top : Nat) (htop : top < ns.length)
    (hmin : ∀ j, top ≤ j → j < ns.length → (cls ns j).length ≤ (cls ns top).length) :
    GrownInv ns top ns.length ((List.range' top (ns.length - top)).foldl growStep
      { nodes := ns, tops := List.range top, currentLength := (cls ns top).length, levels := [[]] }) := by
  refine growAll_inv ns hr top (ns.length - top) top (le_refl _) (by omega) _ ?_
  refine ⟨?_, ?_, ?_, ?_, ?_, ?_, ?_, ?_⟩
  · simp only
    conv_rhs => rw [← List.map_id ns]
    refine List.map_congr_left (fun n hn => ?_)
    have := hr.bare n hn
    unfold strip
    cases n
    simp_all
  · intro j
    simp only [Nat.sub_self, List.range'_zero, List.filter_nil]
    unfold kids
    cases hj : ns[j]? with
    | none => rfl
    | some n => simpa using hr.bare n (List.mem_of_getElem? hj)
  · simp
  · simp
  · simp
  · intro j h1 h2; omega
  · exact hmin
  · simp

end Ficus.Rs
