import Verif.Proofs.Cells
import Verif.Proofs.Abstraction

/-! Parts of traces and the pieces that are drawn for them. -/

namespace Ficus
open Spec

/-- The parts of a trace from position `last` on. -/
def segsFrom (n : Nat) : Nat → List SubTrace → List TracePart
  | last, [] => if last < n then [⟨last, n - last, none⟩] else []
  | last, d :: ds => (if last < d.start then [⟨last, d.start - last, none⟩] else []) ++
      ⟨d.start, d.length, some d⟩ :: segsFrom n (d.start + d.length) ds

theorem segsFrom_subs (n last : Nat) (ds : List SubTrace) : (segsFrom n last ds).filterMap (·.sub) = ds := by
  induction ds generalizing last with
  | nil => unfold segsFrom; split <;> rfl
  | cons d ds ih =>
    unfold segsFrom
    rw [List.filterMap_append, List.filterMap_cons]
    simp only [ih]
    split <;> rfl

theorem segsFrom_places (n last : Nat) (ds : List SubTrace) (s : TracePart) (hs : s ∈ segsFrom n last ds) (d : SubTrace)
    (h : s.sub = some d) : s.start = d.start ∧ s.length = d.length := by
  induction ds generalizing last with
  | nil =>
    unfold segsFrom at hs
    split at hs
    · simp only [List.mem_singleton] at hs; subst hs; cases h
    · simp at hs
  | cons e ds ih =>
    unfold segsFrom at hs
    rw [List.mem_append, List.mem_cons] at hs
    rcases hs with hs | rfl | hs
    · split at hs
      · simp only [List.mem_singleton] at hs; subst hs; cases h
      · simp at hs
    · cases h; exact ⟨rfl, rfl⟩
    · exact ih _ hs

theorem wellPlaced_tail {n : Nat} {d : SubTrace} {ds : List SubTrace} (hw : WellPlaced n ((d :: ds).map subSpanOf)) :
    WellPlaced n (ds.map subSpanOf) ∧ (0 < d.length ∧ d.start + d.length ≤ n) ∧ ∀ e ∈ ds, d.start + d.length ≤ e.start :=
  ⟨⟨fun p hp => hw.1 p (by simp only [List.map_cons, List.mem_cons]; exact Or.inr hp), (List.pairwise_cons.1 hw.2).2⟩,
    hw.1 (subSpanOf d) (by simp), fun e he => (List.pairwise_cons.1 hw.2).1 (subSpanOf e) (List.mem_map.2 ⟨e, he, rfl⟩)⟩

theorem segsFrom_tiles (n last : Nat) (ds : List SubTrace) (hle : last ≤ n) (hw : WellPlaced n (ds.map subSpanOf))
    (hlo : ∀ d ∈ ds, last ≤ d.start) :
    (segsFrom n last ds).flatMap (fun s => List.range' s.start s.length) = List.range' last (n - last) := by
  induction ds generalizing last with
  | nil =>
    unfold segsFrom
    by_cases h : last < n
    · rw [if_pos h]; simp
    · rw [if_neg h]; have : n - last = 0 := by omega
      simp [this]
  | cons d ds ih =>
    obtain ⟨hw', hd, hnext⟩ := wellPlaced_tail hw
    have hlo' := hlo d (by simp)
    have hrec := ih (d.start + d.length) hd.2 hw' hnext
    unfold segsFrom
    have hact : ((⟨d.start, d.length, some d⟩ : TracePart) :: segsFrom n (d.start + d.length) ds).flatMap
        (fun s => List.range' s.start s.length) = List.range' d.start (n - d.start) := by
      rw [List.flatMap_cons, hrec]
      show List.range' d.start d.length ++ _ = _
      rw [List.range'_append_1]
      congr 1; omega
    by_cases h : last < d.start
    · rw [if_pos h, List.flatMap_append, hact]
      simp only [List.flatMap_cons, List.flatMap_nil, List.append_nil]
      have := List.range'_append_1 (s := last) (m := d.start - last) (n := n - d.start)
      rw [show last + (d.start - last) = d.start by omega] at this
      rw [this]; congr 1; omega
    · have : last = d.start := by omega
      rw [if_neg h, List.nil_append, hact, this]

theorem segsFrom_gaps (n last : Nat) (ds : List SubTrace) (s : TracePart) (hs : s ∈ segsFrom n last ds) (h : s.sub = none) :
    0 < s.length ∧ (s.start = last ∨ ∃ d ∈ ds, s.start = d.start + d.length) ∧
      (s.start + s.length = n ∨ ∃ d ∈ ds, s.start + s.length = d.start) := by
  induction ds generalizing last with
  | nil =>
    unfold segsFrom at hs
    split at hs
    · simp only [List.mem_singleton] at hs
      subst hs
      exact ⟨by simp only; omega, Or.inl rfl, Or.inl (by simp only; omega)⟩
    · simp at hs
  | cons d ds ih =>
    unfold segsFrom at hs
    rw [List.mem_append, List.mem_cons] at hs
    rcases hs with hs | rfl | hs
    · split at hs
      · simp only [List.mem_singleton] at hs
        subst hs
        exact ⟨by simp only; omega, Or.inl rfl, Or.inr ⟨d, by simp, by simp only; omega⟩⟩
      · simp at hs
    · cases h
    · obtain ⟨h1, h2, h3⟩ := ih _ hs
      refine ⟨h1, Or.inr ?_, ?_⟩
      · rcases h2 with h2 | ⟨e, he, h2⟩
        · exact ⟨d, by simp, h2⟩
        · exact ⟨e, by simp [he], h2⟩
      · rcases h3 with h3 | ⟨e, he, h3⟩
        · exact Or.inl h3
        · exact Or.inr ⟨e, by simp [he], h3⟩

theorem segments (n : Nat) (ds : List SubTrace) (hw : WellPlaced n (ds.map subSpanOf)) :
    Segments n ds (segsFrom n 0 ds) := by
  have ht : (segsFrom n 0 ds).flatMap (fun s => List.range' s.start s.length) = List.range n := by
    rw [segsFrom_tiles n 0 ds (Nat.zero_le _) hw (fun _ _ => Nat.zero_le _), List.range_eq_range']; rfl
  have hp := segsFrom_places n 0 ds
  refine ⟨ht, segsFrom_subs _ _ _, hp, ?_⟩
  intro s hs h
  obtain ⟨h1, h2, h3⟩ := segsFrom_gaps n 0 ds s hs h
  refine ⟨h1, ?_, ?_, ?_⟩
  · rintro i hi1 hi2 ⟨p, hpm, h4, h5⟩
    obtain ⟨d, hd, rfl⟩ := List.mem_map.1 hpm
    have hd' : d ∈ (segsFrom n 0 ds).filterMap (·.sub) := by rw [segsFrom_subs]; exact hd
    obtain ⟨t, ht', htd⟩ := List.mem_filterMap.1 hd'
    obtain ⟨a, b⟩ := hp t ht' d htd
    have hnd : ((segsFrom n 0 ds).flatMap (fun s => List.range' s.start s.length)).Nodup := by
      rw [ht]; exact List.nodup_range
    rw [List.nodup_flatMap] at hnd
    have hsym : Std.Symm (fun a b : TracePart => List.Disjoint (List.range' a.start a.length) (List.range' b.start b.length)) :=
      ⟨fun a b h => h.symm⟩
    have hdis := hnd.2.forall hs ht' (by rintro rfl; rw [h] at htd; cases htd)
    apply hdis (a := i)
    · rw [List.mem_range'_1]; exact ⟨hi1, hi2⟩
    · rw [List.mem_range'_1, a, b]; exact ⟨h4, h5⟩
  · rcases h2 with h2 | ⟨d, hd, h2⟩
    · exact Or.inl h2
    · right
      have := hw.1 (subSpanOf d) (List.mem_map.2 ⟨d, hd, rfl⟩)
      simp only [subSpanOf] at this
      exact ⟨subSpanOf d, List.mem_map.2 ⟨d, hd, rfl⟩, by simp only [subSpanOf]; omega, by simp only [subSpanOf]; omega⟩
  · rcases h3 with h3 | ⟨d, hd, h3⟩
    · exact Or.inl h3
    · right
      have := hw.1 (subSpanOf d) (List.mem_map.2 ⟨d, hd, rfl⟩)
      simp only [subSpanOf] at this
      exact ⟨subSpanOf d, List.mem_map.2 ⟨d, hd, rfl⟩, by simp only [subSpanOf]; omega, by simp only [subSpanOf]; omega⟩

/-- The pieces of a row, as they are drawn. -/
def rowCells (short : Bool) (ws n : Nat) (col : SubTrace → String) (gap : String) : List SubTrace → Nat → List Piece
  | [], last => if last < n then [⟨partWidth short ws (n - last), gap, none⟩] else []
  | d :: ds, last => (if last < d.start then [⟨partWidth short ws (d.start - last), gap, some undefinedActivity⟩] else []) ++
      ⟨partWidth short ws d.length, col d, some d.name⟩ :: rowCells short ws n col gap ds (d.start + d.length)

theorem rowCells_segs (short : Bool) (ws n : Nat) (col : SubTrace → String) (gap : String) (ds : List SubTrace)
    (last : Nat) (hw : WellPlaced n (ds.map subSpanOf)) :
    rowCells short ws n col gap ds last = (segsFrom n last ds).map (segCell short ws n col gap true) := by
  induction ds generalizing last with
  | nil =>
    unfold rowCells segsFrom
    split
    · rename_i h
      simp only [List.map_cons, List.map_nil, segCell, partWidth, Bool.true_and]
      rw [show last + (n - last) = n by omega]
      simp
    · rfl
  | cons d ds ih =>
    obtain ⟨hw', hd, hnext⟩ := wellPlaced_tail hw
    unfold rowCells segsFrom
    rw [List.map_append, List.map_cons, ih _ hw']
    congr 1
    split
    · rename_i h
      simp only [List.map_cons, List.map_nil, segCell, partWidth, Bool.true_and]
      rw [show last + (d.start - last) = d.start by omega]
      have : (d.start == n) = false := by simp; omega
      rw [this]
      rfl
    · rfl

/-- The row that is drawn for a trace. -/
def traceCells (short : Bool) (ws n : Nat) (col : SubTrace → String) (gap : String) (ds : List SubTrace) : List Piece :=
  if ds.length = 0 then [⟨partWidth short ws n, gap, some undefinedActivity⟩] else rowCells short ws n col gap ds 0

theorem traceCells_isRow (short : Bool) (ws n : Nat) (col : SubTrace → String) (gap : String) (ds : List SubTrace)
    (hw : WellPlaced n (ds.map subSpanOf)) : IsRow short ws col gap n ds (traceCells short ws n col gap ds) := by
  constructor
  · rintro rfl
    cases ds with
    | nil => cases short <;> simp [traceCells, partWidth, undefinedActivity]
    | cons d ds =>
      have := (wellPlaced_tail hw).2.1
      omega
  · intro hn
    refine ⟨segsFrom n 0 ds, segments n ds hw, ?_⟩
    cases ds with
    | nil =>
      unfold traceCells segsFrom
      rw [if_pos List.length_nil, if_pos hn]
      simp [segCell, partWidth, undefinedActivity]
    | cons d ds =>
      unfold traceCells
      rw [if_neg (by simp)]
      exact rowCells_segs short ws n col gap (d :: ds) 0 hw

/-- Pieces of the full diagram begin at the positions of their parts. -/
theorem leftOf_segsFrom (ws n : Nat) (col : SubTrace → String) (gap : String) (anySub : Bool) (ds : List SubTrace)
    (last : Nat) (hle : last ≤ n) (hw : WellPlaced n (ds.map subSpanOf)) (hlo : ∀ d ∈ ds, last ≤ d.start) (j : Nat) (s : TracePart)
    (hs : (segsFrom n last ds)[j]? = some s) :
    leftOf ((segsFrom n last ds).map (segCell false ws n col gap anySub)) j + ws * last = ws * s.start := by
  induction ds generalizing last j s with
  | nil =>
    unfold segsFrom at hs ⊢
    split at hs
    · cases j with
      | zero => simp at hs; subst hs; simp [leftOf]
      | succ j => simp at hs
    · simp at hs
  | cons d ds ih =>
    obtain ⟨hw', hd, hnext⟩ := wellPlaced_tail hw
    have hlo' := hlo d (by simp)
    have tail : ∀ (j : Nat) (s : TracePart), ((⟨d.start, d.length, some d⟩ : TracePart) :: segsFrom n (d.start + d.length) ds)[j]? = some s →
        leftOf (((⟨d.start, d.length, some d⟩ : TracePart) :: segsFrom n (d.start + d.length) ds).map
          (segCell false ws n col gap anySub)) j + ws * d.start = ws * s.start := by
      intro j s hs
      cases j with
      | zero => simp at hs; subst hs; simp [leftOf]
      | succ j =>
        rw [List.getElem?_cons_succ] at hs
        have := ih (d.start + d.length) hd.2 hw' hnext j s hs
        rw [← this, List.map_cons]
        simp only [leftOf, List.take_succ_cons, List.map_cons, List.sum_cons, segCell, Nat.mul_add]
        simp only [Bool.false_eq_true, if_false]
        omega
    unfold segsFrom at hs ⊢
    by_cases h : last < d.start
    · rw [if_pos h] at hs ⊢
      cases j with
      | zero => simp at hs; subst hs; simp [leftOf]
      | succ j =>
        simp only [List.singleton_append, List.getElem?_cons_succ] at hs
        have := tail j s hs
        rw [← this]
        simp only [List.singleton_append, List.map_cons, leftOf, List.take_succ_cons, List.sum_cons, segCell]
        simp only [Bool.false_eq_true, if_false]
        have : ws * (d.start - last) + ws * last = ws * d.start := by rw [← Nat.mul_add]; congr 1; omega
        omega
    · rw [if_neg h] at hs ⊢
      have e : last = d.start := by omega
      rw [e]
      exact tail j s hs

end Ficus
