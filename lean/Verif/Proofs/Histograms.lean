import Verif.Spec.Histograms
import Verif.Props.Split
import Mathlib.Tactic.Ring
import Mathlib.Tactic.Linarith

namespace Ficus
open Spec

variable {E : Type} [HasName E]

/-- The calls for one log. -/
def callsAt (stem : String → String) (logs : List (Log E)) (names : List String) (cell : Nat → Nat × Nat) (i : Nat) :
    List HistCall :=
  match logs[i]?, names[i]? with
  | some log, some n =>
    match createArrayForHist log with
    | .ok (hist, classes) => [.title (cell i) (stem n), .hist (cell i) hist (binsOf classes)]
    | .error _ => []
  | _, _ => []

theorem hist_ok (log : Log E) : ∃ hist classes, createArrayForHist log = .ok (hist, classes) := by
  obtain ⟨gs, h, _⟩ := C13_partition log
  obtain ⟨hist, h1, _⟩ := C13_histogram log gs h
  exact ⟨_, _, h1⟩

theorem histRow_eq (stem : String → String) (logs : List (Log E)) (names : List String) (side row : Nat)
    (hs : 2 ≤ side) (hn : logs.length ≤ names.length) (fuel col index : Nat) (hi : index ≤ logs.length) :
    histRow stem logs names side row fuel col index =
      (((List.range' index (min fuel (logs.length - index))).flatMap
        (callsAt stem logs names (fun i => (row, col + (i - index)))), none), index + min fuel (logs.length - index)) := by
  induction fuel generalizing col index with
  | zero => simp [histRow]
  | succ fuel ih =>
    unfold histRow
    by_cases hlt : index < logs.length
    · obtain ⟨hist, classes, hh⟩ := hist_ok logs[index]
      have hc : histCell stem names side (row, col) index logs[index] =
          ([.title (row, col) (stem (names[index]'(by omega))), .hist (row, col) hist (binsOf classes)], none) := by
        unfold histCell cellAccess
        rw [List.getElem?_eq_getElem (by omega : index < names.length), if_neg (by omega), hh]
      rw [List.getElem?_eq_getElem hlt]
      simp only [hc, ih (col + 1) (index + 1) (by omega)]
      have hm : min (fuel + 1) (logs.length - index) = min fuel (logs.length - (index + 1)) + 1 := by omega
      rw [hm, List.range'_succ, List.flatMap_cons]
      have h0 : callsAt stem logs names (fun i => (row, col + (i - index))) index =
          [.title (row, col) (stem (names[index]'(by omega))), .hist (row, col) hist (binsOf classes)] := by
        unfold callsAt
        rw [List.getElem?_eq_getElem hlt, List.getElem?_eq_getElem (by omega : index < names.length)]
        simp [hh]
      have hrest : (List.range' (index + 1) (min fuel (logs.length - (index + 1)))).flatMap
            (callsAt stem logs names (fun i => (row, col + 1 + (i - (index + 1))))) =
          (List.range' (index + 1) (min fuel (logs.length - (index + 1)))).flatMap
            (callsAt stem logs names (fun i => (row, col + (i - index)))) := by
        unfold List.flatMap
        congr 1
        apply List.map_congr_left
        intro i hi'
        have := (List.mem_range'_1.1 hi').1
        unfold callsAt
        have e : col + 1 + (i - (index + 1)) = col + (i - index) := by omega
        simp only [e]
      rw [h0, hrest]
      simp only [HistRun.andThen, Prod.mk.injEq, true_and]
      omega
    · rw [List.getElem?_eq_none (by omega)]
      have : logs.length - index = 0 := by omega
      simp [this]

theorem callsAt_congr (stem : String → String) (logs : List (Log E)) (names : List String) (f g : Nat → Nat × Nat)
    (l : List Nat) (h : ∀ i ∈ l, f i = g i) :
    l.flatMap (callsAt stem logs names f) = l.flatMap (callsAt stem logs names g) := by
  unfold List.flatMap
  congr 1
  apply List.map_congr_left
  intro i hi
  unfold callsAt
  rw [h i hi]

theorem histRows_eq (stem : String → String) (logs : List (Log E)) (names : List String) (side : Nat)
    (hs : 2 ≤ side) (hn : logs.length ≤ names.length) (fuel row : Nat) :
    histRows stem logs names side fuel row (min (row * side) logs.length) =
      ((List.range' (min (row * side) logs.length)
          (min ((row + fuel) * side) logs.length - min (row * side) logs.length)).flatMap
        (callsAt stem logs names (fun i => (i / side, i % side))), none) := by
  induction fuel generalizing row with
  | zero => simp [histRows]
  | succ fuel ih =>
    unfold histRows
    simp only
    set index := min (row * side) logs.length with hidx
    rw [histRow_eq stem logs names side row hs hn side 0 index (Nat.min_le_right _ _)]
    have hnext : index + min side (logs.length - index) = min ((row + 1) * side) logs.length := by
      rw [Nat.add_mul, Nat.one_mul]
      omega
    simp only [hnext, ih (row + 1)]
    have hcell : (List.range' index (min side (logs.length - index))).flatMap
          (callsAt stem logs names (fun i => (row, 0 + (i - index)))) =
        (List.range' index (min side (logs.length - index))).flatMap
          (callsAt stem logs names (fun i => (i / side, i % side))) := by
      apply callsAt_congr
      intro i hi
      have h := List.mem_range'_1.1 hi
      have hlt : index < logs.length := by omega
      have hidx' : index = row * side := by omega
      obtain ⟨k, rfl⟩ : ∃ k, i = row * side + k := ⟨i - row * side, by omega⟩
      have hk : k < side := by omega
      rw [hidx']
      simp only [Nat.zero_add, Nat.add_sub_cancel_left, Prod.mk.injEq]
      have e : row * side + k = k + side * row := by ring
      rw [e]
      refine ⟨?_, ?_⟩
      · rw [Nat.add_mul_div_left _ _ (by omega), Nat.div_eq_of_lt hk]
        omega
      · rw [Nat.add_mul_mod_self_left, Nat.mod_eq_of_lt hk]
    rw [hcell]
    simp only [HistRun.andThen, Prod.mk.injEq, and_true]
    rw [← List.flatMap_append]
    congr 1
    have hle : index ≤ min ((row + 1) * side) logs.length := by omega
    have hle2 : min ((row + 1) * side) logs.length ≤ min ((row + 1 + fuel) * side) logs.length := by
      have : (row + 1) * side ≤ (row + 1 + fuel) * side := Nat.mul_le_mul_right _ (by omega)
      omega
    have e1 : row + 1 + fuel = row + (fuel + 1) := by omega
    rw [e1] at hle2 ⊢
    have e2 : min ((row + (fuel + 1)) * side) logs.length - index =
        min side (logs.length - index) +
          (min ((row + (fuel + 1)) * side) logs.length - min ((row + 1) * side) logs.length) := by omega
    rw [e2, ← List.range'_append_1, hnext]

theorem sideLength_spec (n : Nat) (h : 2 ≤ n) :
    n ≤ sideLength n * sideLength n ∧ (sideLength n - 1) * (sideLength n - 1) < n ∧ 2 ≤ sideLength n := by
  unfold sideLength
  have h1 := Nat.sqrt_le n
  have h2 := Nat.lt_succ_sqrt n
  have h3 : 1 ≤ n.sqrt := Nat.le_sqrt.2 (by omega)
  simp only [Nat.succ_eq_add_one] at h2
  split
  · rename_i he
    refine ⟨by omega, ?_, ?_⟩
    · have : (n.sqrt - 1) * (n.sqrt - 1) < n.sqrt * n.sqrt := by
        apply Nat.mul_lt_mul'' <;> omega
      omega
    · by_contra hlt
      have : n.sqrt = 1 := by omega
      rw [this] at he
      omega
  · rename_i he
    refine ⟨by omega, ?_, by omega⟩
    rw [Nat.add_sub_cancel]
    omega

/-! ### Bars -/

theorem barHeights_bins (values : List Nat) (k c : Nat) (hv : ∀ v ∈ values, v < c + k) :
    barHeights values ((List.range (k + 1)).map (· + c)) =
      (List.range k).map (fun i => values.count (i + c)) := by
  induction k generalizing c with
  | zero => rfl
  | succ k ih =>
    cases k with
    | zero =>
      have h0 : (List.range (0 + 1 + 1)).map (· + c) = [c, 1 + c] := by
        show [0 + c, 1 + c] = _
        rw [Nat.zero_add]
      rw [h0]
      have h1 : (List.range (0 + 1)).map (fun i => values.count (i + c)) = [values.count c] := by
        show [values.count (0 + c)] = _
        rw [Nat.zero_add]
      rw [h1]
      simp only [barHeights, List.cons.injEq, and_true]
      unfold List.count
      apply List.countP_congr
      intro v hv'
      have := hv v hv'
      simp only [decide_eq_true_eq, beq_iff_eq]
      omega
    | succ k =>
      have h0 : (List.range (k + 1 + 1 + 1)).map (· + c) = c :: (c + 1) :: (c + 2) :: (List.range k).map (· + (c + 3)) := by
        rw [List.range_succ_eq_map, List.range_succ_eq_map, List.range_succ_eq_map]
        simp only [List.map_cons, List.map_map, List.cons.injEq, Nat.zero_add]
        refine ⟨trivial, by omega, by omega, ?_⟩
        apply List.map_congr_left
        intro i _
        simp only [Function.comp, Nat.succ_eq_add_one]
        omega
      have h1 : (List.range (k + 1 + 1)).map (· + (c + 1)) = (c + 1) :: (c + 2) :: (List.range k).map (· + (c + 3)) := by
        rw [List.range_succ_eq_map, List.range_succ_eq_map]
        simp only [List.map_cons, List.map_map, List.cons.injEq, Nat.zero_add]
        refine ⟨trivial, by omega, ?_⟩
        apply List.map_congr_left
        intro i _
        simp only [Function.comp, Nat.succ_eq_add_one]
        omega
      rw [h0]
      simp only [barHeights]
      rw [← h1, ih (c + 1) (fun v hv' => by have := hv v hv'; omega), List.range_succ_eq_map (n := k + 1), List.map_cons,
        List.map_map, Nat.zero_add]
      congr 1
      · unfold List.count
        apply List.countP_congr
        intro v _
        simp only [decide_eq_true_eq, beq_iff_eq]
        omega
      · apply List.map_congr_left
        intro i _
        simp only [Function.comp, Nat.succ_eq_add_one]
        congr 1
        omega

omit [HasName E] in
theorem fold_below (gs : List (List (Trace E))) (acc : List Nat) (c : Nat) (h : ∀ v ∈ acc, v < c) :
    ∀ v ∈ (gs.foldl (fun (st : List Nat × Nat) g => (st.1 ++ List.replicate g.length st.2, st.2 + 1)) (acc, c)).1,
      v < (gs.foldl (fun (st : List Nat × Nat) g => (st.1 ++ List.replicate g.length st.2, st.2 + 1)) (acc, c)).2 := by
  induction gs generalizing acc c with
  | nil => exact h
  | cons g gs ih =>
    rw [List.foldl_cons]
    apply ih
    intro v hv
    rcases List.mem_append.1 hv with hv | hv
    · have := h v hv
      simp only
      omega
    · have := List.eq_of_mem_replicate hv
      simp only at this ⊢
      omega

theorem hist_values (log : Log E) (gs : List (List (Trace E))) (h : splitLogByTraces log = .ok gs) :
    ∃ hist, createArrayForHist log = .ok (hist, gs.length + 1) ∧ hist.length = log.traces.length ∧
      barHeights hist (binsOf (gs.length + 1)) = gs.map List.length := by
  obtain ⟨hist, h1, h2, h3⟩ := C13_histogram log gs h
  refine ⟨hist, h1, h2, ?_⟩
  have hv : ∀ v ∈ hist, v < 1 + gs.length := by
    have h4 := h1
    unfold createArrayForHist at h4
    rw [h] at h4
    have h5 : gs.foldl (fun (st : List Nat × Nat) g => (st.1 ++ List.replicate g.length st.2, st.2 + 1)) ([], 1) =
        (hist, gs.length + 1) := Except.ok.inj h4
    have key := fold_below gs [] 1 (by simp)
    rw [h5] at key
    intro v hv
    have := key v hv
    simp only at this
    omega
  unfold binsOf
  rw [barHeights_bins hist gs.length 1 hv]
  apply List.ext_getElem
  · simp
  · intro i h4 h5
    have hi : i < gs.length := by simpa using h5
    simp [h3 i hi]

end Ficus
