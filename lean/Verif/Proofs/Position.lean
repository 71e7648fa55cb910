import Verif.Model.Entropy
import Verif.Spec.Entropy
import Verif.Spec.Log
import Verif.Proofs.Entropy
import Verif.Proofs.Split

/-! Lemmas for the position entropies. -/

namespace Ficus
open Spec
variable {E : Type} [HasName E]

theorem groupFoldVal_get? {A B K : Type} [DecidableEq K] (key : A → K) (val : A → B) (l : List A)
    (d : Dict K (List B)) (k : K) :
    Dict.get? (l.foldl (fun d a => groupInto d (key a) (val a)) d) k =
      if l.filter (fun y => decide (key y = k)) = [] then Dict.get? d k
      else some ((Dict.get? d k).getD [] ++ (l.filter (fun y => decide (key y = k))).map val) := by
  induction l generalizing d with
  | nil => simp
  | cons a l ih =>
    rw [List.foldl_cons, ih, groupInto_get?]
    by_cases h : key a = k
    · subst h
      have : (a :: l).filter (fun y => decide (key y = key a)) = a :: l.filter (fun y => decide (key y = key a)) := by
        simp
      rw [this, if_pos rfl, if_neg (List.cons_ne_nil _ _)]
      by_cases h2 : l.filter (fun y => decide (key y = key a)) = []
      · rw [if_pos h2, h2]; simp
      · rw [if_neg h2]; simp
    · have : (a :: l).filter (fun y => decide (key y = k)) = l.filter (fun y => decide (key y = k)) := by
        simp [h]
      rw [this, if_neg h]

/-- Positions, counted from `o`, of the events that satisfy a predicate on names. -/
def posFrom (p : String → Bool) : Nat → List E → List Nat
  | _, [] => []
  | o, e :: t => if p (name e) then o :: posFrom p (o + 1) t else posFrom p (o + 1) t

theorem posFrom_eq (p : String → Bool) (o : Nat) (t : List E) :
    posFrom p o t = ((t.zipIdx o).filter (fun q => p (name q.1))).map Prod.snd := by
  induction t generalizing o with
  | nil => rfl
  | cons e t ih =>
    rw [posFrom, List.zipIdx_cons, List.filter_cons, ih]
    by_cases h : p (name e) <;> simp [h]

theorem posFrom_ge (p : String → Bool) (o : Nat) (t : List E) : ∀ x ∈ posFrom p o t, o ≤ x := by
  induction t generalizing o with
  | nil => intro x hx; simp [posFrom] at hx
  | cons e t ih =>
    intro x hx
    rw [posFrom] at hx
    split at hx
    · rcases List.mem_cons.1 hx with rfl | hx
      · exact Nat.le_refl _
      · exact Nat.le_of_succ_le (ih _ _ hx)
    · exact Nat.le_of_succ_le (ih _ _ hx)

theorem posFrom_sorted (p : String → Bool) (o : Nat) (t : List E) : (posFrom p o t).Pairwise (· ≤ ·) := by
  induction t generalizing o with
  | nil => simp [posFrom]
  | cons e t ih =>
    rw [posFrom]
    split
    · rw [List.pairwise_cons]
      exact ⟨fun x hx => Nat.le_of_succ_le (posFrom_ge p (o + 1) t x hx), ih _⟩
    · exact ih _

theorem posFrom_length (p : String → Bool) (o : Nat) (t : List E) :
    (posFrom p o t).length = ((t.map name).filter p).length := by
  induction t generalizing o with
  | nil => rfl
  | cons e t ih =>
    rw [posFrom, List.map_cons, List.filter_cons]
    by_cases h : p (name e) <;> simp [h, ih]

theorem tracePositions_get? (t : List E) (n : String) :
    (tracePositions t).positions.get? n =
      if posFrom (fun m => decide (m = n)) 0 t = [] then none else some (posFrom (fun m => decide (m = n)) 0 t) := by
  unfold tracePositions
  simp only
  rw [groupFoldVal_get? (fun p : E × Nat => name p.1) (fun p : E × Nat => p.2), posFrom_eq]
  simp only [Dict.get?_nil, Option.getD_none, List.nil_append, List.map_eq_nil_iff]

theorem tracePositions_getD (t : List E) (n : String) :
    ((tracePositions t).positions.get? n).getD [] = posFrom (fun m => decide (m = n)) 0 t := by
  rw [tracePositions_get?]; split <;> simp_all

theorem ignored_perm (ign : List String) (hnd : ign.Nodup) (o : Nat) (t : List E) :
    (ign.flatMap (fun n => posFrom (fun m => decide (m = n)) o t)).Perm (posFrom (fun m => decide (m ∈ ign)) o t) := by
  induction ign with
  | nil =>
    have : posFrom (fun m => decide (m ∈ ([] : List String))) o t = [] := by
      rw [posFrom_eq]; simp
    rw [this]; simp
  | cons n ign ih =>
    obtain ⟨h1, h2⟩ := List.nodup_cons.1 hnd
    rw [List.flatMap_cons]
    refine (List.Perm.append_left _ (ih h2)).trans ?_
    simp only [posFrom_eq]
    rw [← List.map_append]
    apply List.Perm.map
    have hp := List.filter_append_perm (fun q : E × Nat => decide (name q.1 = n))
      ((t.zipIdx o).filter (fun q => decide (name q.1 ∈ n :: ign)))
    rw [List.filter_filter, List.filter_filter] at hp
    refine List.Perm.trans (List.Perm.of_eq ?_) hp
    congr 1
    · apply List.filter_congr
      intro q _
      by_cases h : name q.1 = n <;> simp [h]
    · apply List.filter_congr
      intro q _
      by_cases h : name q.1 = n
      · simp [h, h1]
      · simp [h]

theorem ignoredPositions_eq (ign : List String) (hnd : ign.Nodup) (t : List E) :
    ignoredPositions ign (tracePositions t) = posFrom (fun m => decide (m ∈ ign)) 0 t := by
  unfold ignoredPositions
  simp only [tracePositions_getD]
  apply List.Perm.eq_of_pairwise (le := (· ≤ ·))
  · intro a b _ _ h1 h2; exact Nat.le_antisymm h1 h2
  · exact List.pairwise_insertionSort _ _
  · exact posFrom_sorted _ _ _
  · exact (List.perm_insertionSort _ _).trans (ignored_perm ign hnd 0 t)

theorem kept_cons_of_mem {ign : List String} {e : E} (t : List E) (h : name e ∈ ign) : kept ign (e :: t) = kept ign t := by
  simp [kept, h]

theorem kept_cons_of_notMem {ign : List String} {e : E} (t : List E) (h : name e ∉ ign) :
    kept ign (e :: t) = name e :: kept ign t := by
  simp [kept, h]

/-- `v'` is `v` with one added at every position `i + j` such that `ks[j] = n`. -/
structure AddedAt (n : String) (i : Nat) (ks : List String) (v v' : List Nat) : Prop where
  length : v'.length = v.length
  value : ∀ j, v'.getD j 0 = v.getD j 0 + if i ≤ j ∧ ks[j - i]? = some n then 1 else 0

theorem AddedAt.cons_ne {n m : String} {i : Nat} {ks : List String} {v v' : List Nat} (h : AddedAt n (i + 1) ks v v')
    (hm : m ≠ n) : AddedAt n i (m :: ks) v v' := by
  refine ⟨h.length, fun j => ?_⟩
  rw [h.value j]
  congr 1
  by_cases hj : i + 1 ≤ j
  · have e : j - i = (j - (i + 1)) + 1 := by omega
    rw [e, List.getElem?_cons_succ]
    simp only [hj, true_and, show i ≤ j by omega]
  · by_cases hij : i = j
    · subst hij; simp [hm]
    · rw [if_neg (by omega), if_neg (by omega)]

theorem AddedAt.cons_eq {n : String} {i : Nat} {ks : List String} {v w v' : List Nat} (h : AddedAt n (i + 1) ks w v')
    (hl : w.length = v.length) (hw : ∀ j, w.getD j 0 = v.getD j 0 + if i = j then 1 else 0) :
    AddedAt n i (n :: ks) v v' := by
  refine ⟨h.length.trans hl, fun j => ?_⟩
  rw [h.value j, hw j]
  by_cases hj : i + 1 ≤ j
  · have e : j - i = (j - (i + 1)) + 1 := by omega
    rw [e, List.getElem?_cons_succ]
    simp only [hj, true_and, show i ≤ j by omega, show ¬ i = j by omega, if_false, Nat.add_zero]
  · by_cases hij : i = j
    · subst hij; simp
    · rw [if_neg hij, if_neg (by omega), if_neg (by omega)]

theorem getD_set (v : List Nat) (i j x : Nat) (hi : i < v.length) :
    (v.set i x).getD j 0 = if i = j then x else v.getD j 0 := by
  rw [List.getD_eq_getElem?_getD, List.getD_eq_getElem?_getD, List.getElem?_set]
  by_cases h : i = j
  · subst h; simp [hi]
  · simp [h]

theorem incrAt_ok (v : List Nat) (i m : Nat) (hi : i < v.length) :
    incrAt v (((m + i : Nat) : Int) - m) = .ok (v.set i (v.getD i 0 + 1)) := by
  have e : ((m + i : Nat) : Int) - m = (i : Int) := by omega
  rw [e]
  unfold incrAt
  rw [if_pos ⟨by omega, by omega⟩]
  simp

theorem fastLoop_skip (ours : List Nat) (q : Nat) (S : List Nat) (m : Nat) (v : List Nat) (h : ∀ p ∈ ours, q < p) :
    fastLoop ours (q :: S) m v = fastLoop ours S (m + 1) v := by
  cases ours with
  | nil => rfl
  | cons p ps =>
    have hq : q < p := h p (by simp)
    simp only [fastLoop, List.takeWhile_cons, List.dropWhile_cons, hq, decide_true, if_true, List.length_cons, gt_iff_lt]
    rw [show m + ((List.takeWhile (fun q => decide (q < p)) S).length + 1) =
      m + 1 + (List.takeWhile (fun q => decide (q < p)) S).length by omega]

/-- The merge loop adds one at the positions of the event among the kept names. -/
theorem fastLoop_spec (ign : List String) (n : String) (hn : n ∉ ign) (t : List E) (m i : Nat) (v : List Nat)
    (hlen : i + (kept ign t).length ≤ v.length) :
    ∃ v', fastLoop (posFrom (fun x => decide (x = n)) (m + i) t) (posFrom (fun x => decide (x ∈ ign)) (m + i) t) m v =
      .ok v' ∧ AddedAt n i (kept ign t) v v' := by
  induction t generalizing m i v with
  | nil => exact ⟨v, rfl, rfl, by simp [kept]⟩
  | cons e t ih =>
    by_cases h1 : name e ∈ ign
    · have h2 : name e ≠ n := fun h => hn (h ▸ h1)
      rw [kept_cons_of_mem t h1] at hlen ⊢
      simp only [posFrom, h1, h2, decide_true, decide_false, if_true, Bool.false_eq_true, if_false]
      rw [fastLoop_skip _ _ _ _ _ (fun p hp => posFrom_ge _ _ _ p hp)]
      have := ih (m + 1) i v hlen
      rwa [show m + 1 + i = m + i + 1 by omega] at this
    · rw [kept_cons_of_notMem t h1] at hlen ⊢
      simp only [List.length_cons] at hlen
      by_cases h2 : name e = n
      · simp only [posFrom, h2, decide_true, if_true, fastLoop]
        have hno : ∀ q ∈ posFrom (fun x => decide (x ∈ ign)) (m + i + 1) t, ¬ (m + i > q) := by
          intro q hq; have := posFrom_ge _ _ _ q hq; omega
        rw [if_neg (by simp [hn])]
        have htw : (posFrom (fun x => decide (x ∈ ign)) (m + i + 1) t).takeWhile (fun q => decide (m + i > q)) = [] := by
          cases hS : posFrom (fun x => decide (x ∈ ign)) (m + i + 1) t with
          | nil => rfl
          | cons q S => rw [List.takeWhile_cons, if_neg]; simpa using hno q (by rw [hS]; simp)
        have hdw : (posFrom (fun x => decide (x ∈ ign)) (m + i + 1) t).dropWhile (fun q => decide (m + i > q)) =
            posFrom (fun x => decide (x ∈ ign)) (m + i + 1) t := by
          cases hS : posFrom (fun x => decide (x ∈ ign)) (m + i + 1) t with
          | nil => rfl
          | cons q S => rw [List.dropWhile_cons, if_neg]; simpa using hno q (by rw [hS]; simp)
        rw [htw, hdw]
        simp only [List.length_nil, Nat.add_zero]
        rw [incrAt_ok v i m (by omega)]
        simp only [bind, Except.bind]
        obtain ⟨v', hv', ha⟩ := ih m (i + 1) (v.set i (v.getD i 0 + 1)) (by rw [List.length_set]; omega)
        refine ⟨v', hv', ?_⟩
        apply ha.cons_eq (by simp)
        intro j
        rw [getD_set _ _ _ _ (by omega)]
        by_cases hij : i = j
        · subst hij; simp
        · simp [hij]
      · simp only [posFrom, h1, h2, decide_false, Bool.false_eq_true, if_false]
        obtain ⟨v', hv', ha⟩ := ih m (i + 1) v (by omega)
        exact ⟨v', hv', ha.cons_ne h2⟩

/-- The slow loop adds one at the same positions, starting from zeros. -/
theorem slowLoop_spec (ign : List String) (n : String) (t : List E) (i : Nat) (v : List Nat) (em : Bool)
    (hz : ∀ j, i ≤ j → v.getD j 0 = 0) (hlen : i + (kept ign t).length ≤ v.length) :
    ∃ v', t.foldlM (slowEventStep ign n) (v, i, em) =
      .ok (v', i + (kept ign t).length, em && decide (kept ign t = [])) ∧ AddedAt n i (kept ign t) v v' := by
  induction t generalizing i v em with
  | nil => exact ⟨v, by simp [kept, pure, Except.pure], rfl, by simp [kept]⟩
  | cons e t ih =>
    rw [List.foldlM_cons]
    by_cases h1 : name e ∈ ign
    · rw [kept_cons_of_mem t h1] at hlen ⊢
      rw [show slowEventStep ign n (v, i, em) e = .ok (v, i, em) by simp [slowEventStep, h1]]
      exact ih i v em hz hlen
    · rw [kept_cons_of_notMem t h1] at hlen ⊢
      simp only [List.length_cons] at hlen
      by_cases h2 : name e = n
      · have hi : i < v.length := by omega
        rw [show slowEventStep ign n (v, i, em) e = .ok (v.set i 1, i + 1, false) by
          simp [slowEventStep, h2 ▸ h1, h2, setOne, hi, bind, Except.bind, pure, Except.pure]]
        simp only [bind, Except.bind]
        obtain ⟨v', hv', ha⟩ := ih (i + 1) (v.set i 1) false (by
          intro j hj
          rw [getD_set _ _ _ _ hi, if_neg (by omega)]; exact hz j (by omega)) (by rw [List.length_set]; omega)
        refine ⟨v', ?_, ?_⟩
        · rw [hv']; simp; omega
        · rw [h2]
          apply ha.cons_eq (by simp)
          intro j
          rw [getD_set _ _ _ _ hi]
          by_cases hij : i = j
          · subst hij; rw [if_pos rfl, if_pos rfl, hz i (Nat.le_refl _)]
          · rw [if_neg hij, if_neg hij]; simp
      · rw [show slowEventStep ign n (v, i, em) e = .ok (v, i + 1, false) by simp [slowEventStep, h1, h2]]
        simp only [bind, Except.bind]
        obtain ⟨v', hv', ha⟩ := ih (i + 1) v false (fun j hj => hz j (by omega)) (by omega)
        refine ⟨v', ?_, ha.cons_ne h2⟩
        rw [hv']; simp; omega

/-! ### The maximal length -/

theorem sum_counts (L : List String) (hL : L.Nodup) (l : List String) :
    (L.map (fun x => l.count x)).sum = (l.filter (fun x => decide (x ∈ L))).length := by
  induction l with
  | nil => simp
  | cons p l ih =>
    have e : (L.map (fun x => (p :: l).count x)).sum =
        (L.map (fun x => l.count x)).sum + (L.map (fun x => if p = x then 1 else 0)).sum := by
      rw [← List.sum_map_add]
      congr 1
      apply List.map_congr_left
      intro x _
      rw [List.count_cons]; simp
    rw [e, ih, sum_indicator L p hL, List.filter_cons]
    by_cases h : p ∈ L <;> simp [h]

theorem filter_length_add (l : List String) (p : String → Bool) :
    (l.filter p).length + (l.filter (fun x => !p x)).length = l.length := by
  induction l with
  | nil => rfl
  | cons a l ih => by_cases h : p a <;> simp [h] <;> omega

theorem kept_length (ign : List String) (t : List E) :
    (kept ign t).length = t.length - ((t.map name).filter (fun x => decide (x ∈ ign))).length := by
  have := filter_length_add (t.map name) (fun x => decide (x ∈ ign))
  have e : kept ign t = (t.map name).filter (fun x => !decide (x ∈ ign)) := by
    unfold kept; apply List.filter_congr; intro x _; simp
  rw [e]; rw [List.length_map] at this; omega

theorem foldl_max_eq (l : List Nat) (m : Nat) : l.foldl max m = max m (l.foldr max 0) := by
  induction l generalizing m with
  | nil => simp
  | cons a l ih => rw [List.foldl_cons, ih, List.foldr_cons]; omega

theorem le_longest {ts : List (List String)} {t : List String} (h : t ∈ ts) : t.length ≤ longest ts := by
  unfold longest
  induction ts with
  | nil => simp at h
  | cons s ts ih =>
    rw [List.map_cons, List.foldr_cons]
    rcases List.mem_cons.1 h with rfl | h
    · exact Nat.le_max_left _ _
    · exact Nat.le_trans (ih h) (Nat.le_max_right _ _)

theorem kept_nil (t : List E) : kept [] t = t.map name := by simp [kept]

theorem maxVectorLength_eq (log : Log E) (ign : Option IgnoredEvents) (h : ProperIgnore log ign) :
    maxVectorLength log ign = .ok (longest (keptOf log ign)) := by
  cases ign with
  | none =>
    unfold maxVectorLength keptOf longest
    have hk : (kept (ignoredNames none) : List E → List String) = fun t => t.map name := by
      funext t; exact kept_nil t
    rw [hk]
    have hne : log.evs ≠ [] := by
      unfold Log.evs; intro he; exact h (List.map_eq_nil_iff.1 he)
    obtain ⟨t, ts, hts⟩ := List.exists_cons_of_ne_nil hne
    rw [hts]
    have hl : ((t :: ts).map (fun t => t.map name)).map List.length = (t :: ts).map List.length := by
      rw [List.map_map]; congr 1; funext x; simp
    rw [hl]
    simp only [List.map_cons, List.foldr_cons]
    rw [foldl_max_eq]
  | some g =>
    obtain ⟨h1, h2⟩ := h
    unfold maxVectorLength IgnoredEvents.maxVectorLength keptOf longest
    simp only [ignoredNames, h2, calculateEventsInEachTrace]
    generalize log.evs = ts
    have : ∀ m, (ts.map (fun trace : List E =>
        ({ counts := trace.foldl (fun d e => increaseInIntMap d (name e)) [], overallCount := trace.length } : TraceCounts))).foldl
        (fun m c => max m (c.overallCount - (g.ignored.map (fun x => (c.counts.get? x).getD 0)).sum)) m =
        ((ts.map (kept g.ignored)).map List.length).foldl max m := by
      induction ts with
      | nil => intro m; rfl
      | cons t ts ih =>
        intro m
        simp only [List.map_cons, List.foldl_cons]
        rw [ih]
        congr 2
        rw [kept_length, ← sum_counts g.ignored h1]
        congr 2
        apply List.map_congr_left
        intro x _
        have : t.foldl (fun d e => increaseInIntMap d (name e)) ([] : Dict String Nat) = counter (t.map name) := by
          unfold counter; rw [List.foldl_map]
        rw [this, counter_getD]
    rw [this 0, foldl_max_eq]
    simp

/-! ### Both algorithms -/

theorem sumAxis0_spec (len : Nat) (vs : List (List Nat)) (h : ∀ v ∈ vs, v.length = len) :
    (sumAxis0 len vs).length = len ∧ ∀ j, (sumAxis0 len vs).getD j 0 = (vs.map (fun v => v.getD j 0)).sum := by
  have key : ∀ (vs : List (List Nat)) (acc : List Nat), acc.length = len → (∀ v ∈ vs, v.length = len) →
      (vs.foldl (List.zipWith (· + ·)) acc).length = len ∧
      ∀ j, (vs.foldl (List.zipWith (· + ·)) acc).getD j 0 = acc.getD j 0 + (vs.map (fun v => v.getD j 0)).sum := by
    intro vs
    induction vs with
    | nil => intro acc ha _; exact ⟨ha, by simp⟩
    | cons v vs ih =>
      intro acc ha hv
      have hvl := hv v (by simp)
      obtain ⟨h1, h2⟩ := ih (List.zipWith (· + ·) acc v) (by simp [ha, hvl]) (fun w hw => hv w (by simp [hw]))
      refine ⟨h1, fun j => ?_⟩
      rw [List.foldl_cons, h2 j, List.map_cons, List.sum_cons]
      have : (List.zipWith (· + ·) acc v).getD j 0 = acc.getD j 0 + v.getD j 0 := by
        simp only [List.getD_eq_getElem?_getD, List.getElem?_zipWith]
        by_cases hj : j < len
        · rw [List.getElem?_eq_getElem (by omega), List.getElem?_eq_getElem (by omega)]; simp
        · rw [List.getElem?_eq_none (by omega), List.getElem?_eq_none (by omega)]; simp
      rw [this]; omega
  obtain ⟨h1, h2⟩ := key vs (List.replicate len 0) (by simp) h
  refine ⟨h1, fun j => ?_⟩
  unfold sumAxis0
  rw [h2 j]
  have : (List.replicate len 0).getD j 0 = 0 := by
    simp only [List.getD_eq_getElem?_getD, List.getElem?_replicate]; split <;> simp
  rw [this]; simp

theorem atPosition_cons (t : List String) (ts : List (List String)) (n : String) (j : Nat) :
    atPosition (t :: ts) n j = (if t[j]? = some n then 1 else 0) + atPosition ts n j := by
  unfold atPosition
  rw [List.filter_cons]
  by_cases h : t[j]? = some n <;> simp [h]; omega

theorem nonEmptyCount_cons (t : List String) (ts : List (List String)) :
    nonEmptyCount (t :: ts) = (if t = [] then 0 else 1) + nonEmptyCount ts := by
  unfold nonEmptyCount
  rw [List.filter_cons]
  by_cases h : t = [] <;> simp [h]; omega

theorem eq_table {v : List Nat} {ts : List (List String)} {n : String} (hl : v.length = longest ts)
    (hv : ∀ j, j < v.length → v.getD j 0 = atPosition ts n j) : v = positionTable ts n := by
  apply List.ext_getElem
  · simp [positionTable, hl]
  · intro j h1 h2
    have := hv j h1
    rw [List.getD_eq_getElem?_getD, List.getElem?_eq_getElem h1, Option.getD_some] at this
    rw [this]; simp [positionTable]

/-- `calculate_position_entropy` counts what the specification says. -/
theorem slow_eq (log : Log E) (n : String) (ign : Option IgnoredEvents) (h : ProperIgnore log ign) :
    slowPositionCounts log n ign = .ok (positionTable (keptOf log ign) n, nonEmptyCount (keptOf log ign)) := by
  unfold slowPositionCounts
  rw [maxVectorLength_eq log ign h]
  simp only [bind, Except.bind]
  have hle : ∀ t ∈ log.evs, (kept (ignoredNames ign) t).length ≤ longest (keptOf log ign) :=
    fun t ht => le_longest (List.mem_map_of_mem ht)
  generalize hlen : longest (keptOf log ign) = len at hle
  have hone : ∀ t ∈ log.evs, ∃ r, slowTrace len (ignoredNames ign) n t = .ok r ∧
      (r.1.length = len ∧ (∀ j, r.1.getD j 0 = if (kept (ignoredNames ign) t)[j]? = some n then 1 else 0) ∧
        r.2 = decide (kept (ignoredNames ign) t = [])) := by
    intro t ht
    obtain ⟨v', hv', ha⟩ := slowLoop_spec (ignoredNames ign) n t 0 (List.replicate len 0) true
      (by intro j _; simp only [List.getD_eq_getElem?_getD, List.getElem?_replicate]; split <;> simp)
      (by simpa using hle t ht)
    refine ⟨(v', decide (kept (ignoredNames ign) t = [])), ?_, ?_, ?_, rfl⟩
    · unfold slowTrace; rw [hv']; rfl
    · rw [ha.length]; simp
    · intro j
      rw [ha.value j]
      have : (List.replicate len 0).getD j 0 = 0 := by
        simp only [List.getD_eq_getElem?_getD, List.getElem?_replicate]; split <;> simp
      rw [this]; simp
  obtain ⟨rs, hrs, hall⟩ := mapM_choose (slowTrace len (ignoredNames ign) n) log.evs _ hone
  rw [hrs]
  simp only [pure, Except.pure]
  have hlens : ∀ v ∈ rs.map Prod.fst, v.length = len := by
    clear hrs
    intro v hv
    obtain ⟨r, hr, rfl⟩ := List.mem_map.1 hv
    obtain ⟨i, hi, rfl⟩ := List.getElem_of_mem hr
    exact (hall.get (i := i) (by rw [hall.length_eq]; exact hi) hi).1
  obtain ⟨s1, s2⟩ := sumAxis0_spec len (rs.map Prod.fst) hlens
  congr 2
  · apply eq_table
    · rw [s1, hlen]
    · intro j hj
      rw [s2 j]
      clear hj
      unfold keptOf
      clear hrs hlens s1 s2 hone hle hlen
      generalize log.evs = ts at hall ⊢
      induction hall with
      | nil => rfl
      | cons hab _ ih =>
        rw [List.map_cons, List.map_cons, List.sum_cons, List.map_cons, atPosition_cons, hab.2.1 j, ih]
  · unfold keptOf
    clear hrs hlens s1 s2 hone hle hlen
    generalize log.evs = ts at hall ⊢
    induction hall with
    | nil => rfl
    | @cons a b l1 l2 hab _ ih =>
      rw [List.map_cons, nonEmptyCount_cons, ← ih, List.filter_cons, hab.2.2]
      by_cases hk : kept (ignoredNames ign) a = []
      · simp [hk]
      · simp [hk]; omega

theorem flatMap_positions_length (ign : List String) (hnd : ign.Nodup) (t : List E) :
    (ign.flatMap (fun n => ((tracePositions t).positions.get? n).getD [])).length + (kept ign t).length = t.length := by
  simp only [tracePositions_getD]
  rw [(ignored_perm ign hnd 0 t).length_eq, posFrom_length]
  have := filter_length_add (t.map name) (fun x => decide (x ∈ ign))
  have e : kept ign t = (t.map name).filter (fun x => !decide (x ∈ ign)) := by
    unfold kept; apply List.filter_congr; intro x _; simp
  rw [e]; rw [List.length_map] at this; exact this

theorem posFrom_eq_nil (n : String) (o : Nat) (t : List E) (h : posFrom (fun m => decide (m = n)) o t = []) :
    n ∉ t.map name := by
  have := posFrom_length (fun m => decide (m = n)) o t
  rw [h] at this
  intro hm
  have h2 : n ∈ (t.map name).filter (fun m => decide (m = n)) := by simp [hm]
  rw [List.length_eq_zero_iff.1 this.symm] at h2
  simp at h2

/-- One step of the fast algorithm. -/
theorem fastTraceStep_spec (ign : List String) (hnd : ign.Nodup) (n : String) (hn : n ∉ ign) (t : List E) (v : List Nat)
    (c : Nat) (hlen : (kept ign t).length ≤ v.length) :
    ∃ v', fastTraceStep ign n (v, c) (tracePositions t) = .ok (v', c + if kept ign t = [] then 0 else 1) ∧
      AddedAt n 0 (kept ign t) v v' := by
  unfold fastTraceStep
  have hl := flatMap_positions_length ign hnd t
  have htl : (tracePositions t).length = t.length := rfl
  by_cases hk : kept ign t = []
  · rw [if_pos (by rw [htl, ← hl, hk]; simp)]
    exact ⟨v, by simp [hk], rfl, by simp [hk]⟩
  · have hpos : 0 < (kept ign t).length := List.length_pos_iff.2 hk
    rw [if_neg (by rw [htl]; omega)]
    rw [tracePositions_get?]
    by_cases h2 : posFrom (fun m => decide (m = n)) 0 t = []
    · rw [if_pos h2]
      refine ⟨v, by simp [hk], rfl, fun j => ?_⟩
      rw [if_neg]; · rfl
      rintro ⟨_, h3⟩
      have h4 := List.mem_of_getElem? h3
      exact posFrom_eq_nil n 0 t h2 (List.mem_filter.1 h4).1
    · rw [if_neg h2, ignoredPositions_eq ign hnd t]
      obtain ⟨v', hv', ha⟩ := fastLoop_spec ign n hn t 0 0 v (by omega)
      refine ⟨v', ?_, ha⟩
      simp only [Nat.zero_add] at hv'
      simp only [hv', bind, Except.bind, pure, Except.pure, hk, if_false]

/-- `calculate_position_entropy_fast` counts what the specification says. -/
theorem fast_eq (log : Log E) (n : String) (ign : Option IgnoredEvents) (h : ProperIgnore log ign)
    (hn : n ∉ ignoredNames ign) (cached : Option (List TracePositions))
    (hc : cached = none ∨ cached = some (createEventsPositions log)) :
    fastPositionCounts log n ign cached = .ok (positionTable (keptOf log ign) n, nonEmptyCount (keptOf log ign)) := by
  have hcache : cached.getD (createEventsPositions log) = createEventsPositions log := by
    rcases hc with rfl | rfl <;> rfl
  have hnd : (ignoredNames ign).Nodup := by
    cases ign with
    | none => simp [ignoredNames]
    | some g => exact h.1
  unfold fastPositionCounts
  rw [hcache, maxVectorLength_eq log ign h]
  simp only [bind, Except.bind]
  have hle : ∀ t ∈ log.evs, (kept (ignoredNames ign) t).length ≤ longest (keptOf log ign) :=
    fun t ht => le_longest (List.mem_map_of_mem ht)
  have key : ∀ (ts : List (List E)) (v : List Nat) (c : Nat),
      (∀ t ∈ ts, (kept (ignoredNames ign) t).length ≤ v.length) →
      ∃ v', (ts.map tracePositions).foldlM (fastTraceStep (ignoredNames ign) n) (v, c) =
        .ok (v', c + nonEmptyCount (ts.map (kept (ignoredNames ign)))) ∧ v'.length = v.length ∧
        ∀ j, v'.getD j 0 = v.getD j 0 + atPosition (ts.map (kept (ignoredNames ign))) n j := by
    intro ts
    induction ts with
    | nil => intro v c _; exact ⟨v, rfl, rfl, fun j => by simp [atPosition]⟩
    | cons t ts ih =>
      intro v c hv
      obtain ⟨w, hw, ha⟩ := fastTraceStep_spec (ignoredNames ign) hnd n hn t v c (hv t (by simp))
      obtain ⟨v', hv', hl', ha'⟩ := ih w _ (fun x hx => by rw [ha.length]; exact hv x (by simp [hx]))
      refine ⟨v', ?_, hl'.trans ha.length, ?_⟩
      · rw [List.map_cons, List.foldlM_cons, hw]
        simp only [bind, Except.bind]
        rw [hv', List.map_cons, nonEmptyCount_cons, Nat.add_assoc]
      · intro j
        rw [ha' j, ha.value j, List.map_cons, atPosition_cons]
        simp only [Nat.zero_le, true_and, Nat.sub_zero, Nat.add_assoc]
  obtain ⟨v', hv', hl', ha'⟩ := key log.evs (List.replicate (longest (keptOf log ign)) 0) 0
    (by intro t ht; rw [List.length_replicate]; exact hle t ht)
  unfold createEventsPositions
  rw [hv']
  congr 2
  · apply eq_table
    · rw [hl', List.length_replicate]
    · intro j _
      rw [ha' j]
      have : (List.replicate (longest (keptOf log ign)) 0).getD j 0 = 0 := by
        simp only [List.getD_eq_getElem?_getD, List.getElem?_replicate]; split <;> simp
      rw [this, Nat.zero_add]; rfl
  · simp [keptOf]

end Ficus
