import Verif.Spec.RsEntropy
import Verif.Proofs.Position
import Verif.Proofs.RsInfo

/-! Lemmas for the entropies of the backend. -/

namespace Ficus.Rs
open Ficus.Spec
variable {E : Type} [HasName E]

theorem sequenceInfo_eq (t : List E) : sequenceInfo t = counter (t.map name) := by
  unfold sequenceInfo counter
  rw [List.foldl_map]
  congr 1
  funext d e; exact increaseInMap_eq d (name e)

theorem eventsPositions_eq (t : List E) : eventsPositions t = (tracePositions t).positions := rfl

theorem getInfo_of_inStep {h : EventsHolder E} (hs : InStep h) : h.getInfo.1 = sequenceInfo h.events := by
  unfold EventsHolder.getInfo
  rcases hs.1 with h1 | h1 <;> rw [h1]

theorem getInfo_inStep {h : EventsHolder E} (hs : InStep h) : InStep h.getInfo.2 := by
  unfold EventsHolder.getInfo
  rcases hs.1 with h1 | h1
  · rw [h1]; exact ⟨.inr rfl, hs.2⟩
  · rw [h1]; exact hs

theorem getInfo_events (h : EventsHolder E) : h.getInfo.2.events = h.events := by
  unfold EventsHolder.getInfo
  cases h.info <;> rfl

theorem getPositions_of_inStep {h : EventsHolder E} (hs : InStep h) : h.getPositions.1 = eventsPositions h.events := by
  unfold EventsHolder.getPositions
  rcases hs.2 with h1 | h1 <;> rw [h1]

theorem getPositions_inStep {h : EventsHolder E} (hs : InStep h) : InStep h.getPositions.2 := by
  unfold EventsHolder.getPositions
  rcases hs.2 with h1 | h1
  · rw [h1]; exact ⟨hs.1, .inr rfl⟩
  · rw [h1]; exact hs

theorem getPositions_events (h : EventsHolder E) : h.getPositions.2.events = h.events := by
  unfold EventsHolder.getPositions
  cases h.positions <;> rfl

/-- The result of a call: the same events, and kept values that match them. -/
def Sound (log log' : List (EventsHolder E)) : Prop := eventsOf log' = eventsOf log ∧ ∀ h ∈ log', InStep h

theorem fold_ignored (counts : Dict String Nat) (f : Nat → String → Nat)
    (hf : ∀ n x, f n x = n + (counts.get? x).getD 0) (L : List String) (n : Nat) :
    L.foldl f n = n + (L.map (fun x => (counts.get? x).getD 0)).sum := by
  induction L generalizing n with
  | nil => rfl
  | cons x L ih => rw [List.foldl_cons, ih, List.map_cons, List.sum_cons, hf]; omega

theorem fold_positions (positions : Dict String (List Nat)) (f : List Nat → String → List Nat)
    (hf : ∀ l x, f l x = l ++ (positions.get? x).getD []) (L : List String) (l : List Nat) :
    L.foldl f l = l ++ L.flatMap (fun x => (positions.get? x).getD []) := by
  induction L generalizing l with
  | nil => simp
  | cons x L ih => rw [List.foldl_cons, ih, List.flatMap_cons, hf, List.append_assoc]

theorem kept_perm {a b : List String} (h : a.Perm b) (t : List E) : kept a t = kept b t := by
  unfold kept
  apply List.filter_congr
  intro x _; simp [h.mem_iff]

/-- The number of ignored events of a trace and the kept ones add up to its length. -/
theorem ignored_count_add (g : List String) (hg : g.Nodup) (t : List E) :
    (g.map (fun x => ((sequenceInfo t).get? x).getD 0)).sum + (kept g t).length = t.length := by
  have e1 : (fun x => ((sequenceInfo t).get? x).getD 0) = fun x => (t.map name).count x := by
    funext x; rw [sequenceInfo_eq, counter_getD]
  rw [e1, sum_counts g hg]
  have := filter_length_add (t.map name) (fun x => decide (x ∈ g))
  have e : kept g t = (t.map name).filter (fun x => !decide (x ∈ g)) := by
    unfold kept; apply List.filter_congr; intro x _; simp
  rw [e]; rw [List.length_map] at this; exact this

theorem vectorLengthIgnored_eq (it : Iter) (g : List String) (hg : g.Nodup) (log : List (EventsHolder E))
    (hs : ∀ h ∈ log, InStep h) (m : Nat) :
    ∃ log', vectorLengthIgnored it g m log = some (max m (longest (keptLog (some g) (eventsOf log))), log') ∧
      Sound log log' := by
  induction log generalizing m with
  | nil => exact ⟨[], by simp [vectorLengthIgnored, keptLog, eventsOf, longest], rfl, by simp⟩
  | cons h log ih =>
    have h1 := hs h (by simp)
    rw [vectorLengthIgnored]
    rw [fold_ignored (sequenceInfo h.events) _ (by
      intro n x; rw [getInfo_of_inStep h1]; cases (sequenceInfo h.events).get? x <;> rfl), getInfo_events, Nat.zero_add]
    have hp := it.perm "ignored_events" 0 g
    have hadd := ignored_count_add (it.order "ignored_events" 0 g) (hp.nodup_iff.2 hg) h.events
    rw [kept_perm hp] at hadd
    generalize ((it.order "ignored_events" 0 g).map (fun x => ((sequenceInfo h.events).get? x).getD 0)).sum = k at hadd ⊢
    rw [if_neg (by omega)]
    obtain ⟨log', e, s1, s2⟩ := ih (fun x hx => hs x (by simp [hx])) (max m (h.events.length - k))
    rw [e]
    refine ⟨h.getInfo.2 :: log', ?_, ?_, ?_⟩
    · simp only [bind, Option.bind, pure]
      congr 2
      simp only [keptLog, eventsOf, List.map_cons, longest, List.foldr_cons, Option.getD_some]
      have : h.events.length - k = (kept g h.events).length := by omega
      rw [this]; omega
    · simp only [eventsOf, List.map_cons, getInfo_events] at s1 ⊢; rw [s1]
    · intro x hx
      rcases List.mem_cons.1 hx with rfl | hx
      · exact getInfo_inStep h1
      · exact s2 x hx

theorem vectorLength_eq (log : List (EventsHolder E)) (hne : log ≠ []) :
    vectorLength log = some (longest (keptLog none (eventsOf log))) := by
  cases log with
  | nil => exact absurd rfl hne
  | cons h log =>
    simp only [vectorLength, List.map_cons, keptLog, eventsOf, longest, List.foldr_cons, Option.getD_none, kept_nil,
      List.length_map, List.map_map]
    rw [foldl_max_eq]
    congr 3
    apply List.map_congr_left
    intro x _; simp [kept_nil]

theorem maxVectorLengthOf_eq (it : Iter) (log : List (EventsHolder E)) (hs : ∀ h ∈ log, InStep h)
    (ignored : Option (List String)) (hg : (ignored.getD []).Nodup) (hne : ignored = none → log ≠ []) :
    ∃ log', maxVectorLengthOf it log ignored = some (longest (keptLog ignored (eventsOf log)), log') ∧ Sound log log' := by
  cases ignored with
  | none =>
    refine ⟨log, ?_, rfl, hs⟩
    unfold maxVectorLengthOf
    rw [vectorLength_eq log (hne rfl)]; rfl
  | some g =>
    obtain ⟨log', e, s⟩ := vectorLengthIgnored_eq it g hg log hs 0
    refine ⟨log', ?_, s⟩
    simp only [maxVectorLengthOf, e, Nat.zero_max]

theorem addOne_ok {v : List Nat} {i : Nat} (h : i < v.length) : addOne v i = some (v.set i (v.getD i 0 + 1)) := if_pos h

theorem set_succ_getD (v : List Nat) (i : Nat) (hi : i < v.length) (j : Nat) :
    (v.set i (v.getD i 0 + 1)).getD j 0 = v.getD j 0 + if i = j then 1 else 0 := by
  rw [getD_set _ _ _ _ hi]
  by_cases hij : i = j
  · subst hij; simp
  · simp [hij]

theorem slowEvents_spec (ignored : Option (List String)) (n : String) (t : List E) (i : Nat) (v : List Nat) (em : Bool)
    (hlen : i + (kept (ignored.getD []) t).length ≤ v.length) :
    ∃ v', t.foldlM (slowEvent ignored n) (v, i, em) =
      some (v', i + (kept (ignored.getD []) t).length, em && decide (kept (ignored.getD []) t = [])) ∧
      AddedAt n i (kept (ignored.getD []) t) v v' := by
  induction t generalizing i v em with
  | nil => exact ⟨v, by simp [kept, pure], rfl, by simp [kept]⟩
  | cons e t ih =>
    rw [List.foldlM_cons]
    have hig : isIgnored ignored (name e) = true ↔ name e ∈ ignored.getD [] := by
      cases ignored <;> simp [isIgnored]
    by_cases h1 : name e ∈ ignored.getD []
    · rw [kept_cons_of_mem t h1] at hlen ⊢
      rw [show slowEvent ignored n (v, i, em) e = some (v, i, em) by simp [slowEvent, hig.2 h1]]
      exact ih i v em hlen
    · have h1' : isIgnored ignored (name e) = false := by
        rw [← Bool.not_eq_true, hig]; exact h1
      rw [kept_cons_of_notMem t h1] at hlen ⊢
      simp only [List.length_cons] at hlen
      by_cases h2 : name e = n
      · have hi : i < v.length := by omega
        rw [show slowEvent ignored n (v, i, em) e = some (v.set i (v.getD i 0 + 1), i + 1, false) by
          rw [slowEvent, h1', if_neg (by simp), if_pos h2, addOne_ok hi]; rfl]
        obtain ⟨v', hv', ha⟩ := ih (i + 1) (v.set i (v.getD i 0 + 1)) false (by rw [List.length_set]; omega)
        refine ⟨v', ?_, ?_⟩
        · simp only [bind, Option.bind]
          rw [hv']; simp; omega
        · rw [h2]
          exact ha.cons_eq (by simp) (set_succ_getD v i hi)
      · rw [show slowEvent ignored n (v, i, em) e = some (v, i + 1, false) by
          rw [slowEvent, h1', if_neg (by simp), if_neg h2]]
        obtain ⟨v', hv', ha⟩ := ih (i + 1) v false (by omega)
        refine ⟨v', ?_, ha.cons_ne h2⟩
        simp only [bind, Option.bind]
        rw [hv']; simp; omega

theorem slowTraces_spec (ignored : Option (List String)) (n : String) (log : List (EventsHolder E)) (v : List Nat) (c : Nat)
    (hle : ∀ h ∈ log, (kept (ignored.getD []) h.events).length ≤ v.length) :
    ∃ v', log.foldlM (slowTraceRs ignored n) (v, c) = some (v', c + nonEmptyCount (keptLog ignored (eventsOf log))) ∧
      v'.length = v.length ∧ ∀ j, v'.getD j 0 = v.getD j 0 + atPosition (keptLog ignored (eventsOf log)) n j := by
  induction log generalizing v c with
  | nil => exact ⟨v, rfl, rfl, fun j => by simp [keptLog, eventsOf, atPosition]⟩
  | cons h log ih =>
    obtain ⟨w, hw, ha⟩ := slowEvents_spec ignored n h.events 0 v true (by have := hle h (by simp); omega)
    obtain ⟨v', hv', hl, hval⟩ := ih w (c + if kept (ignored.getD []) h.events = [] then 0 else 1)
      (fun x hx => by rw [ha.length]; exact hle x (by simp [hx]))
    refine ⟨v', ?_, hl.trans ha.length, ?_⟩
    · have e : slowTraceRs ignored n (v, c) h = some (w, c + if kept (ignored.getD []) h.events = [] then 0 else 1) := by
        unfold slowTraceRs
        simp only
        rw [hw]
        by_cases hk : kept (ignored.getD []) h.events = [] <;> simp [hk]
      rw [List.foldlM_cons, e]
      simp only [bind, Option.bind]
      rw [hv']
      simp only [keptLog, eventsOf, List.map_cons, nonEmptyCount_cons, Nat.add_assoc]
    · intro j
      rw [hval j, ha.value j]
      simp only [keptLog, eventsOf, List.map_cons, atPosition_cons, Nat.zero_le, true_and, Nat.sub_zero, Nat.add_assoc]

theorem length_le_longest (ignored : Option (List String)) {log log' : List (EventsHolder E)} (hs : Sound log log') :
    ∀ h ∈ log', (kept (ignored.getD []) h.events).length ≤ longest (keptLog ignored (eventsOf log)) := by
  intro h hh
  apply le_longest
  rw [← hs.1]
  exact List.mem_map_of_mem (List.mem_map_of_mem hh)

theorem table_of_values {ignored : Option (List String)} {log : List (List E)} {n : String} {v v' : List Nat}
    (hv : v = List.replicate (longest (keptLog ignored log)) 0) (hl : v'.length = v.length)
    (hval : ∀ j, v'.getD j 0 = v.getD j 0 + atPosition (keptLog ignored log) n j) :
    v' = positionTable (keptLog ignored log) n := by
  subst hv
  apply eq_table
  · rw [hl]; simp
  · intro j _
    rw [hval j]
    have : (List.replicate (longest (keptLog ignored log)) 0).getD j 0 = 0 := by
      simp only [List.getD_eq_getElem?_getD, List.getElem?_replicate]; split <;> simp
    omega

theorem slowCounts_eq (it : Iter) (log : List (EventsHolder E)) (hs : ∀ h ∈ log, InStep h) (n : String)
    (ignored : Option (List String)) (hg : (ignored.getD []).Nodup) (hne : ignored = none → log ≠ []) :
    ∃ log', slowCounts it log n ignored =
      some ((positionTable (keptLog ignored (eventsOf log)) n, nonEmptyCount (keptLog ignored (eventsOf log))), log') ∧
      Sound log log' := by
  obtain ⟨log', e, s⟩ := maxVectorLengthOf_eq it log hs ignored hg hne
  refine ⟨log', ?_, s⟩
  obtain ⟨v', hv', hl, hval⟩ := slowTraces_spec ignored n log'
    (List.replicate (longest (keptLog ignored (eventsOf log))) 0) 0
    (by intro h hh; rw [List.length_replicate]; exact length_le_longest ignored s h hh)
  rw [s.1] at hv' hval
  unfold slowCounts
  rw [e]
  simp only [bind, Option.bind]
  rw [hv', Nat.zero_add, table_of_values rfl hl hval]
  rfl

theorem fastMerge_skip (ours : List Nat) (q : Nat) (S : List Nat) (m : Nat) (v : List Nat) (h : ∀ p ∈ ours, q < p) :
    fastMerge ours (q :: S) m v = fastMerge ours S (m + 1) v := by
  cases ours with
  | nil => rfl
  | cons p ps =>
    have hq : q < p := h p (by simp)
    simp only [fastMerge, List.takeWhile_cons, List.dropWhile_cons, hq, decide_true, if_true, List.length_cons, gt_iff_lt]
    rw [show m + ((List.takeWhile (fun q => decide (q < p)) S).length + 1) =
      m + 1 + (List.takeWhile (fun q => decide (q < p)) S).length by omega]

theorem fastMerge_spec (ign : List String) (n : String) (hn : n ∉ ign) (t : List E) (m i : Nat) (v : List Nat)
    (hlen : i + (kept ign t).length ≤ v.length) :
    ∃ v', fastMerge (posFrom (fun x => decide (x = n)) (m + i) t) (posFrom (fun x => decide (x ∈ ign)) (m + i) t) m v =
      some v' ∧ AddedAt n i (kept ign t) v v' := by
  induction t generalizing m i v with
  | nil => exact ⟨v, rfl, rfl, by simp [kept]⟩
  | cons e t ih =>
    by_cases h1 : name e ∈ ign
    · have h2 : name e ≠ n := fun h => hn (h ▸ h1)
      rw [kept_cons_of_mem t h1] at hlen ⊢
      simp only [posFrom, h1, h2, decide_true, decide_false, if_true, Bool.false_eq_true, if_false]
      rw [fastMerge_skip _ _ _ _ _ (fun p hp => posFrom_ge _ _ _ p hp)]
      have := ih (m + 1) i v hlen
      rwa [show m + 1 + i = m + i + 1 by omega] at this
    · rw [kept_cons_of_notMem t h1] at hlen ⊢
      simp only [List.length_cons] at hlen
      by_cases h2 : name e = n
      · simp only [posFrom, h2, decide_true, if_true, fastMerge]
        have hno : ∀ q ∈ posFrom (fun x => decide (x ∈ ign)) (m + i + 1) t, ¬ (m + i > q) := by
          intro q hq; have := posFrom_ge _ _ _ q hq; omega
        have hign : (if decide (n ∈ ign) = true then (m + i) :: posFrom (fun x => decide (x ∈ ign)) (m + i + 1) t
            else posFrom (fun x => decide (x ∈ ign)) (m + i + 1) t) = posFrom (fun x => decide (x ∈ ign)) (m + i + 1) t :=
          if_neg (by simp [hn])
        rw [hign]
        have htw : (posFrom (fun x => decide (x ∈ ign)) (m + i + 1) t).takeWhile (fun q => decide (m + i > q)) = [] := by
          cases hS : posFrom (fun x => decide (x ∈ ign)) (m + i + 1) t with
          | nil => rfl
          | cons q S => rw [List.takeWhile_cons, if_neg]; simpa using hno q (by rw [hS]; simp)
        have hdw : (posFrom (fun x => decide (x ∈ ign)) (m + i + 1) t).dropWhile (fun q => decide (m + i > q)) =
            posFrom (fun x => decide (x ∈ ign)) (m + i + 1) t := by
          cases hS : posFrom (fun x => decide (x ∈ ign)) (m + i + 1) t with
          | nil => rfl
          | cons q S => rw [List.dropWhile_cons, if_neg]; simpa using hno q (by rw [hS]; simp)
        rw [htw, hdw]
        simp only [List.length_nil, Nat.add_zero]
        rw [if_neg (by omega), show m + i - m = i by omega, addOne_ok (by omega : i < v.length)]
        simp only [bind, Option.bind]
        obtain ⟨v', hv', ha⟩ := ih m (i + 1) (v.set i (v.getD i 0 + 1)) (by rw [List.length_set]; omega)
        exact ⟨v', hv', ha.cons_eq (by simp) (set_succ_getD v i (by omega))⟩
      · simp only [posFrom, h1, h2, decide_false, Bool.false_eq_true, if_false]
        obtain ⟨v', hv', ha⟩ := ih m (i + 1) v (by omega)
        exact ⟨v', hv', ha.cons_ne h2⟩

/-- The ignored positions of a trace: a permutation of the positions of the ignored names. -/
theorem ignoredPositionsOf_perm (it : Iter) (ignored : Option (List String)) (hg : (ignored.getD []).Nodup) (t : List E) :
    (ignoredPositionsOf it ignored (eventsPositions t)).Perm
      (posFrom (fun m => decide (m ∈ ignored.getD [])) 0 t) := by
  cases ignored with
  | none =>
    have : posFrom (fun m => decide (m ∈ ([] : List String))) 0 t = [] := by rw [posFrom_eq]; simp
    rw [Option.getD_none, this]
    exact List.Perm.refl _
  | some g =>
    unfold ignoredPositionsOf
    simp only
    rw [fold_positions (eventsPositions t) _ (by
      intro l x; cases (eventsPositions t).get? x <;> simp), List.nil_append]
    refine List.Perm.trans ((it.perm "ignored_events" 0 g).flatMap_right _) ?_
    rw [eventsPositions_eq]
    simp only [tracePositions_getD]
    exact ignored_perm g hg 0 t

theorem fastTrace_spec (it : Iter) (ignored : Option (List String)) (hg : (ignored.getD []).Nodup) (n : String)
    (hn : n ∉ ignored.getD []) (t : List E) (v : List Nat) (c : Nat)
    (hlen : (kept (ignored.getD []) t).length ≤ v.length) :
    ∃ v', fastTrace it ignored n (v, c) t.length (eventsPositions t) =
        some (v', c + if kept (ignored.getD []) t = [] then 0 else 1) ∧
      AddedAt n 0 (kept (ignored.getD []) t) v v' := by
  unfold fastTrace
  simp only
  have hp := ignoredPositionsOf_perm it ignored hg t
  have hl : (ignoredPositionsOf it ignored (eventsPositions t)).length + (kept (ignored.getD []) t).length = t.length := by
    rw [hp.length_eq, posFrom_length]
    have := filter_length_add (t.map name) (fun x => decide (x ∈ ignored.getD []))
    have e : kept (ignored.getD []) t = (t.map name).filter (fun x => !decide (x ∈ ignored.getD [])) := by
      unfold kept; apply List.filter_congr; intro x _; simp
    rw [e]; rw [List.length_map] at this; exact this
  by_cases hk : kept (ignored.getD []) t = []
  · rw [if_pos (by rw [← hl, hk]; simp)]
    exact ⟨v, by simp [hk], rfl, by simp [hk]⟩
  · have hpos : 0 < (kept (ignored.getD []) t).length := List.length_pos_iff.2 hk
    rw [if_neg (by omega), eventsPositions_eq, tracePositions_get?]
    by_cases h2 : posFrom (fun m => decide (m = n)) 0 t = []
    · rw [if_pos h2]
      refine ⟨v, by simp [hk], rfl, fun j => ?_⟩
      rw [if_neg]; · rfl
      rintro ⟨_, h3⟩
      have h4 := List.mem_of_getElem? h3
      exact posFrom_eq_nil n 0 t h2 (List.mem_filter.1 h4).1
    · rw [if_neg h2]
      simp only
      have hsort : (ignoredPositionsOf it ignored (tracePositions t).positions).insertionSort (· ≤ ·) =
          posFrom (fun m => decide (m ∈ ignored.getD [])) 0 t := by
        apply List.Perm.eq_of_pairwise (le := (· ≤ ·))
        · intro a b _ _ h1 h2; exact Nat.le_antisymm h1 h2
        · exact List.pairwise_insertionSort _ _
        · exact posFrom_sorted _ _ _
        · exact (List.perm_insertionSort _ _).trans hp
      rw [hsort]
      obtain ⟨v', hv', ha⟩ := fastMerge_spec (ignored.getD []) n hn t 0 0 v (by omega)
      refine ⟨v', ?_, ha⟩
      simp only [Nat.zero_add] at hv'
      simp only [hv', bind, Option.bind, pure, hk, if_false]

theorem fastTraces_spec (it : Iter) (ignored : Option (List String)) (hg : (ignored.getD []).Nodup) (n : String)
    (hn : n ∉ ignored.getD []) (log : List (EventsHolder E)) (hs : ∀ h ∈ log, InStep h) (v : List Nat) (c : Nat)
    (hle : ∀ h ∈ log, (kept (ignored.getD []) h.events).length ≤ v.length) :
    ∃ v' log', fastTraces it ignored n (v, c) log =
        some ((v', c + nonEmptyCount (keptLog ignored (eventsOf log))), log') ∧
      Sound log log' ∧ v'.length = v.length ∧
      ∀ j, v'.getD j 0 = v.getD j 0 + atPosition (keptLog ignored (eventsOf log)) n j := by
  induction log generalizing v c with
  | nil => exact ⟨v, [], rfl, ⟨rfl, by simp⟩, rfl, fun j => by simp [keptLog, eventsOf, atPosition]⟩
  | cons h log ih =>
    have h1 := hs h (by simp)
    obtain ⟨w, hw, ha⟩ := fastTrace_spec it ignored hg n hn h.events v c (hle h (by simp))
    obtain ⟨v', log', hv', s, hl, hval⟩ := ih (fun x hx => hs x (by simp [hx])) w
      (c + if kept (ignored.getD []) h.events = [] then 0 else 1)
      (fun x hx => by rw [ha.length]; exact hle x (by simp [hx]))
    refine ⟨v', h.getPositions.2 :: log', ?_, ⟨?_, ?_⟩, hl.trans ha.length, ?_⟩
    · rw [fastTraces, getPositions_of_inStep h1, hw]
      simp only [bind, Option.bind]
      rw [hv']
      simp only [keptLog, eventsOf, List.map_cons, nonEmptyCount_cons, Nat.add_assoc, pure]
    · have := s.1
      simp only [eventsOf, List.map_cons, getPositions_events] at this ⊢; rw [this]
    · intro x hx
      rcases List.mem_cons.1 hx with rfl | hx
      · exact getPositions_inStep h1
      · exact s.2 x hx
    · intro j
      rw [hval j, ha.value j]
      simp only [keptLog, eventsOf, List.map_cons, atPosition_cons, Nat.zero_le, true_and, Nat.sub_zero, Nat.add_assoc]

theorem fastCounts_eq (it : Iter) (log : List (EventsHolder E)) (hs : ∀ h ∈ log, InStep h) (n : String)
    (ignored : Option (List String)) (hg : (ignored.getD []).Nodup) (hn : n ∉ ignored.getD [])
    (hne : ignored = none → log ≠ []) :
    ∃ log', fastCounts it log n ignored =
      some ((positionTable (keptLog ignored (eventsOf log)) n, nonEmptyCount (keptLog ignored (eventsOf log))), log') ∧
      Sound log log' := by
  obtain ⟨log1, e, s⟩ := maxVectorLengthOf_eq it log hs ignored hg hne
  obtain ⟨v', log', hv', s', hl, hval⟩ := fastTraces_spec it ignored hg n hn log1 s.2
    (List.replicate (longest (keptLog ignored (eventsOf log))) 0) 0
    (by intro h hh; rw [List.length_replicate]; exact length_le_longest ignored s h hh)
  rw [s.1] at hv' hval
  refine ⟨log', ?_, s'.1.trans s.1, s'.2⟩
  unfold fastCounts
  rw [e]
  simp only [bind, Option.bind]
  rw [hv', Nat.zero_add, table_of_values rfl hl hval]

/-- The idealised value is the one of the local library: quotients of logarithms do not depend on the base. -/
theorem posEntropy_eq (counts : List Nat) (traces : Nat) : posEntropy counts traces = positionEntropy counts traces := by
  unfold posEntropy positionEntropy
  simp only
  split
  · rfl
  · congr 3
    apply List.map_congr_left
    intro p _
    rw [Real.logb, Real.logb, neg_div]
    rw [div_div_div_cancel_right₀ (Real.log_pos (by norm_num)).ne']

/-- The loop of `calculate_entropies` for a way to count that is right on every log with these events. -/
theorem entropyStep_fold (counts : List (EventsHolder E) → String → Option ((List Nat × Nat) × List (EventsHolder E)))
    (ignored : Option (List String)) (evs : List (List E)) (g : String → List Nat × Nat) (cs : List String)
    (hcnt : ∀ l n, n ∈ cs → n ∉ ignored.getD [] → eventsOf l = evs → (∀ h ∈ l, InStep h) →
      ∃ l', counts l n = some (g n, l') ∧ Sound l l')
    (d : Dict String (Option ℝ)) (log : List (EventsHolder E)) (he : eventsOf log = evs) (hs : ∀ h ∈ log, InStep h) :
    ∃ d' log', cs.foldlM (entropyStep counts ignored) (d, log) = some (d', log') ∧ Sound log log' ∧
      ∀ n, d'.get? n = if n ∈ cs ∧ n ∉ ignored.getD [] then some (posEntropy (g n).1 (g n).2) else d.get? n := by
  induction cs generalizing d log with
  | nil => exact ⟨d, log, rfl, ⟨rfl, hs⟩, by simp⟩
  | cons c cs ih =>
    have hig : isIgnored ignored c = true ↔ c ∈ ignored.getD [] := by cases ignored <;> simp [isIgnored]
    rw [List.foldlM_cons]
    by_cases h1 : c ∈ ignored.getD []
    · rw [show entropyStep counts ignored (d, log) c = some (d, log) from if_pos (hig.2 h1)]
      obtain ⟨d', log', e, s, hd⟩ := ih (fun l n hn => hcnt l n (by simp [hn])) d log he hs
      refine ⟨d', log', e, s, fun n => ?_⟩
      rw [hd n]
      by_cases hc : n = c
      · subst hc; simp [h1]
      · simp [hc]
    · obtain ⟨l', e', s'⟩ := hcnt log c (by simp) h1 he hs
      rw [show entropyStep counts ignored (d, log) c = some (d.set c (posEntropy (g c).1 (g c).2), l') by
        unfold entropyStep
        rw [if_neg (fun h => h1 (hig.1 h))]
        simp only [e', bind, Option.bind, pure]]
      obtain ⟨d', log', e, s, hd⟩ := ih (fun l n hn => hcnt l n (by simp [hn])) (d.set c (posEntropy (g c).1 (g c).2)) l'
        (s'.1.trans he) s'.2
      refine ⟨d', log', e, ⟨s.1.trans s'.1, s.2⟩, fun n => ?_⟩
      rw [hd n, Dict.get?_set]
      by_cases hc : n = c
      · subst hc; simp [h1]
      · have : ¬ c = n := fun h => hc h.symm
        simp [hc, this]

theorem ratiosEntropy_eq (v : List ℚ) : ratiosEntropy v = vectorEntropy v := rfl

theorem vectorEntropy_perm {a b : List ℚ} (h : a.Perm b) : vectorEntropy a = vectorEntropy b := by
  rw [vectorEntropy_eq, vectorEntropy_eq]
  exact (h.map _).sum_eq

/-- A loop that sets a value for each name. -/
theorem set_fold (f : String → ℝ) (ns : List String) (d : Dict String ℝ) (n : String) :
    Dict.get? (ns.foldl (fun d n => Dict.set d n (f n)) d) n = if n ∈ ns then some (f n) else Dict.get? d n := by
  induction ns generalizing d with
  | nil => simp
  | cons c ns ih =>
    rw [List.foldl_cons, ih, Dict.get?_set]
    by_cases hc : n = c
    · subst hc; simp
    · have : ¬ c = n := fun h => hc h.symm
      simp [hc, this]

end Ficus.Rs
