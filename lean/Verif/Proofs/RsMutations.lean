import Verif.Spec.RsMutations
import Verif.Proofs.Split
import Mathlib.Data.List.Induction
import Mathlib.Data.List.Sort
import Mathlib.Data.List.Nodup
import Mathlib.Tactic.Ring

/-! Lemmas for the parts of the backend that filter and change logs. -/

namespace Ficus.Rs
open Spec

section loops
variable {A : Type}

/-- A backward loop whose body replaces the element at its index by a list. -/
theorem backLoop_replace (step : Nat → List A → Option (List A)) (r : Nat → A → Option (List A))
    (hstep : ∀ (pre : List A) (a : A) (suf : List A),
      step pre.length (pre ++ a :: suf) = (r pre.length a).map (fun x => pre ++ x ++ suf))
    (pre suf : List A) :
    backLoop step pre.length (pre ++ suf) =
      (pre.zipIdx.mapM (fun x => r x.2 x.1)).map (fun xs => xs.flatten ++ suf) := by
  induction pre using List.reverseRecOn generalizing suf with
  | nil => simp [backLoop]
  | append_singleton pre a ih =>
    have hl : (pre ++ [a]).length = pre.length + 1 := by simp
    rw [hl, List.append_assoc, List.singleton_append]
    show (step pre.length (pre ++ a :: suf)).bind (fun l => backLoop step pre.length l) = _
    rw [hstep, List.zipIdx_append, List.mapM_append]
    cases hr : r pre.length a with
    | none =>
      cases hm : pre.zipIdx.mapM (fun x => r x.2 x.1) with
      | none => simp
      | some xs => simp [hr]
    | some x =>
      simp only [Option.map_some, Option.bind_some, List.append_assoc]
      rw [ih]
      cases hm : pre.zipIdx.mapM (fun x => r x.2 x.1) with
      | none => simp
      | some xs => simp [hr]

theorem backLoop_whole (step : Nat → List A → Option (List A)) (r : Nat → A → Option (List A))
    (hstep : ∀ (pre : List A) (a : A) (suf : List A),
      step pre.length (pre ++ a :: suf) = (r pre.length a).map (fun x => pre ++ x ++ suf))
    (l : List A) :
    backLoop step l.length l = (l.zipIdx.mapM (fun x => r x.2 x.1)).map List.flatten := by
  have := backLoop_replace step r hstep l []
  simpa using this

theorem removeAt_mid (pre : List A) (a : A) (suf : List A) : removeAt (pre ++ a :: suf) pre.length = some (pre ++ suf) := by
  simp [removeAt, List.eraseIdx_append_of_length_le]

theorem mapM_zipIdx {B C : Type} (f : B → Option C) (l : List B) (n : Nat) :
    (l.zipIdx n).mapM (fun x => f x.1) = l.mapM f := by
  induction l generalizing n with
  | nil => rfl
  | cons a l ih => rw [List.zipIdx_cons, List.mapM_cons, List.mapM_cons, ih]

/-- Whether a list of computations fails. -/
theorem mapM_none {B C : Type} (f : B → Option C) (l : List B) : l.mapM f = none ↔ ∃ b ∈ l, f b = none := by
  induction l with
  | nil => simp
  | cons a l ih =>
    rw [List.mapM_cons]
    cases ha : f a with
    | none => simp [ha]
    | some x =>
      cases hl : l.mapM f with
      | none => simp [ha, ← ih, hl]
      | some y =>
        have : ¬ ∃ b ∈ l, f b = none := by rw [← ih, hl]; simp
        simp only [Option.bind_eq_bind, Option.bind_some, Option.pure_def, reduceCtorEq, List.mem_cons, exists_eq_or_imp,
          ha, false_or, false_iff]
        exact this

theorem mapM_total {B C : Type} (f : B → Option C) (g : B → C) (l : List B) (h : ∀ b ∈ l, f b = some (g b)) :
    l.mapM f = some (l.map g) := by
  induction l with
  | nil => rfl
  | cons a l ih =>
    rw [List.mapM_cons, h a (by simp), ih (fun b hb => h b (by simp [hb]))]; rfl

end loops

section filters
variable {E : Type}

/-- What the removal leaves of one event. -/
def keepOne (p : E → Option Bool) (e : E) : Option (List E) := (p e).map (fun b => if b then [] else [e])

theorem removeEventsBy_eq (p : E → Option Bool) (l : List E) :
    removeEventsBy p l = (l.mapM (keepOne p)).map List.flatten := by
  unfold removeEventsBy
  rw [backLoop_whole (removeStep p) (fun _ e => keepOne p e), mapM_zipIdx (keepOne p)]
  intro pre a suf
  unfold removeStep keepOne
  simp only [List.getElem?_append_right (Nat.le_refl _), Nat.sub_self, List.getElem?_cons_zero, Option.bind_eq_bind,
    Option.bind_some]
  cases p a with
  | none => rfl
  | some b => cases b <;> simp [removeAt_mid]

theorem removeEventsBy_none (p : E → Option Bool) (l : List E) : removeEventsBy p l = none ↔ ∃ e ∈ l, p e = none := by
  rw [removeEventsBy_eq, Option.map_eq_none_iff, mapM_none]
  simp [keepOne]

theorem removeEventsBy_some (p : E → Option Bool) (q : E → Bool) (l : List E) (h : ∀ e ∈ l, p e = some (q e)) :
    removeEventsBy p l = some (l.filter (fun e => !q e)) := by
  rw [removeEventsBy_eq, mapM_total _ (fun e => if q e then [] else [e]) l (by
    intro e he; simp [keepOne, h e he])]
  simp only [Option.map_some, Option.some.injEq]
  clear h
  induction l with
  | nil => rfl
  | cons a l ih => cases hq : q a <;> simp [hq, ih]

/-- What the filter leaves of one trace. -/
def keepTrace (p : E → Option Bool) (t : List E) : Option (List (List E)) :=
  (removeEventsBy p t).map (fun left => if left.isEmpty then [] else [left])

theorem filterEventsBy_eq (p : E → Option Bool) (log : List (List E)) :
    filterEventsBy p log = (log.mapM (keepTrace p)).map List.flatten := by
  unfold filterEventsBy
  rw [backLoop_whole (filterStep p) (fun _ t => keepTrace p t), mapM_zipIdx (keepTrace p)]
  intro pre t suf
  unfold filterStep keepTrace
  simp only [List.getElem?_append_right (Nat.le_refl _), Nat.sub_self, List.getElem?_cons_zero, Option.bind_eq_bind,
    Option.bind_some]
  cases removeEventsBy p t with
  | none => rfl
  | some left =>
    have : (pre ++ t :: suf).set pre.length left = pre ++ left :: suf := by
      rw [List.set_append_right _ _ (Nat.le_refl _)]; simp
    simp only [Option.bind_some, Option.map_some, this]
    cases left with
    | nil => simp [removeAt_mid]
    | cons a left => simp

theorem filterEventsBy_none (p : E → Option Bool) (log : List (List E)) :
    filterEventsBy p log = none ↔ ∃ t ∈ log, ∃ e ∈ t, p e = none := by
  rw [filterEventsBy_eq, Option.map_eq_none_iff, mapM_none]
  simp only [keepTrace, Option.map_eq_none_iff, removeEventsBy_none]

theorem filterEventsBy_some (p : E → Option Bool) (q : E → Bool) (log : List (List E))
    (h : ∀ t ∈ log, ∀ e ∈ t, p e = some (q e)) : filterEventsBy p log = some (without q log) := by
  rw [filterEventsBy_eq, mapM_total _ (fun t => if (t.filter (fun e => !q e)).isEmpty then []
    else [t.filter (fun e => !q e)]) log (by
      intro t ht
      unfold keepTrace
      rw [removeEventsBy_some p q t (h t ht)]; rfl)]
  simp only [Option.map_some, Option.some.injEq]
  clear h
  unfold without
  induction log with
  | nil => rfl
  | cons t log ih =>
    simp only [List.map_cons, List.flatten_cons, ih, List.filter_cons]
    cases ht : t.filter (fun e => !q e) with
    | nil => simp
    | cons a r => simp

theorem toRemove_eq (p : List E → Nat → Bool) (log : List (List E)) :
    toRemove p log = some ((List.range log.length).filter
      (fun i => match log[i]? with | some t => p t i | none => false)) := by
  unfold toRemove
  have : ∀ (l : List Nat) (acc : List Nat), (∀ i ∈ l, i < log.length) →
      l.foldlM (fun removed index => do
        let trace ← log[index]?
        return if p trace index then removed ++ [index] else removed) acc =
      some (acc ++ l.filter (fun i => match log[i]? with | some t => p t i | none => false)) := by
    intro l
    induction l with
    | nil => intro acc _; simp
    | cons i l ih =>
      intro acc h
      have hi := h i (by simp)
      rw [List.foldlM_cons]
      simp only [List.getElem?_eq_getElem hi, Option.bind_eq_bind, Option.bind_some, Option.pure_def]
      refine (ih _ (fun j hj => h j (by simp [hj]))).trans ?_
      cases hp : p log[i] i <;> simp [List.getElem?_eq_getElem hi, hp]
  rw [this _ [] (fun i hi => List.mem_range.1 hi)]
  simp

/-- The filter of traces keeps the traces that do not satisfy the predicate, in their order. -/
theorem filterTracesBy_eq (p : List E → Nat → Bool) (log : List (List E)) :
    filterTracesBy p log = some ((log.zipIdx.filter (fun x => !p x.1 x.2)).map Prod.fst) := by
  unfold filterTracesBy
  rw [toRemove_eq]
  simp only [Option.bind_eq_bind, Option.bind_some]
  generalize hm : (List.range log.length).filter (fun i => match log[i]? with | some t => p t i | none => false) = marked
  rw [backLoop_whole (removeMarked marked) (fun i t => some (if i ∈ marked then [] else [t]))]
  · rw [mapM_total _ (fun x : List E × Nat => if x.2 ∈ marked then [] else [x.1]) _ (fun _ _ => rfl)]
    simp only [Option.map_some, Option.some.injEq]
    have hmem : ∀ x ∈ log.zipIdx, (x.2 ∈ marked ↔ p x.1 x.2 = true) := by
      intro x hx
      have h2 := List.mem_zipIdx hx
      have h1 : log[x.2]? = some x.1 := by
        have := List.mem_zipIdx_iff_getElem?.1 hx
        exact this
      rw [← hm, List.mem_filter, h1]
      simp only [List.mem_range, and_iff_right_iff_imp]
      intro _; omega
    clear hm
    generalize log.zipIdx = z at hmem
    induction z with
    | nil => rfl
    | cons x z ih =>
      have hx := hmem x (by simp)
      rw [List.map_cons, List.flatten_cons, ih (fun y hy => hmem y (by simp [hy])), List.filter_cons]
      by_cases h : x.2 ∈ marked
      · rw [if_pos h]; simp [hx.1 h]
      · have : p x.1 x.2 = false := by
          cases hp : p x.1 x.2 with
          | false => rfl
          | true => exact absurd (hx.2 hp) h
        rw [if_neg h]; simp [this]
  · intro pre t suf
    unfold removeMarked
    by_cases h : pre.length ∈ marked
    · simp [h, removeAt_mid]
    · simp [h]

end filters

end Ficus.Rs
