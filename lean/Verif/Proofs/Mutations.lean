import Verif.Model.Mutations
import Verif.Spec.Log
import Mathlib.Data.List.Basic
import Mathlib.Data.List.Perm.Basic

namespace Ficus
variable {E : Type}

theorem foldl_filter_append {α : Type} (p : α → Bool) (l acc : List α) :
    l.foldl (fun t e => if p e then t ++ [e] else t) acc = acc ++ l.filter p := by
  induction l generalizing acc with
  | nil => simp
  | cons a l ih => simp only [List.foldl_cons, ih, List.filter_cons]; split <;> simp

theorem filterEvents_traces (log : Log E) (sel : E → Bool) :
    (filterEvents log sel).traces =
      ((log.evs.map (·.filter sel)).filter (fun t => decide (t ≠ []))).map (fun t => { events := t }) := by
  unfold filterEvents Log.evs
  simp only
  generalize log.traces = ts
  suffices h : ∀ acc : List (Trace E), ts.foldl (fun acc trace =>
      let newTrace := trace.events.foldl (fun t e => if sel e then t ++ [e] else t) []
      if newTrace.length > 0 then acc ++ [{ events := newTrace }] else acc) acc =
      acc ++ (((ts.map Trace.events).map (·.filter sel)).filter (fun t => decide (t ≠ []))).map
        (fun t => { events := t }) by
    simpa using h []
  induction ts with
  | nil => simp
  | cons t ts ih =>
    intro acc
    simp only [List.foldl_cons, List.map_cons, foldl_filter_append, List.nil_append] at ih ⊢
    rw [ih]
    by_cases h : t.events.filter sel = []
    · simp [h]
    · have : (t.events.filter sel).length > 0 := List.length_pos_iff.2 h
      simp only [this, if_true, List.filter_cons, ne_eq, h, not_false_iff, decide_true, List.map_cons,
        List.append_assoc, List.singleton_append]

theorem filterEvents_evs (log : Log E) (sel : E → Bool) :
    (filterEvents log sel).evs = (log.evs.map (·.filter sel)).filter (fun t => decide (t ≠ [])) := by
  unfold Log.evs
  rw [filterEvents_traces]
  simp [Log.evs, Function.comp_def]

theorem filterEvents_eq_ofEvs (log : Log E) (sel : E → Bool) :
    filterEvents log sel = Log.ofEvs ((log.evs.map (·.filter sel)).filter (fun t => decide (t ≠ []))) := by
  have := filterEvents_traces log sel
  unfold Log.ofEvs
  rw [← this]; rfl

theorem ofEvs_evs (l : List (List E)) : (Log.ofEvs l).evs = l := by
  simp [Log.ofEvs, Log.evs, Function.comp_def]

theorem filterTraces_traces (log : Log E) (sel : Trace E → Bool) :
    (filterTraces log sel).traces = log.traces.filter sel := by
  simp [filterTraces, foldl_filter_append]

theorem filter_map_filter_nonempty (l : List (List E)) (p q : E → Bool) :
    ((((l.map (·.filter p)).filter (fun t => decide (t ≠ []))).map (·.filter q)).filter (fun t => decide (t ≠ []))) =
    (l.map (·.filter (fun e => p e && q e))).filter (fun t => decide (t ≠ [])) := by
  induction l with
  | nil => simp
  | cons t l ih =>
    simp only [List.map_cons, List.filter_cons] at ih ⊢
    have hq : t.filter (fun e => p e && q e) = (t.filter p).filter q := by
      rw [List.filter_filter]; congr 1; funext e; exact Bool.and_comm _ _
    by_cases h : t.filter p = []
    · rw [hq]; simp [h]; simpa using ih
    · rw [hq]; simp only [ne_eq, h, not_false_iff, decide_true, if_true, List.map_cons, List.filter_cons, ih]

theorem filterEvents_comp (log : Log E) (p q : E → Bool) :
    filterEvents (filterEvents log p) q = filterEvents log (fun e => p e && q e) := by
  rw [filterEvents_eq_ofEvs, filterEvents_evs, filter_map_filter_nonempty, ← filterEvents_eq_ofEvs]

theorem flatten_filter_nonempty (l : List (List E)) :
    (l.filter (fun t => decide (t ≠ []))).flatten = l.flatten := by
  induction l with
  | nil => rfl
  | cons t l ih =>
    simp only [List.filter_cons]
    by_cases h : t = []
    · simpa [h] using ih
    · simp only [ne_eq, h, not_false_iff, decide_true, if_true, List.flatten_cons]; rw [ih]

theorem filterEvents_flatten (log : Log E) (sel : E → Bool) :
    (filterEvents log sel).evs.flatten = log.evs.flatten.filter sel := by
  rw [filterEvents_evs, flatten_filter_nonempty, List.filter_flatten]

end Ficus
