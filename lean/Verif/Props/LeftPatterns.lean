import Verif.Proofs.Discovery
import Verif.Props.ActDiagrams
import Verif.Props.Diagrams
import Verif.Props.Discovery

/-! Property C100: whether the patterns that stand in the context after a discovery belong to the log that stands there. -/

namespace Ficus
open Spec
variable {E : Type}

/-- Every found pattern lies inside of its trace. -/
theorem findPatterns_inside {lib : TreeLib} (hl : LawfulTrees lib) (source : PatternsSource) (ext : E → String)
    (log : Log E) (hn : NoCollisions (wordsOf ext log)) (ps : List (List SubArray))
    (h : findPatterns lib source ext log = .ok ps) :
    List.Forall₂ (fun es subs => ∀ s ∈ subs, 0 < s.length ∧ s.firstPos + s.length ≤ es.length) log.evs ps := by
  have hrep : ∀ (K : List Int → List Int → Prop) (out : List (List SubArray)),
      List.Forall₂ (fun trace subs => Reports K (trace.map (fun e => stringHash (ext e))) subs) log.evs out →
      List.Forall₂ (fun es subs => ∀ s ∈ subs, 0 < s.length ∧ s.firstPos + s.length ≤ es.length) log.evs out :=
    fun K out hf => hf.imp (fun es subs hr s hs => by simpa using hr.1 s hs)
  have htan : ∀ (n : Nat) (r : List (List Tandem)), findMaximalTandem log n ext = .ok r → ∀ p : List (List Tandem),
      List.Forall₂ List.Sublist p r →
      List.Forall₂ (fun es subs => ∀ s ∈ subs, 0 < s.length ∧ s.firstPos + s.length ≤ es.length) log.evs
        (p.map (·.map Tandem.sub)) := by
    intro n r hr p hp
    obtain ⟨r', h1, h2⟩ := C24_one_report_list_per_trace log n ext
    rw [hr] at h1
    obtain rfl := Except.ok.inj h1
    have hpl : p.length = r.length := hp.length_eq
    rw [List.forall₂_iff_get]
    refine ⟨by simp [Log.evs, hpl, h2], ?_⟩
    intro k hk hk'
    have hkt : k < log.traces.length := by simpa [Log.evs] using hk
    have hkr : k < r.length := by omega
    have hkp : k < p.length := by omega
    simp only [List.get_eq_getElem, List.getElem_map, Log.evs]
    intro s hs
    obtain ⟨a, ha, rfl⟩ := List.mem_map.1 hs
    have hsub : (p[k]).Sublist (r[k]) := by
      have := (List.forall₂_iff_get.1 hp).2 k hkp hkr
      simpa using this
    have hd : DistinctHashes (log.traces[k].events.map ext) := by
      intro x hx y hy
      have hm : log.traces[k].events.map ext ∈ wordsOf ext log :=
        List.mem_map.2 ⟨_, List.getElem_mem hkt, rfl⟩
      exact hn.classes x (List.mem_flatten.2 ⟨_, hm, hx⟩) y (List.mem_flatten.2 ⟨_, hm, hy⟩)
    obtain ⟨c1, _, c3, c4, _⟩ := C24_reports_are_maximal_tandem_arrays log n ext r hr k _ (List.getElem?_eq_getElem hkt) hd
      _ (List.getElem?_eq_getElem hkr) a (hsub.subset ha)
    refine ⟨by simp only [Tandem.sub]; omega, ?_⟩
    simp only [Tandem.sub]
    have : 1 * a.length ≤ a.repeatCount * a.length := Nat.mul_le_mul_right _ (by omega)
    omega
  match source, h with
  | .repeats .maximal, h => obtain rfl := Except.ok.inj h; exact hrep _ _ (C82_hashes hl ext log)
  | .repeats .superMaximal, h => obtain rfl := Except.ok.inj h; exact hrep _ _ (C83_hashes hl ext log)
  | .repeats .nearSuperMaximal, h =>
    obtain ⟨out, h1, h2⟩ := C84_hashes hl ext log
    have : findNearSuperMaximalRepeats lib ext log = .ok ps := h
    rw [h1] at this
    obtain rfl := Except.ok.inj this
    exact hrep _ _ h2
  | .tandems .maximal n, h =>
    obtain ⟨r, h1, _⟩ := C24_one_report_list_per_trace log n ext
    simp only [findPatterns, h1, Except.map] at h
    obtain rfl := Except.ok.inj h
    exact htan n r h1 r (List.forall₂_same.2 (fun _ _ => List.Sublist.refl _))
  | .tandems .primitive n, h =>
    obtain ⟨r, p, h1, h2, h3⟩ := C24_primitive_reports_are_maximal_reports log n ext
    simp only [findPatterns, h2, Except.map] at h
    obtain rfl := Except.ok.inj h
    exact htan n r h1 p h3

/-- C100a: after a search in the traces, the context has for every trace of its log the patterns of this trace: each lies
inside of the trace, and its words of classes are exactly the patterns. For the search in the merged trace, which is the
default, the property fails (C100b - C100d). -/
theorem C100_own_traces_partial {lib : TreeLib} (hl : LawfulTrees lib) (source : PatternsSource) (sep : Nat → E)
    (ext : E → String) (log : Log E) (hn : NoCollisions (wordsOf ext log)) (hb : BlocksDiffer source (wordsOf ext log)) :
    ∃ ps, leftPatterns lib source false sep ext log = .ok ps ∧
      List.Forall₂ (fun es subs => (∀ s ∈ subs, 0 < s.length ∧ s.firstPos + s.length ≤ es.length) ∧
        ∀ w, (∃ s ∈ subs, factor (es.map ext) s.firstPos s.length = w) ↔ PatternOf source (es.map ext) w) log.evs ps := by
  obtain ⟨ps, h1, h2⟩ := findPatterns_described hl source ext log hn hb
  refine ⟨ps, by simpa [leftPatterns, searchedLog] using h1, ?_⟩
  have h3 := findPatterns_inside hl source ext log hn ps h1
  unfold Described at h2
  rw [wordsOf_evs, List.forall₂_map_left_iff] at h2
  rw [List.forall₂_iff_get] at h2 h3 ⊢
  refine ⟨h3.1, fun k hk hk' => ⟨h3.2 k hk hk', fun w => ?_⟩⟩
  rw [← h2.2 k hk hk' w]
  simp only [words, List.mem_map, factor]

example : ∃ ps, leftPatterns slowTrees (.repeats .superMaximal) false discoverySep id discoveryLog = .ok ps ∧
    List.Forall₂ (fun es subs => (∀ s ∈ subs, 0 < s.length ∧ s.firstPos + s.length ≤ es.length) ∧
      ∀ w, (∃ s ∈ subs, factor (es.map id) s.firstPos s.length = w) ↔ SuperMaximal (es.map id) w) discoveryLog.evs ps :=
  C100_own_traces_partial slowTrees_lawful (.repeats .superMaximal) discoverySep id discoveryLog discoveryLog_ok trivial

/-- C100b: after a search in the merged trace, the context has one list of patterns, whatever the number of traces of its
log is. -/
theorem C100_merged_one_list {lib : TreeLib} (hl : LawfulTrees lib) (source : PatternsSource) (sep : Nat → E)
    (ext : E → String) (log : Log E) (hn : NoCollisions (wordsOf ext (searchedLog true sep log)))
    (hb : BlocksDiffer source (wordsOf ext (searchedLog true sep log))) :
    ∃ subs, leftPatterns lib source true sep ext log = .ok [subs] := by
  obtain ⟨ps, h1, h2⟩ := findPatterns_described hl source ext (searchedLog true sep log) hn hb
  have hlen := h2.length_eq
  rw [wordsOf_length] at hlen
  have : ps.length = 1 := by rw [← hlen]; rfl
  obtain ⟨subs, rfl⟩ := List.length_eq_one_iff.1 this
  exact ⟨subs, h1⟩

example : ∃ subs, leftPatterns slowTrees (.repeats .maximal) true discoverySep id discoveryLog = .ok [subs] :=
  C100_merged_one_list slowTrees_lawful _ discoverySep id discoveryLog discoveryLog_merged_ok trivial

/-- C100c: then the diagram of patterns shows the first trace only: nothing is seen in the rows of the other traces. -/
theorem C100_merged_first_row_only {E : Type} (hash : E → Int) (p q : Palette) (log : List (List E))
    (subs : List SubArray) (short pl : Bool) (hs ws : Nat) (d : Diagram)
    (h : patternsDiagram hash p log [subs] short pl hs ws = .done (.ok d, q)) (px py : Nat) (hy : hs ≤ py) :
    colorAt d.rects px py = none := by
  unfold patternsDiagram at h
  cases hr : actsRows short ws hs
      ((List.zipWith (fun t ps => ps.map (patternSubTrace hash t)) log [subs]).zip (log.map List.length)) 0
      { picture := { rects := [], legend := [] }, colors := [], palette := p } with
  | overflow => rw [hr] at h; simp at h
  | running => rw [hr] at h; simp at h
  | done st =>
    rw [hr] at h
    simp only [Draw.done.injEq, Prod.mk.injEq] at h
    obtain ⟨hd, rfl⟩ := h
    obtain ⟨_, _, _, h4⟩ := actsRows_done (met_start p) hr
    have hpic := h4 st.palette [] (GStep.refl _)
    have hd' : finishDiagram st.picture pl (log.map List.length).length (logTicks (log.map List.length) ws) hs ws = .ok d := by
      rw [List.length_map]; exact hd
    rw [hpic] at hd'
    simp only [List.nil_append, List.append_nil] at hd'
    obtain ⟨hshow, _⟩ := finish_cells hd'
    cases hc : colorAt d.rects px py with
    | none => rfl
    | some c =>
      obtain ⟨k, row, j, cell, a1, _, _, _, _, _, a7⟩ := (hshow px py c).1 hc
      have hk := (List.getElem?_eq_some_iff.1 a1).1
      have hk0 : k = 0 := by
        unfold allCells at hk
        simp only [List.length_map, List.length_zip, List.length_zipWith, List.length_cons, List.length_nil] at hk
        omega
      subst hk0
      omega

/-- C100d: and what it shows there need not be about the first trace. The word `ab` is repeated in the second trace of this
log; the diagram shows it in the row of the first trace, beyond its only event. -/
theorem C100_merged_wrong_place : ∃ (log : Log String) (subs : List SubArray) (d : Diagram) (q : Palette),
    leftPatterns slowTrees (.repeats .superMaximal) true discoverySep id log = .ok [subs] ∧
    log.evs.map List.length = [1, 4] ∧
    patternsDiagram stringHash { used := [], cached := [], draws := [(1, 2, 3)] } log.evs [subs] false true 1 1 =
      .done (.ok d, q) ∧
    colorAt d.rects 3 0 = some "#010203" := by
  refine ⟨Log.ofEvs [["x"], ["a", "b", "a", "b"]], [⟨2, 2⟩], ?_⟩
  let r := patternsDiagram stringHash { used := [], cached := [], draws := [(1, 2, 3)] } [["x"], ["a", "b", "a", "b"]]
    [[⟨2, 2⟩]] false true 1 1
  have e : (drawnLegend r).map (fun x => colorAt x.1 3 0) = some (some "#010203") := by decide +kernel
  have hp : leftPatterns slowTrees (.repeats .superMaximal) true discoverySep id
      (Log.ofEvs [["x"], ["a", "b", "a", "b"]]) = .ok [[⟨2, 2⟩]] := by decide +kernel
  cases hr : r with
  | overflow => rw [hr] at e; cases e
  | running => rw [hr] at e; cases e
  | done x =>
    obtain ⟨res, q⟩ := x
    cases res with
    | error err => rw [hr] at e; cases e
    | ok d =>
      rw [hr] at e
      simp only [drawnLegend, Option.map_some, Option.some.injEq] at e
      exact ⟨d, q, hp, by decide, hr, e⟩

end Ficus
