import Verif.Props.Reports

/-! Property C64: `AddActivityNameToAllEvents`. -/

namespace Ficus
open Spec

theorem dict_set_set {K V : Type} [DecidableEq K] (d : Dict K V) (k : K) (v w : V) : (d.set k v).set k w = d.set k w := by
  induction d with
  | nil => simp [Dict.set]
  | cons p d ih =>
    obtain ⟨a, b⟩ := p
    by_cases h : a = k
    · simp [Dict.set, h]
    · simp [Dict.set, h, ih]

/-- The events tagged one after the other. -/
def tagAll (as : List (Nat × String)) (h : Heap) : Heap :=
  as.foldl (fun h a => h.setEvent a.1 ((h.event a.1).set "activity" (.str a.2))) h

theorem tagAll_append (as bs : List (Nat × String)) (h : Heap) : tagAll (as ++ bs) h = tagAll bs (tagAll as h) := by
  simp [tagAll]

theorem tagAll_frame (as : List (Nat × String)) (h : Heap) :
    (tagAll as h).traces = h.traces ∧ (tagAll as h).logs = h.logs ∧ (tagAll as h).events.length = h.events.length := by
  induction as generalizing h with
  | nil => exact ⟨rfl, rfl, rfl⟩
  | cons a as ih =>
    have := ih (h.setEvent a.1 ((h.event a.1).set "activity" (.str a.2)))
    simpa [tagAll, Heap.setEvent] using this

theorem tagAll_event (as : List (Nat × String)) (h : Heap) (e : Nat) (he : e < h.events.length) :
    (tagAll as h).event e =
      match (as.filter (fun a => decide (a.1 = e))).getLast? with
      | none => h.event e
      | some a => (h.event e).set "activity" (.str a.2) := by
  induction as using List.reverseRecOn with
  | nil => rfl
  | append_singleton as a ih =>
    obtain ⟨f1, f2, f3⟩ := tagAll_frame as h
    rw [tagAll_append]
    have hstep : ∀ g : Heap, tagAll [a] g = g.setEvent a.1 ((g.event a.1).set "activity" (.str a.2)) := fun _ => rfl
    rw [hstep, List.filter_append, setEvent_event, f3]
    by_cases hae : a.1 = e
    · rw [if_pos ⟨hae, by rw [hae]; exact he⟩, hae, ih]
      have : [a].filter (fun a => decide (a.1 = e)) = [a] := by simp [hae]
      rw [this, List.getLast?_append]
      simp only [List.getLast?_singleton, Option.some_or]
      split
      · rfl
      · rw [dict_set_set]
    · rw [if_neg (fun h => hae h.1), ih]
      have : [a].filter (fun a => decide (a.1 = e)) = [] := by simp [hae]
      rw [this, List.append_nil]

theorem traceObj_of_traces {g h : Heap} (hg : g.traces = h.traces) (t : Nat) : g.traceObj t = h.traceObj t := by
  unfold Heap.traceObj; rw [hg]

theorem tagPositions_spec (t : Nat) (v : String) (ps : List Nat) (h : Heap) :
    ∃ as, (Heap.tagPositions t v ps h).2 = tagAll as h ∧ (∀ a ∈ as, a.1 ∈ (h.traceObj t).events) ∧
      (((∀ p ∈ ps, p < (h.traceObj t).events.length) ∧ (Heap.tagPositions t v ps h).1 = .ok () ∧
        as = ps.filterMap (fun p => ((h.traceObj t).events[p]?).map (fun e => (e, v)))) ∨
       ((¬ ∀ p ∈ ps, p < (h.traceObj t).events.length) ∧ (Heap.tagPositions t v ps h).1 = .error .indexError)) := by
  induction ps generalizing h with
  | nil => exact ⟨[], rfl, by simp, .inl ⟨by simp, rfl, rfl⟩⟩
  | cons p ps ih =>
    unfold Heap.tagPositions
    cases he : (h.traceObj t).events[p]? with
    | none =>
      refine ⟨[], rfl, by simp, .inr ⟨?_, rfl⟩⟩
      intro hall
      have := hall p (by simp)
      rw [List.getElem?_eq_none_iff] at he
      omega
    | some e =>
      simp only
      obtain ⟨as, h1, h2, h3⟩ := ih (h.setEvent e ((h.event e).set "activity" (.str v)))
      have htr : (h.setEvent e ((h.event e).set "activity" (.str v))).traceObj t = h.traceObj t :=
        traceObj_of_traces rfl t
      rw [htr] at h2 h3
      have hp : p < (h.traceObj t).events.length := (List.getElem?_eq_some_iff.1 he).1
      refine ⟨(e, v) :: as, h1, ?_, ?_⟩
      · intro a ha
        rcases List.mem_cons.1 ha with rfl | ha
        · exact List.mem_of_getElem? he
        · exact h2 a ha
      · rcases h3 with ⟨h4, h5, h6⟩ | ⟨h4, h5⟩
        · refine .inl ⟨?_, h5, by rw [List.filterMap_cons, he, h6]; rfl⟩
          intro q hq
          rcases List.mem_cons.1 hq with rfl | hq
          · exact hp
          · exact h4 q hq
        · exact .inr ⟨fun hall => h4 (fun q hq => hall q (by simp [hq])), h5⟩

/-- The assignments of the instances of a trace with the given events. -/
def traceTags (events : List Nat) (is : List Instance) : List (Nat × String) :=
  is.flatMap (fun i => (List.range' i.startPos i.length).filterMap
    (fun p => (events[p]?).map (fun e => (e, i.node.act.uniqueName))))

theorem range'_bounded (s l n : Nat) : (∀ p ∈ List.range' s l, p < n) ↔ l = 0 ∨ s + l ≤ n := by
  constructor
  · intro h
    by_cases hl : l = 0
    · exact .inl hl
    · have := h (s + l - 1) (by rw [List.mem_range'_1]; omega)
      right; omega
  · rintro (rfl | h)
    · simp
    · intro p hp; rw [List.mem_range'_1] at hp; omega

theorem tagInstances_spec (t : Nat) (is : List Instance) (h : Heap) :
    ∃ as, (Heap.tagInstances t is h).2 = tagAll as h ∧ (∀ a ∈ as, a.1 ∈ (h.traceObj t).events) ∧
      (((∀ j ∈ is, j.length = 0 ∨ j.startPos + j.length ≤ (h.traceObj t).events.length) ∧
        (Heap.tagInstances t is h).1 = .ok () ∧ as = traceTags (h.traceObj t).events is) ∨
       ((¬ ∀ j ∈ is, j.length = 0 ∨ j.startPos + j.length ≤ (h.traceObj t).events.length) ∧
        (Heap.tagInstances t is h).1 = .error .indexError)) := by
  induction is generalizing h with
  | nil => exact ⟨[], rfl, by simp, .inl ⟨by simp, rfl, rfl⟩⟩
  | cons i is ih =>
    unfold Heap.tagInstances
    obtain ⟨as, h1, h2, h3⟩ := tagPositions_spec t i.node.act.uniqueName (List.range' i.startPos i.length) h
    rcases hq : Heap.tagPositions t i.node.act.uniqueName (List.range' i.startPos i.length) h with ⟨r, g⟩
    rw [hq] at h1 h3
    simp only at h1 h3
    subst h1
    rw [range'_bounded] at h3
    rcases h3 with ⟨h4, rfl, h6⟩ | ⟨h4, rfl⟩
    · simp only
      obtain ⟨bs, k1, k2, k3⟩ := ih (tagAll as h)
      rw [traceObj_of_traces (tagAll_frame as h).1 t] at k2 k3
      refine ⟨as ++ bs, by rw [tagAll_append]; exact k1, ?_, ?_⟩
      · intro a ha
        rcases List.mem_append.1 ha with ha | ha
        · exact h2 a ha
        · exact k2 a ha
      · rcases k3 with ⟨k4, k5, k6⟩ | ⟨k4, k5⟩
        · refine .inl ⟨?_, k5, ?_⟩
          · intro j hj
            rcases List.mem_cons.1 hj with rfl | hj
            · exact h4
            · exact k4 j hj
          · rw [k6, h6]; simp [traceTags]
        · exact .inr ⟨fun hall => k4 (fun q hq => hall q (by simp [hq])), k5⟩
    · exact ⟨as, rfl, h2, .inr ⟨fun hall => h4 (hall i (by simp)), rfl⟩⟩

theorem tagTraces_spec (zs : List (List Instance × Nat)) (h : Heap) :
    ∃ as, (Heap.tagTraces zs h).2 = tagAll as h ∧ (∀ a ∈ as, ∃ z ∈ zs, a.1 ∈ (h.traceObj z.2).events) ∧
      (((∀ z ∈ zs, ∀ j ∈ z.1, j.length = 0 ∨ j.startPos + j.length ≤ (h.traceObj z.2).events.length) ∧
        (Heap.tagTraces zs h).1 = .ok () ∧ as = zs.flatMap (fun z => traceTags (h.traceObj z.2).events z.1)) ∨
       ((¬ ∀ z ∈ zs, ∀ j ∈ z.1, j.length = 0 ∨ j.startPos + j.length ≤ (h.traceObj z.2).events.length) ∧
        (Heap.tagTraces zs h).1 = .error .indexError)) := by
  induction zs generalizing h with
  | nil => exact ⟨[], rfl, by simp, .inl ⟨by simp, rfl, rfl⟩⟩
  | cons z zs ih =>
    obtain ⟨is, t⟩ := z
    unfold Heap.tagTraces
    obtain ⟨as, h1, h2, h3⟩ := tagInstances_spec t is h
    rcases hq : Heap.tagInstances t is h with ⟨r, g⟩
    rw [hq] at h1 h3
    simp only at h1 h3
    subst h1
    rcases h3 with ⟨h4, rfl, h6⟩ | ⟨h4, rfl⟩
    · simp only
      obtain ⟨bs, k1, k2, k3⟩ := ih (tagAll as h)
      simp only [traceObj_of_traces (tagAll_frame as h).1] at k2 k3
      refine ⟨as ++ bs, by rw [tagAll_append]; exact k1, ?_, ?_⟩
      · intro a ha
        rcases List.mem_append.1 ha with ha | ha
        · exact ⟨(is, t), by simp, h2 a ha⟩
        · obtain ⟨z, hz, hza⟩ := k2 a ha
          exact ⟨z, by simp [hz], hza⟩
      · rcases k3 with ⟨k4, k5, k6⟩ | ⟨k4, k5⟩
        · refine .inl ⟨?_, k5, by rw [k6, h6]; simp⟩
          intro z hz
          rcases List.mem_cons.1 hz with rfl | hz
          · exact h4
          · exact k4 z hz
        · exact .inr ⟨fun hall => k4 (fun q hq => hall q (by simp [hq])), k5⟩
    · exact ⟨as, rfl, fun a ha => ⟨(is, t), by simp, h2 a ha⟩, .inr ⟨fun hall => h4 (hall (is, t) (by simp)), rfl⟩⟩

theorem filter_positions (events : List Nat) (hnd : events.Nodup) (i e : Nat) (he : events[i]? = some e) (v : String)
    (s l : Nat) :
    ((List.range' s l).filterMap (fun p => (events[p]?).map (fun e => (e, v)))).filter (fun a => decide (a.1 = e)) =
      if s ≤ i ∧ i < s + l then [(e, v)] else [] := by
  induction l generalizing s with
  | zero => rw [if_neg (by omega)]; rfl
  | succ l ih =>
    rw [List.range'_succ, List.filterMap_cons]
    have hi := (List.getElem?_eq_some_iff.1 he).1
    cases hp : events[s]? with
    | none =>
      rw [List.getElem?_eq_none_iff] at hp
      simp only [Option.map_none]
      rw [ih, if_neg (by omega), if_neg (by omega)]
    | some x =>
      simp only [Option.map_some]
      by_cases hxe : x = e
      · subst hxe
        have hsi : s = i := by
          have h1 := List.getElem?_eq_some_iff.1 hp
          have h2 := List.getElem?_eq_some_iff.1 he
          exact (List.Nodup.getElem_inj_iff hnd).1 (h1.2.trans h2.2.symm)
        subst hsi
        rw [List.filter_cons_of_pos (by simp), ih, if_neg (by omega), if_pos (by omega)]
      · rw [List.filter_cons_of_neg (by simpa using hxe), ih]
        have hsi : s ≠ i := by
          rintro rfl
          rw [hp] at he
          exact hxe (Option.some.inj he)
        by_cases hc : s + 1 ≤ i ∧ i < s + 1 + l
        · rw [if_pos hc, if_pos (by omega)]
        · rw [if_neg hc, if_neg (by omega)]

theorem filter_traceTags (events : List Nat) (hnd : events.Nodup) (i e : Nat) (he : events[i]? = some e)
    (is : List Instance) :
    (traceTags events is).filter (fun a => decide (a.1 = e)) =
      (is.filter (fun j => decide (j.startPos ≤ i) && decide (i < j.startPos + j.length))).map
        (fun j => (e, j.node.act.uniqueName)) := by
  induction is with
  | nil => rfl
  | cons j is ih =>
    unfold traceTags at ih ⊢
    rw [List.flatMap_cons, List.filter_append, ih, filter_positions events hnd i e he]
    by_cases hc : j.startPos ≤ i ∧ i < j.startPos + j.length
    · rw [if_pos hc, List.filter_cons_of_pos (by simpa using hc)]; simp
    · rw [if_neg hc, List.filter_cons_of_neg (by simpa using hc)]; simp

theorem filter_notin (as : List (Nat × String)) (e : Nat) (h : ∀ a ∈ as, a.1 ≠ e) :
    as.filter (fun a => decide (a.1 = e)) = [] := by
  rw [List.filter_eq_nil_iff]; intro a ha; simpa using h a ha

theorem mem_traceTags (events : List Nat) (is : List Instance) (a : Nat × String) (h : a ∈ traceTags events is) :
    a.1 ∈ events := by
  unfold traceTags at h
  obtain ⟨j, _, h⟩ := List.mem_flatMap.1 h
  obtain ⟨p, _, h⟩ := List.mem_filterMap.1 h
  obtain ⟨e, he, rfl⟩ := Option.map_eq_some_iff.1 h
  exact List.mem_of_getElem? he

theorem filter_allTags (ev : Nat → List Nat) (e i : Nat) : ∀ (traces : List Nat) (insts : List (List Instance)) (n t : Nat),
    (traces.flatMap ev).Nodup → traces[n]? = some t → (ev t)[i]? = some e →
    ((insts.zip traces).flatMap (fun z => traceTags (ev z.2) z.1)).filter (fun a => decide (a.1 = e)) =
      (((insts[n]?).getD []).filter (fun j => decide (j.startPos ≤ i) && decide (i < j.startPos + j.length))).map
        (fun j => (e, j.node.act.uniqueName)) := by
  intro traces
  induction traces with
  | nil => intro insts n t _ h; simp at h
  | cons u us ih =>
    intro insts n t hnd hn he
    rw [List.flatMap_cons, List.nodup_append] at hnd
    obtain ⟨hnd1, hnd2, hdisj⟩ := hnd
    cases insts with
    | nil => simp
    | cons is insts =>
      rw [List.zip_cons_cons, List.flatMap_cons, List.filter_append]
      cases n with
      | zero =>
        simp only [List.getElem?_cons_zero, Option.some.injEq] at hn
        subst hn
        rw [filter_traceTags _ hnd1 i e he, filter_notin _ e, List.append_nil]
        · simp
        · intro a ha hae
          obtain ⟨z, hz, hza⟩ := List.mem_flatMap.1 ha
          have h1 := mem_traceTags _ _ _ hza
          have h2 : z.2 ∈ us := (List.of_mem_zip (a := z.1) (b := z.2) hz).2
          exact hdisj e (List.mem_of_getElem? he) e (List.mem_flatMap.2 ⟨z.2, h2, hae ▸ h1⟩) rfl
      | succ n =>
        rw [List.getElem?_cons_succ] at hn
        rw [ih insts n t hnd2 hn he, filter_notin, List.nil_append, List.getElem?_cons_succ]
        intro a ha hae
        have h1 := mem_traceTags _ _ _ ha
        exact hdisj e (hae ▸ h1) e (List.mem_flatMap.2 ⟨t, List.mem_of_getElem? hn, List.mem_of_getElem? he⟩) rfl

/-- C64a: when the instances end inside their traces and no event object occurs twice in the log, nothing is raised and
every event gets the attribute `activity` with the unique name of the last instance of its trace that contains it; an
event in no instance, and every event outside the log, is unchanged, and so are the trace and log objects. -/
theorem C64_events_tagged (h : Heap) (l : Nat) (insts : List (List Instance)) (hs : Sound h l)
    (hnd : (h.eventRefs l).Nodup) (hr : InstancesInRange h l insts) :
    ∃ h', h.addActivityNames l insts = (.ok (), h') ∧ h'.traces = h.traces ∧ h'.logs = h.logs ∧
      (∀ e, e < h.events.length → e ∉ h.eventRefs l → h'.event e = h.event e) ∧
      ∀ (n t i e : Nat), (h.logObj l).traces[n]? = some t → (h.traceObj t).events[i]? = some e →
        h'.event e = tagged ((insts[n]?).getD []) i (h.event e) := by
  obtain ⟨as, h1, h2, h3⟩ := tagTraces_spec (insts.zip (h.logObj l).traces) h
  rcases h3 with ⟨_, h5, h6⟩ | ⟨h4, _⟩
  · obtain ⟨f1, f2, f3⟩ := tagAll_frame as h
    refine ⟨tagAll as h, ?_, f1, f2, ?_, ?_⟩
    · unfold Heap.addActivityNames
      rw [← h1, ← h5]
    · intro e he hne
      rw [tagAll_event as h e he, filter_notin as e]
      · rfl
      · rintro a ha rfl
        obtain ⟨z, hz, hza⟩ := h2 a ha
        exact hne (List.mem_flatMap.2 ⟨z.2, (List.of_mem_zip (a := z.1) (b := z.2) hz).2, hza⟩)
    · intro n t i e hn he
      have hel : e < h.events.length := sound_event hs (List.mem_of_getElem? hn) (List.mem_of_getElem? he)
      rw [tagAll_event as h e hel, h6,
        filter_allTags (fun t => (h.traceObj t).events) e i (h.logObj l).traces insts n t hnd hn he, List.getLast?_map]
      unfold tagged lastCovering
      cases (List.filter (fun j => decide (j.startPos ≤ i) && decide (i < j.startPos + j.length))
        (insts[n]?.getD [])).getLast? <;> rfl
  · exact absurd hr h4

/-- C64b: `IndexError` is raised exactly if an instance reaches beyond its trace; in any case the trace and log objects and
the events outside the log are unchanged. -/
theorem C64_index_error (h : Heap) (l : Nat) (insts : List (List Instance)) :
    ((h.addActivityNames l insts).1 = .error .indexError ↔ ¬ InstancesInRange h l insts) ∧
      ((h.addActivityNames l insts).1 = .ok () ↔ InstancesInRange h l insts) ∧
      (h.addActivityNames l insts).2.traces = h.traces ∧ (h.addActivityNames l insts).2.logs = h.logs ∧
      ∀ e, e < h.events.length → e ∉ h.eventRefs l → (h.addActivityNames l insts).2.event e = h.event e := by
  obtain ⟨as, h1, h2, h3⟩ := tagTraces_spec (insts.zip (h.logObj l).traces) h
  obtain ⟨f1, f2, f3⟩ := tagAll_frame as h
  have hev : ∀ e, e < h.events.length → e ∉ h.eventRefs l → (tagAll as h).event e = h.event e := by
    intro e he hne
    rw [tagAll_event as h e he, filter_notin as e]
    · rfl
    · rintro a ha rfl
      obtain ⟨z, hz, hza⟩ := h2 a ha
      exact hne (List.mem_flatMap.2 ⟨z.2, (List.of_mem_zip (a := z.1) (b := z.2) hz).2, hza⟩)
  unfold Heap.addActivityNames
  rw [h1]
  rcases h3 with ⟨h4, h5, _⟩ | ⟨h4, h5⟩
  · refine ⟨?_, ?_, f1, f2, hev⟩
    · rw [h5]; simp only [reduceCtorEq, false_iff, not_not]; exact h4
    · rw [h5]; simp only [true_iff]; exact h4
  · refine ⟨?_, ?_, f1, f2, hev⟩
    · rw [h5]; simp only [true_iff]; exact h4
    · rw [h5]; simp only [reduceCtorEq, false_iff]; exact h4

def exTagHeap : Heap :=
  { events := [[("concept:name", .str "a")], [("concept:name", .str "b")], [("concept:name", .str "c")], []],
    traces := [{ events := [2, 0] }, { events := [1] }], logs := [{ traces := [0, 1] }] }
def exTagInsts : List (List Instance) := [[⟨exReportNode 3 "C" 0 [], 1, 1⟩], []]

example : Sound exTagHeap 0 := by
  rintro c (rfl | ⟨t, ht, rfl⟩ | ⟨t, ht, e, he, rfl⟩)
  · simp only [InHeap]; decide
  · simp only [InHeap]; revert t; decide
  · simp only [InHeap]; revert e; revert t; decide

example : (exTagHeap.eventRefs 0).Nodup ∧ InstancesInRange exTagHeap 0 exTagInsts := by
  constructor
  · decide
  · unfold InstancesInRange; decide

example : (exTagHeap.addActivityNames 0 exTagInsts).2.events =
    [[("concept:name", .str "a"), ("activity", .str "Activity_3")], [("concept:name", .str "b")],
      [("concept:name", .str "c")], []] := by decide +kernel

end Ficus
