import Verif.Model.RsLoop
import Verif.Props.RsActivityLogs

/-! Property C136: the discovery of activities until there are no more. -/

namespace Ficus.Rs
open Spec
variable {P : Type}

theorem discover_nested (d : Discovery) (log : List (List (Nested (REvent P)))) (g : List RNode × List Nat)
    (h : discover d log = some g) : NestedIn (heapOf g.1) := by
  unfold discover at h
  simp only [Option.bind_eq_bind, Option.bind_eq_some_iff] at h
  obtain ⟨ps, -, sets, hs, hg⟩ := h
  obtain ⟨-, h2, h3, -⟩ := C130_selection _ _ _ _ _ hs
  exact C132_graphs_are_nested _ _ _ _ (fun x hx => (h3 x hx).1) h2 g.1 g.2 hg

theorem hashesOf_lengths (d : Discovery) (log : List (List (Nested (REvent P)))) :
    (hashesOf d log).map List.length = log.map List.length := by
  unfold hashesOf hashedLog
  rw [List.map_map, List.map_map]
  refine List.map_congr_left (fun t _ => ?_)
  simp

theorem placed_zip {A : Type} (h : Heap) (kind : Narrowing) (m : Nat) (f : FilterKind) (acts : List Nat)
    (hashes : List (List Nat)) (log : List (List A)) (hl : hashes.map List.length = log.map List.length) :
    ∀ p ∈ (hashes.map (traceInstances h kind m f acts)).zip log, WellPlaced p.2.length (p.1.map spanOf) := by
  rintro ⟨is, t⟩ hp
  obtain ⟨k, hk, he⟩ := List.mem_iff_getElem.1 hp
  rw [List.getElem_zip] at he
  simp only [Prod.mk.injEq, List.getElem_map] at he
  obtain ⟨he1, he2⟩ := he
  have hlen : hashes.length = log.length := by simpa using congrArg List.length hl
  simp only [List.length_zip, List.length_map] at hk
  have hk1 : k < hashes.length := by omega
  have hk2 : k < log.length := by omega
  have hsame : hashes[k].length = log[k].length := by
    have h1 : (hashes.map List.length)[k]? = (log.map List.length)[k]? := by rw [hl]
    simpa [hk1, hk2] using h1
  subst he1 he2
  simp only
  rw [← hsame]
  exact traceInstances_placed h kind m f acts _

theorem findInstances_placed (o : LoopOptions P) (log : List (List (Nested (REvent P)))) (found : List RNode × List (List RInstance))
    (h : findInstances o log = some found) :
    found.2.length = log.length ∧ ∀ p ∈ found.2.zip log, WellPlaced p.2.length (p.1.map spanOf) := by
  unfold findInstances at h
  simp only [Option.bind_eq_bind, Option.bind_eq_some_iff, Option.pure_def, Option.some.injEq] at h
  obtain ⟨g, hg, is, his, rfl⟩ := h
  rw [extractInstances_eq _ (discover_nested _ _ g hg) _ _ _ (Nat.le_refl _)] at his
  cases his
  have hlen : (hashesOf o.discovery log).length = log.length := by
    simpa using congrArg List.length (hashesOf_lengths o.discovery log)
  exact ⟨by simp [hlen], placed_zip _ _ _ _ _ _ _ (hashesOf_lengths _ _)⟩

theorem mapM_some_each {A B : Type} (f : A → Option B) (l : List A) (r : List B) (h : l.mapM f = some r) :
    ∀ a ∈ l, ∃ b, f a = some b := by
  induction l generalizing r with
  | nil => simp
  | cons a l ih =>
    rw [List.mapM_cons] at h
    simp only [Option.bind_eq_bind, Option.bind_eq_some_iff, Option.pure_def] at h
    obtain ⟨b, hb, bs, hbs, -⟩ := h
    intro x hx
    rcases List.mem_cons.1 hx with rfl | hx
    · exact ⟨b, hb⟩
    · exact ih bs hbs x hx

theorem held_mem_pieces (n k : Nat) (is : List RInstance) (i : RInstance) (hi : i ∈ is) : Piece.held i ∈ pieces n k is := by
  induction is generalizing k with
  | nil => cases hi
  | cons j is ih =>
    unfold pieces
    rcases List.mem_cons.1 hi with rfl | hi
    · simp
    · exact List.mem_append_right _ (List.mem_cons_of_mem _ (ih _ hi))

/-- A new trace is only made from instances inside the trace. -/
theorem placed_of_newTrace {E : Type} (s : Strategy E) (make : RInstance → E) (is : List RInstance) (t r : List (Nested E)) (n : Nat)
    (h : WellPlaced n (is.map spanOf)) (hr : newTrace s make is t = some r) : WellPlaced t.length (is.map spanOf) := by
  unfold newTrace at hr
  simp only [Option.bind_eq_bind, Option.bind_eq_some_iff, Option.pure_def] at hr
  obtain ⟨parts, hparts, -⟩ := hr
  refine ⟨?_, h.2⟩
  intro p hp
  obtain ⟨i, hi, rfl⟩ := List.mem_map.1 hp
  have hpos := (h.1 _ hp).1
  refine ⟨hpos, ?_⟩
  obtain ⟨b, hb⟩ := mapM_some_each _ _ _ hparts _ (held_mem_pieces t.length 0 is i hi)
  simp only [pushedFor, Option.bind_eq_bind, Option.bind_eq_some_iff] at hb
  obtain ⟨w, hw, -⟩ := hb
  unfold rangeOf at hw
  simp only [spanOf] at hpos ⊢
  rw [if_pos (by omega)] at hw
  by_contra hc
  rw [if_neg hc] at hw
  cases hw

theorem mapM_forall₂ {A B : Type} (f : A → Option B) (l : List A) (r : List B) (h : l.mapM f = some r) :
    List.Forall₂ (fun a b => f a = some b) l r := by
  induction l generalizing r with
  | nil => simp only [List.mapM_nil, Option.pure_def, Option.some.injEq] at h; subst h; exact .nil
  | cons a l ih =>
    rw [List.mapM_cons] at h
    simp only [Option.bind_eq_bind, Option.bind_eq_some_iff, Option.pure_def, Option.some.injEq] at h
    obtain ⟨b, hb, bs, hbs, rfl⟩ := h
    exact .cons hb (ih bs hbs)

theorem newLog_count {E : Type} (s : Strategy E) (make : RInstance → E) (instances : List (List RInstance))
    (log r : List (List (Nested E))) (h : ∀ is ∈ instances, ∃ n, WellPlaced n (is.map spanOf))
    (hr : newLog s make instances log = some r) : countEvents r ≤ countEvents log := by
  unfold newLog at hr
  have h2 := mapM_forall₂ _ _ _ hr
  clear hr
  unfold countEvents
  induction instances generalizing log r with
  | nil => simp only [List.zip_nil_left] at h2; cases h2; simp
  | cons is instances ih =>
    cases log with
    | nil => simp only [List.zip_nil_right] at h2; cases h2; simp
    | cons t log =>
      rw [List.zip_cons_cons] at h2
      cases h2 with
      | cons hb hrest =>
        rename_i b bs
        have hih := ih log bs (fun x hx => h x (List.mem_cons_of_mem _ hx)) hrest
        obtain ⟨n, hn⟩ := h is (by simp)
        have := (C133_numbers_of_events s make is t b (placed_of_newTrace s make is t b n hn hb) hb).2.1
        simp only [List.map_cons, List.sum_cons]
        omega

theorem each_placed {A : Type} (instances : List (List RInstance)) (log : List (List A)) (hl : instances.length = log.length)
    (h : ∀ p ∈ instances.zip log, WellPlaced p.2.length (p.1.map spanOf)) : ∀ is ∈ instances, ∃ n, WellPlaced n (is.map spanOf) := by
  intro is his
  obtain ⟨k, hk, rfl⟩ := List.mem_iff_getElem.1 his
  have hk2 : k < log.length := by omega
  refine ⟨log[k].length, h (instances[k], log[k]) ?_⟩
  rw [List.mem_iff_getElem]
  exact ⟨k, by simp only [List.length_zip]; omega, List.getElem_zip⟩

/-- The pipeline does not make the log longer. -/
def NotLonger (o : LoopOptions P) : Prop := ∀ f, o.after = some f → ∀ l l', f l = some l' → countEvents l' ≤ countEvents l

theorem abstractLog_count (o : LoopOptions P) (ho : NotLonger o) (log new : List (List (Nested (REvent P))))
    (found : List RNode × List (List RInstance)) (hf : findInstances o log = some found) (hn : abstractLog o found log = some new) :
    countEvents new ≤ countEvents log := by
  obtain ⟨h1, h2⟩ := findInstances_placed o log found hf
  unfold abstractLog at hn
  simp only [Option.bind_eq_bind, Option.bind_eq_some_iff] at hn
  obtain ⟨log', hlog', hn⟩ := hn
  have hle : countEvents log' ≤ countEvents log := by
    unfold runPipeline at hlog'
    cases ha : o.after with
    | none => rw [ha] at hlog'; cases hlog'; exact Nat.le_refl _
    | some f =>
      rw [ha] at hlog'
      simp only at hlog'
      split at hlog'
      · exact ho f ha _ _ hlog'
      · cases hlog'; exact Nat.le_refl _
  exact Nat.le_trans (newLog_count _ _ _ _ _ (each_placed _ _ h1 h2) hn) hle

/-- C136a: the discovery always ends, after at most one more round than the log has events, for every search for patterns, if the
pipeline does not make the log longer (or there is none). -/
theorem C136_ends (o : LoopOptions P) (ho : ∀ f, o.after = some f → ∀ l l', f l = some l' → countEvents l' ≤ countEvents l)
    (log : List (List (Nested (REvent P)))) : ∃ r, ∀ rounds, countEvents log < rounds → untilNoMore o rounds log = some r := by
  induction hc : countEvents log using Nat.strong_induction_on generalizing log with
  | _ c ih =>
  subst hc
  cases hf : findInstances o log with
  | none =>
    refine ⟨none, fun rounds hr => ?_⟩
    obtain ⟨n, rfl⟩ : ∃ n, rounds = n + 1 := ⟨rounds - 1, by omega⟩
    simp only [untilNoMore, hf]
  | some found =>
    by_cases h0 : countEvents found.2 = 0
    · refine ⟨some ⟨log, []⟩, fun rounds hr => ?_⟩
      obtain ⟨n, rfl⟩ : ∃ n, rounds = n + 1 := ⟨rounds - 1, by omega⟩
      simp only [untilNoMore, hf, h0, if_true]
    · cases hn : abstractLog o found log with
      | none =>
        refine ⟨none, fun rounds hr => ?_⟩
        obtain ⟨n, rfl⟩ : ∃ n, rounds = n + 1 := ⟨rounds - 1, by omega⟩
        simp only [untilNoMore, hf, h0, if_false, hn]
      | some new =>
        by_cases hs : (o.onlyLast && runsPipeline o found.2 || decide (countEvents new = countEvents log)) = true
        · refine ⟨some ⟨new, if runsPipeline o found.2 then [(log, found.2)] else []⟩, fun rounds hr => ?_⟩
          obtain ⟨n, rfl⟩ : ∃ n, rounds = n + 1 := ⟨rounds - 1, by omega⟩
          simp only [untilNoMore, hf, h0, if_false, hn, hs, if_true]
        · have hlt : countEvents new < countEvents log := by
            have := abstractLog_count o ho log new found hf hn
            simp only [Bool.or_eq_true, decide_eq_true_eq, not_or] at hs
            omega
          obtain ⟨r, hr⟩ := ih (countEvents new) hlt new rfl
          refine ⟨r.map (fun r => { r with runs := (if runsPipeline o found.2 then [(log, found.2)] else []) ++ r.runs }), ?_⟩
          intro rounds hrounds
          obtain ⟨n, rfl⟩ : ∃ n, rounds = n + 1 := ⟨rounds - 1, by omega⟩
          simp only [untilNoMore, hf, h0, if_false, hn, hs, hr n (by omega)]
          rfl

theorem discover_defined (d : Discovery) (log : List (List (Nested (REvent P)))) (hw : ∀ w, d.wordHash w ≠ none)
    (hp : ∀ hashes, ∃ ps, d.patterns hashes = some ps ∧ ∀ r ∈ indexedSubArrays (ps.take hashes.length), InsideLog hashes r) :
    ∃ g, discover d log = some g := by
  obtain ⟨ps, hps, hin⟩ := hp (hashesOf d log)
  cases hs : buildRepeatSets d.it d.wordHash (hashesOf d log) ps with
  | none =>
    obtain ⟨r, hr, hc | hc⟩ := (C130_panics_iff _ _ _ _).1 hs
    · exact absurd (hin r hr) hc
    · exact absurd hc (hw _)
  | some sets =>
    obtain ⟨nodes, tops, hg, -⟩ := C131_graph_of_repeat_sets _ _ _ _ d.level
      (fun r => (activityName (log.map (fun t => t.map Nested.top)) d.classes r).getD "") sets hs
    refine ⟨(nodes, tops), ?_⟩
    unfold discover
    simp only [Option.bind_eq_bind, hps, Option.bind_some, hs, hg]

theorem findInstances_defined (o : LoopOptions P) (log : List (List (Nested (REvent P))))
    (hw : ∀ w, o.discovery.wordHash w ≠ none)
    (hp : ∀ hashes, ∃ ps, o.discovery.patterns hashes = some ps ∧ ∀ r ∈ indexedSubArrays (ps.take hashes.length), InsideLog hashes r) :
    ∃ found, findInstances o log = some found := by
  obtain ⟨g, hd⟩ := discover_defined o.discovery log hw hp
  refine ⟨(g.1, (hashesOf o.discovery log).map
    (traceInstances (heapOf g.1) o.instances.kind o.instances.minEvents o.instances.filter g.2)), ?_⟩
  unfold findInstances
  rw [hd]
  simp only [Option.bind_eq_bind, Option.bind_some]
  rw [extractInstances_eq _ (discover_nested _ _ _ hd) _ _ _ (Nat.le_refl _)]
  rfl

/-- The pipeline is defined and leaves the log. -/
def LeavesLog (o : LoopOptions P) : Prop := ∀ f, o.after = some f → ∀ l, f l = some l

theorem runPipeline_same (o : LoopOptions P) (ho : LeavesLog o) (is : List (List RInstance)) (log : List (List (Nested (REvent P)))) :
    runPipeline o is log = some log := by
  unfold runPipeline
  cases ha : o.after with
  | none => rfl
  | some f =>
    simp only [ho f ha]
    split <;> rfl

theorem abstractLog_eq (o : LoopOptions P) (ho : LeavesLog o) (found : List RNode × List (List RInstance))
    (log : List (List (Nested (REvent P)))) : abstractLog o found log =
      newLog o.strategy (fun i => REvent.new (heapOf found.1 i.node).name o.calendar.minUtc) found.2 log := by
  unfold abstractLog
  rw [runPipeline_same o ho]
  rfl

/-- C136b: it never panics, if the search for patterns finds sub-arrays of the traces it is given and hashes of words do not overflow,
and the pipeline leaves the log. -/
theorem C136_defined (o : LoopOptions P) (ho : ∀ f, o.after = some f → ∀ l, f l = some l) (hw : ∀ w, o.discovery.wordHash w ≠ none)
    (hp : ∀ hashes, ∃ ps, o.discovery.patterns hashes = some ps ∧ ∀ r ∈ indexedSubArrays (ps.take hashes.length), InsideLog hashes r)
    (rounds : Nat) (log : List (List (Nested (REvent P)))) : untilNoMore o rounds log ≠ some none := by
  induction rounds generalizing log with
  | zero => simp [untilNoMore]
  | succ n ih =>
    obtain ⟨found, hf⟩ := findInstances_defined o log hw hp
    obtain ⟨h1, h2⟩ := findInstances_placed o log found hf
    obtain ⟨new, hnew, -⟩ := C133_new_log o.strategy (fun i => REvent.new (heapOf found.1 i.node).name o.calendar.minUtc) found.2 log h2
    rw [← abstractLog_eq o ho] at hnew
    simp only [untilNoMore, hf, hnew]
    split
    · simp
    · split
      · simp
      · intro hc
        have := ih new
        cases hu : untilNoMore o n new with
        | none => rw [hu] at hc; cases hc
        | some r =>
          rw [hu] at hc
          cases r with
          | none => exact this hu
          | some r => simp at hc

/-- One round with instances. -/
theorem round_spec (o : LoopOptions P) (ho : LeavesLog o) (log new : List (List (Nested (REvent P))))
    (found : List RNode × List (List RInstance)) (hf : findInstances o log = some found) (hn : abstractLog o found log = some new) :
    new.length = log.length ∧ countEvents new ≤ countEvents log ∧
    (o.strategy = .insertAllEvents → substituteLog new = substituteLog log) := by
  obtain ⟨h1, h2⟩ := findInstances_placed o log found hf
  refine ⟨?_, abstractLog_count o (fun f hf l l' hl => by rw [ho f hf] at hl; cases hl; exact Nat.le_refl _) log new found hf hn, ?_⟩
  · rw [abstractLog_eq o ho] at hn
    have := (mapM_forall₂ _ _ _ hn).length_eq
    rw [← this]
    simp [h1]
  · intro hs
    rw [abstractLog_eq o ho, hs] at hn
    exact C133_substitution _ _ _ h1 h2 new hn

/-- C136c: what it leaves, if the pipeline leaves the log: as many traces as before and no more events; and if all events between
instances are inserted, substituting the underlying events gives what it gives for the log at the start. -/
theorem C136_result (o : LoopOptions P) (ho : ∀ f, o.after = some f → ∀ l, f l = some l) (rounds : Nat)
    (log : List (List (Nested (REvent P)))) (r : LoopResult P) (hr : untilNoMore o rounds log = some (some r)) :
    r.log.length = log.length ∧ countEvents r.log ≤ countEvents log ∧
    (o.strategy = .insertAllEvents → substituteLog r.log = substituteLog log ∧ countLog r.log = countLog log) := by
  suffices h : r.log.length = log.length ∧ countEvents r.log ≤ countEvents log ∧
      (o.strategy = .insertAllEvents → substituteLog r.log = substituteLog log) from
    ⟨h.1, h.2.1, fun hs => ⟨h.2.2 hs, by rw [countLog_eq, countLog_eq, h.2.2 hs]⟩⟩
  induction rounds generalizing log r with
  | zero => simp [untilNoMore] at hr
  | succ n ih =>
    simp only [untilNoMore] at hr
    cases hf : findInstances o log with
    | none => rw [hf] at hr; simp at hr
    | some found =>
      rw [hf] at hr
      simp only at hr
      split at hr
      · simp only [Option.some.injEq] at hr; subst hr; exact ⟨rfl, Nat.le_refl _, fun _ => rfl⟩
      · cases hn : abstractLog o found log with
        | none => rw [hn] at hr; simp at hr
        | some new =>
          rw [hn] at hr
          simp only at hr
          obtain ⟨a1, a2, a3⟩ := round_spec o ho log new found hf hn
          split at hr
          · simp only [Option.some.injEq] at hr; subst hr; exact ⟨a1, a2, a3⟩
          · simp only [Option.map_eq_some_iff] at hr
            obtain ⟨x, hx, y, hy, rfl⟩ := hr
            subst hy
            obtain ⟨b1, b2, b3⟩ := ih new y hx
            exact ⟨b1.trans a1, Nat.le_trans b2 a2, fun hs => (b3 hs).trans (a3 hs)⟩

theorem all_single {E : Type} (make : RInstance → E) (instances : List (List RInstance)) (log r : List (List (Nested E)))
    (hl : instances.length = log.length) (h : ∀ p ∈ instances.zip log, WellPlaced p.2.length (p.1.map spanOf))
    (hr : newLog .insertAllEvents make instances log = some r) (hc : countEvents r = countEvents log) :
    ∀ is ∈ instances, ∀ i ∈ is, i.length = 1 := by
  have h2 := mapM_forall₂ _ _ _ hr
  clear hr
  unfold countEvents at hc
  have key : ∀ (instances : List (List RInstance)) (log r : List (List (Nested E))), instances.length = log.length →
      (∀ p ∈ instances.zip log, WellPlaced p.2.length (p.1.map spanOf)) →
      List.Forall₂ (fun p t => newTrace .insertAllEvents make p.1 p.2 = some t) (instances.zip log) r →
      (r.map List.length).sum + (instances.map (fun is => (is.map (fun i => i.length - 1)).sum)).sum = (log.map List.length).sum := by
    intro instances
    induction instances with
    | nil =>
      intro log r hl _ h2
      have : log = [] := List.length_eq_zero_iff.1 hl.symm
      subst this
      cases h2
      rfl
    | cons is instances ih =>
      intro log r hl h h2
      cases log with
      | nil => simp at hl
      | cons t log =>
        rw [List.zip_cons_cons] at h2 h
        cases h2 with
        | cons hb hrest =>
          rename_i b bs
          have h3 := ih log bs (by simpa using hl) (fun p hp => h p (List.mem_cons_of_mem _ hp)) hrest
          have h4 := (C133_numbers_of_events _ make is t b (h (is, t) (by simp)) hb).2.2.2 rfl
          simp only [List.map_cons, List.sum_cons]
          omega
  have hsum := key instances log r hl h h2
  intro is his i hi
  have h0 : (instances.map (fun is => (is.map (fun i => i.length - 1)).sum)).sum = 0 := by omega
  have h1 : (is.map (fun i => i.length - 1)).sum = 0 := List.sum_eq_zero_iff_forall_eq_nat.1 h0 _ (List.mem_map.2 ⟨is, his, rfl⟩)
  have h3 : i.length - 1 = 0 := List.sum_eq_zero_iff_forall_eq_nat.1 h1 _ (List.mem_map.2 ⟨i, hi, rfl⟩)
  obtain ⟨n, hn⟩ := each_placed _ _ hl h is his
  have := (hn.1 (spanOf i) (List.mem_map.2 ⟨i, hi, rfl⟩)).1
  simp only [spanOf] at this
  omega

/-- C136d: how it ends, if the pipeline leaves the log. Either there is no instance in the log that is left; or the log that is left was
made from the instances in some log, and has as many events as that one, or the pipeline was to be run only at the last extraction and
was run. If all events between instances are inserted, in all these cases the last instances had one event each. -/
theorem C136_how_it_ends (o : LoopOptions P) (ho : ∀ f, o.after = some f → ∀ l, f l = some l) (rounds : Nat)
    (log : List (List (Nested (REvent P)))) (r : LoopResult P) (hr : untilNoMore o rounds log = some (some r)) :
    (∃ found, findInstances o r.log = some found ∧ ∀ is ∈ found.2, is = []) ∨
    ∃ l found, findInstances o l = some found ∧
      newLog o.strategy (fun i => REvent.new (heapOf found.1 i.node).name o.calendar.minUtc) found.2 l = some r.log ∧
      (countEvents r.log = countEvents l ∨
        (o.onlyLast = true ∧ r.runs = [(l, found.2)])) ∧
      (o.strategy = .insertAllEvents → ∀ is ∈ found.2, ∀ i ∈ is, i.length = 1) := by
  have hruns : ∀ (m : Nat) (l : List (List (Nested (REvent P)))) (x : LoopResult P), untilNoMore o m l = some (some x) →
      ∀ found, findInstances o l = some found → countEvents found.2 ≠ 0 → ∀ new, abstractLog o found l = some new →
      ¬ (o.onlyLast && runsPipeline o found.2 || decide (countEvents new = countEvents l)) = true → o.onlyLast = true →
      runsPipeline o found.2 = false := by
    intro m l x _ found _ _ new _ hs hol
    simp only [Bool.or_eq_true, Bool.and_eq_true, hol, true_and, not_or, Bool.not_eq_true] at hs
    exact hs.1
  induction rounds generalizing log r with
  | zero => simp [untilNoMore] at hr
  | succ n ih =>
    have hr0 := hr
    simp only [untilNoMore] at hr
    cases hf : findInstances o log with
    | none => rw [hf] at hr; simp at hr
    | some found =>
      rw [hf] at hr
      simp only at hr
      split at hr
      · rename_i h0
        simp only [Option.some.injEq] at hr
        subst hr
        left
        refine ⟨found, hf, fun is his => ?_⟩
        unfold countEvents at h0
        exact List.length_eq_zero_iff.1 (List.sum_eq_zero_iff_forall_eq_nat.1 h0 _ (List.mem_map.2 ⟨is, his, rfl⟩))
      · rename_i h0
        cases hn : abstractLog o found log with
        | none => rw [hn] at hr; simp at hr
        | some new =>
          rw [hn] at hr
          simp only at hr
          have hnew := hn
          rw [abstractLog_eq o ho] at hnew
          obtain ⟨h1, h2⟩ := findInstances_placed o log found hf
          split at hr
          · rename_i hs
            simp only [Option.some.injEq] at hr
            subst hr
            right
            refine ⟨log, found, hf, hnew, ?_, ?_⟩
            · simp only [Bool.or_eq_true, Bool.and_eq_true, decide_eq_true_eq] at hs
              rcases hs with hs | hs
              · exact Or.inr ⟨hs.1, by simp [hs.2]⟩
              · exact Or.inl hs
            · intro hst
              simp only [Bool.or_eq_true, Bool.and_eq_true, decide_eq_true_eq] at hs
              rcases hs with hs | hs
              · have := hs.2
                unfold runsPipeline at this
                simp only [hs.1, Bool.not_true, Bool.false_or, Bool.and_eq_true, List.all_eq_true, decide_eq_true_eq] at this
                exact this.2
              · rw [hst] at hnew
                exact all_single _ _ _ _ h1 h2 hnew hs
          · rename_i hs
            simp only [Option.map_eq_some_iff] at hr
            obtain ⟨x, hx, y, hy, rfl⟩ := hr
            subst hy
            rcases ih new y hx with ⟨f2, hf2, hz⟩ | ⟨l, f2, hf2, hl, hor, hall⟩
            · exact Or.inl ⟨f2, hf2, hz⟩
            · refine Or.inr ⟨l, f2, hf2, hl, ?_, hall⟩
              rcases hor with hor | ⟨hol, hrr⟩
              · exact Or.inl hor
              · refine Or.inr ⟨hol, ?_⟩
                have := hruns _ _ _ hr0 found hf h0 new hn hs hol
                simp [this, hrr]

/-- C136e: when the pipeline is run: only if there is one, each time with a log and the instances found in it, of which there is at
least one. If it is to be run at the last extraction only, it is run at most once, for instances of one event each; else it is run
with the log at the start if there are instances in it. -/
theorem C136_runs (o : LoopOptions P) (rounds : Nat) (log : List (List (Nested (REvent P)))) (r : LoopResult P)
    (hr : untilNoMore o rounds log = some (some r)) :
    (o.after = none → r.runs = []) ∧
    (∀ run ∈ r.runs, (∃ nodes, findInstances o run.1 = some (nodes, run.2)) ∧ ∃ is ∈ run.2, is ≠ []) ∧
    (o.onlyLast = true → r.runs.length ≤ 1 ∧ ∀ run ∈ r.runs, ∀ is ∈ run.2, ∀ i ∈ is, i.length = 1) ∧
    (o.onlyLast = false → o.after ≠ none → ∀ nodes is, findInstances o log = some (nodes, is) → (∃ x ∈ is, x ≠ []) →
      ∃ rest, r.runs = (log, is) :: rest) := by
  have hnz : ∀ is : List (List RInstance), countEvents is ≠ 0 ↔ ∃ x ∈ is, x ≠ [] := by
    intro is
    unfold countEvents
    rw [Ne, List.sum_eq_zero_iff_forall_eq_nat]
    simp only [List.mem_map, forall_exists_index, and_imp, forall_apply_eq_imp_iff₂, not_forall, List.length_eq_zero_iff,
      exists_prop, ne_eq]
  induction rounds generalizing log r with
  | zero => simp [untilNoMore] at hr
  | succ n ih =>
    simp only [untilNoMore] at hr
    cases hf : findInstances o log with
    | none => rw [hf] at hr; simp at hr
    | some found =>
      rw [hf] at hr
      simp only at hr
      split at hr
      · rename_i h0
        simp only [Option.some.injEq] at hr
        subst hr
        refine ⟨fun _ => rfl, by simp, by simp, ?_⟩
        intro _ _ nodes is his hx
        cases his
        exact absurd h0 ((hnz _).2 hx)
      · rename_i h0
        cases hn : abstractLog o found log with
        | none => rw [hn] at hr; simp at hr
        | some new =>
          rw [hn] at hr
          simp only at hr
          have hone : ∀ run ∈ (if runsPipeline o found.2 then [(log, found.2)] else []),
              (∃ nodes, findInstances o run.1 = some (nodes, run.2)) ∧ (∃ is ∈ run.2, is ≠ []) ∧
              (o.onlyLast = true → ∀ is ∈ run.2, ∀ i ∈ is, i.length = 1) := by
            intro run hrun
            split at hrun
            · rename_i hrp
              simp only [List.mem_singleton] at hrun
              subst hrun
              refine ⟨⟨found.1, hf⟩, (hnz _).1 h0, fun hol => ?_⟩
              unfold runsPipeline at hrp
              simp only [hol, Bool.not_true, Bool.false_or, Bool.and_eq_true, List.all_eq_true, decide_eq_true_eq] at hrp
              exact hrp.2
            · cases hrun
          have hafter : o.after = none → runsPipeline o found.2 = false := by
            intro ha; unfold runsPipeline; rw [ha]; rfl
          have hrun : o.onlyLast = false → o.after ≠ none → runsPipeline o found.2 = true := by
            intro hol ha
            unfold runsPipeline
            rw [hol]
            cases ho : o.after with
            | none => exact absurd ho ha
            | some f => rfl
          split at hr
          · simp only [Option.some.injEq] at hr
            subst hr
            refine ⟨fun ha => by simp [hafter ha], fun run h => ⟨(hone run h).1, (hone run h).2.1⟩, fun hol =>
              ⟨by simp only; split <;> simp, fun run h => (hone run h).2.2 hol⟩, ?_⟩
            intro hol ha nodes is his _
            cases his
            exact ⟨[], by simp [hrun hol ha]⟩
          · rename_i hs
            simp only [Option.map_eq_some_iff] at hr
            obtain ⟨x, hx, y, hy, rfl⟩ := hr
            subst hy
            obtain ⟨i1, i2, i3, i4⟩ := ih new y hx
            refine ⟨fun ha => by simp [hafter ha, i1 ha], ?_, ?_, ?_⟩
            · intro run h
              rcases List.mem_append.1 h with h | h
              · exact ⟨(hone run h).1, (hone run h).2.1⟩
              · exact i2 run h
            · intro hol
              have : runsPipeline o found.2 = false := by
                simp only [Bool.or_eq_true, Bool.and_eq_true, hol, true_and, not_or, Bool.not_eq_true] at hs
                exact hs.1
              simpa [this] using i3 hol
            · intro hol ha nodes is his _
              cases his
              exact ⟨y.runs, by simp [hrun hol ha]⟩

/-! ### Concrete cases -/

/-- The maximal tandem arrays of C129 as a search for patterns. -/
def exTandems (log : List (List Nat)) : Option (List (List SubArray)) :=
  (maximalTandems (polyHash false id) log 20).map (fun arrays => (subArrays arrays).map (fun t => t.map (fun a => ⟨a.1, a.2⟩)))

/-- The hash of a name for examples. -/
def exNameHash (s : String) : Nat := s.toList.foldl (fun h c => 2 * h + c.toNat) 7

def exDiscovery : Discovery := ⟨Iter.plain, polyHash false id, exNameHash, none, exTandems, 0⟩

def exLoop (strategy : Strategy (REvent Unit)) (after : Bool) (onlyLast : Bool) : LoopOptions Unit :=
  ⟨exDiscovery, ⟨.narrowDown, 0, .noFilter⟩, strategy, ⟨0, 0⟩, if after then some some else none, onlyLast⟩

def exAtoms (names : List String) : List (Nested (REvent Unit)) := names.map (fun n => .atom (REvent.new n 0))

/-- The names of the events that are left and the number of runs. -/
def shapeOf (r : Option (Option (LoopResult Unit))) : Option (Option (List (List String) × Nat)) :=
  r.map (Option.map (fun r => (r.log.map (fun t => t.map (fun e => e.top.name)), r.runs.length)))

example : shapeOf (untilNoMore (exLoop .insertAllEvents true false) 8 [exAtoms ["s", "a", "b", "a", "b", "e"]]) =
    some (some ([["s", "(a)::(b)", "e"]], 1)) := by decide +kernel

/-- C136f: a pipeline that is to be run at the last extraction only need not be run at all: here activities are found and put together,
and after that there are none, so that the loop ends without running the pipeline. -/
theorem C136_last_run_missing :
    shapeOf (untilNoMore (exLoop .insertAllEvents true true) 8 [exAtoms ["s", "a", "b", "a", "b", "e"]]) =
      some (some ([["s", "(a)::(b)", "e"]], 0)) := by decide +kernel

example (r : LoopResult Unit)
    (hr : untilNoMore (exLoop .insertAllEvents true true) 8 [exAtoms ["s", "a", "b", "a", "b", "e"]] = some (some r)) :
    r.log.length = 1 ∧ countLog r.log = 6 := by
  obtain ⟨h1, -, h3⟩ := C136_result (exLoop .insertAllEvents true true) (by intro f hf l; cases hf; rfl) 8 _ r hr
  exact ⟨h1, (h3 rfl).2⟩

example : ∃ r, ∀ rounds, 6 < rounds → untilNoMore (exLoop .insertAllEvents true true) rounds
    [exAtoms ["s", "a", "b", "a", "b", "e"]] = some r :=
  C136_ends (exLoop .insertAllEvents true true) (by intro f hf l l' h; cases hf; cases h; exact Nat.le_refl _)
    [exAtoms ["s", "a", "b", "a", "b", "e"]]

/-- A search that finds the first two events of each trace meets the hypotheses of C136b. -/
def exFirstTwo (log : List (List Nat)) : Option (List (List SubArray)) :=
  some (log.map (fun t => if 2 ≤ t.length then [⟨0, 2⟩] else []))

theorem exFirstTwo_inside (hashes : List (List Nat)) :
    ∃ ps, exFirstTwo hashes = some ps ∧ ∀ r ∈ indexedSubArrays (ps.take hashes.length), InsideLog hashes r := by
  refine ⟨_, rfl, ?_⟩
  rw [List.take_of_length_le (by simp)]
  intro r hr
  unfold indexedSubArrays at hr
  obtain ⟨⟨l, k⟩, hp, hr⟩ := List.mem_flatMap.1 hr
  obtain ⟨s, hs, rfl⟩ := List.mem_map.1 hr
  rw [List.mk_mem_zipIdx_iff_getElem?] at hp
  simp only [List.getElem?_map, Option.map_eq_some_iff] at hp
  obtain ⟨t, ht, rfl⟩ := hp
  refine ⟨t, ht, ?_⟩
  simp only at hs
  split at hs
  · simp only [List.mem_singleton] at hs
    subst hs
    simpa using ‹2 ≤ t.length›
  · cases hs

example (rounds : Nat) (log : List (List (Nested (REvent Unit)))) :
    untilNoMore ⟨⟨Iter.plain, fun w => some w.sum, exNameHash, none, exFirstTwo, 0⟩, ⟨.narrowDown, 0, .noFilter⟩, .dontInsert, ⟨0, 0⟩, none,
      false⟩ rounds log ≠ some none :=
  C136_defined _ (by intro f hf; cases hf) (by intro w h; cases h) exFirstTwo_inside rounds log

end Ficus.Rs
