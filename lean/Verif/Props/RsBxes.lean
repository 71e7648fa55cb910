import Verif.Proofs.RsBxes

/-! C157–C159: reading and writing logs in the format BXES in the backend. -/

namespace Ficus.Rs
open Bx Spec.Bx
open RsXes (Extension Classifier)

variable {F U : Type}

/-- Floats that are compared as numbers, with one that is equal to nothing; dates with at most a hundred nanoseconds. -/
def exExt : Ext (Option Nat) := ⟨fun a b => a.isSome && decide (a = b), fun d => decide (-100 ≤ d ∧ d ≤ 100)⟩

def exBxLog : Log (Option Nat) Nat where
  traces := [[⟨"a", 5, some [("z", .int64 3), ("cost", .int32 1), ("x", .float64 none)]⟩, ⟨"b", 7, none⟩],
    [⟨"a", 9, some [("cost", .int32 2), ("at", .timestamp 4), ("state", .lifecycle (.braf .completedFailed))]⟩], []]
  globals := [("trace", [("k", .bool true)]), ("event", [("x", .float64 none), ("cost", .int32 1)])]
  extensions := [⟨"Concept", "concept", "http://concept"⟩]
  classifiers := [⟨"Event Name", ["concept:name", "x"]⟩]
  properties := [("p", .date 11), ("o", .timestamp 12), ("p", .lifecycle (.standard .complete))]

theorem exBxLog_keys : LogKeys exBxLog := by
  refine ⟨by decide, by decide, ?_⟩
  intro t ht e he p hp
  have : ∀ t ∈ exBxLog.traces, ∀ e ∈ t, Dict.WF (e.payload.getD []) := by decide
  have := this t ht e he
  rw [hp] at this
  exact this

/-- C157. A log can be written as BXES exactly when its globals are of events, traces or the log, and all dates that are written have a
number of nanoseconds. -/
theorem C157_written_iff [DecidableEq U] (x : Ext F) (l : Log F U) (hl : LogKeys l) :
    (∃ b, writeLog x l = .ok b) ↔ Writable x l := writeLog_exists x l hl

example : Writable exExt exBxLog := (C157_written_iff exExt exBxLog exBxLog_keys).1 (by
  cases h : writeLog exExt exBxLog with
  | ok b => exact ⟨b, rfl⟩
  | error e => exact absurd h (by cases e <;> decide +kernel))

/-- C157. Reading what was written gives the log back: the same classifiers and extensions, properties, globals, traces and events in the
same order, with the same names and dates. Numbers of nanoseconds come back as dates, and attributes with the default value of the log
do not come back. -/
theorem C157_written_read [DecidableEq U] (x : Ext F) (l : Log F U) (hl : LogKeys l) (b : BLog F U) (h : writeLog x l = .ok b) :
    ∃ l', readLog b = .ok l' ∧ LogBack x l l' := write_read x l hl b h

example : (writeLog exExt exBxLog >>= readLog) = .ok { exBxLog with
    traces := [[⟨"a", 5, some [("x", .float64 none), ("z", .int64 3)]⟩, ⟨"b", 7, some []⟩],
      [⟨"a", 9, some [("at", .date 4), ("cost", .int32 2), ("state", .lifecycle (.braf .completedFailed))]⟩], []]
    globals := [("event", [("cost", .int32 1), ("x", .float64 none)]), ("trace", [("k", .bool true)])]
    properties := [("p", .date 11), ("o", .date 12), ("p", .lifecycle (.standard .complete))] } := by decide +kernel

/-- C157. All attributes come back as they were exactly when none has the default value of the log and none is a number of nanoseconds. -/
theorem C157_same_iff [DecidableEq U] (x : Ext F) (l : Log F U) (hl : LogKeys l) (b : BLog F U) (l' : Log F U) (h : writeLog x l = .ok b)
    (h' : readLog b = .ok l') :
    List.Forall₂ (List.Forall₂ fun e e' => ∀ key, valueOfKey e' key = valueOfKey e key) l.traces l'.traces ↔
    ∀ t ∈ l.traces, ∀ e ∈ t, ∀ key v, valueOfKey e key = some v → ¬ IsDefault x l key v ∧ ∀ n, v ≠ .timestamp n := by
  obtain ⟨l'', h1, hb⟩ := write_read x l hl b h
  rw [h'] at h1
  rw [← Except.ok.inj h1] at hb
  exact forall₂_iff hb.traces fun t _ t' ht => forall₂_iff ht fun e _ e' he => event_same_iff x l e e' he

def exPlainLog : Log (Option Nat) Nat where
  traces := [[⟨"a", 5, some [("cost", .int32 2), ("at", .date 4)]⟩]]
  globals := [("event", [("cost", .int32 1)])]
  extensions := []
  classifiers := []
  properties := []

example : (writeLog exExt exPlainLog >>= readLog).toOption.map (fun l => l.traces.map (·.map fun e => [valueOfKey e "cost", valueOfKey e "at"]))
    = some [[[some (.int32 2), some (.date 4)]]] := by rfl

example : (writeLog exExt exBxLog >>= readLog).toOption.map (fun l => l.traces.map (·.map fun e => [valueOfKey e "cost", valueOfKey e "at"]))
    = some [[[none, none], [none, none]], [[some (.int32 2), some (.date 4)]], []] := by rfl

/-- C157. So an event may have lost an attribute. -/
theorem C157_defaults_lost :
    ∃ l : Log (Option Nat) Nat, LogKeys l ∧ (∃ e, l.traces = [[e]] ∧ valueOfKey e "cost" = some (.int32 1))
      ∧ ∃ l' e', (writeLog exExt l >>= readLog) = .ok l' ∧ l'.traces = [[e']] ∧ valueOfKey e' "cost" = none := by
  refine ⟨⟨[[⟨"a", 5, some [("cost", .int32 1)]⟩]], [("event", [("cost", .int32 1)])], [], [], []⟩, ⟨by decide, by decide, ?_⟩,
    ⟨_, rfl, rfl⟩, _, _, rfl, rfl, rfl⟩
  intro t ht e he p hp
  rw [List.mem_singleton.1 ht] at he
  rw [List.mem_singleton.1 he] at hp
  rw [← Option.some.inj hp]
  decide

/-- C157. With a global of another scope nothing is written and there is an error, unless a date among the globals makes it panic. -/
theorem C157_other_scope [DecidableEq U] (x : Ext F) (l : Log F U) (hs : ∃ g ∈ l.globals, ¬ KnownScope g.1)
    (hf : ∀ g ∈ l.globals, ∀ kv ∈ g.2, ValueFits x kv.2) : writeLog x l = .error .conversion := writeLog_other_scope x l hs hf

example : writeLog exExt { exBxLog with globals := [("meta", [])] } = .error .conversion := by decide +kernel

/-- C157. Without one it panics instead, if it fails. -/
theorem C157_panics [DecidableEq U] (x : Ext F) (l : Log F U) (hl : LogKeys l) (hs : ∀ g ∈ l.globals, KnownScope g.1)
    (hw : ¬ Writable x l) : writeLog x l = .error .panicked := by
  cases h : writeLog x l with
  | ok b => exact absurd ((writeLog_exists x l hl).1 ⟨b, h⟩) hw
  | error e =>
    cases e with
    | panicked => rfl
    | conversion => exact absurd h (writeLog_panic x l hs)

example : writeLog exExt { exBxLog with traces := [[⟨"a", 101, none⟩]] } = .error .panicked := by decide +kernel

/-- C157. The file has version 1 and one variant for a trace, which stands for one trace, without metadata; the attributes of its events
are sorted by their keys. -/
theorem C157_file [DecidableEq U] (x : Ext F) (l : Log F U) (b : BLog F U) (h : writeLog x l = .ok b) :
    b.version = 1 ∧ List.Forall₂ (fun t v => v.tracesCount = 1 ∧ v.metadata = [] ∧ v.events.length = t.length) l.traces b.variants
    ∧ ∀ v ∈ b.variants, ∀ e ∈ v.events, ∃ vs, ∃ keys : List String, e.attributes = some vs ∧ vs.map Prod.fst = keys.map .str
      ∧ keys.Pairwise (· ≤ ·) := by
  obtain ⟨gs, ps, vs, _, _, ht, rfl⟩ := (writeLog_ok _ _ _).1 h
  have htf := (tracesOut_ok x l vs).1 ht
  refine ⟨rfl, htf.imp fun t v h => ⟨h.1, h.2.1, h.2.2.length_eq.symm⟩, ?_⟩
  intro v hv e he
  obtain ⟨t, _, _, _, hes⟩ := f2_right htf v hv
  obtain ⟨e0, _, h⟩ := f2_right hes e he
  obtain ⟨as, _, has, rfl⟩ := (eventOut_ok x l e0 e).1 h
  refine ⟨as, (e0.ordered.filter (isNotDefault x l)).map Prod.fst, rfl, ?_, ?_⟩
  · have := ((mapMOk _ _ _).1 has).imp fun kv p h => (pairOut_ok x kv p h).1
    clear has h he
    generalize e0.ordered.filter (isNotDefault x l) = d at this
    induction this with
    | nil => rfl
    | cons h1 _ ih => rw [List.map_cons, h1, ih]; rfl
  · rw [List.pairwise_map]
    refine List.Pairwise.sublist List.filter_sublist ?_
    unfold Event.ordered
    split
    · exact RsXes.sortByFirst_sorted _
    · exact .nil

example : ((writeLog exExt exBxLog).toOption.map fun b => b.variants.map fun v => (v.tracesCount, v.events.map (·.timestamp)))
    = some [(1, [5, 7]), (1, [9]), (1, [])] := by decide +kernel

/-! ### Reading -/

def exBLog : BLog (Option Nat) Nat where
  version := 1
  classifiers := none
  extensions := some [⟨.str "n", .str "p", .str "u"⟩]
  globals := some [⟨.event, [(.str "k", .int32 1)]⟩, ⟨.log, []⟩, ⟨.event, [(.str "k", .int32 2), (.str "k", .int32 3)]⟩]
  properties := some [(.str "a", .standard .start)]
  variants := [⟨3, [(.str "m", .int32 1)], [⟨.str "x", 5, none⟩, ⟨.str "y", 6, some [(.str "k", .int32 1), (.str "j", .timestamp 4), (.str "k", .guid 2)]⟩]⟩]

/-- C158. A BXES file can be read exactly when all names and keys are texts, and all other values are such that the reader knows. -/
theorem C158_readable_iff (b : BLog F U) : (∃ l, readLog b = .ok l) ↔ Readable b := readLog_exists b

example : Readable exBLog := (C158_readable_iff exBLog).1 ⟨_, rfl⟩

/-- C158. What is read is what is in the file: every item in its order, one trace for a variant; of equal keys, and of globals of the same
kind, the last. -/
theorem C158_reads (b : BLog F U) (l : Log F U) (h : readLog b = .ok l) : LogRead b l := readLog_read b l h

example : readLog exBLog = .ok
    { traces := [[⟨"x", 5, none⟩, ⟨"y", 6, some [("k", .guid 2), ("j", .date 4)]⟩]]
      globals := [("event", [("k", .int32 3)]), ("log", [])]
      extensions := [⟨"n", "p", "u"⟩]
      classifiers := []
      properties := [("a", .lifecycle (.standard .start))] } := by decide +kernel

/-- C158. The number of traces of a variant and its metadata are lost: files that differ only there give the same log. -/
theorem C158_counts_lost (b : BLog F U) (variants : List (BVariant F U)) (h : variants.map (·.events) = b.variants.map (·.events)) :
    readLog { b with variants := variants } = readLog b := by
  have : ∀ vs : List (BVariant F U), (vs.mapM fun v => v.events.mapM eventIn) = (vs.map (·.events)).mapM fun es => es.mapM eventIn := by
    intro vs
    induction vs with
    | nil => rfl
    | cons v vs ih => rw [List.map_cons, List.mapM_cons, List.mapM_cons, ih]
  unfold readLog
  simp only [this, h]

example : (readLog { exBLog with variants := [⟨1000000, [], [⟨.str "x", 5, none⟩]⟩] }).toOption.map (·.traces)
    = some [[⟨"x", 5, none⟩]] := by decide +kernel

/-- C158. When all values are such that the reader knows, it does not panic. -/
theorem C158_no_panic (b : BLog F U) (hp : ∀ ps, b.properties = some ps → ∀ p ∈ ps, Supported p.2)
    (hg : ∀ gs, b.globals = some gs → ∀ g ∈ gs, ∀ p ∈ g.globals, Supported p.2)
    (he : ∀ v ∈ b.variants, ∀ e ∈ v.events, ∀ vs, e.attributes = some vs → ∀ p ∈ vs, Supported p.2) :
    readLog b ≠ .error .panicked := by
  refine readLog_err _ b (fun cs _ c _ => ?_) (fun ps hps p hm => ⟨stringIn_no_panic _, valueIn_no_panic _ (hp ps hps p hm)⟩)
    (fun es _ e _ => ?_) (fun gs hgs g hm p hpm => ⟨stringIn_no_panic _, valueIn_no_panic _ (hg gs hgs g hm p hpm)⟩)
    (fun v hv e hev => ⟨stringIn_no_panic _, fun vs hvs p hpm => ⟨stringIn_no_panic _, valueIn_no_panic _ (he v hv e hev vs hvs p hpm)⟩⟩)
  · exact bindErr (stringIn_no_panic _) fun _ => bindErr (mapMErr _ _ fun _ _ => stringIn_no_panic _) fun _ => pureErr _
  · exact bindErr (stringIn_no_panic _) fun _ => bindErr (stringIn_no_panic _) fun _ => bindErr (stringIn_no_panic _) fun _ => pureErr _

example : readLog { exBLog with classifiers := some [⟨.str "n", [.int32 1]⟩] } = .error .conversion := by decide +kernel

/-- C158. When all names and keys are texts, but there is another value, it panics. -/
theorem C158_panics (b : BLog F U) (hc : ∀ cs, b.classifiers = some cs → ∀ c ∈ cs, IsText c.name ∧ ∀ k ∈ c.keys, IsText k)
    (hp : ∀ ps, b.properties = some ps → ∀ p ∈ ps, IsText p.1)
    (hx : ∀ es, b.extensions = some es → ∀ e ∈ es, IsText e.name ∧ IsText e.uri ∧ IsText e.pre)
    (hg : ∀ gs, b.globals = some gs → ∀ g ∈ gs, ∀ p ∈ g.globals, IsText p.1)
    (he : ∀ v ∈ b.variants, ∀ e ∈ v.events, IsText e.name ∧ ∀ vs, e.attributes = some vs → ∀ p ∈ vs, IsText p.1)
    (hr : ¬ Readable b) : readLog b = .error .panicked := by
  cases h : readLog b with
  | ok l => exact absurd ((readLog_exists b).1 ⟨l, h⟩) hr
  | error e =>
    cases e with
    | panicked => rfl
    | conversion =>
      refine absurd h (readLog_err _ b (fun cs hcs c hm => ?_)
        (fun ps hps p hm => ⟨stringIn_no_conversion _ (hp ps hps p hm), valueIn_no_conversion _⟩)
        (fun es hes e hm => ?_) (fun gs hgs g hm p hpm => ⟨stringIn_no_conversion _ (hg gs hgs g hm p hpm), valueIn_no_conversion _⟩)
        (fun v hv e hev => ⟨stringIn_no_conversion _ (he v hv e hev).1, fun vs hvs p hpm =>
          ⟨stringIn_no_conversion _ ((he v hv e hev).2 vs hvs p hpm), valueIn_no_conversion _⟩⟩))
      · exact bindErr (stringIn_no_conversion _ (hc cs hcs c hm).1) fun _ =>
          bindErr (mapMErr _ _ fun k hk => stringIn_no_conversion _ ((hc cs hcs c hm).2 k hk)) fun _ => pureErr _
      · exact bindErr (stringIn_no_conversion _ (hx es hes e hm).1) fun _ => bindErr (stringIn_no_conversion _ (hx es hes e hm).2.1) fun _ =>
          bindErr (stringIn_no_conversion _ (hx es hes e hm).2.2) fun _ => pureErr _

example : readLog { exBLog with variants := [⟨1, [], [⟨.str "x", 5, some [(.str "k", .artifact)]⟩]⟩] } = .error .panicked := by decide +kernel

/-! ### Lifecycles -/

/-- C159. Every lifecycle has a text, and the text is read as that lifecycle and as no other of its kind. -/
theorem C159_texts (s : String) :
    (∀ l, parseBraf s = some l ↔ Lifecycle.text (.braf l) = some s) ∧ (∀ l, parseStandard s = some l ↔ Lifecycle.text (.standard l) = some s)
    ∧ ∀ l, ∃ t, Lifecycle.text l = some t := by
  refine ⟨?_, ?_, ?_⟩
  · intro l
    constructor
    · intro h
      have : ∀ e ∈ brafTexts, Lifecycle.text (.braf e.2) = some e.1 := by decide
      exact this (s, l) (Dict.mem_of_get? h)
    · intro h
      have : ∀ l, (Lifecycle.text (.braf l)).bind parseBraf = some l := by intro l; cases l <;> decide
      have := this l
      rwa [h] at this
  · intro l
    constructor
    · intro h
      have : ∀ e ∈ standardTexts, Lifecycle.text (.standard e.2) = some e.1 := by decide
      exact this (s, l) (Dict.mem_of_get? h)
    · intro h
      have : ∀ l, (Lifecycle.text (.standard l)).bind parseStandard = some l := by intro l; cases l <;> decide
      have := this l
      rwa [h] at this
  · intro l
    cases l with
    | braf l => cases l <;> exact ⟨_, rfl⟩
    | standard l => cases l <;> exact ⟨_, rfl⟩

example : parseBraf "Open.NotRunning.Suspended.Assigned" = some .openNotRunningSuspendedAssigned ∧ parseStandard "Complete" = none := by decide

/-- C159. No text is that of a lifecycle of both kinds. -/
theorem C159_kinds (b : Braf) (l : Standard) : Lifecycle.text (.braf b) ≠ Lifecycle.text (.standard l) := by
  cases b <;> cases l <;> decide

/-- C159. What is read as a standard lifecycle is exactly a name of a transition in the standard of XES, or `unspecified`; all transitions
are different lifecycles, by `C159_texts`. -/
theorem C159_xes (s : String) : (parseStandard s).isSome ↔ s ∈ xesTransitions ∨ s = "unspecified" := by
  constructor
  · intro h
    obtain ⟨l, hl⟩ := Option.isSome_iff_exists.mp h
    have : ∀ e ∈ standardTexts, e.1 ∈ xesTransitions ∨ e.1 = "unspecified" := by decide
    exact this (s, l) (Dict.mem_of_get? hl)
  · rintro (h | rfl)
    · have : ∀ t ∈ xesTransitions, (parseStandard t).isSome := by decide
      exact this s h
    · decide

example : "ate_abort" ∈ xesTransitions ∧ parseStandard "Start" = none := by decide

/-- C159. Writing a lifecycle to a BXES file and reading it gives it back, and the other way round. -/
theorem C159_bxes (x : Ext F) (l : Lifecycle) :
    ∃ b : BValue F U, valueOut x (.lifecycle l) = .ok b ∧ valueIn b = .ok (.lifecycle l)
      ∧ ∀ b' : BValue F U, valueIn b' = .ok (.lifecycle l) → b' = b := by
  cases l with
  | braf l =>
    refine ⟨.braf (brafOut l), rfl, by rw [valueIn, brafIn_out], ?_⟩
    intro b' h
    cases b' <;> simp only [valueIn, Except.ok.injEq, Value.lifecycle.injEq, Lifecycle.braf.injEq, reduceCtorEq] at h
    rename_i c
    subst h
    cases c <;> rfl
  | standard l =>
    refine ⟨.standard (standardOut l), rfl, by rw [valueIn, standardIn_out], ?_⟩
    intro b' h
    cases b' <;> simp only [valueIn, Except.ok.injEq, Value.lifecycle.injEq, Lifecycle.standard.injEq, reduceCtorEq] at h
    rename_i c
    subst h
    cases c <;> rfl

example : (valueOut exExt (.lifecycle (.standard .piAbort)) : Except Failure (BValue (Option Nat) Nat)) = .ok (.standard .piAbort) := rfl

end Ficus.Rs
