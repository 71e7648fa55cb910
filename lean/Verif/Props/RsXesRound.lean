import Verif.Proofs.RsXesRound
import Verif.Props.RsXes

/-! C143: XES logs that the backend writes and reads again. -/

namespace Ficus.RsXes
open Spec

variable {D F U : Type}

/-! ### The codec of the examples -/

theorem unescape_escape (s : List Char) : unescapeChars (escapeChars s) = some s := by
  induction s with
  | nil => rfl
  | cons a s ih =>
    have h : escapeChars (a :: s) = (if a = '&' then ['&', 'a', 'm', 'p', ';'] else [a]) ++ escapeChars s := rfl
    rw [h]
    by_cases ha : a = '&'
    · subst ha
      simp [unescapeChars, ih]
    · rw [if_neg ha, List.singleton_append]
      rw [unescapeChars]
      · rw [if_neg ha, ih]
        rfl
      · intro r hr _
        exact ha hr

theorem exCodec_escapes : Escapes exCodec := by
  refine ⟨fun s => ?_, by decide⟩
  simp [exCodec, unescape_escape]

theorem fromUnary_unary (m : Char) (n : Nat) : fromUnary m (unary m n) = some n := by
  simp [fromUnary, unary]

theorem exCodec_parses : Parses exCodec := by
  refine ⟨fun s d _ => fromUnary_unary _ _, fun s n h => ?_, fun _ _ _ => rfl, fun _ _ _ => rfl⟩
  obtain ⟨k, _, rfl⟩ := Option.map_eq_some_iff.1 h
  simp [exCodec, fromUnary_unary]

/-- A log with all that does not come back: a text with `&`, a number of another kind, an empty trace, a scope without defaults. -/
def exLog : Log Nat Unit Unit where
  traces := [[⟨"a", 2, [("cost", .int32 2), ("lost", .timestamp 5)]⟩, ⟨"b & c", 3, []⟩], []]
  globals := [("trace", []), ("event", [("cost", .str "0")])]
  extensions := [⟨"A&B", "p", "u"⟩]
  classifiers := [⟨"K", ["x y", "z"]⟩]
  properties := [("q", .str "1 & 2"), ("p", .bool true)]

theorem exLog_wf : LogWF exLog := by
  refine ⟨by decide, by decide, ?_⟩
  intro t ht e he
  simp only [exLog, List.mem_cons, List.not_mem_nil, or_false] at ht
  rcases ht with rfl | rfl
  · simp only [List.mem_cons, List.not_mem_nil, or_false] at he
    rcases he with rfl | rfl
    · decide
    · decide
  · cases he

/-- **C143.** A log that is written, with whatever white space between the tags, is read as: the traces that are not empty, in their
order, with the events whose dates can be read back (or have a default), each with its name and its values as they are read back,
completed by the defaults of events; the globals that are not empty; all properties, sorted by their names; and the extensions and
classifiers with their texts still escaped, and the keys of classifiers cut at every space. -/
theorem C143_written_read (c : Codec D F U) (he : Escapes c) (l : Log D F U) (hl : LogWF l) (tokens : List Token)
    (ht : tokens.filter (fun t => decide (t ≠ .other)) = writeLog c l) : ∃ l', readLog c tokens = .ok l' ∧ LogBack c l l' := by
  obtain ⟨l', hread, hof⟩ := C142_reads c (logXml c l) (logXml_readable he l) (logXml_proper c l)
  refine ⟨l', ?_, ?_⟩
  · rw [← C142_other_ignored, ht, ← logXml_tokens]
    exact hread
  · rw [logXml_items] at hof
    obtain ⟨h1, h2, h3, h4, h5⟩ := hof
    have hnoglobal : ∀ s, firstGlobal c ((l.traces.filter (fun t => !t.isEmpty)).map (traceItem c)) s = none := by
      intro s
      apply firstGlobal_none
      intro i hi s ch hg
      obtain ⟨t, _, rfl⟩ := List.mem_map.1 hi
      cases hg
    have hfirst : ∀ s, firstGlobal c (headItems c l ++ (l.traces.filter (fun t => !t.isEmpty)).map (traceItem c)) s =
        firstGlobal c (headItems c l) s := by
      intro s
      rw [firstGlobal_append, hnoglobal, Option.or_none]
    refine ⟨?_, ?_, ?_, ?_, ?_, ?_⟩
    · rw [tracesIn_append] at h1
      have hnil : tracesIn [] (headItems c l) = [] := by
        have : ∀ (items : List Item), (∀ i ∈ items, ∀ ch, i ≠ .trace ch) → ∀ before, tracesIn before items = [] := by
          intro items
          induction items with
          | nil => intro _ before; rfl
          | cons i items ih =>
            intro h before
            cases i with
            | trace ch => exact absurd rfl (h _ (List.mem_cons_self ..) ch)
            | global s ch => exact ih (fun x hx => h x (List.mem_cons_of_mem _ hx)) _
            | tag n a => exact ih (fun x hx => h x (List.mem_cons_of_mem _ hx)) _
        apply this
        intro i hi ch hg
        unfold headItems at hi
        simp only [List.mem_cons, List.mem_append, List.mem_map] at hi
        rcases hi with rfl | ((⟨x, _, rfl⟩ | ⟨x, _, rfl⟩) | ⟨x, _, rfl⟩) | ⟨x, _, rfl⟩ <;> cases hg
      rw [hnil, List.nil_append, List.nil_append] at h1
      have hmap : (l.traces.filter (fun t => !t.isEmpty)).map (traceItem c) =
          ((l.traces.filter (fun t => !t.isEmpty)).map (fun t => t.map (eventXml c))).map Item.trace := by
        rw [List.map_map]
        rfl
      rw [hmap] at h1
      have h1' := forall₂_tracesIn c _ _ _ _ rfl h1
      rw [List.forall₂_map_left_iff] at h1'
      have hall : ∀ t ∈ l.traces.filter (fun t => !t.isEmpty), t ∈ l.traces := fun t h => List.mem_of_mem_filter h
      have hgen : ∀ (T : List (List (Event D F U))) (L : List (List (Event D F U))), (∀ t ∈ T, t ∈ l.traces) →
          List.Forall₂ (fun t trace => List.Forall₂ EventOf (((eventElementsOf (t.map (eventXml c))).map
            (fun x => (defaultsOf c (headItems c l), fieldsOf c x))).filter Complete) trace) T L →
          List.Forall₂ (fun t t' => List.Forall₂ (EventBack c l) (t.filter (fun e => (dateBack c l e).isSome)) t') T L := by
        intro T L hT h
        induction h with
        | nil => exact .nil
        | cons ha _ ih =>
          exact .cons (trace_back he l hl.globals hl.defaults _ (hl.payload _ (hT _ (List.mem_cons_self ..))) _ ha)
            (ih (fun t ht => hT t (List.mem_cons_of_mem _ ht)))
      exact hgen _ _ hall h1'
    · intro scope
      rw [h2, hfirst, firstGlobal_head he l hl.globals]
      cases hg : l.globals.get? scope with
      | none => rfl
      | some d =>
        have hwd := hl.defaults _ (Dict.mem_of_get? hg)
        simp only [Option.bind_some]
        cases d.isEmpty with
        | true => rfl
        | false =>
          simp only [Bool.false_eq_true, if_false, Option.map_some, Option.some.injEq]
          funext key
          rw [fieldsOf_kids he, lastField_backs c _ (sortByFirst_wf _ hwd), sortByFirst_get _ hwd]
    · intro s d hsd
      have h2s := h2 s
      rw [hsd, hfirst] at h2s
      by_contra hno
      have : firstGlobal c (headItems c l) s = none := by
        apply firstGlobal_none
        intro i hi s' ch hg hs
        unfold headItems at hi
        simp only [List.mem_cons, List.mem_append, List.mem_map] at hi
        rcases hi with rfl | ((⟨x, _, rfl⟩ | ⟨x, _, rfl⟩) | ⟨x, _, rfl⟩) | ⟨x, hx, rfl⟩ <;> try cases hg
        refine hno ⟨x.1, ?_, hs.symm⟩
        rw [Dict.contains_iff]
        exact List.mem_map_of_mem ((sortByFirst_perm l.globals).mem_iff.1 hx)
      rw [this] at h2s
      cases h2s
    · rw [h3, items_filterMap c l _ (fun x => some ⟨c.escape x.name, c.escape x.pre, c.escape x.uri⟩) (fun _ => none) (fun _ => none)
        rfl (fun _ => rfl) (fun _ => rfl) (fun p => ?_) (fun _ => rfl) (fun _ => rfl)]
      · simp
      · simp only [fieldItem]
        rw [if_neg]
        cases p.2 <;> simp [Value.tag]
    · rw [h4, items_filterMap c l _ (fun _ => none) (fun x => some ⟨c.escape x.name, splitSpaces (c.escape (" ".intercalate x.keys))⟩)
        (fun _ => none) rfl (fun _ => rfl) (fun _ => rfl) (fun p => ?_) (fun _ => rfl) (fun _ => rfl)]
      · simp
      · simp only [fieldItem]
        rw [if_neg]
        cases p.2 <;> simp [Value.tag]
    · refine ⟨sortByFirst l.properties, sortByFirst_perm _, sortByFirst_sorted _, ?_⟩
      rw [h5, items_filterMap c l _ (fun _ => none) (fun _ => none) (backPair c)
        (field_tag_none _ (extract_other (by decide))) (fun _ => field_tag_none _ (extract_other (by decide)))
        (fun _ => field_tag_none _ (extract_other (by decide))) (fun p => field_back he p) (fun _ => rfl) (fun _ => rfl)]
      simp only [List.filterMap_none, List.nil_append]
      rfl

example : ∃ l', readLog exCodec (writeLog exCodec exLog) = .ok l' ∧ LogBack exCodec exLog l' := by
  refine C143_written_read exCodec exCodec_escapes exLog exLog_wf _ ?_
  decide +kernel

example : (readLog exCodec (.other :: writeLog exCodec exLog)).toOption = some
    { traces := [[⟨"a", 2, [("cost", .int64 2)]⟩, ⟨"b & c", 3, [("cost", .str "0")]⟩]]
      globals := [("event", [("cost", .str "0")])]
      extensions := [⟨"A&amp;B", "p", "u"⟩]
      classifiers := [⟨"K", ["x", "y", "z"]⟩]
      properties := [("p", .bool true), ("q", .str "1 & 2")] } := by decide +kernel

/-- **C143.** Which values come back: strings and booleans as they are; lifecycles as strings; whole numbers of any kind as 64-bit ones,
floats as 64-bit ones; and what came back once comes back as it is for ever. -/
theorem C143_values (c : Codec D F U) :
    (∀ s, back c (.str s) = some (.str s)) ∧ (∀ b, back c (.bool b) = some (.bool b)) ∧
    (∀ t, back c (.lifecycle t) = some (.str t)) ∧
    (∀ n, c.parseInt (c.showInt n) = some n → back c (.int64 n) = some (.int64 n) ∧ back c (.int32 n) = some (.int64 n) ∧
      back c (.uint32 n) = some (.int64 n) ∧ back c (.uint64 n) = some (.int64 n)) ∧
    (∀ n, c.parseInt (c.showInt n) = none → back c (.uint64 n) = none) ∧
    (∀ f, c.parseFloat (c.showFloat f) = some f → back c (.float64 f) = some (.float64 f) ∧ back c (.float32 f) = some (.float64 f)) ∧
    (∀ n, c.parseDate (c.showInt n) = none → back c (.timestamp n) = none) ∧
    (Parses c → ∀ v v', back c v = some v' → back c v' = some v') := by
  refine ⟨fun s => rfl, fun b => ?_, fun t => rfl, fun n h => ?_, fun n h => ?_, fun f h => ?_, fun n h => ?_, fun hp v v' h => ?_⟩
  · cases b <;> rfl
  · simp [back, Value.tag, Value.text, extractValue, h]
  · simp [back, Value.tag, Value.text, extractValue, h]
  · simp [back, Value.tag, Value.text, extractValue, h]
  · simp [back, Value.tag, Value.text, extractValue, h]
  · exact once_of_extract hp h

example : back exCodec (.int32 3) = some (.int64 3) ∧ back exCodec (.timestamp 3) = none ∧ back exCodec (.lifecycle "start") = some (.str "start") := by
  decide +kernel

/-- **C143.** A log that was read from a document with its globals for events before its traces is the same after it was written and read
again, but for empty traces, globals without values, the order of the properties, and the texts of extensions, classifiers and scopes. -/
theorem C143_read_again (c : Codec D F U) (he : Escapes c) (hpa : Parses c) (doc : List XesNode) (hr : ForestReadable c doc) (hp : ProperAll doc)
    (early : ∀ t ∈ tracesIn [] (itemsOf doc), firstGlobal c t.1 "event" = firstGlobal c (itemsOf doc) "event")
    (l : Log D F U) (hl : readLog c (forestTokens doc) = .ok l) (tokens : List Token)
    (ht : tokens.filter (fun t => decide (t ≠ .other)) = writeLog c l) :
    ∃ l', readLog c tokens = .ok l' ∧
      List.Forall₂ (List.Forall₂ SameEvent) (l.traces.filter (fun t => !t.isEmpty)) l'.traces ∧
      (∀ scope d, l.globals.get? scope = some d → d ≠ [] →
        ∃ d', l'.globals.get? (c.escape scope) = some d' ∧ ∀ key, d'.get? key = d.get? key) ∧
      l'.properties.Perm l.properties := by
  have hfold := readLog_forest (c := c) doc hr hp
  rw [hl] at hfold
  cases hfold
  obtain ⟨hof, hdef⟩ := logOf_fold c (itemsOf doc)
  have hwf := mapsWF_fold c (itemsOf doc) .nothing mapsWF_nothing
  generalize hL : (itemsOf doc).foldl (addItem c) (.nothing : Log D F U) = l at *
  -- the events
  have hev : ∀ t ∈ l.traces, ∀ e ∈ t, ∃ ch', EventOf (defaultsOf c (itemsOf doc), fieldsOf c ch') e := by
    intro t htm e hem
    obtain ⟨before, ch, ch', hm, hE⟩ := event_origin hof t htm e hem
    refine ⟨ch', ?_⟩
    have : defaultsOf c before = defaultsOf c (itemsOf doc) := by
      unfold defaultsOf
      rw [early _ hm]
    rw [← this]
    exact hE
  have hlwf : LogWF l := by
    refine ⟨hwf.1, hwf.2.1, fun t htm e hem => ⟨hwf.2.2 t htm e hem, ?_, ?_⟩⟩
    · obtain ⟨ch', _, _, hk⟩ := hev t htm e hem
      rw [hk]
      simp
    · obtain ⟨ch', _, _, hk⟩ := hev t htm e hem
      rw [hk]
      simp
  obtain ⟨l', hread, hback⟩ := C143_written_read c he l hlwf tokens ht
  -- the defaults
  have honce : ∀ (fs : List (String × Value D F U)), (∀ k v, (k, v) ∈ fs → back c v = some v) → ∀ key,
      (lastField fs key).bind (back c) = lastField fs key := by
    intro fs h key
    cases hf : lastField fs key with
    | none => rfl
    | some v => exact h _ _ (lastField_mem hf)
  have hdefault : ∀ key, defaultBack c l key = lastField (defaultsOf c (itemsOf doc)) key := by
    intro key
    unfold defaultBack defaultsOf
    have := hdef.1 "event"
    cases hg : l.globals.get? "event" with
    | none =>
      rw [hg] at this
      cases hf : firstGlobal c (itemsOf doc) "event" with
      | none => rfl
      | some ch => rw [hf] at this; cases this
    | some d =>
      rw [hg] at this
      cases hf : firstGlobal c (itemsOf doc) "event" with
      | none => rw [hf] at this; cases this
      | some ch =>
        rw [hf] at this
        simp only [Option.map_some, Option.some.injEq] at this
        have hk := congrFun this key
        simp only [Option.bind_some]
        rw [hk]
        exact honce _ (fun k v h => fieldsOf_once hpa h) key
  have hsame : ∀ t ∈ l.traces, ∀ e ∈ t, dateBack c l e = some e.date ∧ ∀ e', EventBack c l e e' → SameEvent e e' := by
    intro t htm e hem
    obtain ⟨ch', h1, h2, h3⟩ := hev t htm e hem
    have hdate : c.parseDate (c.showDate e.date) = some e.date := by
      have hd : back c (.date e.date : Value D F U) = some (.date e.date) := by
        unfold dateOf at h2
        simp only at h2
        cases hld : lastDate (fieldsOf c ch') with
        | some d =>
          rw [hld] at h2
          cases h2
          exact fieldsOf_once hpa (lastDate_mem hld)
        | none =>
          rw [hld, Option.none_or] at h2
          split at h2
          · rename_i d hlf
            cases h2
            exact defaultsOf_once hpa (lastField_mem hlf)
          · cases h2
      unfold back Value.tag Value.text extractValue at hd
      simp only [if_true] at hd
      obtain ⟨d, hd1, hd2⟩ := Option.map_eq_some_iff.1 hd
      cases hd2
      exact hd1
    have hdb : dateBack c l e = some e.date := by
      unfold dateBack
      rw [hdate]
      rfl
    refine ⟨hdb, fun e' hb => ?_⟩
    obtain ⟨b1, b2, b3⟩ := hb
    refine ⟨b1, ?_, fun key => ?_⟩
    · rw [hdb] at b2
      exact Option.some.inj b2
    · rw [b3 key, h3 key]
      split
      · rfl
      · rw [hdefault]
        simp only
        have o1 := honce (fieldsOf c ch') (fun k v h => fieldsOf_once hpa h) key
        have o2 := honce (defaultsOf c (itemsOf doc)) (fun k v h => defaultsOf_once hpa h) key
        cases hf : lastField (fieldsOf c ch') key with
        | some v =>
          rw [hf] at o1
          simp only [Option.some_or, Option.bind_some] at o1 ⊢
          rw [o1]
          rfl
        | none =>
          rw [Option.none_or, o2]
          cases lastField (defaultsOf c (itemsOf doc)) key <;> rfl
  refine ⟨l', hread, ?_, ?_, ?_⟩
  · have hgen : ∀ (T L : List (List (Event D F U))), (∀ t ∈ T, t ∈ l.traces) →
        List.Forall₂ (fun t t' => List.Forall₂ (EventBack c l) (t.filter (fun e => (dateBack c l e).isSome)) t') T L →
        List.Forall₂ (List.Forall₂ SameEvent) T L := by
      intro T L hT h
      induction h with
      | nil => exact .nil
      | @cons t t' _ _ ha _ ih =>
        refine .cons ?_ (ih (fun t ht => hT t (List.mem_cons_of_mem _ ht)))
        have htm := hT t (List.mem_cons_self ..)
        rw [List.filter_eq_self.2 (fun e hem => by rw [(hsame t htm e hem).1]; rfl)] at ha
        have : ∀ (a b : List (Event D F U)), (∀ e ∈ a, e ∈ t) → List.Forall₂ (EventBack c l) a b → List.Forall₂ SameEvent a b := by
          intro a b hab h
          induction h with
          | nil => exact .nil
          | cons h1 _ ih' =>
            exact .cons ((hsame t htm _ (hab _ (List.mem_cons_self ..))).2 _ h1) (ih' (fun e he => hab e (List.mem_cons_of_mem _ he)))
        exact this _ _ (fun e h => h) ha
    exact hgen _ _ (fun t h => List.mem_of_mem_filter h) hback.traces
  · intro scope d hg hne
    have := hback.globals scope
    rw [hg, Option.bind_some] at this
    have hemp : d.isEmpty = false := by
      cases d with
      | nil => exact absurd rfl hne
      | cons x xs => rfl
    rw [hemp] at this
    simp only [Bool.false_eq_true, if_false] at this
    obtain ⟨d', hd', hf⟩ := Option.map_eq_some_iff.1 this
    refine ⟨d', hd', fun key => ?_⟩
    have hk := congrFun hf key
    rw [hk]
    have h2 := hdef.1 scope
    rw [hg] at h2
    cases hfg : firstGlobal c (itemsOf doc) scope with
    | none => rw [hfg] at h2; cases h2
    | some ch =>
      rw [hfg] at h2
      simp only [Option.map_some, Option.some.injEq] at h2
      have hk2 := congrFun h2 key
      rw [hk2]
      exact honce _ (fun k v h => fieldsOf_once hpa h) key
  · obtain ⟨p, hperm, _, hprop⟩ := hback.properties
    rw [hprop]
    have hall : ∀ e ∈ p, back c e.2 = some e.2 := by
      intro e hem
      have := hperm.mem_iff.1 hem
      rw [hof.properties] at this
      obtain ⟨i, _, hi⟩ := List.mem_filterMap.1 this
      cases i with
      | trace ch => cases hi
      | global s ch => cases hi
      | tag n a =>
        obtain ⟨text, htx⟩ := field_extract (k := e.1) (v := e.2) hi
        exact once_of_extract hpa htx
    have : p.filterMap (fun e => (back c e.2).map (fun v => (e.1, v))) = p := by
      have h : ∀ (q : List (String × Value D F U)), (∀ e ∈ q, back c e.2 = some e.2) →
          q.filterMap (fun e => (back c e.2).map (fun v => (e.1, v))) = q := by
        intro q hq
        induction q with
        | nil => rfl
        | cons e q ih =>
          rw [List.filterMap_cons, hq e (List.mem_cons_self ..)]
          simp only [Option.map_some]
          rw [ih (fun x hx => hq x (List.mem_cons_of_mem _ hx))]
      exact h p hall
    rw [this]
    exact hperm

theorem exDoc_early : ∀ t ∈ tracesIn [] (itemsOf exDoc), firstGlobal exCodec t.1 "event" = firstGlobal exCodec (itemsOf exDoc) "event" := by
  intro t ht
  have h : tracesIn [] (itemsOf exDoc) = [(_, _), (_, _)] := rfl
  rw [h] at ht
  simp only [List.mem_cons, List.not_mem_nil, or_false] at ht
  rcases ht with rfl | rfl <;> rfl

example (l : Log Nat Unit Unit) (hl : readLog exCodec (forestTokens exDoc) = .ok l) (tokens : List Token)
    (ht : tokens.filter (fun t => decide (t ≠ .other)) = writeLog exCodec l) :
    ∃ l', readLog exCodec tokens = .ok l' ∧ l'.properties.Perm l.properties :=
  (C143_read_again exCodec exCodec_escapes exCodec_parses exDoc exDoc_readable exDoc_proper exDoc_early l hl tokens ht).imp
    (fun _ h => ⟨h.1, h.2.2.2⟩)

/-- **C143 (negation).** Defaults that stand after a trace do not hold for it when the file is read, but do when the log was written and is
read again: its events have other values then. -/
theorem C143_late_defaults :
    let doc : List XesNode := [.node "trace" [] [exEvent [exTag "string" "concept:name" "a", exTag "date" "time:timestamp" "d"]],
      .node "global" [("scope", "event")] [exTag "int" "cost" "i"]]
    ∃ l l', readLog exCodec (forestTokens doc) = .ok l ∧ readLog exCodec (writeLog exCodec l) = .ok l' ∧
      l.traces = [[⟨"a", 1, []⟩]] ∧ l'.traces = [[⟨"a", 1, [("cost", .int64 1)]⟩]] :=
  ⟨_, _, rfl, rfl, rfl, rfl⟩

/-- **C143 (negation).** The name of an extension with `&` grows every time the log is written and read again. -/
theorem C143_extension_grows :
    let l : Log Nat Unit Unit := { Log.nothing with extensions := [⟨"A&B", "p", "u"⟩] }
    ∃ l' l'', readLog exCodec (writeLog exCodec l) = .ok l' ∧ readLog exCodec (writeLog exCodec l') = .ok l'' ∧
      l'.extensions = [⟨"A&amp;B", "p", "u"⟩] ∧ l''.extensions = [⟨"A&amp;amp;B", "p", "u"⟩] :=
  ⟨_, _, rfl, rfl, by decide +kernel, by decide +kernel⟩

end Ficus.RsXes
