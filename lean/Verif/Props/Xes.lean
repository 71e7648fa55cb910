import Verif.Proofs.Xes

/-! Property C05: reading back an exported XES log. The full property ("for every log") is false; the theorems named
`C05_not_…` give one witness for each reason, and `C05_round_trip_partial` proves the round trip for all other logs. -/

namespace Ficus
open Spec

/-- Writing and reading back: `read_log_from_xes` after `save_event_log_to_xes`, without the text layer. -/
def xesRoundTrip (P : Parsers) (log : Log Payload) : Except PyErr (Log Payload) := do readXes P (← writeXes log)

/-- C05a: a log outside the six excluded situations is written without an error and read back with the same content. -/
theorem C05_round_trip_partial (P : Parsers) (log : Log Payload) (h : SafeLog P log) :
    ∃ r, xesRoundTrip P log = .ok r ∧ SameLog log r := by
  obtain ⟨el, hw, r, hr, hs⟩ := xes_round_trip P log h
  exact ⟨r, by unfold xesRoundTrip; rw [hw]; exact hr, hs⟩

/-- External parsers for the examples: dates and floats are kept as texts. -/
def textParsers : Parsers where
  int s := if s = "7" then .ok 7 else if s = "-3" then .ok (-3) else .error .valueError
  float s := .ok (.float s)
  date s := .ok (.date s)

/-- A log with globals, defaulted and overridden keys, an extension, a classifier and an empty trace. -/
def sampleXes : Log Payload :=
  { attributes := [("xes.version", "1.0")]
    extensions := [("Concept", [("prefix", "concept"), ("uri", "u")])]
    classifiers := [("Activity", ["concept:name", "lifecycle:transition"])]
    globals := [("event", [("concept:name", .str "__INVALID__"), ("org", .str "none")]), ("trace", [("id", .str "?")])]
    traces := [
      { attributes := [("id", .str "t1"), ("n", .int 7)]
        events := [[("concept:name", .str "A"), ("org", .str "none"), ("cost", .int (-3))],
          [("org", .str "x"), ("concept:name", .str "__INVALID__"), ("ok", .bool true), ("at", .date "2020-01-01")]] },
      { attributes := [("id", .str "?")], events := [] }] }

theorem sampleXes_safe : SafeLog textParsers sampleXes where
  attributes := by decide
  extensions := by decide
  extensionsShape := by
    intro n c h
    simp [sampleXes] at h
    exact ⟨by rw [h.2]; decide, "concept", "u", by rw [h.2]; exact fun _ => rfl⟩
  classifiers := by decide
  classifierKeys := by
    intro n ks h
    simp [sampleXes] at h
    rw [h.2]; decide
  noProperties := rfl
  globals := by decide
  globalScopes := by
    intro s d h
    simp only [sampleXes, List.mem_cons, Prod.mk.injEq, List.not_mem_nil, or_false] at h
    rcases h with ⟨_, rfl⟩ | ⟨_, rfl⟩
    · refine ⟨by decide, ?_⟩
      intro k v h; simp at h; rcases h with h | h <;> exact ⟨_, h.2⟩
    · refine ⟨by decide, ?_⟩
      intro k v h; simp at h; exact ⟨_, h.2⟩
  traces := by
    have hge : ∀ g, Dict.get? sampleXes.globals "event" = some g →
        g = [("concept:name", .str "__INVALID__"), ("org", .str "none")] := by
      intro g hg
      have : Dict.get? sampleXes.globals "event" = some [("concept:name", .str "__INVALID__"), ("org", .str "none")] := by
        decide
      rw [this] at hg; exact (Option.some.inj hg).symm
    have hgt : ∀ g, Dict.get? sampleXes.globals "trace" = some g → g = [("id", .str "?")] := by
      intro g hg
      have : Dict.get? sampleXes.globals "trace" = some [("id", .str "?")] := by decide
      rw [this] at hg; exact (Option.some.inj hg).symm
    intro t ht
    simp only [sampleXes, List.mem_cons, List.not_mem_nil, or_false] at ht
    rcases ht with rfl | rfl
    · refine ⟨⟨by decide, ?_, ?_, ?_, ?_⟩, ?_⟩
      · intro k v h; simp at h; rcases h with h | h <;> (rw [h.2]; simp)
      · intro k v h; simp at h; rcases h with h | h <;> (rw [h.2]; simp)
      · intro k v h; simp at h
        rcases h with h | h <;> rw [h.2]
        · trivial
        · show textParsers.int (toString (7 : Int)) = .ok 7
          decide
      · intro g hg; rw [hgt g hg]; decide
      · intro e he
        simp only [List.mem_cons, List.not_mem_nil, or_false] at he
        rcases he with rfl | rfl
        · refine ⟨by decide, ?_, ?_, ?_, ?_⟩
          · intro k v h; simp at h; rcases h with h | h | h <;> (rw [h.2]; simp)
          · intro k v h; simp at h; rcases h with h | h | h <;> (rw [h.2]; simp)
          · intro k v h; simp at h
            rcases h with h | h | h <;> rw [h.2]
            · trivial
            · trivial
            · show textParsers.int (toString (-3 : Int)) = .ok (-3)
              decide
          · intro g hg; rw [hge g hg]; decide
        · refine ⟨by decide, ?_, ?_, ?_, ?_⟩
          · intro k v h; simp at h; rcases h with h | h | h | h <;> (rw [h.2]; simp)
          · intro k v h; simp at h; rcases h with h | h | h | h <;> (rw [h.2]; simp)
          · intro k v h; simp at h
            rcases h with h | h | h | h <;> rw [h.2]
            · trivial
            · trivial
            · trivial
            · rfl
          · intro g hg; rw [hge g hg]; decide
    · refine ⟨⟨by decide, ?_, ?_, ?_, ?_⟩, by simp⟩
      · intro k v h; simp at h; rw [h.2]; simp
      · intro k v h; simp at h; rw [h.2]; simp
      · intro k v h; simp at h; rw [h.2]; trivial
      · intro g hg; rw [hgt g hg]; decide

example : ∃ r, xesRoundTrip textParsers sampleXes = .ok r ∧ SameLog sampleXes r :=
  C05_round_trip_partial _ _ sampleXes_safe

/-- A log with one trace and one event. -/
def oneEvent (e : Payload) (globals : Dict String (Dict String Val) := []) : Log Payload :=
  { traces := [{ events := [e] }], globals := globals }

/-- C05b: `False` comes back as `True`, for every parser. -/
theorem C05_not_false_boolean (P : Parsers) :
    xesRoundTrip P (oneEvent [("a", .bool false)]) = .ok (oneEvent [("a", .bool true)]) := by rfl

/-- C05c: a log with a string property is written, but reading it raises `KeyError`. -/
theorem C05_not_properties (P : Parsers) :
    xesRoundTrip P { properties := [("a", .str "b")] } = .error .keyError := by rfl

/-- C05d: a property that is not a string cannot even be written. -/
theorem C05_not_int_property (P : Parsers) :
    xesRoundTrip P { properties := [("a", .int 1)] } = .error .typeError := by rfl

/-- C05e: a global value that is not a string comes back as a string, also in the events that had it as default. -/
theorem C05_not_int_global (P : Parsers) :
    xesRoundTrip P (oneEvent [("a", .bool true)] [("event", [("a", .bool true)])]) =
      .ok (oneEvent [("a", .str "True")] [("event", [("a", .str "True")])]) := by rfl

/-- C05e, numbers: an event whose attribute is a boolean, with an integer of the same value as default (or the other way
round), is written without the attribute, since python calls the two equal; it comes back with the text of the default. -/
theorem C05_not_bool_int_default (P : Parsers) :
    xesRoundTrip P (oneEvent [("a", .bool true)] [("event", [("a", .int 1)])]) =
      .ok (oneEvent [("a", .str "1")] [("event", [("a", .str "1")])]) ∧
    xesRoundTrip P (oneEvent [("a", .int 0)] [("event", [("a", .bool false)])]) =
      .ok (oneEvent [("a", .str "False")] [("event", [("a", .str "False")])]) := ⟨by rfl, by rfl⟩

/-- C05f: an event without a defaulted key comes back with it. -/
theorem C05_not_missing_default (P : Parsers) :
    xesRoundTrip P (oneEvent [] [("event", [("a", .str "x")])]) =
      .ok (oneEvent [("a", .str "x")] [("event", [("a", .str "x")])]) := by rfl

/-- C05g: an empty classifier comes back with one empty key, and a key with a space is split. -/
theorem C05_not_classifiers (P : Parsers) :
    xesRoundTrip P { classifiers := [("c", []), ("d", ["x y"])] } =
      .ok { classifiers := [("c", [""]), ("d", ["x", "y"])] } := by
  rfl

/-- C05h: a value of an unsupported type disappears silently. -/
theorem C05_not_other_types (P : Parsers) :
    xesRoundTrip P (oneEvent [("a", .other "[]"), ("b", .str "x")]) = .ok (oneEvent [("b", .str "x")]) := by rfl

/-- The full property, refuted for all parsers. -/
theorem C05_full_property_fails (P : Parsers) :
    ¬ ∀ log : Log Payload, ∃ r, xesRoundTrip P log = .ok r ∧ SameLog log r := by
  intro h
  obtain ⟨r, hr, _⟩ := h { properties := [("a", .str "b")] }
  rw [C05_not_properties] at hr; cases hr

/-- `e'` is `e` with some tags qualified by an XML namespace, as `ElementTree` shows them: `{namespace}tag`. -/
inductive Qualified : XElem → XElem → Prop
  | mk {t t' : String} (a : Dict String String) {cs cs' : List XElem} (ht : '}' ∉ t.toList)
      (h : t' = t ∨ ∃ ns : String, '}' ∉ ns.toList ∧ t' = "{" ++ ns ++ "}" ++ t)
      (hc : List.Forall₂ Qualified cs cs') : Qualified (.mk t a cs) (.mk t' a cs')

theorem stripNs_qualified {t t' : String} (ht : '}' ∉ t.toList)
    (h : t' = t ∨ ∃ ns : String, '}' ∉ ns.toList ∧ t' = "{" ++ ns ++ "}" ++ t) : stripNs t' = stripNs t := by
  have h0 : stripNs t = t := by unfold stripNs; rw [if_neg ht]
  rcases h with rfl | ⟨ns, hns, rfl⟩
  · rfl
  · rw [h0]
    unfold stripNs
    rw [if_pos (by simp)]
    have : ("{" ++ ns ++ "}" ++ t).toList.dropWhile (fun c => decide (c ≠ '}')) = '}' :: t.toList := by
      have e : ("{" ++ ns ++ "}" ++ t).toList = ('{' :: ns.toList) ++ '}' :: t.toList := by simp
      rw [e, List.dropWhile_append_of_pos]
      · simp
      · intro c hc
        rcases List.mem_cons.1 hc with rfl | hc
        · decide
        · simp only [decide_eq_true_eq]; rintro rfl; exact hns hc
    rw [this]; simp

theorem Qualified.strip {e e' : XElem} (h : Qualified e e') : stripNs e'.tag = stripNs e.tag := by
  cases h with | mk a ht h hc => exact stripNs_qualified ht h

theorem Qualified.attrib {e e' : XElem} (h : Qualified e e') : e'.attrib = e.attrib := by
  cases h with | mk a ht h hc => rfl

theorem Qualified.children {e e' : XElem} (h : Qualified e e') : List.Forall₂ Qualified e.children e'.children := by
  cases h with | mk a ht h hc => exact hc

theorem Qualified.value {e e' : XElem} (h : Qualified e e') : isValueTag e' = isValueTag e := by
  unfold isValueTag; rw [h.strip]

theorem readValueInto_qualified (P : Parsers) (d : Dict String Val) {e e' : XElem} (h : Qualified e e') :
    readValueInto P d e' = readValueInto P d e := by
  unfold readValueInto parseValueTag; rw [h.strip, h.attrib]

theorem foldlM_forall2 {S A : Type} (f : S → A → Except PyErr S) {R : A → A → Prop}
    (hf : ∀ s a b, R a b → f s b = f s a) {l l' : List A} (h : List.Forall₂ R l l') (s : S) :
    l'.foldlM f s = l.foldlM f s := by
  induction h generalizing s with
  | nil => rfl
  | cons hab _ ih =>
    rw [List.foldlM_cons, List.foldlM_cons, hf s _ _ hab]
    congr 1; funext s'; exact ih s'

theorem readEvent_qualified (P : Parsers) (g : Dict String (Dict String Val)) {e e' : XElem} (h : Qualified e e') :
    readEvent P g e' = readEvent P g e := by
  unfold readEvent
  apply foldlM_forall2 _ _ h.children
  intro s a b hab
  simp only [hab.value, readValueInto_qualified P s hab]

theorem readTrace_qualified (P : Parsers) (g : Dict String (Dict String Val)) {e e' : XElem} (h : Qualified e e') :
    readTrace P g e' = readTrace P g e := by
  unfold readTrace
  apply foldlM_forall2 _ _ h.children
  intro s a b hab
  simp only [readTraceChild, hab.value, readValueInto_qualified P _ hab, hab.strip, readEvent_qualified P g hab]

/-- Two read states that agree up to the namespaces of the collected trace elements. -/
def StateQualified (s s' : ReadState) : Prop := s'.log = s.log ∧ List.Forall₂ Qualified s.traces s'.traces

theorem readChild_qualified (P : Parsers) {s s' : ReadState} {e e' : XElem} (hs : StateQualified s s')
    (h : Qualified e e') :
    (∃ x, readChild P s e = .error x ∧ readChild P s' e' = .error x) ∨
    ∃ r r', readChild P s e = .ok r ∧ readChild P s' e' = .ok r' ∧ StateQualified r r' := by
  obtain ⟨l, ts⟩ := s
  obtain ⟨l', ts'⟩ := s'
  obtain ⟨rfl, hts⟩ := hs
  have hg : ∀ d, e'.children.foldlM readGlobalChild d = e.children.foldlM readGlobalChild d :=
    foldlM_forall2 readGlobalChild (fun s a b hab => by unfold readGlobalChild; rw [hab.attrib]) h.children
  unfold readChild
  simp only [h.strip, h.attrib, h.value, readValueInto_qualified P _ h, hg]
  split
  · exact Or.inr ⟨_, _, rfl, rfl, rfl, List.rel_append hts (.cons h .nil)⟩
  · split
    · cases e.attrib.getE "name" with
      | error x => exact Or.inl ⟨x, rfl, rfl⟩
      | ok n =>
        cases e.attrib.getE "prefix" with
        | error x => exact Or.inl ⟨x, rfl, rfl⟩
        | ok p =>
          cases e.attrib.getE "uri" with
          | error x => exact Or.inl ⟨x, rfl, rfl⟩
          | ok u => exact Or.inr ⟨_, _, rfl, rfl, rfl, hts⟩
    · split
      · cases e.attrib.getE "name" with
        | error x => exact Or.inl ⟨x, rfl, rfl⟩
        | ok n =>
          cases e.attrib.getE "keys" with
          | error x => exact Or.inl ⟨x, rfl, rfl⟩
          | ok p => exact Or.inr ⟨_, _, rfl, rfl, rfl, hts⟩
      · split
        · cases readValueInto P l'.properties e with
          | error x => exact Or.inl ⟨x, rfl, rfl⟩
          | ok n => exact Or.inr ⟨_, _, rfl, rfl, rfl, hts⟩
        · split
          · cases e.attrib.getE "scope" with
            | error x => exact Or.inl ⟨x, rfl, rfl⟩
            | ok n =>
              simp only [bind, Except.bind]
              cases e.children.foldlM readGlobalChild ((l'.globals.get? n).getD []) with
              | error x => exact Or.inl ⟨x, rfl, rfl⟩
              | ok p => exact Or.inr ⟨_, _, rfl, rfl, rfl, hts⟩
          · exact Or.inr ⟨_, _, rfl, rfl, rfl, hts⟩

theorem readChildren_qualified (P : Parsers) {l l' : List XElem} (h : List.Forall₂ Qualified l l') {s s' : ReadState}
    (hs : StateQualified s s') :
    (∃ x, l.foldlM (readChild P) s = .error x ∧ l'.foldlM (readChild P) s' = .error x) ∨
    ∃ r r', l.foldlM (readChild P) s = .ok r ∧ l'.foldlM (readChild P) s' = .ok r' ∧ StateQualified r r' := by
  induction h generalizing s s' with
  | nil => exact Or.inr ⟨_, _, rfl, rfl, hs⟩
  | cons hab _ ih =>
    rw [List.foldlM_cons, List.foldlM_cons]
    rcases readChild_qualified P hs hab with ⟨x, h1, h2⟩ | ⟨r, r', h1, h2, hr⟩
    · rw [h1, h2]; exact Or.inl ⟨x, rfl, rfl⟩
    · rw [h1, h2]; exact ih hr

/-- C05i: the reader does not depend on the XML namespaces of the tags, neither for logs nor for errors. -/
theorem C05_namespaces (P : Parsers) (e e' : XElem) (h : Qualified e e') : readXes P e' = readXes P e := by
  unfold readXes
  rw [h.attrib]
  simp only [bind, Except.bind]
  rcases readChildren_qualified P h.children (s := { log := { attributes := Dict.update [] e.attrib } })
    (s' := { log := { attributes := Dict.update [] e.attrib } }) ⟨rfl, .nil⟩ with ⟨x, h1, h2⟩ | ⟨r, r', h1, h2, hr, ht⟩
  · rw [h1, h2]
  · rw [h1, h2]
    simp only
    have : r'.traces.mapM (readTrace P r'.log.globals) = r.traces.mapM (readTrace P r.log.globals) := by
      rw [hr]
      generalize r.traces = a at ht
      generalize r'.traces = b at ht
      induction ht with
      | nil => rfl
      | cons hab _ ih => rw [List.mapM_cons, List.mapM_cons, readTrace_qualified P _ hab, ih]
    rw [this, hr]

example : readXes textParsers (.mk "{http://www.xes-standard.org/}log" [] [.mk "{http://www.xes-standard.org/}trace" []
    [.mk "{http://www.xes-standard.org/}string" [("key", "k"), ("value", "v")] []]]) =
    readXes textParsers (.mk "log" [] [.mk "trace" [] [.mk "string" [("key", "k"), ("value", "v")] []]]) :=
  C05_namespaces _ _ _ (.mk _ (by decide) (Or.inr ⟨"http://www.xes-standard.org/", by decide, by decide⟩)
    (.cons (.mk _ (by decide) (Or.inr ⟨"http://www.xes-standard.org/", by decide, by decide⟩)
      (.cons (.mk _ (by decide) (Or.inr ⟨"http://www.xes-standard.org/", by decide, by decide⟩) .nil) .nil)) .nil))

end Ficus
