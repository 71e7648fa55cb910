import Verif.Proofs.RsXes

/-! C142: what the backend reads from an XES file. -/

namespace Ficus.RsXes
open Spec

variable {D F U : Type}

/-! ### A codec for examples: dates in unary, `&` escaped as `&amp;` -/

def unescapeChars : List Char → Option (List Char)
  | [] => some []
  | '&' :: 'a' :: 'm' :: 'p' :: ';' :: r => (unescapeChars r).map ('&' :: ·)
  | c :: r => if c = '&' then none else (unescapeChars r).map (c :: ·)

def escapeChars (s : List Char) : List Char := s.flatMap (fun c => if c = '&' then ['&', 'a', 'm', 'p', ';'] else [c])

def unary (mark : Char) (n : Nat) : String := String.ofList (List.replicate n mark)

def fromUnary (mark : Char) (s : String) : Option Nat := if s.toList.all (· = mark) then some s.toList.length else none

def exCodec : Codec Nat Unit Unit where
  escape s := String.ofList (escapeChars s.toList)
  unescape s := (unescapeChars s.toList).map String.ofList
  showDate := unary 'd'
  parseDate := fromUnary 'd'
  showInt n := unary 'i' n.toNat
  parseInt s := (fromUnary 'i' s).map Int.ofNat
  showFloat _ := "0"
  parseFloat s := if s = "0" then some () else none
  showGuid _ := "u"
  parseGuid s := if s = "u" then some () else none

/-- A self-closing element with a key and a value. -/
def exTag (tag key value : String) : XesNode := .empty tag [("key", key), ("value", value)]

def exEvent (children : List XesNode) : XesNode := .node "event" [] children

def exDoc : List XesNode :=
  [.other, .node "log" [("xes.version", "1849-2016")]
    [.empty "extension" [("name", "Concept"), ("prefix", "concept"), ("uri", "http")],
     .node "global" [("scope", "event")] [exTag "string" "cost" "0", exTag "string" "concept:name" "unnamed", exTag "list" "x" "y"],
     .empty "classifier" [("name", "Activity"), ("keys", "concept:name org:resource")],
     exTag "string" "creator" "A &amp; B",
     .node "trace" [] [exTag "string" "concept:name" "t1",
       exEvent [exTag "string" "concept:name" "a", exTag "date" "time:timestamp" "dd", exTag "int" "cost" "ii"],
       exEvent [exTag "date" "time:timestamp" "ddd"],
       exEvent [exTag "string" "concept:name" "c"]],
     .node "trace" [] []]]

theorem exDoc_readable : ForestReadable exCodec exDoc := by
  simp only [exDoc, exTag, exEvent, ForestReadable, XesNode.Readable, and_true, true_and]
  refine ⟨?_, ?_, ⟨?_, ?_, ?_, ?_⟩, ?_, ?_, ⟨?_, ?_, ⟨?_, ?_, ?_, ?_⟩, ⟨?_, ?_⟩, ?_, ?_⟩, ?_⟩ <;>
  · intro a ha
    simp only [List.mem_cons, List.not_mem_nil, or_false] at ha <;>
    rcases ha with rfl | rfl | rfl <;> exact ⟨_, rfl⟩

theorem exDoc_proper : ProperAll exDoc := by
  simp [exDoc, exTag, exEvent, ProperAll, XesNode.Proper, ForestWithout, XesNode.Without, EventsFlatAll, XesNode.EventsFlat, attr?, Dict.get?]

/-! ### Documents -/

/-- **C142.** A document is read as: a trace for every element `trace`, in order, with an event for every element `event` in it that has
a name and a date, of its own or by the defaults of the first global for events before the trace; every value of the event is the last
one under its key, else the default; the first global of every scope; and the extensions, classifiers and properties of the other tags,
in order. -/
theorem C142_reads (c : Codec D F U) (doc : List XesNode) (hr : ForestReadable c doc) (hp : ProperAll doc) :
    ∃ l, readLog c (forestTokens doc) = .ok l ∧ LogOf c (itemsOf doc) l :=
  ⟨_, readLog_forest doc hr hp, (logOf_fold c (itemsOf doc)).1⟩

example : ∃ l, readLog exCodec (forestTokens exDoc) = .ok l ∧ LogOf exCodec (itemsOf exDoc) l :=
  C142_reads exCodec exDoc exDoc_readable exDoc_proper

example : readLog exCodec (forestTokens exDoc) = .ok
    { traces := [[⟨"a", 2, [("cost", .int64 2)]⟩, ⟨"unnamed", 3, [("cost", .str "0")]⟩], []]
      globals := [("event", [("cost", .str "0"), ("concept:name", .str "unnamed")])]
      extensions := [⟨"Concept", "concept", "http"⟩]
      classifiers := [⟨"Activity", ["concept:name", "org:resource"]⟩]
      properties := [("creator", .str "A & B")] } := by rfl

/-- **C142.** White space, texts and comments do not count, wherever they stand. -/
theorem C142_other_ignored (c : Codec D F U) (tokens : List Token) :
    readLog c (tokens.filter (fun t => decide (t ≠ .other))) = readLog c tokens := by
  have h : ∀ (ts : List Token) (s : Mode D F U × Log D F U),
      (ts.filter (fun t => decide (t ≠ .other))).foldlM (step c) s = ts.foldlM (step c) s := by
    intro ts
    induction ts with
    | nil => intro s; rfl
    | cons t ts ih =>
      intro s
      by_cases ht : t = .other
      · subst ht
        have h1 : step c s .other = .ok s := by
          obtain ⟨m, l⟩ := s
          cases m <;> rfl
        rw [List.filter_cons, if_neg (by decide), List.foldlM_cons, h1, ih]
        rfl
      · rw [List.filter_cons, if_pos (decide_eq_true ht), List.foldlM_cons, List.foldlM_cons]
        congr 1
        funext s'
        exact ih s'
  unfold readLog
  rw [h]

example : readLog exCodec ([.other, .empty "string" [("key", "k"), ("value", "v")], .other] : List Token) =
    .ok { (Log.nothing : Log Nat Unit Unit) with properties := [("k", .str "v")] } := by rfl

/-- **C142.** The name under which an element `trace`, its attributes and whatever is in it beside events are given does not matter to
the log: only its events are read. -/
theorem C142_trace_attributes_lost (c : Codec D F U) (doc rest : List XesNode) (attrs attrs' : List (String × String))
    (children children' : List XesNode) (hd : ForestReadable c (doc ++ .node "trace" attrs children :: rest))
    (hd' : ForestReadable c (doc ++ .node "trace" attrs' children' :: rest))
    (hp : ProperAll (doc ++ .node "trace" attrs children :: rest)) (hp' : ProperAll (doc ++ .node "trace" attrs' children' :: rest))
    (he : eventElementsOf children = eventElementsOf children') :
    readLog c (forestTokens (doc ++ .node "trace" attrs children :: rest)) =
      readLog c (forestTokens (doc ++ .node "trace" attrs' children' :: rest)) := by
  rw [readLog_forest _ hd hp, readLog_forest _ hd' hp']
  have happ : ∀ (a b : List XesNode), itemsOf (a ++ b) = itemsOf a ++ itemsOf b := by
    intro a b
    induction a with
    | nil => rfl
    | cons x a ih => simp [itemsOf, ih]
  simp only [happ, List.foldl_append, itemsOf, XesNode.items, if_true, List.foldl_cons, List.foldl_nil, addItem, he]

example : readLog exCodec (forestTokens [.node "trace" [] [exTag "string" "concept:name" "t1",
      exEvent [exTag "string" "concept:name" "a", exTag "date" "time:timestamp" "dd"]]]) =
    readLog exCodec (forestTokens [.node "trace" [("id", "1")]
      [exEvent [exTag "string" "concept:name" "a", exTag "date" "time:timestamp" "dd"]]]) := by rfl

/-! ### Files that are cut off -/

/-- **C142 (negation).** A file that ends inside of a trace is not refused: it is read for ever. -/
theorem C142_cut_trace (c : Codec D F U) (doc children : List XesNode) (attrs : List (String × String)) (hr : ForestReadable c doc)
    (hp : ProperAll doc) (hr' : ForestReadable c children) (hw : ForestWithout "trace" children) (hf : EventsFlatAll children) :
    readLog c (forestTokens doc ++ .start "trace" attrs :: forestTokens children) = .error .forever := by
  unfold readLog
  rw [foldlM_append_ok (log_forest doc hr hp _), List.foldlM_cons]
  have h1 : ∀ l : Log D F U, step c (.log, l) (.start "trace" attrs) = .ok (.trace [], l) := fun l => rfl
  rw [h1]
  simp only [bind, Except.bind]
  rw [trace_forest _ children hr' hw hf]

/-- **C142 (negation).** The same for a file that ends inside of an event, -/
theorem C142_cut_event (c : Codec D F U) (doc children inner : List XesNode) (attrs attrs' : List (String × String))
    (hr : ForestReadable c doc) (hp : ProperAll doc) (hr' : ForestReadable c children) (hw : ForestWithout "trace" children)
    (hf : EventsFlatAll children) (hi : ForestReadable c inner) (hwi : ForestWithout "event" inner) :
    readLog c (forestTokens doc ++ .start "trace" attrs :: (forestTokens children ++ .start "event" attrs' :: forestTokens inner)) =
      .error .forever := by
  unfold readLog
  rw [foldlM_append_ok (log_forest doc hr hp _), List.foldlM_cons]
  have h1 : ∀ l : Log D F U, step c (.log, l) (.start "trace" attrs) = .ok (.trace [], l) := fun l => rfl
  rw [h1]
  simp only [bind, Except.bind]
  rw [foldlM_append_ok (trace_forest _ children hr' hw hf []), List.foldlM_cons]
  have h2 : ∀ (l : Log D F U) (es : List (Event D F U)), step c (.trace es, l) (.start "event" attrs') =
      .ok (.event es (.start l.globals), l) := fun l es => rfl
  rw [h2]
  simp only [bind, Except.bind]
  rw [event_forest _ _ inner hi hwi]

/-- **C142 (negation).** and for a file that ends inside of a global. -/
theorem C142_cut_global (c : Codec D F U) (doc children : List XesNode) (attrs : List (String × String)) (scope : String)
    (hs : attr? attrs "scope" = some scope) (hr : ForestReadable c doc) (hp : ProperAll doc) (hr' : ForestReadable c children)
    (hw : ForestWithout "global" children) :
    readLog c (forestTokens doc ++ .start "global" attrs :: forestTokens children) = .error .forever := by
  unfold readLog
  rw [foldlM_append_ok (log_forest doc hr hp _), List.foldlM_cons]
  have h1 : ∀ l : Log D F U, step c (.log, l) (.start "global" attrs) = .ok (.global scope none, l) := by
    intro l
    simp [step, logStep, hs]
  rw [h1]
  simp only [bind, Except.bind]
  rw [global_forest scope _ children hr' hw]

example : readLog exCodec [.start "log" [], .start "trace" [], .start "event" [], .empty "string" [("key", "k"), ("value", "v")]] =
    .error .forever := by rfl

example : readLog exCodec [.start "log" [], .start "global" [("scope", "trace")]] = .error .forever := by rfl

/-- **C142 (negation).** Outside of traces and globals the end of the file, or an error of the document, is the end of the log without
notice: what was read so far is given. -/
theorem C142_cut_log (c : Codec D F U) (doc : List XesNode) (rest : List Token) (hr : ForestReadable c doc) (hp : ProperAll doc) :
    ∃ l, LogOf c (itemsOf doc) l ∧ readLog c (forestTokens doc ++ .error :: rest) = .ok l ∧
      ∀ attrs, AttrsReadable c attrs → readLog c (.start "log" attrs :: forestTokens doc) = .ok l := by
  have hended : ∀ (ts : List Token) (l : Log D F U), ts.foldlM (step c) (.ended, l) = .ok (.ended, l) := by
    intro ts
    induction ts with
    | nil => intro l; rfl
    | cons t ts ih => intro l; rw [List.foldlM_cons]; exact ih l
  refine ⟨_, (logOf_fold c (itemsOf doc)).1, ?_, ?_⟩
  · unfold readLog
    rw [foldlM_append_ok (log_forest doc hr hp _), List.foldlM_cons]
    have h1 : ∀ l : Log D F U, step c (.log, l) .error = .ok (.ended, l) := fun l => rfl
    rw [h1]
    simp only [bind, Except.bind]
    rw [hended]
  · intro attrs ha
    unfold readLog
    rw [List.foldlM_cons]
    have h1 : step c (.log, (.nothing : Log D F U)) (.start "log" attrs) = .ok (.log, .nothing) := by
      have : addField c ("log", attrs) (.nothing : Log D F U) = .nothing := by
        unfold addField
        rw [field_tag_none attrs (extract_other (by decide))]
      simp only [step, logStep, if_neg (show ¬ "log" = "trace" by decide), if_neg (show ¬ "log" = "global" by decide),
        if_neg (show ¬ ("log" = "extension" ∨ "log" = "classifier") by decide), readProperty_readable ha, this]
      rfl
    rw [h1]
    simp only [bind, Except.bind]
    rw [log_forest doc hr hp]

example : readLog exCodec [.start "log" [], .empty "string" [("key", "k"), ("value", "v")], .error, .start "trace" []] =
    .ok { (Log.nothing : Log Nat Unit Unit) with properties := [("k", .str "v")] } := by rfl

/-- **C142.** A fault of the XML inside of a trace, outside of its events, ends the trace as its end tag does: the events before it are
kept and what follows is read as a part of the log. -/
theorem C142_error_in_trace (c : Codec D F U) (doc children : List XesNode) (attrs : List (String × String)) (rest : List Token)
    (hr : ForestReadable c doc) (hp : ProperAll doc) (hr' : ForestReadable c children) (hw : ForestWithout "trace" children)
    (hf : EventsFlatAll children) :
    readLog c (forestTokens doc ++ .start "trace" attrs :: (forestTokens children ++ .error :: rest)) =
      readLog c (forestTokens doc ++ .start "trace" attrs :: (forestTokens children ++ .stop "trace" :: rest)) := by
  unfold readLog
  have h1 : ∀ l : Log D F U, step c (.log, l) (.start "trace" attrs) = .ok (.trace [], l) := fun l => rfl
  have h2 : ∀ (l : Log D F U) ev, step c (.trace ev, l) .error = step c (.trace ev, l) (.stop "trace") := fun l ev => rfl
  rw [foldlM_append_ok (log_forest doc hr hp _), foldlM_append_ok (log_forest doc hr hp _), List.foldlM_cons, List.foldlM_cons, h1]
  simp only [bind, Except.bind]
  rw [foldlM_append_ok (trace_forest _ children hr' hw hf _), foldlM_append_ok (trace_forest _ children hr' hw hf _), List.foldlM_cons,
    List.foldlM_cons, h2]

example : readLog exCodec (forestTokens exDoc ++ .start "trace" [] :: (forestTokens [exEvent [exTag "string" "concept:name" "a",
      exTag "date" "time:timestamp" "d"]] ++ .error :: [])) =
    readLog exCodec (forestTokens (exDoc ++ [.node "trace" [] [exEvent [exTag "string" "concept:name" "a",
      exTag "date" "time:timestamp" "d"]]])) := by rfl

/-- **C142 (negation).** A value in an event with an ampersand that starts no entity is not refused: the program panics, whatever
follows. -/
theorem C142_bad_entity (c : Codec D F U) (doc children inner : List XesNode) (attrs attrs' bad : List (String × String)) (tag key value : String)
    (rest : List Token) (hr : ForestReadable c doc) (hp : ProperAll doc) (hr' : ForestReadable c children)
    (hw : ForestWithout "trace" children) (hf : EventsFlatAll children) (hi : ForestReadable c inner) (hwi : ForestWithout "event" inner)
    (hk : attr? bad "key" = some key) (hv : attr? bad "value" = some value)
    (hbad : c.unescape key = none ∨ c.unescape value = none) :
    readLog c (forestTokens doc ++ .start "trace" attrs :: (forestTokens children ++ .start "event" attrs' ::
      (forestTokens inner ++ .empty tag bad :: rest))) = .error .panicked := by
  unfold readLog
  rw [foldlM_append_ok (log_forest doc hr hp _), List.foldlM_cons]
  have h1 : ∀ l : Log D F U, step c (.log, l) (.start "trace" attrs) = .ok (.trace [], l) := fun l => rfl
  rw [h1]
  simp only [bind, Except.bind]
  rw [foldlM_append_ok (trace_forest _ children hr' hw hf []), List.foldlM_cons]
  have h2 : ∀ (l : Log D F U) (es : List (Event D F U)), step c (.trace es, l) (.start "event" attrs') =
      .ok (.event es (.start l.globals), l) := fun l es => rfl
  rw [h2]
  simp only [bind, Except.bind]
  rw [foldlM_append_ok (event_forest _ _ inner hi hwi _), List.foldlM_cons]
  have h3 : payloadTag c bad = .error .panicked := by
    unfold payloadTag
    rw [hk, hv]
    rcases hbad with h | h
    · simp [h]
    · simp only [h]
      cases c.unescape key <;> rfl
  simp [step, eventStep, readField, h3, Except.map, bind, Except.bind]

example : readLog exCodec [.start "trace" [], .start "event" [], .empty "string" [("key", "k"), ("value", "A & B")]] =
    .error .panicked := by rfl

/-! ### What is lost or moved without notice -/

/-- **C142 (negation).** An attribute of an event that has attributes itself, as the standard allows, is lost, and those become values of
the event; a second value under a key takes the place of the first. -/
theorem C142_nested_attributes :
    readLog exCodec (forestTokens [.node "trace" [] [exEvent [exTag "string" "concept:name" "a", exTag "date" "time:timestamp" "d",
      .node "string" [("key", "resource"), ("value", "r")] [exTag "int" "cost" "i", exTag "string" "concept:name" "b"]]]]) =
    .ok { (Log.nothing : Log Nat Unit Unit) with traces := [[⟨"b", 1, [("cost", .int64 1)]⟩]] } := by rfl

/-- **C142 (negation).** Of the attributes of the log with attributes of their own both become properties of the log. -/
theorem C142_nested_properties :
    readLog exCodec (forestTokens [.node "log" [] [.node "string" [("key", "creator"), ("value", "r")] [exTag "int" "cost" "i"]]]) =
    .ok { (Log.nothing : Log Nat Unit Unit) with properties := [("creator", .str "r"), ("cost", .int64 1)] } := by rfl

/-- **C142 (negation).** Traces and events without an end tag are lost, even if the defaults give all that an event needs. -/
theorem C142_self_closing_lost :
    readLog exCodec (forestTokens [.node "global" [("scope", "event")] [exTag "string" "concept:name" "a", exTag "date" "time:timestamp" "d"],
      .empty "trace" [], .node "trace" [] [.empty "event" [], exEvent []]]) =
    .ok { (Log.nothing : Log Nat Unit Unit) with
          traces := [[⟨"a", 1, []⟩]]
          globals := [("event", [("concept:name", .str "a"), ("time:timestamp", .date 1)])] } := by rfl

/-- **C142 (negation).** The defaults of a global without a scope become properties of the log. -/
theorem C142_global_without_scope :
    readLog exCodec (forestTokens [.node "global" [] [exTag "string" "concept:name" "a"]]) =
    .ok { (Log.nothing : Log Nat Unit Unit) with properties := [("concept:name", .str "a")] } := by rfl

/-- **C142 (negation).** Of two globals of one scope the second is lost, and defaults after a trace do not hold for it. -/
theorem C142_late_defaults :
    readLog exCodec (forestTokens [.node "trace" [] [exEvent [exTag "date" "time:timestamp" "d"]],
      .node "global" [("scope", "event")] [exTag "string" "concept:name" "a"],
      .node "global" [("scope", "event")] [exTag "string" "concept:name" "b", exTag "int" "cost" "i"],
      .node "trace" [] [exEvent [exTag "date" "time:timestamp" "d"]]]) =
    .ok { (Log.nothing : Log Nat Unit Unit) with
          traces := [[], [⟨"a", 1, []⟩]]
          globals := [("event", [("concept:name", .str "a")])] } := by rfl

end Ficus.RsXes
