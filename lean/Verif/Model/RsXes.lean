import Verif.Model.Py
import Mathlib.Data.List.Sort

/-! Model of reading and writing XES files in the backend, below /repo/src/rust/ficus_backend/src/event_log/xes:
reader/file_xes_log_reader.rs, reader/xes_log_trace_reader.rs, reader/utils.rs, xes_event_log.rs, xes_event.rs and
writer/xes_event_log_writer.rs, with core/event/event.rs and utils/xml_utils.rs.

What `quick_xml` reads is a list of tokens, with the values of attributes as they stand in the file, that is escaped. Attributes are well
formed, different and in UTF-8. Escaping, and the texts of dates, numbers and identifiers, are parameters. A `HashMap` is an association
list; the only loop over one in the reader is over the defaults of events, whose keys are different, so that the order of the loop does
not matter for what is in the payload; the writer sorts. -/

namespace Ficus.RsXes

/-- Dates, floats and identifiers, and their texts: `to_rfc3339` and `parse_from_rfc3339`, `to_string` and `parse` of `i64`, `f64` and
`bool`, of `Uuid`; `escape` of `push_attribute` and `unescape` of quick_xml, which fails for what is no entity. -/
structure Codec (D F U : Type) where
  escape : String → String
  unescape : String → Option String
  showDate : D → String
  parseDate : String → Option D
  showInt : Int → String
  parseInt : String → Option Int
  showFloat : F → String
  parseFloat : String → Option F
  showGuid : U → String
  parseGuid : String → Option U

variable {D F U : Type}

/-- `EventPayloadValue`, core/event/event.rs:8-22. Lifecycles are given by their texts (standard_lifecycle.rs, braf_lifecycle.rs), and both
kinds of floats are of one type. -/
inductive Value (D F U : Type)
  | date (d : D)
  | str (s : String)
  | bool (b : Bool)
  | int32 (n : Int)
  | int64 (n : Int)
  | float32 (f : F)
  | float64 (f : F)
  | uint32 (n : Int)
  | uint64 (n : Int)
  | guid (u : U)
  | timestamp (n : Int)
  | lifecycle (text : String)
  deriving DecidableEq

/-- What the reader of quick_xml gives: a start tag, a self-closing tag, an end tag, something else (text, comment, declaration), an
error. The end of the file comes after the last token, any number of times. -/
inductive Token
  | start (tag : String) (attrs : List (String × String))
  | empty (tag : String) (attrs : List (String × String))
  | stop (tag : String)
  | other
  | error
  deriving DecidableEq

/-- How reading can go wrong: a panic, or a loop that never ends. -/
inductive Stop
  | panicked
  | forever
  deriving DecidableEq

/-- `XesEventImpl`, xes_event.rs:13-16; no payload is an empty one. -/
structure Event (D F U : Type) where
  name : String
  date : D
  payload : Dict String (Value D F U)
  deriving DecidableEq

/-- `XesEventLogExtension`, shared.rs:5-10. -/
structure Extension where
  name : String
  pre : String
  uri : String
  deriving DecidableEq

/-- `XesClassifier`, shared.rs:18-22. -/
structure Classifier where
  name : String
  keys : List String
  deriving DecidableEq

/-- `XesEventLogImpl`, xes_event_log.rs:16-22. -/
structure Log (D F U : Type) where
  traces : List (List (Event D F U))
  globals : Dict String (Dict String (Value D F U))
  extensions : List Extension
  classifiers : List Classifier
  properties : List (String × Value D F U)
  deriving DecidableEq

def Log.nothing : Log D F U := ⟨[], [], [], [], []⟩

/-! ### Reading -/

/-- The value of an attribute, as in utils.rs:46-61. -/
def attr? (attrs : List (String × String)) (name : String) : Option String := Dict.get? attrs name

/-- `read_payload_like_tag`, utils.rs:23-40, but the type, which is the tag; a panic if a text cannot be unescaped. -/
def payloadTag (c : Codec D F U) (attrs : List (String × String)) : Except Stop (Option (String × String)) :=
  match attr? attrs "key", attr? attrs "value" with
  | some k, some v => match c.unescape k, c.unescape v with
    | some k', some v' => .ok (some (k', v'))
    | _, _ => .error .panicked
  | _, _ => .ok none

/-- `extract_payload_value`, utils.rs:77-102. -/
def extractValue (c : Codec D F U) (tag text : String) : Option (Value D F U) :=
  if tag = "date" then (c.parseDate text).map .date
  else if tag = "int" then (c.parseInt text).map .int64
  else if tag = "float" then (c.parseFloat text).map .float64
  else if tag = "string" then some (.str text)
  else if tag = "boolean" then (if text = "true" then some (.bool true) else if text = "false" then some (.bool false) else none)
  else if tag = "id" then (c.parseGuid text).map .guid
  else none

/-- `read_payload_like_tag` and `extract_payload_value`, as in xes_log_trace_reader.rs:77-85 with 108-123. -/
def readField (c : Codec D F U) (tag : String) (attrs : List (String × String)) : Except Stop (Option (String × Value D F U)) :=
  match payloadTag c attrs with
  | .error e => .error e
  | .ok none => .ok none
  | .ok (some (k, text)) => .ok ((extractValue c tag text).map (k, ·))

/-- The variables of `try_parse_event_from`, xes_log_trace_reader.rs:55-57. -/
structure Draft (D F U : Type) where
  name : Option String
  date : Option D
  payload : Dict String (Value D F U)

/-- `update_event_data`, xes_log_trace_reader.rs:125-151. -/
def Draft.update (d : Draft D F U) (key : String) (value : Value D F U) : Draft D F U :=
  if key = "time:timestamp" then (match value with | .date x => { d with date := some x } | _ => d)
  else if key = "concept:name" then (match value with | .str s => { d with name := some s } | _ => d)
  else { d with payload := d.payload.set key value }

/-- `set_defaults_value`, xes_log_trace_reader.rs:92-106, on the empty variables. -/
def Draft.start (globals : Dict String (Dict String (Value D F U))) : Draft D F U :=
  match globals.get? "event" with
  | none => ⟨none, none, []⟩
  | some defaults => defaults.foldl (fun d e => d.update e.1 e.2) ⟨none, none, []⟩

/-- The event at its end tag, xes_log_trace_reader.rs:64-74. -/
def Draft.finish (d : Draft D F U) : Option (Event D F U) :=
  match d.name, d.date with
  | some name, some date => some ⟨name, date, d.payload⟩
  | _, _ => none

/-- Which of the nested loops reads the next token: the one over the log, over a trace with its events so far, over an event, over a
global with its values so far; or none any more. -/
inductive Mode (D F U : Type)
  | log
  | trace (events : List (Event D F U))
  | event (events : List (Event D F U)) (draft : Draft D F U)
  | global (scope : String) (values : Option (Dict String (Value D F U)))
  | ended

/-- `try_read_property`, file_xes_log_reader.rs:141-155, and xes_event_log.rs:104. -/
def readProperty (c : Codec D F U) (tag : String) (attrs : List (String × String)) (l : Log D F U) : Except Stop (Log D F U) :=
  match readField c tag attrs with
  | .error e => .error e
  | .ok none => .ok l
  | .ok (some p) => .ok { l with properties := l.properties ++ [p] }

/-- `try_read_extension`, file_xes_log_reader.rs:218-256: the values are not unescaped. -/
def readExtension (attrs : List (String × String)) : Option Extension :=
  match attr? attrs "name", attr? attrs "prefix", attr? attrs "uri" with
  | some name, some pre, some uri => some ⟨name, pre, uri⟩
  | _, _, _ => none

/-- `split(" ")`. -/
def splitSpaces (s : String) : List String := (s.toList.splitOn ' ').map String.ofList

/-- `try_read_classifier`, file_xes_log_reader.rs:186-216: the values are not unescaped. -/
def readClassifier (attrs : List (String × String)) : Option Classifier :=
  match attr? attrs "name", attr? attrs "keys" with
  | some name, some keys => some ⟨name, splitSpaces keys⟩
  | _, _ => none

/-- `try_read_tag`, file_xes_log_reader.rs:121-139, and xes_event_log.rs:102-104. -/
def readTag (c : Codec D F U) (tag : String) (attrs : List (String × String)) (l : Log D F U) : Except Stop (Log D F U) :=
  if tag = "extension" then
    match readExtension attrs with
    | some x => .ok { l with extensions := l.extensions ++ [x] }
    | none => readProperty c tag attrs l
  else if tag = "classifier" then
    match readClassifier attrs with
    | some x => .ok { l with classifiers := l.classifiers ++ [x] }
    | none => readProperty c tag attrs l
  else readProperty c tag attrs l

/-- The loop over the log, file_xes_log_reader.rs:40-85, with the loop of `XesEventLogImpl::new`, xes_event_log.rs:95-106. The map
`seen_globals` is the map of globals of the log. -/
def logStep (c : Codec D F U) (l : Log D F U) : Token → Except Stop (Mode D F U × Log D F U)
  | .start tag attrs =>
    if tag = "trace" then .ok (.trace [], l)
    else if tag = "global" then
      match attr? attrs "scope" with
      | some scope => .ok (.global scope none, l)
      | none => .ok (.log, l)
    else if tag = "extension" ∨ tag = "classifier" then (readTag c tag attrs l).map (fun l' => (.log, l'))
    else (readProperty c tag attrs l).map (fun l' => (.log, l'))
  | .empty tag attrs => (readTag c tag attrs l).map (fun l' => (.log, l'))
  | .error => .ok (.ended, l)
  | _ => .ok (.log, l)

/-- `next` of the iterator over a trace, xes_log_trace_reader.rs:20-39, with `XesTraceImpl::new`, xes_trace.rs:15-27. -/
def traceStep (events : List (Event D F U)) (l : Log D F U) : Token → Mode D F U × Log D F U
  | .start tag _ => if tag = "event" then (.event events (.start l.globals), l) else (.trace events, l)
  | .stop tag => if tag = "trace" then (.log, { l with traces := l.traces ++ [events] }) else (.trace events, l)
  | .error => (.log, { l with traces := l.traces ++ [events] })
  | _ => (.trace events, l)

/-- The loop of `try_parse_event_from`, xes_log_trace_reader.rs:61-89. -/
def eventStep (c : Codec D F U) (events : List (Event D F U)) (d : Draft D F U) : Token → Except Stop (Mode D F U)
  | .stop tag => if tag = "event" then .ok (.trace (events ++ d.finish.toList)) else .ok (.event events d)
  | .empty tag attrs =>
    match readField c tag attrs with
    | .error e => .error e
    | .ok none => .ok (.event events d)
    | .ok (some (k, v)) => .ok (.event events (d.update k v))
  | _ => .ok (.event events d)

/-- The loop of `try_read_global`, file_xes_log_reader.rs:160-183, and lines 50-65. -/
def globalStep (c : Codec D F U) (scope : String) (values : Option (Dict String (Value D F U))) (l : Log D F U) :
    Token → Except Stop (Mode D F U × Log D F U)
  | .error => .ok (.log, l)
  | .empty tag attrs =>
    match payloadTag c attrs with
    | .error e => .error e
    | .ok none => .ok (.global scope values, l)
    | .ok (some (k, text)) =>
      match extractValue c tag text with
      | some v => .ok (.global scope (some ((values.getD []).set k v)), l)
      | none => .ok (.global scope (some (values.getD [])), l)
  | .stop tag =>
    if tag = "global" then
      match values with
      | some defaults => .ok (.log, if l.globals.contains scope then l else { l with globals := l.globals.set scope defaults })
      | none => .ok (.log, l)
    else .ok (.global scope values, l)
  | _ => .ok (.global scope values, l)

/-- One token, by whichever loop reads it. -/
def step (c : Codec D F U) (s : Mode D F U × Log D F U) (t : Token) : Except Stop (Mode D F U × Log D F U) :=
  match s with
  | (.log, l) => logStep c l t
  | (.trace events, l) => .ok (traceStep events l t)
  | (.event events d, l) => (eventStep c events d t).map (fun m => (m, l))
  | (.global scope values, l) => globalStep c scope values l t
  | (.ended, l) => .ok (.ended, l)

/-- `read_event_log`, file_xes_log_reader.rs:29-31, of a file that there is: at the end of the file only the loop over the log ends
(line 81); the others go on for ever, as they `continue` there (xes_log_trace_reader.rs:36 and 87, file_xes_log_reader.rs:179). -/
def readLog (c : Codec D F U) (tokens : List Token) : Except Stop (Log D F U) :=
  match tokens.foldlM (step c) (.log, .nothing) with
  | .error e => .error e
  | .ok (.log, l) => .ok l
  | .ok (.ended, l) => .ok l
  | .ok _ => .error .forever

/-! ### Writing -/

/-- The tags of values, xes_event_log_writer.rs:100-113. -/
def Value.tag : Value D F U → String
  | .date _ => "date"
  | .str _ => "string"
  | .bool _ => "boolean"
  | .int32 _ => "int"
  | .int64 _ => "int"
  | .float32 _ => "float"
  | .float64 _ => "float"
  | .uint32 _ => "int"
  | .uint64 _ => "int"
  | .guid _ => "id"
  | .timestamp _ => "date"
  | .lifecycle _ => "string"

/-- `to_string` of values, core/event/event.rs:24-41. -/
def Value.text (c : Codec D F U) : Value D F U → String
  | .date d => c.showDate d
  | .str s => s
  | .bool b => if b then "true" else "false"
  | .int32 n => c.showInt n
  | .int64 n => c.showInt n
  | .float32 f => c.showFloat f
  | .float64 f => c.showFloat f
  | .uint32 n => c.showInt n
  | .uint64 n => c.showInt n
  | .guid u => c.showGuid u
  | .timestamp n => c.showInt n
  | .lifecycle text => text

/-- `write_empty`, xml_utils.rs:38-50; `push_attribute` escapes the values. -/
def writeEmpty (c : Codec D F U) (tag : String) (attrs : List (String × String)) : Token :=
  .empty tag (attrs.map (fun a => (a.1, c.escape a.2)))

/-- `write_payload_tag`, xes_event_log_writer.rs:99-119. -/
def writeField (c : Codec D F U) (e : String × Value D F U) : Token :=
  writeEmpty c e.2.tag [("key", e.1), ("value", e.2.text c)]

/-- `sort_by_first`, utils/vec_utils.rs:1-3. -/
def sortByFirst {V : Type} (l : List (String × V)) : List (String × V) := l.insertionSort (fun a b => a.1 ≤ b.1)

/-- The body of the loop over events, xes_event_log_writer.rs:73-87. -/
def writeEvent (c : Codec D F U) (e : Event D F U) : List Token :=
  .start "event" [] :: writeField c ("concept:name", .str e.name) :: writeField c ("time:timestamp", .date e.date) ::
    ((sortByFirst e.payload).map (writeField c) ++ [.stop "event"])

/-- The body of the loop over traces, xes_event_log_writer.rs:64-88: empty traces are left out. -/
def writeTrace (c : Codec D F U) (t : List (Event D F U)) : List Token :=
  if t.isEmpty then [] else .start "trace" [] :: (t.flatMap (writeEvent c) ++ [.stop "trace"])

/-- The body of the loop over globals, xes_event_log_writer.rs:53-60, with `ordered_globals`, xes_event_log.rs:67-81. -/
def writeGlobal (c : Codec D F U) (g : String × Dict String (Value D F U)) : List Token :=
  .start "global" [("scope", c.escape g.1)] :: ((sortByFirst g.2).map (writeField c) ++ [.stop "global"])

/-- `serialize_event_log`, xes_event_log_writer.rs:25-97, without the white space between tags. -/
def writeLog (c : Codec D F U) (l : Log D F U) : List Token :=
  .start "log" [] ::
    (l.extensions.map (fun x => writeEmpty c "extension" [("name", x.name), ("uri", x.uri), ("prefix", x.pre)]) ++
      l.classifiers.map (fun x => writeEmpty c "classifier" [("name", x.name), ("keys", " ".intercalate x.keys)]) ++
      (sortByFirst l.properties).map (writeField c) ++
      (sortByFirst l.globals).flatMap (writeGlobal c) ++
      l.traces.flatMap (writeTrace c) ++ [.stop "log"])

end Ficus.RsXes
