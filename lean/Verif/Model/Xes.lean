import Verif.Model.Text

/-! Model of the XES reader and writer of `src/python/ficus/legacy/log/functions.py` (42-158, 215-292), at the level of
`xml.etree.ElementTree` elements. The text layer (`ET.parse`, `ET.tostring`, file access) is not modelled. -/

namespace Ficus

/-- `ET.Element`: tag, attributes and children. -/
inductive XElem
  | mk (tag : String) (attrib : Dict String String) (children : List XElem)

namespace XElem
/-- `element.tag` -/
def tag : XElem → String | mk t _ _ => t
/-- `element.attrib` -/
def attrib : XElem → Dict String String | mk _ a _ => a
/-- iteration over an element -/
def children : XElem → List XElem | mk _ _ c => c
end XElem

/-- An event of an XES log: `MyEvent.payload`, event_log.py:6-8. -/
abbrev Payload := Dict String Val

/-- `str(value)`, used in functions.py:157. -/
def Val.toStr : Val → String
  | .str s => s
  | .int i => toString i
  | .float t => t
  | .date t => t
  | .bool true => "True"
  | .bool false => "False"
  | .other t => t

/-- `types_to_names`, functions.py:145-151. -/
def Val.tagName : Val → Option String
  | .str _ => some "string"
  | .int _ => some "int"
  | .float _ => some "float"
  | .date _ => some "date"
  | .bool _ => some "boolean"
  | .other _ => none

/-- Python's `==` on the modelled values: `True == 1` and `False == 0`, otherwise equality of type and value.
Simplification: numeric equality between a float and an integer is not modelled. -/
def Val.pyEq : Val → Val → Bool
  | .int i, .bool b => decide (i = if b then 1 else 0)
  | .bool b, .int i => decide (i = if b then 1 else 0)
  | a, b => decide (a = b)

/-- The external parsers: python's `int`, `float` and `dateutil.parser.parse`, each may raise `ValueError`. -/
structure Parsers where
  int : String → Except PyErr Int
  float : String → Except PyErr Val
  date : String → Except PyErr Val

/-- `get_tag_wo_xmlns`, functions.py:119-120. -/
def stripNs (tag : String) : String :=
  if '}' ∈ tag.toList then String.ofList ((tag.toList.dropWhile (fun c => decide (c ≠ '}'))).drop 1) else tag

/-- `_is_value_tag`, functions.py:136-137: the tag is a key of `parse_functions`. -/
def isValueTag (e : XElem) : Bool := decide (stripNs e.tag ∈ ["string", "date", "int", "float", "boolean"])

/-- `parse_functions[tag_name](value)`, functions.py:127-133, 142. `bool(text)` is true for every non-empty text. -/
def parseByTag (P : Parsers) (tagName value : String) : Except PyErr Val :=
  if tagName = "string" then .ok (.str value)
  else if tagName = "date" then P.date value
  else if tagName = "int" then (P.int value).map Val.int
  else if tagName = "float" then P.float value
  else if tagName = "boolean" then .ok (.bool (decide (value ≠ "")))
  else .error .keyError

/-- `_parse_value_tag`, functions.py:140-142. -/
def parseValueTag (P : Parsers) (e : XElem) : Except PyErr Val := do
  parseByTag P (stripNs e.tag) (← e.attrib.getE "value")

/-- `target[child.attrib['key']] = _parse_value_tag(child)`, functions.py:74, 98, 109 (python evaluates the right-hand
side first). -/
def readValueInto (P : Parsers) (d : Dict String Val) (e : XElem) : Except PyErr (Dict String Val) := do
  let v ← parseValueTag P e
  let k ← e.attrib.getE "key"
  return d.set k v

/-- The state of the first loop of `read_log_from_xes`: the log without traces and the collected trace elements. -/
structure ReadState where
  log : Log Payload := {}
  traces : List XElem := []

/-- The body of the loop over the global children, functions.py:82-84. -/
def readGlobalChild (d : Dict String Val) (e : XElem) : Except PyErr (Dict String Val) := do
  let v ← e.attrib.getE "value"
  let k ← e.attrib.getE "key"
  return d.set k (.str v)

/-- The body of the first loop, functions.py:54-86. -/
def readChild (P : Parsers) (st : ReadState) (child : XElem) : Except PyErr ReadState :=
  let tagName := stripNs child.tag
  if tagName = "trace" then .ok { st with traces := st.traces ++ [child] }
  else if tagName = "extension" then do
    let n ← child.attrib.getE "name"
    let p ← child.attrib.getE "prefix"
    let u ← child.attrib.getE "uri"
    return { st with log := { st.log with extensions := st.log.extensions.set n [("prefix", p), ("uri", u)] } }
  else if tagName = "classifier" then do
    let n ← child.attrib.getE "name"
    let k ← child.attrib.getE "keys"
    return { st with log := { st.log with
      classifiers := st.log.classifiers.set n ((splitLoop [' '] 0 [] k.toList).map String.ofList) } }
  else if isValueTag child then do
    let props ← readValueInto P st.log.properties child
    return { st with log := { st.log with properties := props } }
  else if tagName = "global" then do
    let scope ← child.attrib.getE "scope"
    let d ← child.children.foldlM readGlobalChild ((st.log.globals.get? scope).getD [])
    return { st with log := { st.log with globals := st.log.globals.set scope d } }
  else .ok st

/-- Copying the global values of a scope into a payload, functions.py:91-93 and 103-105. -/
def applyGlobals (globals : Dict String (Dict String Val)) (scope : String) : Dict String Val :=
  match globals.get? scope with
  | some d => Dict.update [] d
  | none => []

/-- Reading one event element, functions.py:102-111. -/
def readEvent (P : Parsers) (globals : Dict String (Dict String Val)) (e : XElem) : Except PyErr Payload :=
  e.children.foldlM (fun d c => if isValueTag c then readValueInto P d c else .ok d) (applyGlobals globals "event")

/-- The body of the loop over the children of a trace, functions.py:95-112. -/
def readTraceChild (P : Parsers) (globals : Dict String (Dict String Val)) (t : Trace Payload) (c : XElem) :
    Except PyErr (Trace Payload) :=
  if isValueTag c then do
    let a ← readValueInto P t.attributes c
    return { t with attributes := a }
  else if stripNs c.tag = "event" then do
    let e ← readEvent P globals c
    return { t with events := t.events ++ [e] }
  else .ok t

/-- Reading one trace element, functions.py:89-114. -/
def readTrace (P : Parsers) (globals : Dict String (Dict String Val)) (e : XElem) : Except PyErr (Trace Payload) :=
  e.children.foldlM (readTraceChild P globals) { events := [], attributes := applyGlobals globals "trace" }

/-- `read_log_from_xes`, functions.py:42-116, from the root element on. -/
def readXes (P : Parsers) (root : XElem) : Except PyErr (Log Payload) := do
  let log : Log Payload := { attributes := Dict.update [] root.attrib }
  let st ← root.children.foldlM (readChild P) { log := log }
  let traces ← st.traces.mapM (readTrace P st.log.globals)
  return { st.log with traces := traces }

/-- `_create_value_tag`, functions.py:154-158; `types_to_names[type(value)]` raises `KeyError` for other types. -/
def createValueTag (k : String) (v : Val) : Except PyErr XElem :=
  match v.tagName with
  | some t => .ok (.mk t [("key", k), ("value", v.toStr)] [])
  | none => .error .keyError

/-- `_check_if_default_value`, functions.py:281-292. -/
def isDefaultValue (globals : Dict String (Dict String Val)) (entity key : String) (v : Val) : Bool :=
  match globals.get? entity with
  | none => false
  | some d =>
    match d.get? key with
    | none => false
    | some w => w.pyEq v

/-- The children written for a payload, functions.py:250-257 and 261-268. -/
def writePayload (globals : Dict String (Dict String Val)) (entity : String) (d : Dict String Val) :
    Except PyErr (List XElem) :=
  (d.filter (fun kv => !isDefaultValue globals entity kv.1 kv.2 && kv.2.tagName.isSome)).mapM
    (fun kv => createValueTag kv.1 kv.2)

/-- Writing one event, functions.py:259-270. -/
def writeEvent (globals : Dict String (Dict String Val)) (e : Payload) : Except PyErr XElem := do
  return .mk "event" [] (← writePayload globals "event" e)

/-- Writing one trace, functions.py:248-272. -/
def writeTrace (globals : Dict String (Dict String Val)) (t : Trace Payload) : Except PyErr XElem := do
  let attrs ← writePayload globals "trace" t.attributes
  let evs ← t.events.mapM (writeEvent globals)
  return .mk "trace" [] (attrs ++ evs)

/-- Writing a log property, functions.py:235-238: the element `<string key="value">` with the property's key as attribute
name. `ET.tostring` raises `TypeError` when the value is not a string. -/
def writeProperty (kv : String × Val) : Except PyErr XElem :=
  match kv.2 with
  | .str s => .ok (.mk "string" [(kv.1, s)] [])
  | _ => .error .typeError

/-- Writing an extension, functions.py:221-227. -/
def writeExtension (kv : String × Dict String String) : XElem :=
  .mk "extension" (Dict.update [("name", kv.1)] kv.2) []

/-- Writing a classifier, functions.py:229-233. -/
def writeClassifier (kv : String × List String) : XElem :=
  .mk "classifier" [("name", kv.1), ("keys", String.ofList (List.intercalate [' '] (kv.2.map String.toList)))] []

/-- Writing a scope of global values, functions.py:240-246. -/
def writeGlobal (kv : String × Dict String Val) : Except PyErr XElem := do
  return .mk "global" [("scope", kv.1)] (← kv.2.mapM (fun e => createValueTag e.1 e.2))

/-- `serialize_log_to_xes`, functions.py:215-274, up to the text of `ET.tostring`. A property that is not a string raises only in
`ET.tostring`, when all elements exist. -/
def writeXes (log : Log Payload) : Except PyErr XElem := do
  let globals ← log.globals.mapM writeGlobal
  let traces ← log.traces.mapM (writeTrace log.globals)
  let props ← log.properties.mapM writeProperty
  return .mk "log" (Dict.update [] log.attributes)
    (log.extensions.map writeExtension ++ log.classifiers.map writeClassifier ++ props ++ globals ++ traces)

end Ficus
