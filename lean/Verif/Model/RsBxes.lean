import Verif.Model.RsXes

/-! Model of reading and writing logs in the format BXES in the backend: /repo/src/rust/ficus_backend/src/event_log/bxes/conversions.rs,
bxes_to_xes_converter.rs and xes_to_bxes_converter.rs, with core/event/lifecycle/braf_lifecycle.rs and standard_lifecycle.rs.

What the crate `bxes` reads and writes is a value of `BLog`; the files are not modelled. A date is the number of nanoseconds since 1970, of
any size, as the dates of chrono reach further than `i64`; there are no leap seconds. A `HashMap` is an association list; what is
looped over is sorted first. The texts of the errors are left out. -/

namespace Ficus.Rs.Bx
open RsXes (Extension Classifier sortByFirst)

/-- `XesBrafLifecycle`, braf_lifecycle.rs:8-29. -/
inductive Braf
  | unspecified | closed | closedCancelled | closedCancelledAborted | closedCancelledError | closedCancelledExited
  | closedCancelledObsolete | closedCancelledTerminated | completed | completedFailed | completedSuccess | opened | openNotRunning
  | openNotRunningAssigned | openNotRunningReserved | openNotRunningSuspendedAssigned | openNotRunningSuspendedReserved | openRunning
  | openRunningInProgress | openRunningSuspended
  deriving DecidableEq

/-- `XesStandardLifecycle`, standard_lifecycle.rs:8-23. -/
inductive Standard
  | unspecified | assign | ateAbort | autoskip | complete | manualSkip | piAbort | reAssign | resume | schedule | start | suspend
  | unknown | withdraw
  deriving DecidableEq

/-- `Lifecycle`, xes_lifecycle.rs:4-7. -/
inductive Lifecycle
  | standard (l : Standard)
  | braf (l : Braf)
  deriving DecidableEq

/-- `strings_to_lifecycle`, braf_lifecycle.rs:31-81. -/
def brafTexts : List (String × Braf) :=
  [("Unspecified", .unspecified),
    ("Closed", .closed),
    ("Closed.Cancelled", .closedCancelled),
    ("Closed.Cancelled.Aborted", .closedCancelledAborted),
    ("Closed.Cancelled.Error", .closedCancelledError),
    ("Closed.Cancelled.Exited", .closedCancelledExited),
    ("Closed.Cancelled.Obsolete", .closedCancelledObsolete),
    ("Closed.Cancelled.Terminated", .closedCancelledTerminated),
    ("Completed", .completed),
    ("Completed.Failed", .completedFailed),
    ("Completed.Success", .completedSuccess),
    ("Open", .opened),
    ("Open.NotRunning", .openNotRunning),
    ("Open.NotRunning.Assigned", .openNotRunningAssigned),
    ("Open.NotRunning.Reserved", .openNotRunningReserved),
    ("Open.NotRunning.Suspended.Assigned", .openNotRunningSuspendedAssigned),
    ("Open.NotRunning.Suspended.Reserved", .openNotRunningSuspendedReserved),
    ("Open.Running", .openRunning),
    ("Open.Running.InProgress", .openRunningInProgress),
    ("Open.Running.Suspended", .openRunningSuspended)]

/-- `strings_to_lifecycle`, standard_lifecycle.rs:25-57. -/
def standardTexts : List (String × Standard) :=
  [("schedule", .schedule),
    ("start", .start),
    ("complete", .complete),
    ("unknown", .unknown),
    ("unspecified", .unspecified),
    ("assign", .assign),
    ("ate_abort", .ateAbort),
    ("autoskip", .autoskip),
    ("manualskip", .manualSkip),
    ("pi_abort", .piAbort),
    ("reassign", .reAssign),
    ("resume", .resume),
    ("suspend", .suspend),
    ("withdraw", .withdraw)]

/-- `reverse_map`, hash_map_utils.rs:60-71, as in braf_lifecycle.rs:83 and standard_lifecycle.rs:59; the order of the
loop over the `HashMap` does not matter, as the lifecycles are different. -/
def reverseMap {K V : Type} [DecidableEq V] (d : List (K × V)) : Dict V K := d.foldl (fun r e => r.set e.2 e.1) []

/-- `to_string`, xes_lifecycle.rs:9-16 with braf_lifecycle.rs:85-89 and standard_lifecycle.rs:61-65; `none` is the panic of `unwrap`. -/
def Lifecycle.text : Lifecycle → Option String
  | .standard l => (reverseMap standardTexts).get? l
  | .braf l => (reverseMap brafTexts).get? l

/-- `from_str`, braf_lifecycle.rs:91-101. -/
def parseBraf (s : String) : Option Braf := Dict.get? brafTexts s

/-- `from_str`, standard_lifecycle.rs:67-77. -/
def parseStandard (s : String) : Option Standard := Dict.get? standardTexts s

/-- `BrafLifecycle` of the crate `bxes`, as used in conversions.rs:59-80. -/
inductive BBraf
  | unspecified | closed | closedCancelled | closedCancelledAborted | closedCancelledError | closedCancelledExited
  | closedCancelledObsolete | closedCancelledTerminated | completed | completedFailed | completedSuccess | opened | openNotRunning
  | openNotRunningAssigned | openNotRunningReserved | openNotRunningSuspendedAssigned | openNotRunningSuspendedReserved | openRunning
  | openRunningInProgress | openRunningSuspended
  deriving DecidableEq

/-- `StandardLifecycle` of the crate `bxes`, as used in conversions.rs:81-96. -/
inductive BStandard
  | unspecified | assign | ateAbort | autoskip | complete | manualSkip | piAbort | reAssign | resume | schedule | start | suspend
  | unknown | withdraw
  deriving DecidableEq

/-- `convert_bxes_to_xes_lifecycle`, conversions.rs:59-80. -/
def brafIn : BBraf → Braf
  | .unspecified => .unspecified
  | .closed => .closed
  | .closedCancelled => .closedCancelled
  | .closedCancelledAborted => .closedCancelledAborted
  | .closedCancelledError => .closedCancelledError
  | .closedCancelledExited => .closedCancelledExited
  | .closedCancelledObsolete => .closedCancelledObsolete
  | .closedCancelledTerminated => .closedCancelledTerminated
  | .completed => .completed
  | .completedFailed => .completedFailed
  | .completedSuccess => .completedSuccess
  | .opened => .opened
  | .openNotRunning => .openNotRunning
  | .openNotRunningAssigned => .openNotRunningAssigned
  | .openNotRunningReserved => .openNotRunningReserved
  | .openNotRunningSuspendedAssigned => .openNotRunningSuspendedAssigned
  | .openNotRunningSuspendedReserved => .openNotRunningSuspendedReserved
  | .openRunning => .openRunning
  | .openRunningInProgress => .openRunningInProgress
  | .openRunningSuspended => .openRunningSuspended

/-- `convert_bxes_to_xes_lifecycle`, conversions.rs:81-96. -/
def standardIn : BStandard → Standard
  | .unspecified => .unspecified
  | .assign => .assign
  | .ateAbort => .ateAbort
  | .autoskip => .autoskip
  | .complete => .complete
  | .manualSkip => .manualSkip
  | .piAbort => .piAbort
  | .reAssign => .reAssign
  | .resume => .resume
  | .schedule => .schedule
  | .start => .start
  | .suspend => .suspend
  | .unknown => .unknown
  | .withdraw => .withdraw

/-- `convert_xes_to_bxes_lifecycle`, conversions.rs:102-123. -/
def brafOut : Braf → BBraf
  | .unspecified => .unspecified
  | .closed => .closed
  | .closedCancelled => .closedCancelled
  | .closedCancelledAborted => .closedCancelledAborted
  | .closedCancelledError => .closedCancelledError
  | .closedCancelledExited => .closedCancelledExited
  | .closedCancelledObsolete => .closedCancelledObsolete
  | .closedCancelledTerminated => .closedCancelledTerminated
  | .completed => .completed
  | .completedFailed => .completedFailed
  | .completedSuccess => .completedSuccess
  | .opened => .opened
  | .openNotRunning => .openNotRunning
  | .openNotRunningAssigned => .openNotRunningAssigned
  | .openNotRunningReserved => .openNotRunningReserved
  | .openNotRunningSuspendedAssigned => .openNotRunningSuspendedAssigned
  | .openNotRunningSuspendedReserved => .openNotRunningSuspendedReserved
  | .openRunning => .openRunning
  | .openRunningInProgress => .openRunningInProgress
  | .openRunningSuspended => .openRunningSuspended

/-- `convert_xes_to_bxes_lifecycle`, conversions.rs:124-139. -/
def standardOut : Standard → BStandard
  | .unspecified => .unspecified
  | .assign => .assign
  | .ateAbort => .ateAbort
  | .autoskip => .autoskip
  | .complete => .complete
  | .manualSkip => .manualSkip
  | .piAbort => .piAbort
  | .reAssign => .reAssign
  | .resume => .resume
  | .schedule => .schedule
  | .start => .start
  | .suspend => .suspend
  | .unknown => .unknown
  | .withdraw => .withdraw

variable {F U : Type}

/-- `EventPayloadValue`, core/event/event.rs:9-22. Both kinds of floats are of one type. -/
inductive Value (F U : Type)
  | date (d : Int)
  | str (s : String)
  | bool (b : Bool)
  | int32 (n : Int)
  | int64 (n : Int)
  | float32 (f : F)
  | float64 (f : F)
  | uint32 (n : Int)
  | uint64 (n : Int)
  | guid (u : U)
  | timestamp (n : Int)
  | lifecycle (l : Lifecycle)
  deriving DecidableEq

/-- `BxesValue` of the crate `bxes`, as used in conversions.rs:12-34; what is inside of the last three does not matter. -/
inductive BValue (F U : Type)
  | int32 (n : Int)
  | int64 (n : Int)
  | uint32 (n : Int)
  | uint64 (n : Int)
  | float32 (f : F)
  | float64 (f : F)
  | str (s : String)
  | bool (b : Bool)
  | timestamp (n : Int)
  | braf (l : BBraf)
  | standard (l : BStandard)
  | guid (u : U)
  | artifact
  | drivers
  | softwareEventType
  deriving DecidableEq

/-- What is external: the comparison of floats (`==` is not reflexive), and which dates `timestamp_nanos` of chrono has a number for; it
panics for others. -/
structure Ext (F : Type) where
  floatEq : F → F → Bool
  fits : Int → Bool

/-- How things fail: a panic, or a `ConversionError`, bxes_to_xes_converter.rs:21-24 and xes_to_bxes_converter.rs:19-22. -/
inductive Failure
  | panicked
  | conversion
  deriving DecidableEq

/-- `timestamp_nanos`, as in conversions.rs:39 and xes_to_bxes_converter.rs:70. -/
def nanos (x : Ext F) (d : Int) : Except Failure Int := if x.fits d then .ok d else .error .panicked

/-- `bxes_value_to_payload_value`, conversions.rs:11-35. -/
def valueIn : BValue F U → Except Failure (Value F U)
  | .int32 n => .ok (.int32 n)
  | .int64 n => .ok (.int64 n)
  | .uint32 n => .ok (.uint32 n)
  | .uint64 n => .ok (.uint64 n)
  | .float32 f => .ok (.float32 f)
  | .float64 f => .ok (.float64 f)
  | .str s => .ok (.str s)
  | .bool b => .ok (.bool b)
  | .timestamp n => .ok (.date n)
  | .braf l => .ok (.lifecycle (.braf (brafIn l)))
  | .standard l => .ok (.lifecycle (.standard (standardIn l)))
  | .artifact => .error .panicked
  | .drivers => .error .panicked
  | .guid u => .ok (.guid u)
  | .softwareEventType => .error .panicked

/-- `payload_value_to_bxes_value`, conversions.rs:37-55. -/
def valueOut (x : Ext F) : Value F U → Except Failure (BValue F U)
  | .date d => (nanos x d).map .timestamp
  | .str s => .ok (.str s)
  | .bool b => .ok (.bool b)
  | .int32 n => .ok (.int32 n)
  | .int64 n => .ok (.int64 n)
  | .float32 f => .ok (.float32 f)
  | .float64 f => .ok (.float64 f)
  | .uint32 n => .ok (.uint32 n)
  | .uint64 n => .ok (.uint64 n)
  | .guid u => .ok (.guid u)
  | .timestamp n => .ok (.timestamp n)
  | .lifecycle (.braf l) => .ok (.braf (brafOut l))
  | .lifecycle (.standard l) => .ok (.standard (standardOut l))

/-- `PartialEq` of `EventPayloadValue`, core/event/event.rs:8. -/
def Value.same [DecidableEq U] (x : Ext F) : Value F U → Value F U → Bool
  | .date a, .date b => a = b
  | .str a, .str b => a = b
  | .bool a, .bool b => a = b
  | .int32 a, .int32 b => a = b
  | .int64 a, .int64 b => a = b
  | .float32 a, .float32 b => x.floatEq a b
  | .float64 a, .float64 b => x.floatEq a b
  | .uint32 a, .uint32 b => a = b
  | .uint64 a, .uint64 b => a = b
  | .guid a, .guid b => a = b
  | .timestamp a, .timestamp b => a = b
  | .lifecycle a, .lifecycle b => a = b
  | _, _ => false

/-- `XesEventImpl`, xes_event.rs:13-16. -/
structure Event (F U : Type) where
  name : String
  date : Int
  payload : Option (Dict String (Value F U))
  deriving DecidableEq

/-- `XesEventLogImpl`, xes_event_log.rs:16-22. -/
structure Log (F U : Type) where
  traces : List (List (Event F U))
  globals : Dict String (Dict String (Value F U))
  extensions : List Extension
  classifiers : List Classifier
  properties : List (String × Value F U)
  deriving DecidableEq

/-- `BxesEvent` of the crate, as in xes_to_bxes_converter.rs:68-79. -/
structure BEvent (F U : Type) where
  name : BValue F U
  timestamp : Int
  attributes : Option (List (BValue F U × BValue F U))
  deriving DecidableEq

/-- `BxesTraceVariant` of the crate, as in xes_to_bxes_converter.rs:54-63. -/
structure BVariant (F U : Type) where
  tracesCount : Nat
  metadata : List (BValue F U × BValue F U)
  events : List (BEvent F U)
  deriving DecidableEq

/-- `BxesGlobalKind` of the crate, as in conversions.rs:149-151. -/
inductive Kind
  | event
  | trace
  | log
  deriving DecidableEq

/-- `BxesClassifier`, as in xes_to_bxes_converter.rs:99-106. -/
structure BClassifier (F U : Type) where
  name : BValue F U
  keys : List (BValue F U)
  deriving DecidableEq

/-- `BxesExtension`, as in xes_to_bxes_converter.rs:115-119. -/
structure BExtension (F U : Type) where
  name : BValue F U
  pre : BValue F U
  uri : BValue F U
  deriving DecidableEq

/-- `BxesGlobal`, as in xes_to_bxes_converter.rs:125-128. -/
structure BGlobal (F U : Type) where
  kind : Kind
  globals : List (BValue F U × BValue F U)
  deriving DecidableEq

/-- `BxesEventLog` with its metadata, as in xes_to_bxes_converter.rs:34-43. -/
structure BLog (F U : Type) where
  version : Nat
  classifiers : Option (List (BClassifier F U))
  extensions : Option (List (BExtension F U))
  globals : Option (List (BGlobal F U))
  properties : Option (List (BValue F U × BValue F U))
  variants : List (BVariant F U)
  deriving DecidableEq

/-! ### Writing -/

/-- `parse_entity_kind`, conversions.rs:147-157. -/
def parseKind (s : String) : Except Failure Kind :=
  if s = "event" then .ok .event
  else if s = "trace" then .ok .trace
  else if s = "log" then .ok .log
  else .error .conversion

/-- `kv_pair_to_bxes_pair` and `convert_to_bxes_global_attribute`, xes_to_bxes_converter.rs:148-153 and 134-139. -/
def pairOut (x : Ext F) (kv : String × Value F U) : Except Failure (BValue F U × BValue F U) :=
  (valueOut x kv.2).map (BValue.str kv.1, ·)

/-- `is_not_default_attribute`, xes_to_bxes_converter.rs:84-94. -/
def isNotDefault [DecidableEq U] (x : Ext F) (log : Log F U) (kv : String × Value F U) : Bool :=
  match log.globals.get? "event" with
  | some defaults => match defaults.get? kv.1 with
    | some default => !default.same x kv.2
    | none => true
  | none => true

/-- `ordered_payload`, xes_event.rs:40-52. -/
def Event.ordered (e : Event F U) : List (String × Value F U) :=
  match e.payload with
  | some p => sortByFirst p
  | none => []

/-- `create_bxes_event`, xes_to_bxes_converter.rs:67-82. -/
def eventOut [DecidableEq U] (x : Ext F) (log : Log F U) (e : Event F U) : Except Failure (BEvent F U) := do
  let timestamp ← nanos x e.date
  let attributes ← (e.ordered.filter (isNotDefault x log)).mapM (pairOut x)
  return ⟨.str e.name, timestamp, some attributes⟩

/-- `create_bxes_traces`, xes_to_bxes_converter.rs:51-65. -/
def tracesOut [DecidableEq U] (x : Ext F) (log : Log F U) : Except Failure (List (BVariant F U)) :=
  log.traces.mapM fun trace => do
    let events ← trace.mapM (eventOut x log)
    return ⟨1, [], events⟩

/-- `create_bxes_classifiers`, xes_to_bxes_converter.rs:96-108. -/
def classifiersOut (log : Log F U) : List (BClassifier F U) := log.classifiers.map fun c => ⟨.str c.name, c.keys.map .str⟩

/-- `create_bxes_extensions` and `convert_to_bxes_extension`, xes_to_bxes_converter.rs:110-120. -/
def extensionsOut (log : Log F U) : List (BExtension F U) := log.extensions.map fun e => ⟨.str e.name, .str e.pre, .str e.uri⟩

/-- `ordered_globals`, xes_event_log.rs:67-81. -/
def orderedGlobals (log : Log F U) : List (String × List (String × Value F U)) :=
  sortByFirst (log.globals.map fun g => (g.1, sortByFirst g.2))

/-- `create_bxes_globals`, xes_to_bxes_converter.rs:122-132. -/
def globalsOut (x : Ext F) (log : Log F U) : Except Failure (List (BGlobal F U)) :=
  (orderedGlobals log).mapM fun g => do
    let kind ← parseKind g.1
    let values ← g.2.mapM (pairOut x)
    return ⟨kind, values⟩

/-- `create_bxes_properties`, xes_to_bxes_converter.rs:141-146. -/
def propertiesOut (x : Ext F) (log : Log F U) : Except Failure (List (BValue F U × BValue F U)) := log.properties.mapM (pairOut x)

/-- `write_event_log_to_bxes`, xes_to_bxes_converter.rs:33-43: what is given to the crate to be written. -/
def writeLog [DecidableEq U] (x : Ext F) (log : Log F U) : Except Failure (BLog F U) := do
  let globals ← globalsOut x log
  let properties ← propertiesOut x log
  let variants ← tracesOut x log
  return ⟨1, some (classifiersOut log), some (extensionsOut log), some globals, some properties, variants⟩

/-! ### Reading -/

/-- `global_type_to_string`, conversions.rs:159-165. -/
def Kind.text : Kind → String
  | .event => "event"
  | .trace => "trace"
  | .log => "log"

/-- `string_or_err`, bxes_to_xes_converter.rs:129-135, and the same in 138-143 and 158-163. -/
def stringIn : BValue F U → Except Failure String
  | .str s => .ok s
  | _ => .error .conversion

/-- The loops of bxes_to_xes_converter.rs:107-111 and 155-166: later values replace earlier ones of the same key. -/
def mapIn (values : List (BValue F U × BValue F U)) : Except Failure (Dict String (Value F U)) :=
  values.foldlM (fun d kv => do
    let key ← stringIn kv.1
    let value ← valueIn kv.2
    return d.set key value) []

/-- `create_xes_payload`, bxes_to_xes_converter.rs:151-172. -/
def payloadIn : Option (List (BValue F U × BValue F U)) → Except Failure (Option (Dict String (Value F U)))
  | some attributes => (mapIn attributes).map some
  | none => .ok none

/-- `create_xes_event`, bxes_to_xes_converter.rs:137-149. -/
def eventIn (e : BEvent F U) : Except Failure (Event F U) := do
  let name ← stringIn e.name
  let payload ← payloadIn e.attributes
  return ⟨name, e.timestamp, payload⟩

/-- `set_classifiers`, bxes_to_xes_converter.rs:60-67. -/
def classifierIn (c : BClassifier F U) : Except Failure Classifier := do
  let name ← stringIn c.name
  let keys ← c.keys.mapM stringIn
  return ⟨name, keys⟩

/-- `set_extensions`, bxes_to_xes_converter.rs:92-100. -/
def extensionIn (e : BExtension F U) : Except Failure Extension := do
  let name ← stringIn e.name
  let uri ← stringIn e.uri
  let pre ← stringIn e.pre
  return ⟨name, pre, uri⟩

/-- `set_properties`, bxes_to_xes_converter.rs:83-90. -/
def propertyIn (p : BValue F U × BValue F U) : Except Failure (String × Value F U) := do
  let name ← stringIn p.1
  let value ← valueIn p.2
  return (name, value)

/-- `set_globals`, bxes_to_xes_converter.rs:102-118: a later global replaces an earlier one of the same kind. -/
def globalsIn (globals : List (BGlobal F U)) : Except Failure (Dict String (Dict String (Value F U))) :=
  globals.foldlM (fun d g => do
    let values ← mapIn g.globals
    return d.set g.kind.text values) []

/-- `set_metadata_vector_item`, bxes_to_xes_converter.rs:69-81, on the empty vector. -/
def vectorIn {A B : Type} (f : A → Except Failure B) : Option (List A) → Except Failure (List B)
  | some given => given.mapM f
  | none => .ok []

/-- `read_bxes_into_xes_log`, bxes_to_xes_converter.rs:35-58, of what the crate read. The number of traces and the metadata of a variant
are not used. -/
def readLog (b : BLog F U) : Except Failure (Log F U) := do
  let classifiers ← vectorIn classifierIn b.classifiers
  let properties ← vectorIn propertyIn b.properties
  let extensions ← vectorIn extensionIn b.extensions
  let globals ← globalsIn (b.globals.getD [])
  let traces ← b.variants.mapM fun v => v.events.mapM eventIn
  return ⟨traces, globals, extensions, classifiers, properties⟩

end Ficus.Rs.Bx
