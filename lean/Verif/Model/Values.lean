import Verif.Model.Remote

/-! Model of the values of the context, src/python/ficus/grpc_pipelines/context_values.py:15-125 and 149-152, and of the
initial context made of them, grpc_pipelines.py:107-116. -/

namespace Ficus.Values

/-- Objects of subclasses of `ContextValue`, context_values.py:15-125. `F` is the type of python floats. A value of the
class `ContextValue` itself (`base`) has a conversion that returns `None` (15-18). A plain object without the method is
`foreign`, such as the backend address. Simplification: `PipelineContextValue` (grpc_pipelines.py:293-298) is not put
into initial contexts and left out; fields have the annotated types, and texts have no lone surrogates. -/
inductive Value (F : Type)
  | string (s : String)
  | float (x : F)
  | uint32 (n : Int)
  | bool (b : Bool)
  | hashesLog (log : List (List Int))
  | namesLog (log : List (List String))
  | enum (type value : String)
  | strings (l : List String)
  | info (events classes traces : Int)
  | base
  | foreign

/-- A `GrpcContextValue` (protos/pipelines_and_context.proto:12-35) as far as it is sent. A log is a list of traces with
a list of events (42-48, and protos/pm_models.proto:29-44). -/
inductive GValue
  | unset
  | scalar (s : Scalar)
  | hashesLog (log : List (List Nat))
  | namesLog (log : List (List String))
  deriving DecidableEq

/-- `GrpcEventLogInfo`, protos/pipelines_and_context.proto:92-96. -/
structure GInfo where
  events : Nat
  traces : Nat
  classes : Nat
  deriving DecidableEq

/-- What a conversion returns: a context value, another message, or `None`. -/
inductive Converted
  | value (v : GValue)
  | info (i : GInfo)
  | none
  deriving DecidableEq

/-- Assignment to an unsigned field below `bound`; protobuf raises `ValueError` for other integers. -/
def unsigned (bound : Nat) (n : Int) : Except PyErr Nat :=
  if 0 ≤ n ∧ n < bound then .ok n.toNat else .error .valueError

/-- The inner loop of `HashesLogContextValue.to_grpc_context_value`, context_values.py:61-62. -/
def hashesTrace : List Int → List Nat → Except PyErr (List Nat)
  | [], acc => .ok acc
  | e :: es, acc => do
    let n ← unsigned 18446744073709551616 e
    hashesTrace es (acc ++ [n])

/-- The outer loop, context_values.py:58-64. -/
def hashesTraces : List (List Int) → List (List Nat) → Except PyErr (List (List Nat))
  | [], acc => .ok acc
  | t :: ts, acc => do
    let g ← hashesTrace t []
    hashesTraces ts (acc ++ [g])

/-- The loops of `NamesLogContextValue.to_grpc_context_value`, context_values.py:74-80. -/
def namesTraces (log : List (List String)) : List (List String) :=
  log.foldl (fun acc t => acc ++ [t.foldl (fun g e => g ++ [e]) []]) []

/-- `to_grpc_context_value` of each class, context_values.py:15-101 and 122-125, where `EventLogInfo` returns a message of
another type. An object without the method raises `AttributeError`. -/
def Value.convert {F : Type} (f32 : F → Nat) : Value F → Except PyErr Converted
  | .string s => .ok (.value (.scalar (.string s)))
  | .float x => .ok (.value (.scalar (.float (f32 x))))
  | .uint32 n => (unsigned 4294967296 n).map (fun n => .value (.scalar (.uint32 n)))
  | .bool b => .ok (.value (.scalar (.bool b)))
  | .hashesLog log => (hashesTraces log []).map (fun l => .value (.hashesLog l))
  | .namesLog log => .ok (.value (.namesLog (namesTraces log)))
  | .enum t v => .ok (.value (.scalar (.enum t v)))
  | .strings l => .ok (.value (.scalar (.strings l)))
  | .info e c t => do
    let events ← unsigned 4294967296 e
    let traces ← unsigned 4294967296 t
    let classes ← unsigned 4294967296 c
    return .info ⟨events, traces, classes⟩
  | .base => .ok .none
  | .foreign => .error .attributeError

/-- The field `value` of `GrpcContextKeyValue(key=…, value=…)`, grpc_pipelines.py:111-114: a message of another type is a
`TypeError`, and `None` leaves the field unset. -/
def asField : Converted → Except PyErr GValue
  | .value v => .ok v
  | .info _ => .error .typeError
  | .none => .ok .unset

/-- `_create_initial_context`, grpc_pipelines.py:107-116, over the items in their order. -/
def initialContext {F : Type} (f32 : F → Nat) : List (String × Value F) → List (String × GValue) →
    Except PyErr (List (String × GValue))
  | [], acc => .ok acc
  | (key, v) :: rest, acc => do
    let c ← v.convert f32
    let g ← asField c
    initialContext f32 rest (acc ++ [(key, g)])

/-- `from_grpc_names_log`, context_values.py:104-113. -/
def fromGrpcNamesLog (log : List (List String)) : List (List String) :=
  log.foldl (fun result t => result ++ [t.foldl (fun trace e => trace ++ [e]) []]) []

/-- `from_grpc_event_log_info`, context_values.py:149-152. -/
def fromGrpcInfo {F : Type} (i : GInfo) : Value F := .info i.events i.classes i.traces

end Ficus.Values
