import Verif.Model.Py

/-! Model of the remote pipelines, src/python/ficus/grpc_pipelines/grpc_pipelines.py, of the collection of parts with
callbacks there and in activities_parts.py, and of the conversion of parts to messages. -/

namespace Ficus

/-- `uuid.UUID`, made by `uuid.uuid4()` (grpc_pipelines.py:121), which is external. -/
abbrev Uuid := Nat

/-- A scalar `GrpcContextValue` (protos/pipelines_and_context.proto:12-35). A float is the pattern of 32 bits of its
field. Simplification: the remaining kinds of values are not modelled. -/
inductive Scalar
  | string (s : String)
  | uint32 (n : Nat)
  | bool (b : Bool)
  | float (bits : Nat)
  | enum (type value : String)
  | strings (l : List String)
  deriving DecidableEq, Repr

/-- `GrpcPipelinePartConfiguration` (proto 121-123) without pipelines: keys and values in the order of their addition. -/
abbrev Config := List (String × Scalar)

/-- `GrpcPipelinePartBase`, protos/pipelines_and_context.proto:107-142. A configuration holds at most one pipeline, under
the key `'pipeline'`; it is kept apart from the scalar entries, so that its position among them is not modelled. -/
inductive GPart
  | default (name : String) (config : Config)
  | defaultWith (name : String) (config : Config) (pipeline : List GPart)
  | simple (key : String) (frontendUuid : Uuid)
  | complex (keys : List String) (before : String) (config : Config) (frontendUuid : Uuid)
  | complexWith (keys : List String) (before : String) (config : Config) (frontendUuid : Uuid) (pipeline : List GPart)

/-- `PipelinePart2` objects (grpc_pipelines.py:119-127) by what they do in `to_grpc_part` and
`append_parts_with_callbacks`. Configurations may raise while they are built.
- `plain`: no callback, a default part;
- `hidden`: `DiscoverActivitiesFromPatterns2` (activities_parts.py:100-137), whose pipeline is made in the conversion and
  consists of parts without callbacks;
- `simple`, `complex`: `PipelinePart2WithCallback` (grpc_pipelines.py:130-136) with a simple or complex request;
- `nested`: `DiscoverActivitiesUntilNoMore2` with a pipeline (activities_parts.py:140-197) and
  `ExecuteWithEachActivityLog2` (200-219);
- `complexNested`: `ClusterizeLogTracesDbscan` (activities_parts.py:519-575);
- `beforeAfter`: `PrintEventlogInfoBeforeAfter` (util_parts.py:25-44);
- `other`: any object that is not a `PipelinePart2`. -/
inductive RPart
  | plain (uuid : Uuid) (name : String) (config : Except PyErr Config)
  | hidden (uuid : Uuid) (inner : Except PyErr (List (String × Config)))
  | simple (uuid : Uuid) (key : String)
  | complex (uuid : Uuid) (keys : List String) (before : String) (config : Except PyErr Config)
  | nested (uuid : Uuid) (name : String) (config : Except PyErr Config) (inner : List RPart)
  | complexNested (uuid : Uuid) (keys : List String) (before : String) (config : Except PyErr Config)
      (inner : List RPart)
  | beforeAfter (uuid : Uuid) (inner : List RPart)
  | other

mutual
/-- `to_grpc_part` of a part. `PrintEventlogInfoBeforeAfter.to_grpc_part` converts its inner pipeline and then calls
`_create_default_pipeline_part()` without the required name (util_parts.py:42-44), a `TypeError`. An object that is
not a part is rejected in `_create_grpc_pipeline` (grpc_pipelines.py:91-92). Simplification: when both the scalar
entries and the inner pipeline of a part raise, which of the two errors is seen is not modelled faithfully. -/
def RPart.toGrpc : RPart → Except PyErr GPart
  | .plain _ name config => config.map (GPart.default name)
  | .hidden _ inner =>
    inner.map (fun ps => GPart.defaultWith "ExecuteFrontendPipeline" [] (ps.map (fun p => GPart.default p.1 p.2)))
  | .simple uuid key => .ok (.simple key uuid)
  | .complex uuid keys before config => config.map (fun c => GPart.complex keys before c uuid)
  | .nested _ name config inner => do
    let c ← config
    let p ← toGrpcPipeline inner
    return .defaultWith name c p
  | .complexNested uuid keys before config inner => do
    let c ← config
    let p ← toGrpcPipeline inner
    return .complexWith keys before c uuid p
  | .beforeAfter _ inner => do
    let _ ← toGrpcPipeline inner
    .error .typeError
  | .other => .error .typeError
/-- `_create_grpc_pipeline`, grpc_pipelines.py:87-96, and `to_grpc_pipeline`, 80-81. -/
def toGrpcPipeline : List RPart → Except PyErr (List GPart)
  | [] => .ok []
  | p :: ps => do
    let g ← p.toGrpc
    let gs ← toGrpcPipeline ps
    return g :: gs
end

mutual
/-- `append_parts_with_callbacks` of a part, grpc_pipelines.py:126-136 and activities_parts.py:193-197, 217-219 and
573-575: the identifiers of the parts added. -/
def RPart.callbacks : RPart → List Uuid
  | .plain _ _ _ => []
  | .hidden _ _ => []
  | .simple uuid _ => [uuid]
  | .complex uuid _ _ _ => [uuid]
  | .nested _ _ _ inner => pipelineCallbacks inner
  | .complexNested uuid _ _ _ inner => uuid :: pipelineCallbacks inner
  | .beforeAfter _ _ => []
  | .other => []
/-- `Pipeline2.append_parts_with_callbacks`, grpc_pipelines.py:83-85. Simplification: an object that is not a part would
raise `AttributeError` here, but the conversion has raised before. -/
def pipelineCallbacks : List RPart → List Uuid
  | [] => []
  | p :: ps => p.callbacks ++ pipelineCallbacks ps
end

/-- A message of the stream, `GrpcPipelinePartExecutionResult` (protos/backend_service.proto:25-31): a final result with
a guid for success or without (error or unset), a partial result with the identifier as text and the context values, a
log message, or none of these. `V` stands for the context values. -/
inductive Msg (V : Type)
  | final (success : Option String)
  | part (uuid : String) (values : List (String × V))
  | log (message : String)
  | unset

/-- `HasField('finalResult')`. -/
def Msg.isFinal {V : Type} : Msg V → Bool
  | .final _ => true
  | _ => false

/-- Observable effects of the execution: a callback with its dictionary, a printed log message, and the call of
`DropExecutionResult`. The prints of `performance_cookie` (util.py:140-150) are left out. -/
inductive Act (V : Type)
  | callback (uuid : Uuid) (values : Dict String V)
  | print (message : String)
  | drop (guid : String)

/-- The outside of `Pipeline2.execute`: `parseUuid` is `uuid.UUID(text)`, which raises for malformed text, `callback` the
body of `execute_callback`, `drop` the remote call, and `streamEnd` the error with which the stream ends, if any. -/
structure RemoteEnv (V : Type) where
  parseUuid : String → Except PyErr Uuid
  callback : Uuid → Dict String V → Except PyErr Unit
  drop : String → Except PyErr Unit
  streamEnd : Option PyErr

variable {V : Type}

/-- The dictionary of the context values, grpc_pipelines.py:60-62. -/
def valuesDict (values : List (String × V)) : Dict String V := values.foldl (fun d kv => d.set kv.1 kv.2) []

/-- The body of the loop for a message that is not final, grpc_pipelines.py:57-72. -/
def handleMsg (env : RemoteEnv V) (registered : List Uuid) : Msg V → Except PyErr Unit × List (Act V)
  | .final _ => (.ok (), [])
  | .unset => (.ok (), [])
  | .log m => (.ok (), [.print m])
  | .part text values =>
    match env.parseUuid text with
    | .error e => (.error e, [])
    | .ok u =>
      if u ∈ registered then (env.callback u (valuesDict values), [.callback u (valuesDict values)]) else (.ok (), [])

/-- The loop over the stream, grpc_pipelines.py:51-72; `last` is `last_result`. -/
def streamLoop (env : RemoteEnv V) (registered : List Uuid) : List (Msg V) → Option (Msg V) →
    Except PyErr (Option (Msg V)) × List (Act V)
  | [], last =>
    match env.streamEnd with
    | some e => (.error e, [])
    | none => (.ok last, [])
  | m :: ms, _ =>
    if m.isFinal then (.ok (some m), [])
    else
      match handleMsg env registered m with
      | (.error e, acts) => (.error e, acts)
      | (.ok _, acts) =>
        let r := streamLoop env registered ms (some m)
        (r.1, acts ++ r.2)

/-- After the loop, grpc_pipelines.py:74-78. Without any message `last_result` is `None`, an `AttributeError`; a message
without final result has the empty default final result. -/
def finishStream (env : RemoteEnv V) : Option (Msg V) → Except PyErr (Msg V) × List (Act V)
  | none => (.error .attributeError, [])
  | some (.final (some guid)) =>
    match env.drop guid with
    | .error e => (.error e, [.drop guid])
    | .ok _ => (.ok (.final (some guid)), [.drop guid])
  | some m => (.ok m, [])

/-- A value of the initial context: a `ContextValue`, or a plain string such as the backend address, which has no
`to_grpc_context_value`. -/
inductive CtxValue
  | value (v : Scalar)
  | text (s : String)
  deriving DecidableEq

/-- `_create_initial_context`, grpc_pipelines.py:107-116. -/
def createInitialContext : List (String × CtxValue) → Except PyErr (List (String × Scalar))
  | [] => .ok []
  | (key, .value v) :: rest => (createInitialContext rest).map ((key, v) :: ·)
  | (_, .text _) :: _ => .error .attributeError

/-- What is sent: the address and the request (`GrpcPipelineExecutionRequest`). -/
structure Request where
  address : String
  pipeline : List GPart
  context : List (String × Scalar)

/-- The address, grpc_pipelines.py:31. Simplification: an entry `'backend'` that is not a string counts as its absence. -/
def backendAddress (context : Dict String CtxValue) : String :=
  match context.get? "backend" with
  | some (.text a) => a
  | _ => "localhost:8080"

/-- The caller's dictionary after grpc_pipelines.py:32-33. -/
def dropBackend (context : Dict String CtxValue) : Dict String CtxValue :=
  if context.contains "backend" then context.del "backend" else context

/-- The request, grpc_pipelines.py:38-41. -/
def createRequest (parts : List RPart) (context : Dict String CtxValue) : Except PyErr Request := do
  let pipeline ← toGrpcPipeline parts
  let ctx ← createInitialContext (dropBackend context)
  return { address := backendAddress context, pipeline := pipeline, context := ctx }

/-- The outcome of `Pipeline2.execute`. -/
structure RemoteResult (V : Type) where
  result : Except PyErr (Msg V)
  acts : List (Act V)
  sent : Option Request
  context : Dict String CtxValue

/-- `Pipeline2.execute`, grpc_pipelines.py:27-78; `answer` gives the messages of the stream for a request. -/
def executeRemote (env : RemoteEnv V) (answer : Request → List (Msg V)) (parts : List RPart)
    (context : Dict String CtxValue) : RemoteResult V :=
  match createRequest parts context with
  | .error e => { result := .error e, acts := [], sent := none, context := dropBackend context }
  | .ok request =>
    match streamLoop env (pipelineCallbacks parts) (answer request) none with
    | (.error e, acts) => { result := .error e, acts := acts, sent := some request, context := dropBackend context }
    | (.ok last, acts) =>
      let r := finishStream env last
      { result := r.1, acts := acts ++ r.2, sent := some request, context := dropBackend context }

end Ficus
