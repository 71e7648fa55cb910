import Verif.Model.Remote

/-! Model of the service of the backend (/repo/src/rust/ficus_backend/src): grpc/backend_service.rs, grpc/get_context_pipeline.rs,
grpc/logs_handler.rs, pipelines/pipelines.rs, pipelines/context.rs, utils/performance/performance_cookie.rs and, of
grpc/converters.rs and pipelines/pipeline_parts.rs, how contexts and parts are made.

The values of a context are of a type `W` and what is sent of them is of a type `G`, both external; what the single parts do is
external too (C110 and later are about them). Contexts are by the names of keys: each key has one name and one identifier
(pipelines/keys/context_keys_init.rs). Transport, threads and locks are left out: a run is one step from a service to a service, as it
touches the contexts of the service only once. -/

namespace Ficus.Service

/-- How the execution of a part ends: `Ok(())`, an error with its text (pipelines/errors/pipeline_errors.rs:5-17), or a panic, which
ends the task of the run (backend_service.rs:142). -/
inductive Outcome
  | ok
  | failed (message : String)
  | panicked
  deriving DecidableEq, Repr

/-- What a run works on: the values of its context, pipelines/context.rs:41-45, and the messages that the channel has taken. -/
structure State (W G : Type) where
  context : Dict String W
  sent : List (Msg (Option G))

/-- The execution of something. -/
abbrev Step (W G : Type) := State W G → State W G × Outcome

/-- The configuration of a part, backend_service.rs:269-278: values, and a pipeline under the key `pipeline` (see `GPart`). -/
structure Settings (W G : Type) where
  values : Dict String W
  pipeline : Option (Step W G)

/-- The outside of the service: `find_key` of `ContextKeys` (keys/context_keys.rs:45-47); `find_part` (pipeline_parts.rs:17-19) with
the executors; `convert_to_grpc_context_value` (converters.rs:142-178); the values that are put for a received value, if any
(converters.rs:65-119); the text of a `Uuid`; whether the client takes another message after so many (it does not once it is gone);
the milliseconds that are measured; and `ColorsHolder::empty()`. -/
structure Env (W G : Type) where
  known : String → Bool
  part : String → Option (Settings W G → Step W G)
  convert : String → W → Option G
  value : Scalar → Option W
  uuidText : Uuid → String
  accepts : Nat → Bool
  elapsed : Nat → Nat
  colors : W

variable {W G : Type}

/-- `blocking_send` of the channel, as in get_context_pipeline.rs:68-75: whether it was taken. -/
def send (env : Env W G) (m : Msg (Option G)) (st : State W G) : State W G × Bool :=
  if env.accepts st.sent.length then ({ st with sent := st.sent ++ [m] }, true) else (st, false)

/-- `PipelineInfrastructure::log` with `LogMessageHandlerImpl::handle`, context.rs:32-38 and logs_handler.rs:17-27. -/
def log (env : Env W G) (message : String) : Step W G := fun st =>
  match send env (.log message) st with
  | (st', true) => (st', .ok)
  | (st', false) => (st', .failed ("Failed to send log message: " ++ message))

/-- `?` between two steps. -/
def andThen (a b : Step W G) : Step W G := fun st =>
  match a st with
  | (st', .ok) => b st'
  | r => r

/-- The execution of a default part, pipelines.rs:103-112, with `performance_cookie`, pipeline_parts.rs:108-116 and
performance_cookie.rs:7-21. -/
def runPart (env : Env W G) (name : String) (action : Step W G) : Step W G :=
  andThen (log env ("Started activity " ++ name)) (andThen action (fun st =>
    log env ("Activity " ++ name ++ " finished in " ++ toString (env.elapsed st.sent.length) ++ "ms") st))

/-- The loop over the keys of a request, get_context_pipeline.rs:50-66. -/
def collect (env : Env W G) (context : Dict String W) : List String → Except String (List (String × Option G))
  | [] => .ok []
  | k :: ks =>
    match context.get? k with
    | none => .error k
    | some w => (collect env context ks).map ((k, env.convert k w) :: ·)

/-- The handler of a request after the part before it, get_context_pipeline.rs:50-78: whether the message was taken does not matter. -/
def answer (env : Env W G) (keys : List String) (u : Uuid) : Step W G := fun st =>
  match collect env st.context keys with
  | .error k => (st, .failed k)
  | .ok values => ((send env (.part (env.uuidText u) values) st).1, .ok)

/-- `GetContextValuePipelinePart::execute`, get_context_pipeline.rs:83-104, with the part before it (46-48). -/
def request (env : Env W G) (keys : List String) (u : Uuid) (before : Step W G) : Step W G := fun st =>
  match keys.find? (fun k => !env.known k) with
  | some k => (st, .failed k)
  | none => andThen before (answer env keys u) st

/-- The loop of `Pipeline::execute`, pipelines.rs:32-36. -/
def runAll : List (Step W G) → Step W G
  | [] => fun st => (st, .ok)
  | s :: ss => andThen s (runAll ss)

/-- `put_default_concrete_keys`, pipelines.rs:41-45. -/
def putDefault (env : Env W G) (st : State W G) : State W G :=
  if st.context.contains "colors_holder" then st else { st with context := st.context.set "colors_holder" env.colors }

/-- `Pipeline::execute`, pipelines.rs:24-37. -/
def runPipeline (env : Env W G) (steps : List (Step W G)) : Step W G := fun st => runAll steps (putDefault env st)

/-- The values of a configuration, backend_service.rs:272-278: those under unknown keys are ignored. -/
def configValues (env : Env W G) (c : Config) : Dict String W :=
  c.foldl (fun d e => if env.known e.1 then (match env.value e.2 with | some w => d.set e.1 w | none => d) else d) []

/-- `find_default_part`, backend_service.rs:265-284, and the execution of the part; `none` if there is no such part. -/
def findPart (env : Env W G) (name : String) (c : Config) (pipeline : Option (Step W G)) : Option (Step W G) :=
  (env.part name).map (fun act => runPart env name (act ⟨configValues env c, pipeline⟩))

mutual
/-- The loop body of `to_pipeline`, backend_service.rs:222-250: `none` is the panic of `todo!()`. Identifiers are well formed and
parallel parts are not sent (see `GPart`); the key `pipeline` is known (context_keys.rs). -/
def compile (env : Env W G) : GPart → Option (Step W G)
  | .default name c => findPart env name c none
  | .defaultWith name c pipeline => do
    let steps ← compileAll env pipeline
    findPart env name c (some (runPipeline env steps))
  | .simple key u => some (request env [key] u (fun st => (st, .ok)))
  | .complex keys before c u => do
    let b ← findPart env before c none
    return request env keys u b
  | .complexWith keys before c u pipeline => do
    let steps ← compileAll env pipeline
    let b ← findPart env before c (some (runPipeline env steps))
    return request env keys u b
/-- `to_pipeline`, backend_service.rs:220-253. -/
def compileAll (env : Env W G) : List GPart → Option (List (Step W G))
  | [] => some []
  | g :: gs => do
    let s ← compile env g
    let ss ← compileAll env gs
    return s :: ss
end

/-- `create_initial_context`, converters.rs:53-63: `none` is the panic for an unknown key. -/
def initialContext (env : Env W G) (values : List (String × Scalar)) : Option (Dict String W) :=
  values.foldlM (fun d e => if env.known e.1 then (match env.value e.2 with | some w => some (d.set e.1 w) | none => some d) else none) []

/-- `execute_grpc_pipeline` but the identifier, backend_service.rs:206-218. -/
def runRequest (env : Env W G) (pipeline : List GPart) (values : List (String × Scalar)) : State W G × Outcome :=
  match compileAll env pipeline, initialContext env values with
  | some steps, some context => runPipeline env steps ⟨context, []⟩
  | _, _ => (⟨[], []⟩, .panicked)

/-- `FicusService`, backend_service.rs:41-45: the contexts by identifiers of runs. -/
abbrev Contexts (W : Type) := Dict String (Dict String W)

/-- `execute_pipeline`, backend_service.rs:133-166, with the identifier of the run, which is random: the contexts after it and the
messages of its stream. -/
def executePipeline (env : Env W G) (guid : String) (pipeline : List GPart) (values : List (String × Scalar)) (contexts : Contexts W) :
    Contexts W × List (Msg (Option G)) :=
  match runRequest env pipeline values with
  | (st, .ok) => (contexts.set guid st.context, (send env (.final (some guid)) st).1.sent)
  | (st, .failed _) => (contexts, (send env (.final none) st).1.sent)
  | (st, .panicked) => (contexts, st.sent)

/-- `get_context_value`, backend_service.rs:168-191 with 286-302: a value or the text of an error. -/
def getContextValue (env : Env W G) (key guid : String) (contexts : Contexts W) : Except String G :=
  if !env.known key then .error "Failed to find key for key name"
  else match contexts.get? guid with
    | none => .error "Failed to get context for guid"
    | some context => match context.get? key with
      | none => .error "Failed to find context value for key"
      | some w => match env.convert key w with
        | some g => .ok g
        | none => .error "Can not convert context value to grpc model"

/-- `drop_execution_result`, backend_service.rs:193-202: the contexts after it, or nothing if it is not found. -/
def dropExecutionResult (guid : String) (contexts : Contexts W) : Option (Contexts W) :=
  if contexts.contains guid then some (contexts.del guid) else none

end Ficus.Service
