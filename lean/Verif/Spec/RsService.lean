import Verif.Model.RsService
import Verif.Spec.Remote

/-! Specification vocabulary for the service of the backend. -/

namespace Ficus.Spec
open Service

variable {W G : Type}

/-- Something that only adds messages, none of which is a final result. -/
def Adds (s : Step W G) : Prop := ∀ st, ∃ ms, (s st).1.sent = st.sent ++ ms ∧ ∀ m ∈ ms, m.isFinal = false

/-- The parts do no more to the channel than that, if the pipeline in their configuration does not. -/
def LawfulParts (env : Env W G) : Prop :=
  ∀ name act, env.part name = some act → ∀ s : Settings W G, (∀ p, s.pipeline = some p → Adds p) → Adds (act s)

/-- The message uses a part of that name, at any depth. -/
inductive Uses : GPart → String → Prop
  | default {name config} : Uses (.default name config) name
  | defaultWith {name config pipeline} : Uses (.defaultWith name config pipeline) name
  | complex {keys before config u} : Uses (.complex keys before config u) before
  | complexWith {keys before config u pipeline} : Uses (.complexWith keys before config u pipeline) before
  | inDefault {name config pipeline g n} : g ∈ pipeline → Uses g n → Uses (.defaultWith name config pipeline) n
  | inComplex {keys before config u pipeline g n} : g ∈ pipeline → Uses g n → Uses (.complexWith keys before config u pipeline) n

/-- The values of received entries: the last one for each key, of those that can be put. -/
def received (env : Env W G) (l : List (String × Scalar)) (key : String) : Option W :=
  (l.filterMap (fun e => if e.1 = key then env.value e.2 else none)).getLast?

/-! ### Pipelines of parts that send nothing by themselves -/

/-- What the parts do to a context, with the values of their configuration. -/
abbrev Effects (W : Type) := String → Dict String W → Dict String W → Dict String W × Outcome

/-- The parts do just that. -/
def Quiet (env : Env W G) (eff : Effects W) : Prop :=
  ∀ name act, env.part name = some act → ∀ s st, act s st = ({ st with context := (eff name s.values st.context).1 }, (eff name s.values st.context).2)

/-- A part without a pipeline in it. -/
def Flat : GPart → Prop
  | .defaultWith .. => False
  | .complexWith .. => False
  | _ => True

/-- What a part of a pipeline does to a context. -/
def effect (env : Env W G) (eff : Effects W) : GPart → Dict String W → Dict String W × Outcome
  | .default name c, ctx => eff name (configValues env c) ctx
  | .complex _ before c _, ctx => eff before (configValues env c) ctx
  | _, ctx => (ctx, .ok)

/-- The keys of the values that a part asks for. -/
def keysOf : GPart → List String
  | .simple k _ => [k]
  | .complex ks _ _ _ => ks
  | _ => []

/-- The context after the first parts. -/
def contextAt (env : Env W G) (eff : Effects W) (gs : List GPart) (ctx : Dict String W) (i : Nat) : Dict String W :=
  (gs.take i).foldl (fun c g => (effect env eff g c).1) ctx

/-- Why a part cannot be executed in a context, if so: a key that is not known, then a failure of the part itself, then a value that is
not in the context afterwards. -/
def reason (env : Env W G) (eff : Effects W) (g : GPart) (ctx : Dict String W) : Option Outcome :=
  match (keysOf g).find? (fun k => !env.known k) with
  | some k => some (.failed k)
  | none => match (effect env eff g ctx).2 with
    | .ok => ((keysOf g).find? (fun k => ((effect env eff g ctx).1.get? k).isNone)).map .failed
    | o => some o

/-- The values under keys, as they are sent. -/
def valuesOf (env : Env W G) (keys : List String) (ctx : Dict String W) : List (String × Option G) :=
  keys.map (fun k => (k, (ctx.get? k).bind (env.convert k)))

def started (name : String) : Msg (Option G) := .log ("Started activity " ++ name)

def finished (name : String) (ms : Nat) : Msg (Option G) := .log ("Activity " ++ name ++ " finished in " ++ toString ms ++ "ms")

/-- The messages of a part with the context after it and the milliseconds measured. -/
def script (env : Env W G) (ctx : Dict String W) (ms : Nat) : GPart → List (Msg (Option G))
  | .default name _ => [started name, finished name ms]
  | .simple k u => [.part (env.uuidText u) (valuesOf env [k] ctx)]
  | .complex ks before _ u => [started before, finished before ms, .part (env.uuidText u) (valuesOf env ks ctx)]
  | _ => []

/-- The messages of the first parts. -/
def scripts (env : Env W G) (eff : Effects W) (gs : List GPart) (ctx : Dict String W) (ms : Nat → Nat) (n : Nat) : List (Msg (Option G)) :=
  (gs.take n).zipIdx.flatMap (fun x => script env (contextAt env eff gs ctx (x.2 + 1)) (ms x.2) x.1)

/-- The context of a pipeline when it begins. -/
def withColors (env : Env W G) (ctx : Dict String W) : Dict String W :=
  if ctx.contains "colors_holder" then ctx else ctx.set "colors_holder" env.colors

/-- The service after the drops of a client; a drop of what is not there changes nothing. -/
def afterDrops (contexts : Contexts W) (guids : List String) : Contexts W :=
  guids.foldl (fun c g => (dropExecutionResult g c).getD c) contexts

end Ficus.Spec
