import Verif.Model.Remote

/-! Specification vocabulary for the remote pipelines. -/

namespace Ficus.Spec

/-- `Carries p u`: the part `p` or some part nested in it, at any depth, has a callback and the identifier `u`. -/
inductive Carries : RPart → Uuid → Prop
  | simple {u key} : Carries (.simple u key) u
  | complex {u keys before config} : Carries (.complex u keys before config) u
  | complexNested {u keys before config inner} : Carries (.complexNested u keys before config inner) u
  | inNested {u w name config inner p} : p ∈ inner → Carries p u → Carries (.nested w name config inner) u
  | inComplexNested {u w keys before config inner p} : p ∈ inner → Carries p u →
      Carries (.complexNested w keys before config inner) u
  | inBeforeAfter {u w inner p} : p ∈ inner → Carries p u → Carries (.beforeAfter w inner) u

/-- Some part of the pipeline, at any depth, has a callback and the identifier `u`. -/
def PipelineCarries (parts : List RPart) (u : Uuid) : Prop := ∃ p ∈ parts, Carries p u

/-- `Requests g u`: the message `g` asks for values to be sent back to the part with the identifier `u`. -/
inductive Requests : GPart → Uuid → Prop
  | simple {key u} : Requests (.simple key u) u
  | complex {keys before config u} : Requests (.complex keys before config u) u
  | complexWith {keys before config u pipeline} : Requests (.complexWith keys before config u pipeline) u
  | inDefault {name config pipeline g u} : g ∈ pipeline → Requests g u → Requests (.defaultWith name config pipeline) u
  | inComplex {keys before config w pipeline g u} : g ∈ pipeline → Requests g u →
      Requests (.complexWith keys before config w pipeline) u

/-- The pipeline contains, at any depth, a part that prints the log information before and after an inner pipeline. -/
inductive HasBeforeAfter : RPart → Prop
  | here {w inner} : HasBeforeAfter (.beforeAfter w inner)
  | inNested {w name config inner p} : p ∈ inner → HasBeforeAfter p → HasBeforeAfter (.nested w name config inner)
  | inComplexNested {w keys before config inner p} : p ∈ inner → HasBeforeAfter p →
      HasBeforeAfter (.complexNested w keys before config inner)

variable {V : Type}

/-- The value of the last entry with the given key. -/
def lastValue (values : List (String × V)) (key : String) : Option V :=
  (values.reverse.find? (fun kv => kv.1 == key)).map Prod.snd

/-- `Handled parse parts msgs acts`: handling the messages one after the other does exactly `acts`: a log message is
printed, a partial result whose identifier belongs to a part with a callback runs that callback with the values sent
(the last one for each name), and nothing else is done. -/
inductive Handled (parse : String → Except PyErr Uuid) (parts : List RPart) : List (Msg V) → List (Act V) → Prop
  | nil : Handled parse parts [] []
  | log {m ms acts} : Handled parse parts ms acts → Handled parse parts (.log m :: ms) (.print m :: acts)
  | unset {ms acts} : Handled parse parts ms acts → Handled parse parts (.unset :: ms) acts
  | own {text values u d ms acts} : parse text = .ok u → PipelineCarries parts u →
      (∀ key, Dict.get? d key = lastValue values key) → Handled parse parts ms acts →
      Handled parse parts (.part text values :: ms) (.callback u d :: acts)
  | foreign {text values u ms acts} : parse text = .ok u → ¬ PipelineCarries parts u → Handled parse parts ms acts →
      Handled parse parts (.part text values :: ms) acts

/-- The messages before the first final result. -/
def beforeFinal (msgs : List (Msg V)) : List (Msg V) := msgs.takeWhile (fun m => !m.isFinal)

/-- The last message looked at: the first final result, or the last message if there is no final result. -/
def decisive (msgs : List (Msg V)) : Option (Msg V) :=
  match msgs.find? Msg.isFinal with
  | some m => some m
  | none => msgs.getLast?

/-- The guids dropped. -/
def dropped : List (Act V) → List String
  | [] => []
  | .drop g :: acts => g :: dropped acts
  | _ :: acts => dropped acts

/-- The guid that a message reports as successful final result. -/
def success : Msg V → List String
  | .final (some g) => [g]
  | _ => []

/-- The entries of the context that are sent: everything but the address of the backend. -/
def others (context : Dict String CtxValue) : Dict String CtxValue := context.filter (fun kv => kv.1 != "backend")

end Ficus.Spec
