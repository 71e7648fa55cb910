import Verif.Model.RsNfcArrows

/-! Model of the relations of implicit dependencies of Alpha++ NFC, `w1_relation`, `w21_relation`, `w22_relation` and `w3_relation` of
/repo/src/rust/ficus_backend/src/features/discovery/alpha/providers/alpha_plus_nfc_provider.rs (called nfc_provider.rs here). -/

namespace Ficus.Rs.Nfc

/-- What the relations ask of a net: the places of the arcs into and out of the transition with a name, petri_net.rs:143-151, and the
names of the transitions before and after a place, petri_net.rs:186-200. Simplified: that there is such a place is not checked. -/
structure NetView where
  find : String → Option (List Nat × List Nat)
  pre : Nat → List String
  post : Nat → List String

/-- The names of the caches but that of `right_double_arrow_relation`, nfc_provider.rs:17-20. -/
inductive Rule
  | w1
  | w21
  | w22
  | w3
  deriving DecidableEq

/-- The provider with all its caches, nfc_provider.rs:24-32. -/
structure AllState where
  base : ProviderState
  caches : Rule → RelCache

/-- `new`, nfc_provider.rs:89-96. -/
def AllState.new : AllState := ⟨.new, fun _ => []⟩

/-- A method with `&mut self`: `none` is a panic. -/
abbrev Ask (α : Type) := AllState → Option (α × AllState)

/-- A value without a question. -/
def askPure {α : Type} (v : α) : Ask α := fun s => some (v, s)

/-- One after the other. -/
def askBind {α β : Type} (f : Ask α) (g : α → Ask β) : Ask β := fun s =>
  match f s with
  | none => none
  | some (v, s') => g v s'

/-- `if`; also `||` and `&&`, whose second operand is asked only if needed. -/
def askIf {α : Type} (c : Ask Bool) (t e : Ask α) : Ask α := askBind c (fun v => if v then t else e)

/-- A loop that returns `true` at the first suitable element, otherwise `false`. -/
def askAny {α : Type} (f : α → Ask Bool) : List α → Ask Bool
  | [] => askPure false
  | x :: l => askIf (f x) (askPure true) (askAny f l)

/-- `right_double_arrow_relation`, nfc_provider.rs:130-135. -/
def askDouble (p : Provider) (a b : String) : Ask Bool := fun s =>
  let r := p.double s.base a b
  some (r.1, { s with base := r.2 })

/-- `causal_relation`, nfc_provider.rs:38-47. -/
def askCausal (p : Provider) (a b : String) : Ask Bool := fun s => some (p.causal s.base.extra a b, s)

/-- `left_triangle_relation`, nfc_provider.rs:102-114. -/
def askLeft (p : Provider) (a b : String) : Ask Bool := fun s => some (p.leftTriangle s.base.extra a b, s)

/-- `right_triangle_relation`, nfc_provider.rs:116-128. -/
def askRight (p : Provider) (a b : String) : Ask Bool := fun s => some (p.rightTriangle s.base.extra a b, s)

/-- `parallel_relation`, nfc_provider.rs:49-53. -/
def Provider.parallel (p : Provider) (a b : String) : Bool :=
  p.direct a b && p.direct b a && !(p.triangle a b || p.triangle b a)

/-- `concave_arrow_relation`, nfc_provider.rs:188-190. -/
def askConcave (p : Provider) (a b : String) : Ask Bool := askIf (askCausal p a b) (askPure true) (askDouble p a b)

/-- `concave_arrow_relation` or `parallel_relation`, nfc_provider.rs:256, 306-307, 311-312, 361-362 and 366-367. -/
def askNear (p : Provider) (a b : String) : Ask Bool := askIf (askConcave p a b) (askPure true) (askPure (p.parallel a b))

/-- `parallel_relation` or `concave_arrow_relation`, nfc_provider.rs:445. -/
def askNearParallel (p : Provider) (a b : String) : Ask Bool := askIf (askPure (p.parallel a b)) (askPure true) (askConcave p a b)

/-- `calculate_w1_relation` without its cache, nfc_provider.rs:204-267. -/
def calcW1 (p : Provider) (net : NetView) (first second : String) : Ask Bool :=
  if p.direct first second then askPure false else
  askAny (fun c => match net.find c with
    | none => askPure false
    | some (ins, _) => askAny (fun p1 => askAny (fun p2 =>
        if p1 = p2 then askPure false
        else if first ∉ net.pre p1 then askPure false
        else if first ∈ net.pre p2 then askPure false
        else if second ∉ net.post p2 then askPure false
        else askIf (askAny (fun x => askNear p x first) (net.pre p2)) (askPure false) (askPure true)) ins) ins) p.classes

/-- The two conditions that are found in one loop over transitions, nfc_provider.rs:301-318 and 356-373. -/
def askConditions (f g : String → Ask Bool) : Bool → Bool → List String → Ask Bool
  | c1, c2, [] => askPure (!c1 && c2)
  | c1, c2, t :: ts =>
    askBind (if c1 then askPure true else f t) fun c1 =>
    askBind (if c2 then askPure true else g t) fun c2 => askConditions f g c1 c2 ts

/-- `calculate_w21_relation` without its cache, nfc_provider.rs:282-323. -/
def calcW21 (p : Provider) (net : NetView) (first second : String) : Ask Bool :=
  askIf (askDouble p first second)
    (match net.find first with
    | none => askPure false
    | some (_, outs) =>
      if outs.length ≤ 1 then askPure false else
      askAny (fun other => askIf (askLeft p second other)
        (askAny (fun place => askConditions (fun t => askNear p t second) (fun t => askNear p t other) false false (net.post place)) outs)
        (askPure false)) p.classes)
    (askPure false)

/-- `calculate_w22_relation` without its cache, nfc_provider.rs:338-378. -/
def calcW22 (p : Provider) (net : NetView) (first second : String) : Ask Bool :=
  askIf (askDouble p first second)
    (match net.find second with
    | none => askPure false
    | some (ins, _) =>
      if ins.length ≤ 1 then askPure false else
      askAny (fun other => askIf (askRight p first other)
        (askAny (fun place => askConditions (fun t => askNear p first t) (fun t => askNear p other t) false false (net.pre place)) ins)
        (askPure false)) p.classes)
    (askPure false)

/-- The loop that collects places before tasks, nfc_provider.rs:435-458. -/
def askRightSet (p : Provider) (net : NetView) (first other otherSecond : String) (secondPre : List Nat) : List String → Ask (List Nat)
  | [] => askPure []
  | task :: tasks =>
    askBind
      (askIf (askDouble p first task) (askPure [])
        (askIf (askDouble p other task)
          (askIf (askNearParallel p otherSecond task)
            (match net.find task with
            | none => fun _ => none
            | some (ins, _) => askPure (if secondPre.any (· ∈ ins) then ins else []))
            (askPure []))
          (askPure [])))
      fun places => askBind (askRightSet p net first other otherSecond secondPre tasks) fun rest => askPure (places ++ rest)

/-- `calculate_w3_relation` without its cache, nfc_provider.rs:397-470; `get_pre_or_post_set` (473-481) panics without a transition. -/
def calcW3 (p : Provider) (net : NetView) (first second : String) : Ask Bool :=
  askIf (askDouble p first second)
    (match net.find first, net.find second with
    | some (_, outs), some (ins, _) =>
      askAny (fun c => askAny (fun d =>
        if c = d then askPure false else
        match net.find c, net.find d with
        | some (_, outsC), some (insD, _) =>
          if !(outs.any (· ∈ outsC)) then askPure false
          else if !(ins.any (· ∈ insD)) then askPure false
          else askIf (askDouble p first d) (askPure false)
            (askIf (askDouble p c second) (askPure false)
              (askIf (askDouble p c d)
                (askBind (askRightSet p net first c d ins p.classes) fun right => askPure (ins.all (· ∈ right ++ insD)))
                (askPure false)))
        | _, _ => fun _ => none) p.classes) p.classes
    | _, _ => fun _ => none)
    (askPure false)

/-- The calculation of a relation. -/
def Rule.calc (p : Provider) (net : NetView) : Rule → String → String → Ask Bool
  | .w1 => calcW1 p net
  | .w21 => calcW21 p net
  | .w22 => calcW22 p net
  | .w3 => calcW3 p net

/-- `w1_relation`, nfc_provider.rs:192-202; `w21_relation`, 270-280; `w22_relation`, 326-336; `w3_relation`, 385-395: each looks first
into its cache and puts the value there. -/
def Rule.ask (p : Provider) (net : NetView) (rule : Rule) (a b : String) : Ask Bool :=
  askBind (fun s => match (s.caches rule).tryGet a b with
    | some v => some (v, s)
    | none => rule.calc p net a b s)
  fun v s => some (v, { s with caches := fun r => if r = rule then (s.caches r).put a b v else s.caches r })

/-- What is asked of the provider; the net is another one at times, alpha_plus_plus_nfc.rs:38 and 56. -/
inductive AnyCall
  | double (first second : String)
  | add (first second : String)
  | rule (r : Rule) (net : NetView) (first second : String)

/-- The state after a call, if it does not panic; `add_additional_causal_relation` is nfc_provider.rs:483-485. -/
def AnyCall.run (p : Provider) (s : AllState) : AnyCall → Option AllState
  | .double a b => (askDouble p a b s).map Prod.snd
  | .add a b => some { s with base := p.step s.base (.add a b) }
  | .rule r net a b => (r.ask p net a b s).map Prod.snd

/-- The state after some calls, if none panics. -/
def runCalls (p : Provider) (s : AllState) : List AnyCall → Option AllState
  | [] => some s
  | c :: cs => match c.run p s with
    | none => none
    | some s' => runCalls p s' cs

end Ficus.Rs.Nfc
