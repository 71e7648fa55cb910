import Verif.Model.RsNfcRules

/-! Model of the searches for implicit dependencies in the discovery of Alpha++ NFC one after the other,
/repo/src/rust/ficus_backend/src/features/discovery/alpha/alpha_plus_plus_nfc/alpha_plus_plus_nfc.rs (called nfc.rs here), lines 41-136,
and `w2_relation` of alpha_plus_nfc_provider.rs (nfc_provider.rs). -/

namespace Ficus.Rs.Nfc

/-- `w2_relation`, nfc_provider.rs:381-383. -/
def askW2 (p : Provider) (net : NetView) (a b : String) : Ask Bool := askIf (Rule.w21.ask p net a b) (askPure true) (Rule.w22.ask p net a b)

/-- The pairs of two nested loops over `all_event_classes`, nfc.rs:44-45, 59-60 and 130-131. -/
def classPairs (it : Iter) (n : Nat) (classes : List String) : List (String × String) :=
  (it.order "all_event_classes" n classes).flatMap (fun a => (it.order "all_event_classes" (n + 1) classes).map (fun b => (a, b)))

/-- The body of these loops, nfc.rs:46-48, 61-63 and 132-134: the pairs for which a relation holds. -/
def collect (f : String → String → Ask Bool) : List (String × String) → Ask (List (String × String))
  | [] => askPure []
  | (a, b) :: l => askBind (f a b) fun v => askBind (collect f l) fun rest => askPure (if v then (a, b) :: rest else rest)

/-- A loop that asks for each element, also if one was suitable, nfc.rs:223-229. -/
def askAnyOfAll {α : Type} (f : α → Ask Bool) : List α → Ask Bool
  | [] => askPure false
  | x :: l => askBind (f x) fun v => askBind (askAnyOfAll f l) fun rest => askPure (v || rest)

/-- The condition of `eliminate_by_reduction_rule_1`, nfc.rs:224-225. -/
def askBetween (p : Provider) (net : NetView) (a c b : String) : Ask Bool :=
  askIf (askIf (askW2 p net a b) (askConcave p b c) (askPure false)) (askPure true)
    (askIf (askW2 p net b c) (askConcave p a b) (askPure false))

/-- `eliminate_by_reduction_rule_1` with the questions it asks, nfc.rs:213-235: what stays. -/
def askRule1 (p : Provider) (net : NetView) (classes : List String) : List (String × String) → Ask (List (String × String))
  | [] => askPure []
  | (a, c) :: l => askBind (askAnyOfAll (askBetween p net a c) classes) fun v =>
      askBind (askRule1 p net classes l) fun rest => askPure (if v then rest else (a, c) :: rest)

/-- `add_additional_causal_relation` for each pair, nfc.rs:52-54 and 123-125. -/
def addAll (p : Provider) (rels : List (String × String)) : Ask Unit := fun s =>
  some ((), { s with base := rels.foldl (fun b r => p.step b (.add r.1 r.2)) s.base })

/-- Some questions about distant classes, as the search for extended sets asks them, nfc.rs:69-121. -/
def askDoubles (p : Provider) : List (String × String) → Ask Unit
  | [] => askPure ()
  | (a, b) :: l => askBind (askDouble p a b) fun _ => askDoubles p l

/-- The sets of pairs of the discovery: `w1_relations`, `w2_relations` before and after the elimination, and `w3_relations` before its
elimination, nfc.rs:43, 58, 67 and 129. -/
structure Stages where
  w1 : List (String × String)
  w2 : List (String × String)
  kept : List (String × String)
  w3 : List (String × String)
  deriving DecidableEq

/-- nfc.rs:41-136. `first` is the net of line 38; the nets of lines 56 and 127 depend on the relations that were added, for which `netOf`
stands; `questions` are those of lines 69-121. -/
def stages (it : Iter) (p : Provider) (first : NetView) (netOf : List (String × String) → NetView)
    (questions : List (String × String) → List (String × String) → List (String × String)) : Ask Stages :=
  askBind (collect (Rule.w1.ask p first) (classPairs it 10 p.classes)) fun w1 =>
  askBind (addAll p (it.order "w1_relations" 0 w1)) fun _ =>
  askBind (collect (askW2 p (netOf w1)) (classPairs it 12 p.classes)) fun w2 =>
  askBind (askRule1 p (netOf w1) (it.order "all_event_classes" 14 p.classes) (it.order "w2_relations" 0 w2)) fun kept =>
  askBind (askDoubles p (questions w1 kept)) fun _ =>
  askBind (addAll p (it.order "w2_relations" 1 kept)) fun _ =>
  askBind (collect (Rule.w3.ask p (netOf (w1 ++ kept))) (classPairs it 15 p.classes)) fun w3 =>
  askPure ⟨w1, w2, kept, w3⟩

end Ficus.Rs.Nfc
