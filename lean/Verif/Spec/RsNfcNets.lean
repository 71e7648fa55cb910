import Verif.Spec.RsEnds
import Verif.Spec.RsNfcStages

/-! What the nets on the way of Alpha++ NFC should be. -/

namespace Ficus.Spec.Nfc
open Rs Rs.Nfc

/-- A net of Alpha+ for a log of names without some classes, the classes `loops` and two relations: it is well formed; it has a transition
for each class and one for each of `loops`; the sets of its places have only classes, all of the first side in the first relation to all
of the second and those of a side in the second; the transitions of classes have the arcs of these places, the start and the end place;
each of `loops` has a transition that takes and puts back the token of the place between its neighbours. -/
structure PlusNet (log : List (List String)) (ignored loops : List String) (causal unrelated : String → String → Prop) (net : Net) :
    Prop where
  wellFormed : WellFormed net
  names : (net.transitions.map Trans.name).Perm ((withoutLoops log ignored).flatten.dedup ++ loops)
  sets : ∀ p ∈ net.places, ∀ x, p.set = some x →
    (∀ c ∈ x.left ++ x.right, c ∈ log.flatten ∧ c ∉ ignored) ∧ IsPair causal unrelated (sides x)
  connected : ∀ t ∈ net.transitions, t.name ∉ loops → Connected (IsFirst log) (IsLast log) net t
  loop : ∀ c ∈ loops, ∃ t ∈ net.transitions, t.name = c ∧ ∃ q ∈ net.places, LoopName log c q.name ∧
    t.incoming.map Arc.place = [q.id] ∧ t.outgoing.map Arc.place = [q.id]

/-- What Alpha++ NFC takes for causality: `b` comes directly after `a`, and not the other way round or with a triangle; or it was
added. Classes that are left out of the log are passed over. -/
def NfcCausal (log : List (List String)) (ignored : List String) (added : String → String → Prop) (a b : String) : Prop :=
  added a b ∨ (Directly (withoutLoops log ignored) a b ∧
    (¬ Directly (withoutLoops log ignored) b a ∨ Triangle log a b ∨ Triangle log b a))

/-- What the searches for implicit dependencies should find by a log, given the nets they look at; some answers about distant classes may
be out of date, see C169. -/
def Found (p : Provider) (first : NetView) (netOf : List (String × String) → NetView) (r : Stages) : Prop :=
  ExactlyPairs p r.w1 (Implicit1 p first (Distant p Nothing) Nothing) ∧
  ∃ far2 far3 : String → String → Prop,
    Mixed far2 (Distant p Nothing) (Distant p (Listed r.w1)) ∧
    ExactlyPairs p r.w2 (Implicit2 p (netOf r.w1) far2 (Listed r.w1)) ∧
    ExactlyPairs p r.kept (fun a b => Implicit2 p (netOf r.w1) far2 (Listed r.w1) a b ∧
      ¬ Explained p (netOf r.w1) far2 (Listed r.w1) a b) ∧
    Mixed far3 far2 (Distant p (Listed (r.w1 ++ r.kept))) ∧
    ExactlyPairs p r.w3 (Implicit3 p (netOf (r.w1 ++ r.kept)) far3 (Listed (r.w1 ++ r.kept)))

/-- A class that comes directly after itself begins or ends a trace. -/
def LoopAtEnd (log : List (List String)) : Prop := ∃ c, Directly log c c ∧ (IsFirst log c ∨ IsLast log c)

/-- Some trace has fewer than two events. -/
def ShortTrace (log : List (List String)) : Prop := ∃ t ∈ log, t.length < 2

end Ficus.Spec.Nfc
