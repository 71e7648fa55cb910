import Verif.Model.RsNet

/-! Firing sequences of Petri nets, without the replay. -/

namespace Ficus.Spec
open Rs

/-- The number of tokens in each place. -/
abbrev Tokens := Nat → Nat

/-- The number of arcs from a place to a transition, by the identifier of the place. -/
def needs (t : Trans) (p : Nat) : Nat := (t.incoming.map Arc.place).count p

/-- The number of arcs from a transition to a place. -/
def gives (t : Trans) (p : Nat) : Nat := (t.outgoing.map Arc.place).count p

/-- A transition may fire if every place has a token for each arc. -/
def Enabled (m : Tokens) (t : Trans) : Prop := ∀ p, needs t p ≤ m p

/-- The tokens after a transition has fired. -/
def after (m : Tokens) (t : Trans) : Tokens := fun p => m p - needs t p + gives t p

/-- Transitions of the net that fire one after the other. -/
inductive Fires (net : Net) : Tokens → List Trans → Tokens → Prop
  | nil (m : Tokens) : Fires net m [] m
  | cons {m m' : Tokens} {t : Trans} {ts : List Trans} (ht : t ∈ net.transitions) (he : Enabled m t)
      (hr : Fires net (after m t) ts m') : Fires net m (t :: ts) m'

/-- The names of the transitions that are not silent. -/
def visible (ts : List Trans) : List String := (ts.filter (fun t => !t.silent)).map Trans.name

/-- A trace can be replayed from a marking: some transitions can fire one after the other whose visible names are the trace. -/
def Replayable (net : Net) (m : Tokens) (trace : List String) : Prop := ∃ ts m', Fires net m ts m' ∧ visible ts = trace

/-- The tokens of a list of places and numbers. -/
def tokensOf (initial : List (Nat × Nat)) : Tokens := fun p => ((initial.filter (fun x => x.1 = p)).map Prod.snd).sum

/-- No transition takes more than one token from a place, as in the nets of the alpha algorithms. -/
def SingleArcs (net : Net) : Prop := ∀ t ∈ net.transitions, (t.incoming.map Arc.place).Nodup

/-- A marking of different places, each with tokens. -/
def GoodMarking (initial : List (Nat × Nat)) : Prop := (initial.map Prod.fst).Nodup ∧ ∀ p ∈ initial, 0 < p.2

/-- A silent transition of the net leads from one marking to another. -/
def SilentStep (net : Net) (m' m : Tokens) : Prop := ∃ t ∈ net.transitions, t.silent = true ∧ Enabled m t ∧ m' = after m t

/-- Silent transitions cannot fire forever. -/
def SilentEnds (net : Net) : Prop := WellFounded (SilentStep net)

end Ficus.Spec
