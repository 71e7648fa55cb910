import Verif.Model.Py
import Mathlib.Data.Finset.Basic
import Mathlib.Data.Finset.Card

/-! The places of the alpha algorithm, without the modelled functions. -/

namespace Ficus.Spec

/-- `b` comes directly after `a` in some trace of a log of names. -/
def Directly (log : List (List String)) (a b : String) : Prop := ∃ t ∈ log, [a, b] <:+: t

/-- `a` is causal for `b`: `b` comes directly after `a`, and never the other way round. -/
def Causal (log : List (List String)) (a b : String) : Prop := Directly log a b ∧ ¬ Directly log b a

/-- Neither name comes directly after the other. -/
def Unrelated (log : List (List String)) (a b : String) : Prop := ¬ Directly log a b ∧ ¬ Directly log b a

/-- A log without the given names. -/
def withoutLoops (log : List (List String)) (loops : List String) : List (List String) :=
  log.map (fun t => t.filter (fun n => decide (n ∉ loops)))

/-- `a`, `b`, `a` come one after the other in some trace. -/
def Triangle (log : List (List String)) (a b : String) : Prop := ∃ t ∈ log, [a, b, a] <:+: t

/-- A pair of sets of the alpha algorithm: every name on the left is causal for every name on the right, and names on one side
are unrelated. -/
structure IsPair (causal unrelated : String → String → Prop) (p : Finset String × Finset String) : Prop where
  left : p.1.Nonempty
  right : p.2.Nonempty
  causal : ∀ a ∈ p.1, ∀ b ∈ p.2, causal a b
  leftUnrelated : ∀ a ∈ p.1, ∀ b ∈ p.1, unrelated a b
  rightUnrelated : ∀ a ∈ p.2, ∀ b ∈ p.2, unrelated a b

/-- A pair that no other pair contains. -/
def MaximalPair (causal unrelated : String → String → Prop) (p : Finset String × Finset String) : Prop :=
  IsPair causal unrelated p ∧ ∀ q, IsPair causal unrelated q → p.1 ⊆ q.1 → p.2 ⊆ q.2 → q = p

/-- The hash tells apart all sequences of at most `n` of `n` given names. -/
def TellsApart (hash : List String → Nat) (names : List String) : Prop :=
  ∀ s t : List String, s.length ≤ names.length → t.length ≤ names.length → (∀ x ∈ s, x ∈ names) →
    (∀ x ∈ t, x ∈ names) → hash s = hash t → s = t

end Ficus.Spec
