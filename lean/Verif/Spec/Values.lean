import Verif.Model.Values
import Mathlib.Data.List.Forall2
import Mathlib.Tactic.NormNum

/-! Specification vocabulary for the values of the context. -/

namespace Ficus.Values.Spec
variable {F : Type}

/-- The integer `n` fits into a field below `bound` and is sent as `m`. -/
def Fits (bound : Nat) (n : Int) (m : Nat) : Prop := n = (m : Int) ∧ m < bound

/-- How a value arrives in the context. -/
inductive Arrives (f32 : F → Nat) : Value F → GValue → Prop
  | string {s} : Arrives f32 (.string s) (.scalar (.string s))
  | float {x} : Arrives f32 (.float x) (.scalar (.float (f32 x)))
  | uint32 {n m} : Fits (2 ^ 32) n m → Arrives f32 (.uint32 n) (.scalar (.uint32 m))
  | bool {b} : Arrives f32 (.bool b) (.scalar (.bool b))
  | hashesLog {log sent} : List.Forall₂ (List.Forall₂ (Fits (2 ^ 64))) log sent → Arrives f32 (.hashesLog log) (.hashesLog sent)
  | namesLog {log} : Arrives f32 (.namesLog log) (.namesLog log)
  | enum {t v} : Arrives f32 (.enum t v) (.scalar (.enum t v))
  | strings {l} : Arrives f32 (.strings l) (.scalar (.strings l))
  | base : Arrives f32 .base .unset

/-- Why a value cannot be put into the context. -/
inductive Rejected : Value F → PyErr → Prop
  | uint32 {n} : (∀ m, ¬ Fits (2 ^ 32) n m) → Rejected (.uint32 n) .valueError
  | hash {log t n} : t ∈ log → n ∈ t → (∀ m, ¬ Fits (2 ^ 64) n m) → Rejected (.hashesLog log) .valueError
  | count {e c t n} : n ∈ [e, c, t] → (∀ m, ¬ Fits (2 ^ 32) n m) → Rejected (.info e c t) .valueError
  | info {e c t} : (∀ n ∈ [e, c, t], ∃ m, Fits (2 ^ 32) n m) → Rejected (.info e c t) .typeError
  | foreign : Rejected .foreign .attributeError

end Ficus.Values.Spec
