import Verif.Model.RsSuffix
import Verif.Spec.Repeats

/-! Specification of suffix trees and of the repeats that the backend reports. -/

namespace Ficus.Spec
open Ficus

/-- The word with an end mark. -/
def ended (w : List Nat) : List (Option Nat) := w.map some ++ [none]

/-- The words on the way from the root to a node: the label of an edge is the part of the word between the bounds of the lower node. -/
inductive PathTo (w : List Nat) (nodes : List Rs.SNode) : Nat → List (Option Nat) → Prop
  | root : PathTo w nodes 0 []
  | step {p v : Nat} {m n : Rs.SNode} {c : Option Nat} {x : List (Option Nat)} : PathTo w nodes p x → nodes[p]? = some m →
      (c, v) ∈ m.children → nodes[v]? = some n → PathTo w nodes v (x ++ ((ended w).drop n.left).take (n.right - n.left))

/-- The nodes are the suffix tree of a word. -/
structure SuffixTreeOf (w : List Nat) (nodes : List Rs.SNode) : Prop where
  /-- one way to every node -/
  word : ∀ v, v < nodes.length → ∃ x, ∀ y, PathTo w nodes v y ↔ y = x
  /-- different nodes, different words -/
  distinct : ∀ u v x, PathTo w nodes u x → PathTo w nodes v x → u = v
  /-- the leaves are the suffixes -/
  leaves : ∀ x, (∃ (v : Nat) (n : Rs.SNode), nodes[v]? = some n ∧ n.children = [] ∧ PathTo w nodes v x) ↔
    ∃ i, i ≤ w.length ∧ x = (ended w).drop i
  /-- the inner nodes are the words that different letters follow -/
  inner : ∀ x, x ≠ [] → ((∃ (v : Nat) (n : Rs.SNode), nodes[v]? = some n ∧ n.children ≠ [] ∧ PathTo w nodes v x) ↔
    ∃ c d, c ≠ d ∧ x ++ [c] <:+: ended w ∧ x ++ [d] <:+: ended w)
  /-- labels are not empty and begin with the letter under which the parent has the child -/
  labels : ∀ (p v : Nat) (m n : Rs.SNode) (c : Option Nat), nodes[p]? = some m → (c, v) ∈ m.children → nodes[v]? = some n →
    (((ended w).drop n.left).take (n.right - n.left)).head? = some c
  /-- the link of an inner node leads to its word without the first letter -/
  links : ∀ (v : Nat) (n : Rs.SNode) x, v ≠ 0 → nodes[v]? = some n → n.children ≠ [] → PathTo w nodes v x →
    ∃ l, n.link = some l ∧ PathTo w nodes l x.tail

variable {α : Type}

/-- `w` occurs with `a` before it and `c` after it, where `none` is the start and the end of the sequence. -/
def Between (t w : List α) (a c : Option α) : Prop := ∃ i, OccursAt w t i ∧ before t i = a ∧ t[i + w.length]? = c

/-- Two letters follow the word, and not after the same letters before it (the start is not the same as itself). -/
def PairRepeat (t w : List α) : Prop :=
  w ≠ [] ∧ ∃ c d, c ≠ d ∧ (∃ a, Between t w a c) ∧ (∃ a, Between t w a d) ∧
    ¬ ((∀ a, Between t w a c ↔ Between t w a d) ∧ ¬ Between t w none c)

/-- A maximal repeat with an occurrence, not at the start, that does not lie inside of an occurrence of another maximal repeat. -/
def NearInside (t w : List α) : Prop :=
  MaximalRepeat t w ∧ ∃ i, i ≠ 0 ∧ OccursAt w t i ∧
    ∀ w' j, MaximalRepeat t w' → OccursAt w' t j → j ≤ i → i + w.length ≤ j + w'.length → w' = w

/-- The reports come in the order of their starts, and of their lengths where these are the same. -/
def InOrder (subs : List SubArray) : Prop :=
  subs.Pairwise (fun a b => a.firstPos < b.firstPos ∨ a.firstPos = b.firstPos ∧ a.length < b.length)

end Ficus.Spec
