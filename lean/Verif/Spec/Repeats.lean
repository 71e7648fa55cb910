import Verif.Model.Repeats

/-! What repeats, maximal, super maximal and near super maximal repeats of a sequence are, and what the suffix trees of the
library have to deliver. -/

namespace Ficus
namespace Spec
variable {α : Type}

/-- `w` stands in `t` at position `i`. -/
def OccursAt (w t : List α) (i : Nat) : Prop := ∃ pre post, t = pre ++ w ++ post ∧ pre.length = i

/-- A word that occurs at least twice (occurrences may overlap). -/
def IsRepeat (t w : List α) : Prop := w ≠ [] ∧ ∃ i j, i ≠ j ∧ OccursAt w t i ∧ OccursAt w t j

/-- What stands before position `i`; nothing at the start. -/
def before (t : List α) (i : Nat) : Option α := if i = 0 then none else t[i - 1]?

/-- A word whose occurrences are neither all preceded nor all followed by the same symbol, so that it cannot be extended
without losing an occurrence. The start and the end of the sequence count as symbols of their own. -/
def MaximalRepeat (t w : List α) : Prop :=
  w ≠ [] ∧ (∃ i j, OccursAt w t i ∧ OccursAt w t j ∧ before t i ≠ before t j) ∧
    ∃ i j, OccursAt w t i ∧ OccursAt w t j ∧ t[i + w.length]? ≠ t[j + w.length]?

/-- A maximal repeat that is not part of another maximal repeat. -/
def SuperMaximal (t w : List α) : Prop := MaximalRepeat t w ∧ ∀ w', MaximalRepeat t w' → w <:+: w' → w' = w

/-- A maximal repeat with an occurrence that does not lie inside of an occurrence of another maximal repeat. -/
def NearSuperMaximal (t w : List α) : Prop :=
  MaximalRepeat t w ∧ ∃ i, OccursAt w t i ∧
    ∀ w' j, MaximalRepeat t w' → OccursAt w' t j → j ≤ i → i + w.length ≤ j + w'.length → w' = w

/-- The words of sub arrays of a sequence. -/
def words (t : List α) (subs : List SubArray) : List (List α) := subs.map (fun s => (t.drop s.firstPos).take s.length)

/-- What the code relies on: the suffix tree of a sequence lists every maximal repeat once, by one of its occurrences;
`find_all` lists all occurrences; iteration over a set gives its elements in some order. -/
structure LawfulTrees (lib : TreeLib) : Prop where
  inside : ∀ t, ∀ r ∈ lib.maximalRepeats t, r.1 < r.2 ∧ r.2 ≤ t.length
  sound : ∀ t, ∀ r ∈ lib.maximalRepeats t, MaximalRepeat t ((t.drop r.1).take (r.2 - r.1))
  complete : ∀ t w, MaximalRepeat t w → ∃ r ∈ lib.maximalRepeats t, (t.drop r.1).take (r.2 - r.1) = w
  once : ∀ t, ((lib.maximalRepeats t).map (fun r => (t.drop r.1).take (r.2 - r.1))).Nodup
  findAll_nodup : ∀ ss w, w ≠ [] → (lib.findAll ss w).Nodup
  findAll_iff : ∀ ss w, w ≠ [] → ∀ k i, (k, i) ∈ lib.findAll ss w ↔ ∃ s, ss[k]? = some s ∧ OccursAt w s i
  intervals : ∀ l, (lib.intervalOrder l).Perm l
  indices : ∀ l, (lib.indexOrder l).Perm l

/-- The sub arrays describe exactly the words with a property, each once, by one of its occurrences in the sequence. -/
def Reports (P : List α → List α → Prop) (t : List α) (subs : List SubArray) : Prop :=
  (∀ s ∈ subs, 0 < s.length ∧ s.firstPos + s.length ≤ t.length) ∧ (words t subs).Nodup ∧ ∀ w, w ∈ words t subs ↔ P t w

/-- Different classes of the events of a trace have different hashes. -/
def HashesDiffer {E : Type} (ext : E → String) (trace : List E) : Prop :=
  ∀ a ∈ trace, ∀ b ∈ trace, stringHash (ext a) = stringHash (ext b) → ext a = ext b

/-- The occurrence of `w` at `i` lies inside of an occurrence of one of the reported words. -/
def InReported (t : List α) (subs : List SubArray) (w : List α) (i : Nat) : Prop :=
  ∃ w' ∈ words t subs, ∃ j, OccursAt w' t j ∧ j ≤ i ∧ i + w.length ≤ j + w'.length

/-! Trees that follow the contract, by brute force. -/

/-- All positions of a word. -/
def positions (w t : List Int) : List Nat :=
  (List.range (t.length + 1)).filter (fun i => i + w.length ≤ t.length ∧ (t.drop i).take w.length = w)

/-- Whether a word is a maximal repeat. -/
def isMaximal (t w : List Int) : Bool :=
  w ≠ [] && (positions w t).any (fun i => (positions w t).any (fun j => before t i ≠ before t j)) &&
    (positions w t).any (fun i => (positions w t).any (fun j => t[i + w.length]? ≠ t[j + w.length]?))

/-- All maximal repeats, each by its first occurrence. -/
def slowMaximalRepeats (t : List Int) : List (Nat × Nat) :=
  (List.range (t.length + 1)).flatMap (fun i => ((List.range (t.length + 1)).filter (fun j =>
    i < j ∧ isMaximal t ((t.drop i).take (j - i)) = true ∧
      (positions ((t.drop i).take (j - i)) t).head? = some i)).map (fun j => (i, j)))

/-- Trees by brute force. -/
def slowTrees : TreeLib where
  maximalRepeats := slowMaximalRepeats
  findAll ss w := (List.range ss.length).flatMap (fun k => (positions w (ss.getD k [])).map (fun i => (k, i)))
  intervalOrder := id
  indexOrder := id

end Spec
end Ficus
