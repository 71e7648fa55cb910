import Verif.Model.Discovery
import Verif.Spec.Extract
import Verif.Spec.Repeats
import Verif.Spec.Tandem
import Verif.Spec.Rounds

/-! Which patterns there are in a sequence of classes, and how instances segment a trace according to them. -/

namespace Ficus.Spec

/-- The intervals are the greedy segmentation of a sequence of classes with respect to certain words: they are non-empty,
ordered and disjoint; a position is covered exactly if its class is a letter of one of the words; all classes of an interval
are letters of one of the words; no word has these letters and also the class that follows the interval. -/
structure Segmentation (P : List String → Prop) (t : List String) (l : List (Nat × Nat)) : Prop where
  placed : WellPlaced t.length l
  cover : ∀ i e, t[i]? = some e → (Covered l i ↔ ∃ w, P w ∧ e ∈ w)
  together : ∀ p ∈ l, ∃ w, P w ∧ ∀ e ∈ factor t p.1 p.2, e ∈ w
  maximal : ∀ p ∈ l, ∀ e, t[p.1 + p.2]? = some e → ¬ ∃ w, P w ∧ ∀ x ∈ factor t p.1 p.2 ++ [e], x ∈ w

/-- The words that are searched in one sequence: repeats of the three kinds; blocks of tandem arrays with a length from 2 to
below the bound, at their first occurrence; for primitive ones no square of a word with a length from 2 to half of the block
length (rounded up) begins there. -/
def PatternOf : PatternsSource → List String → List String → Prop
  | .repeats .maximal => MaximalRepeat
  | .repeats .superMaximal => SuperMaximal
  | .repeats .nearSuperMaximal => NearSuperMaximal
  | .tandems .maximal n => fun t w => ∃ i l, w = factor t i l ∧ 2 ≤ l ∧ l < n ∧ Repeats t i l 2 ∧ FirstOccurrence t i l
  | .tandems .primitive n => fun t w => ∃ i l, w = factor t i l ∧ 2 ≤ l ∧ l < n ∧ Repeats t i l 2 ∧ FirstOccurrence t i l ∧
      ∀ m, 2 ≤ m → m ≤ (l + 1) / 2 → ¬ Repeats t i m 2

/-- A pattern of one of several sequences. -/
def PatternIn (source : PatternsSource) (ts : List (List String)) (w : List String) : Prop := ∃ t ∈ ts, PatternOf source t w

/-- A word that occurs twice in one of several sequences. -/
def RepeatIn (ts : List (List String)) (w : List String) : Prop := ∃ t ∈ ts, IsRepeat t w

/-- The hashes that the discovery relies on have no collisions for these sequences of classes: different classes have
different hashes; factors with different sets of classes have different hashes of these sets. -/
structure NoCollisions (ts : List (List String)) : Prop where
  classes : ∀ x ∈ ts.flatten, ∀ y ∈ ts.flatten, stringHash x = stringHash y → x = y
  sets : ∀ u ∈ ts, ∀ v ∈ ts, ∀ i l j m, setHash (factor u i l) = setHash (factor v j m) →
    SameSet (factor u i l) (factor v j m)

/-- For tandem arrays, which are told apart by the hash of their block: different factors of one sequence have different
hashes. -/
def BlocksDiffer (source : PatternsSource) (ts : List (List String)) : Prop :=
  match source with
  | .repeats _ => True
  | .tandems _ _ => ∀ t ∈ ts, FaithfulHash (t.map stringHash)

/-- The set of classes of an activity consists of the letters of a word. -/
def HasLetters (a : Activity) (w : List String) : Prop := ∀ h, h ∈ a.events ↔ ∃ x ∈ w, stringHash x = h

/-- `prev` is the log that the last round of the repeated discovery searched: the rounds before lead to it; the last round
found nothing and `final` is `prev`, or it found only single events and `final` is `prev` with these replaced. -/
def LastSearched (cfg : RoundsConfig) (log prev final : Log NEvent) : Prop :=
  Rounds log prev ∧ ∃ level uid acts insts, Finds cfg level uid prev acts insts ∧
    (NoInstance insts ∧ final = prev ∨
      OnlySingles insts ∧ createNewLog prev insts cfg.hashesAsNames .insertAllEvents = .ok final)

/-- The extractor returns the name of an event made by the abstraction, as the default `event[concept_name]` does
(analysis/patterns/patterns_parts.py:24, 136). -/
def ReadsNames (ext : NEvent → String) : Prop :=
  ∀ (p : Payload) u a s, p.get? "concept:name" = some (.str s) → ext (.comp p u a) = s

/-- The separators between merged traces have classes that are different from each other and from those of the log. -/
def FreshSeparators {E : Type} (ext : E → String) (sep : Nat → E) (log : Log E) : Prop :=
  (∀ i, i < log.traces.length → ext (sep i) ∉ (wordsOf ext log).flatten) ∧
    ∀ i j, i < log.traces.length → j < log.traces.length → ext (sep i) = ext (sep j) → i = j

end Ficus.Spec
