import Verif.Model.Filters
import Verif.Spec.Log
import Mathlib.Data.List.Dedup

/-! Specification for the filters: legal removal sequences. -/

namespace Ficus.Spec
variable {E : Type} [HasName E] {M : Type}

/-- The number of distinct event names of a log. -/
def distinctNames (log : Log E) : Nat := (log.evs.flatten.map name).dedup.length

/-- `n` is the first entry of `d` with the largest value, and `v` is this value. -/
def IsFirstMax (gt : M → M → Bool) (d : Dict String M) (n : String) (v : M) : Prop :=
  ∃ pre post, d = pre ++ (n, v) :: post ∧ (∀ x ∈ pre, gt v x.2 = true) ∧ ∀ x ∈ post, gt x.2 v = false

/-- `log'` arises from `log` by removing the names `ns` one after the other, each of them having, at its removal, the
(first) largest metric of the current log, above the threshold. -/
inductive Removals (gt : M → M → Bool) (metric : Metric E M) (threshold : M) : Log E → List String → Log E → Prop
  | nil (log) : Removals gt metric threshold log [] log
  | cons {log log' : Log E} {n : String} {ns : List String} {d : Dict String M} {v : M} : log.traces ≠ [] →
      metric log = .ok d → IsFirstMax gt d n v → gt v threshold = true →
      Removals gt metric threshold (removeEvent log n) ns log' → Removals gt metric threshold log (n :: ns) log'

/-- The values can be compared with each other and with the threshold: `>` is asymmetric and negatively transitive on
them. This holds for numbers, and for a dictionary of `nan`s only. -/
structure Comparable (gt : M → M → Bool) (threshold : M) (d : Dict String M) : Prop where
  asymm : ∀ x ∈ d, ∀ y ∈ d, gt x.2 y.2 = true → gt y.2 x.2 = false
  neg : ∀ x ∈ d, ∀ z ∈ d, ∀ b, (b = threshold ∨ ∃ y ∈ d, b = y.2) → gt x.2 b = true → gt x.2 z.2 = true ∨ gt z.2 b = true

/-- The metrics considered: they never raise, their keys are names that occur in the log, each once, and their values can be
compared. -/
def GoodMetric (gt : M → M → Bool) (threshold : M) (metric : Metric E M) : Prop :=
  ∀ log, ∃ d, metric log = .ok d ∧ d.WF ∧ (∀ k ∈ d.keys, occurrences log k ≠ 0) ∧ Comparable gt threshold d

/-- How the direct filter may end after `removed` removals in the log `log'`: the log is empty; or the budget is used up; or
no (touchable) event has a metric above the threshold; or it raises `ValueError`, because no event can be chosen. -/
inductive DirectEnd (gt : M → M → Bool) (metric : Metric E M) (thr : M) (maxEvents : Int) (removed : Nat) (log' : Log E) :
    Except PyErr (Log E) → Prop
  | empty : log'.traces = [] → DirectEnd gt metric thr maxEvents removed log' (.ok log')
  | budget : 0 < removed → (removed : Int) = maxEvents → DirectEnd gt metric thr maxEvents removed log' (.ok log')
  | below {d} : log'.traces ≠ [] → metric log' = .ok d → d ≠ [] → (∀ x ∈ d, gt x.2 thr = false) →
      DirectEnd gt metric thr maxEvents removed log' (.ok log')
  | noCandidate : log'.traces ≠ [] → metric log' = .ok [] →
      DirectEnd gt metric thr maxEvents removed log' (.error .valueError)

/-- `rs` records the removals of all events one after the other, starting with `log` and ending with a log without traces.
Each entry consists of the name with the (first) largest metric of the current log and a number: the total of the metric
before this removal, or the difference of the totals before and after it. -/
inductive TillEndRecord (gt : M → M → Bool) (total : List M → M) (minus : M → M → M) (metric : Metric E M) (kind : TillEndKind) :
    Log E → List (String × M) → Prop
  | nil {log : Log E} : log.traces = [] → TillEndRecord gt total minus metric kind log []
  | cons {log : Log E} {n : String} {v x : M} {d d' : Dict String M} {rs : List (String × M)} : log.traces ≠ [] →
      metric log = .ok d → IsFirstMax gt d n v → metric (removeEvent log n) = .ok d' →
      (kind = .beforeOnly → x = total (d.map Prod.snd)) →
      (kind = .afterBeforeDelta → x = minus (total (d.map Prod.snd)) (total (d'.map Prod.snd))) →
      TillEndRecord gt total minus metric kind (removeEvent log n) rs →
      TillEndRecord gt total minus metric kind log ((n, x) :: rs)

/-- `top` are the entries of `d` with the highest values, as many as the given share of the entries, rounded down. Among
entries of the same value it is left open which ones belong to them; for a share outside of 0 to 1 their number is left
open. -/
def HighestPart (share : ℚ) (d top : Dict String ℝ) : Prop :=
  (∃ rest, (rest ++ top).Perm d ∧ ∀ x ∈ rest, ∀ y ∈ top, x.2 ≤ y.2) ∧
    (0 ≤ share → share ≤ 1 → (top.length : Int) = ⌊(d.length : ℚ) * share⌋)

/-- What the indirect filter may choose in a log: one of the touchable events of highest entropy whose removal leads to the
smallest average entropy; or none, if no removal of such an event leads to an average below `1e10`. -/
def IndirectChoice (laplace : Bool) (share : ℚ) (untouchable : String → Bool) (log : Log E) (n : Option String) : Prop :=
  ∃ d top, calculateEntropies laplace log = .ok d ∧ HighestPart share d top ∧
    ((n = none ∧ ∀ k ∈ top.keys, untouchable k = false → ∀ a,
        defaultEntropyAverage laplace (removeEvent log k) none = .ok a → 10000000000 ≤ a) ∨
      ∃ k ∈ top.keys, n = some k ∧ untouchable k = false ∧ occurrences log k ≠ 0 ∧
        ∃ a, defaultEntropyAverage laplace (removeEvent log k) none = .ok a ∧ a < 10000000000 ∧
          ∀ m ∈ top.keys, untouchable m = false → ∀ b,
            defaultEntropyAverage laplace (removeEvent log m) none = .ok b → a ≤ b)

/-- The log without the chosen event; without a choice only empty traces are dropped. -/
def withoutChoice (log : Log E) : Option String → Log E
  | some n => removeEvent log n
  | none => removeEvents log []

/-- `log'` arises from `log` by the given choices, one after the other, each made in a log that is not empty and whose average
entropy is above the threshold. -/
inductive IndirectRun (laplace : Bool) (threshold : ℝ) (share : ℚ) (untouchable : String → Bool) :
    Log E → List (Option String) → Log E → Prop
  | nil (log) : IndirectRun laplace threshold share untouchable log [] log
  | cons {log log' : Log E} {n : Option String} {ns : List (Option String)} {a : ℝ} : log.traces ≠ [] →
      defaultEntropyAverage laplace log none = .ok a → threshold < a → IndirectChoice laplace share untouchable log n →
      IndirectRun laplace threshold share untouchable (withoutChoice log n) ns log' →
      IndirectRun laplace threshold share untouchable log (n :: ns) log'

end Ficus.Spec
