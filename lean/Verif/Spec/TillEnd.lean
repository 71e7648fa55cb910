import Verif.Spec.Filters
import Verif.Spec.Entropy

/-! Specification for the indirect filters by position entropies. -/

namespace Ficus.Spec
variable {E : Type} [HasName E]

/-- The sum of the position entropies of a log, `none` for `nan`. -/
noncomputable def posTotal (log : Log E) : Option ℝ :=
  sumNan ((createLogInformation log).eventsCount.keys.map
    (fun k => positionEntropy (positionTable (keptOf log none) k) (nonEmptyCount (keptOf log none))))

/-- What the indirect filter by position entropies may choose in a log, and the total that is recorded with it: one of the
touchable events whose removal leads to the smallest total; or none, with the total `1e10`, if no removal of a touchable event
leads to a number below `1e10`. -/
def PosChoice (untouchable : String → Bool) (log : Log E) (n : Option String) (total : Option ℝ) : Prop :=
  (n = none ∧ total = some 10000000000 ∧ ∀ k, occurrences log k ≠ 0 → untouchable k = false → ∀ x,
      posTotal (removeEvent log k) = some x → 10000000000 ≤ x) ∨
    ∃ k x, n = some k ∧ total = some x ∧ occurrences log k ≠ 0 ∧ untouchable k = false ∧
      posTotal (removeEvent log k) = some x ∧ x < 10000000000 ∧
      ∀ m, occurrences log m ≠ 0 → untouchable m = false → ∀ y, posTotal (removeEvent log m) = some y → x ≤ y

/-- `log'` arises from `log` by the given choices, one after the other, each made in a log whose total is not a number at or
below the threshold. -/
inductive PosRun (threshold : ℝ) (untouchable : String → Bool) : Log E → List (Option String) → Log E → Prop
  | nil (log) : PosRun threshold untouchable log [] log
  | cons {log log' : Log E} {n : Option String} {total : Option ℝ} {ns : List (Option String)} :
      (∀ x, posTotal log = some x → threshold < x) → PosChoice untouchable log n total →
      PosRun threshold untouchable (withoutChoice log n) ns log' → PosRun threshold untouchable log (n :: ns) log'

/-- The record of choices made one after the other in logs that have traces, leading from `log` to `log'`: each with the total
before it or the difference between the totals before and after it. -/
inductive PosTillEnd (kind : TillEndKind) (untouchable : String → Bool) :
    Log E → List (Option String × Option ℝ) → Log E → Prop
  | nil (log) : PosTillEnd kind untouchable log [] log
  | cons {log log' : Log E} {n : Option String} {total x : Option ℝ} {rs : List (Option String × Option ℝ)} :
      log.traces ≠ [] → PosChoice untouchable log n total →
      (kind = .beforeOnly → x = posTotal log) →
      (kind = .afterBeforeDelta → x = subNan (posTotal log) total) →
      PosTillEnd kind untouchable (withoutChoice log n) rs log' → PosTillEnd kind untouchable log ((n, x) :: rs) log'

end Ficus.Spec
