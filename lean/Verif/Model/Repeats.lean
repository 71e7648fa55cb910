import Verif.Model.Activity
import Verif.Model.Py

/-! Model of the search for repeats in
`src/python/ficus/legacy/analysis/patterns/event_log_patterns.py`: lines 96-135 and 249-288. The suffix trees of the
library `suffix_tree` and the iteration order of sets are parameters. -/

namespace Ficus

/-- An interval of `intervaltree`: `[start, stop)` with its data. -/
structure Interval where
  start : Nat
  stop : Nat
  data : Nat
  deriving DecidableEq, Repr

/-- What the code uses of the library `suffix_tree`, and the order in which sets are iterated.

* `maximalRepeats t`: start and end of the paths of `Tree({'Trace': t}).maximal_repeats()`;
* `findAll strings w`: number of the string and start of the paths of `Tree(strings).find_all(w)`, where the strings have
  the keys 0, 1, ... (a single string, whatever its key, has number 0);
* `intervalOrder`, `indexOrder`: `list` of a set. -/
structure TreeLib where
  maximalRepeats : List Int → List (Nat × Nat)
  findAll : List (List Int) → List Int → List (Nat × Nat)
  intervalOrder : List Interval → List Interval
  indexOrder : List Nat → List Nat

/-- The body of the loop of `_do_find_maximal_repeats`, event_log_patterns.py:105-108. -/
def maximalRepeatsOf (lib : TreeLib) (trace : List Int) : List SubArray :=
  (lib.maximalRepeats trace).map (fun r => { firstPos := r.1, length := r.2 - r.1 })

/-- `find_maximal_repeats`, event_log_patterns.py:96-99, with `_do_find_maximal_repeats`, 102-110. -/
def findMaximalRepeats {E : Type} (lib : TreeLib) (ext : E → String) (log : Log E) : List (List SubArray) :=
  (hashTraces ext log).map (maximalRepeatsOf lib)

/-- The body of the loop of `_do_find_super_maximal_repeats`, event_log_patterns.py:123-133. -/
def superMaximalRepeatsOf (lib : TreeLib) (trace : List Int) (repeats : List SubArray) : List SubArray :=
  repeats.filter (fun r =>
    (lib.findAll (repeats.map (fun r => slice trace r.firstPos r.length)) (slice trace r.firstPos r.length)).length = 1)

/-- `find_super_maximal_repeats`, event_log_patterns.py:113-116, with `_do_find_super_maximal_repeats`, 119-135. -/
def findSuperMaximalRepeats {E : Type} (lib : TreeLib) (ext : E → String) (log : Log E) : List (List SubArray) :=
  let traces := hashTraces ext log
  (traces.zip (traces.map (maximalRepeatsOf lib))).map (fun p => superMaximalRepeatsOf lib p.1 p.2)

/-- `interval_tree.addi(start, end, idx)`, event_log_patterns.py:270: the tree is a set and refuses empty intervals. -/
def addInterval (tree : List Interval) (i : Interval) : Except PyErr (List Interval) :=
  if i.start < i.stop then .ok (if i ∈ tree then tree else tree ++ [i]) else .error .valueError

/-- The loop over the positions of one repeat, event_log_patterns.py:267-270. -/
def addPositions (length idx : Nat) : List (Nat × Nat) → List Interval → Except PyErr (List Interval)
  | [], tree => .ok tree
  | p :: ps, tree =>
    match addInterval tree { start := p.2, stop := p.2 + length, data := idx } with
    | .error e => .error e
    | .ok tree => addPositions length idx ps tree

/-- The loop over the maximal repeats, event_log_patterns.py:265-272, with the running index. `max_repeat_count` is never
read and left out. -/
def addRepeats (lib : TreeLib) (trace : List Int) : Nat → List SubArray → List Interval → Except PyErr (List Interval)
  | _, [], tree => .ok tree
  | idx, r :: rs, tree =>
    match addPositions r.length idx (lib.findAll [trace] (slice trace r.firstPos r.length)) tree with
    | .error e => .error e
    | .ok tree => addRepeats lib trace (idx + 1) rs tree

/-- The loop over the sorted intervals, event_log_patterns.py:276-283. -/
def visitIntervals (tree : List Interval) : List Interval → List Interval → List Nat → List Nat
  | [], _, result => result
  | i :: rest, visited, result =>
    if i ∈ visited then visitIntervals tree rest visited result
    else visitIntervals tree rest (visited ++ [i] ++ tree.filter (fun j => i.start ≤ j.start ∧ j.stop ≤ i.stop))
      (if i.data ∈ result then result else result ++ [i.data])

/-- `maximal_repeats_by_trace[i]` for all indices, event_log_patterns.py:285. -/
def pickRepeats (repeats : List SubArray) : List Nat → Except PyErr (List SubArray)
  | [] => .ok []
  | i :: is =>
    match repeats[i]? with
    | none => .error .indexError
    | some r => (pickRepeats repeats is).map (r :: ·)

/-- The body of the loop of `_do_find_near_super_maximal_repeats`, event_log_patterns.py:260-286. -/
def nearSuperMaximalRepeatsOf (lib : TreeLib) (trace : List Int) (repeats : List SubArray) :
    Except PyErr (List SubArray) :=
  match addRepeats lib trace 0 repeats [] with
  | .error e => .error e
  | .ok tree =>
    let sorted := (lib.intervalOrder tree).insertionSort (fun a b => b.stop - b.start ≤ a.stop - a.start)
    pickRepeats repeats (lib.indexOrder (visitIntervals tree sorted [] []))

/-- The loop of `_do_find_near_super_maximal_repeats`, event_log_patterns.py:259-288. -/
def nearSuperMaximalLoop (lib : TreeLib) : List (List Int) → Except PyErr (List (List SubArray))
  | [] => .ok []
  | t :: ts =>
    match nearSuperMaximalRepeatsOf lib t (maximalRepeatsOf lib t) with
    | .error e => .error e
    | .ok r => (nearSuperMaximalLoop lib ts).map (r :: ·)

/-- `find_near_super_maximal_repeats`, event_log_patterns.py:249-252, with `_do_find_near_super_maximal_repeats`,
255-288. -/
def findNearSuperMaximalRepeats {E : Type} (lib : TreeLib) (ext : E → String) (log : Log E) :
    Except PyErr (List (List SubArray)) := nearSuperMaximalLoop lib (hashTraces ext log)

end Ficus
