import Verif.Model.Hash
import Verif.Model.Log

/-! Model of the tandem array search of `src/python/ficus/legacy/analysis/patterns/event_log_patterns.py` and of the
hashing of logs in `patterns/util.py`. -/

namespace Ficus

/-- `TandemArrayInfo`, patterns_models.py:9-11, with the fields of `SubArrayInEventLog`, common_models.py:23-26. -/
structure Tandem where
  firstPos : Nat
  length : Nat
  repeatCount : Nat
  deriving DecidableEq, Repr

/-- `_do_create_hashes_traces`, patterns/util.py:48-60, and its wrapper `_create_hashes_traces_with_selector`, 68-70.
`ext` is the class extractor; `None` stands for the event name, that is `ext := name`. -/
def hashTraces {E : Type} (ext : E → String) (log : Log E) : List (List Int) :=
  log.evs.map (·.map (fun e => stringHash (ext e)))

/-- The inner comparison loop of `_try_extract_tandem_array`, event_log_patterns.py:56-59: `n` comparisons left,
starting with offset `i`. The callers stay in range, so that `[·]?` is python's indexing. -/
def blockEq (t : List Int) (cur start : Nat) : Nat → Nat → Bool
  | 0, _ => true
  | n + 1, i => if t[cur + i]? ≠ t[start + i]? then false else blockEq t cur start n (i + 1)

/-- The `while True` of `_try_extract_tandem_array`, event_log_patterns.py:51-65. `fuel` bounds the iterations; the
trace length suffices for positive block lengths (`countRepeats_spec`). The test `current_index + length - 1 >= len(trace)`
is written for naturals. -/
def countRepeats (t : List Int) (start length : Nat) : Nat → Nat → Nat → Nat
  | 0, _, n => n
  | fuel + 1, cur, n =>
    if t.length ≤ cur + length - 1 then n
    else if blockEq t cur start length 0 = false then n
    else countRepeats t start length fuel (cur + length) (n + 1)

/-- `_try_extract_tandem_array`, event_log_patterns.py:47-70. -/
def tryExtractTandem (t : List Int) (start length : Nat) : Option Tandem :=
  let n := countRepeats t start length t.length (start + length) 1
  if 1 < n then some { firstPos := start, length := length, repeatCount := n } else none

/-- The pairs (start, block length) visited by the two `for` loops of event_log_patterns.py:31-32, in order. -/
def tandemCandidates (t : List Int) (maxLength : Nat) : List (Nat × Nat) :=
  (List.range' 2 (maxLength - 2)).flatMap (fun length => (List.range (t.length - length)).map (fun i => (i, length)))

/-- The loop body event_log_patterns.py:33-40; the state is (`visited`, `tandem_arrays`). `hash` of an event hash is
the number itself (non-negative and below 2^61 - 1). -/
def tandemStep (t : List Int) (st : List Int × List Tandem) (c : Nat × Nat) : Except PyErr (List Int × List Tandem) :=
  match collHash (fun h : Int => h) t c.1 (some (c.1 + c.2)) with
  | .error e => .error e
  | .ok h =>
    if h ∈ st.1 then .ok st
    else
      match tryExtractTandem t c.1 c.2 with
      | none => .ok (h :: st.1, st.2)
      | some a => .ok (h :: st.1, st.2 ++ [a])

/-- The body of the outer loop of `_find_maximal_tandem_arrays`, event_log_patterns.py:28-42, for one trace. -/
def maximalTandemOfTrace (t : List Int) (maxLength : Nat) : Except PyErr (List Tandem) :=
  (((tandemCandidates t maxLength).foldlM (tandemStep t) ([], [])) : Except PyErr _).map Prod.snd

/-- `_find_maximal_tandem_arrays`, event_log_patterns.py:25-44. -/
def maximalTandemOfHashes (ts : List (List Int)) (maxLength : Nat) : Except PyErr (List (List Tandem)) :=
  ts.mapM (fun t => maximalTandemOfTrace t maxLength)

/-- `find_maximal_tandem_arrays`, event_log_patterns.py:18-22. -/
def findMaximalTandem {E : Type} (log : Log E) (maxLength : Nat) (ext : E → String) :
    Except PyErr (List (List Tandem)) :=
  maximalTandemOfHashes (hashTraces ext log) maxLength

/-- The test loop of `find_primitive_tandem_arrays`, event_log_patterns.py:82-86; `int((length + 1) / 2 + 1)` is
`(length + 1) // 2 + 1` for non-negative lengths. -/
def isPrimitiveTandem (t : List Int) (a : Tandem) : Bool :=
  (List.range' 2 ((a.length + 1) / 2 + 1 - 2)).all (fun m => (tryExtractTandem t a.firstPos m).isNone)

/-- `find_primitive_tandem_arrays`, event_log_patterns.py:73-93. -/
def findPrimitiveTandem {E : Type} (log : Log E) (maxLength : Nat) (ext : E → String) :
    Except PyErr (List (List Tandem)) :=
  (findMaximalTandem log maxLength ext).map (fun arrays =>
    (arrays.zip (hashTraces ext log)).map (fun at_ => at_.1.filter (isPrimitiveTandem at_.2)))

end Ficus
