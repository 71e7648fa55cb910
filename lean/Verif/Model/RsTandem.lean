import Verif.Model.Tandem
import Verif.Model.RsMutations

/-! Model of the search for tandem arrays of the backend, features/analysis/patterns/tandem_arrays.rs, with the hash of
utils/hash_utils.rs (all paths are below /repo/src/rust/ficus_backend/src). A log is given by the hashes of its events;
`none` is a panic. -/

namespace Ficus.Rs

/-- The numbers of `u64`. -/
def u64Size : Nat := 18446744073709551616

/-- `a + b` on `u64`: with overflow checks (`checked`, the default of debug builds) an overflow panics, without (the default
of release builds) it wraps around. -/
def u64Add (checked : Bool) (a b : Nat) : Option Nat :=
  if a + b < u64Size then some (a + b) else if checked then none else some ((a + b) % u64Size)

/-- The body of the loop of `calculate_poly_hash_for_collection`, utils/hash_utils.rs:15-19; the state is (`hash`, `pow`).
`hasher` is the `DefaultHasher` on `u64` (external). -/
def polyStep (checked : Bool) (hasher : Nat → Nat) (st : Nat × Nat) (element : Nat) : Option (Nat × Nat) := do
  let next ← u64Add checked 1 (hasher element)
  let sum ← u64Add checked st.1 (next * st.2 % u64Size)
  return (sum % 1000000007, st.2 * 31 % u64Size % 1000000007)

/-- `calculate_poly_hash_for_collection`, utils/hash_utils.rs:7-23. -/
def polyHash (checked : Bool) (hasher : Nat → Nat) (slice : List Nat) : Option Nat := do
  return (← slice.foldlM (polyStep checked hasher) (1, 1)).1

/-- The loop over a block, tandem_arrays.rs:136-140: `n` comparisons left, from offset `i` on. All indices are in the trace,
so that `[·]?` is the indexing of the code. -/
def sameBlock (t : List Nat) (current start : Nat) : Nat → Nat → Bool
  | 0, _ => true
  | n + 1, i => if t[current + i]? ≠ t[start + i]? then false else sameBlock t current start n (i + 1)

/-- The loop of `try_extract_tandem_array`, tandem_arrays.rs:131-144, with fuel for its rounds; the length of the trace is
enough for blocks that are not empty. -/
def repeatLoop (t : List Nat) (start length : Nat) : Nat → Nat → Nat → Nat
  | 0, _, count => count
  | fuel + 1, current, count =>
    if current + length - 1 ≥ t.length then count
    else if sameBlock t current start length 0 then repeatLoop t start length fuel (current + length) (count + 1)
    else count

/-- `try_extract_tandem_array`, tandem_arrays.rs:127-155, with `TandemArrayInfo` and `SubArrayInTraceInfo` of
tandem_arrays.rs:5-33. -/
def extractTandem (t : List Nat) (start length : Nat) : Option Tandem :=
  let count := repeatLoop t start length t.length (start + length) 1
  if count > 1 then some ⟨start, length, count⟩ else none

/-- The starts and lengths of tandem_arrays.rs:107-108, in their order. -/
def windows (t : List Nat) (maxLength : Nat) : List (Nat × Nat) :=
  (List.range' 2 (min maxLength t.length - 2)).flatMap (fun length =>
    (List.range (t.length - length)).map (fun i => (i, length)))

/-- The body of the inner loop, tandem_arrays.rs:109-117; the state is (`visited`, `trace_tandem_arrays`) and `hash` the hash
of a slice. -/
def visitWindow (hash : List Nat → Option Nat) (t : List Nat) (st : List Nat × List Tandem) (w : Nat × Nat) :
    Option (List Nat × List Tandem) := do
  let h ← hash ((t.drop w.1).take w.2)
  if h ∈ st.1 then return st
  else
    match extractTandem t w.1 w.2 with
    | some a => return (h :: st.1, st.2 ++ [a])
    | none => return (h :: st.1, st.2)

/-- The body of the loop over the traces, tandem_arrays.rs:104-121. -/
def maximalOfTrace (hash : List Nat → Option Nat) (t : List Nat) (maxLength : Nat) : Option (List Tandem) := do
  return (← (windows t maxLength).foldlM (visitWindow hash t) ([], [])).2

/-- `find_maximal_tandem_arrays_with_length`, tandem_arrays.rs:95-125. -/
def maximalTandems (hash : List Nat → Option Nat) (log : List (List Nat)) (maxLength : Nat) : Option (List (List Tandem)) :=
  log.mapM (fun t => maximalOfTrace hash t maxLength)

/-- The test of an array, tandem_arrays.rs:68-74. -/
def isPrimitive (t : List Nat) (a : Tandem) : Bool :=
  (List.range' 2 ((a.length + 1) / 2 + 1 - 2)).all (fun length => (extractTandem t a.firstPos length).isNone)

/-- `find_primitive_tandem_arrays_with_length`, tandem_arrays.rs:57-85. -/
def primitiveTandems (hash : List Nat → Option Nat) (log : List (List Nat)) (maxLength : Nat) :
    Option (List (List Tandem)) := do
  let arrays ← maximalTandems hash log maxLength
  return (arrays.zip log).map (fun p => p.1.filter (isPrimitive p.2))

/-- `find_maximal_tandem_arrays` and `find_primitive_tandem_arrays`, tandem_arrays.rs:49-55 and 87-93: only the start and the
length of each array. -/
def subArrays (arrays : List (List Tandem)) : List (List (Nat × Nat)) :=
  arrays.map (fun trace => trace.map (fun a => (a.firstPos, a.length)))

end Ficus.Rs
