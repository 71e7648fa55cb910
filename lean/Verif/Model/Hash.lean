import Verif.Model.Py
import Mathlib.Data.List.Sort

/-! Model of the hash functions of `src/python/ficus/legacy/util.py` and of the equality of events and traces. -/

namespace Ficus

/-- `mod = 10 ** 9 + 7`, util.py:6. -/
def hashMod : Int := 1000000007

/-- `p = 31`, util.py:7. -/
def hashBase : Int := 31

/-- The loop of util.py:20-22 over the remaining characters with `hash_so_far` and `p_pow`.
Simplification: python strings may contain lone surrogates, Lean characters cannot. -/
def stringHashLoop : List Char → Int → Int → Int
  | [], h, _ => h
  | c :: cs, h, pw =>
    stringHashLoop cs ((h + (1 + (c.toNat : Int)) * pw) % hashMod) ((pw * hashBase) % hashMod)

/-- `calculate_string_poly_hash`, util.py:16-24. -/
def stringHash (s : String) : Int := stringHashLoop s.toList 0 1

/-- The loop of util.py:36-38: `n` iterations starting at index `i`. `collection[i]` raises `IndexError` when out of range.
`hash` is python's built-in `hash` restricted to the elements. -/
def collHashLoop {α : Type} (hash : α → Int) (coll : List α) : Nat → Nat → Int → Int → Except PyErr Int
  | 0, _, h, _ => .ok h
  | n + 1, i, h, pw =>
    match coll[i]? with
    | none => .error .indexError
    | some x => collHashLoop hash coll n (i + 1) ((h + (1 + hash x) * pw) % hashMod) ((pw * hashBase) % hashMod)

/-- `calculate_poly_hash_for_collection`, util.py:27-40.
Simplification: only non-negative indices (the callers never pass negative ones). -/
def collHash {α : Type} (hash : α → Int) (coll : List α) (start : Nat := 0) (stop : Option Nat := none) :
    Except PyErr Int :=
  if coll.length = 0 then .ok 0
  else
    let e := stop.getD coll.length
    collHashLoop hash coll (e - start) start 1 1

/-- `calculate_poly_hash_for_collection(collection)` with the default window (util.py:27-40): never raises, so the
value is given directly. `collHashAll_eq` shows the agreement with `collHash`. -/
def collHashAll {α : Type} (hash : α → Int) (coll : List α) : Int :=
  match collHash hash coll with
  | .ok h => h
  | .error _ => 0

/-- The joined strings `str(k) + str(v)` of util.py:44 before sorting; `strK`, `strV` stand for python's `str` on the
keys and values. -/
def joinedPairs {K V : Type} (strK : K → String) (strV : V → String) (d : Dict K V) : List String :=
  d.map (fun kv => strK kv.1 ++ strV kv.2)

/-- `calculate_dict_hash`, util.py:43-45. Python's `sorted` on strings is the stable sort by code points, which is
`List.insertionSort` with the order of `String`. The elements are integers below `mod`, for which `hash` is the identity. -/
def dictHash {K V : Type} (strK : K → String) (strV : V → String) (d : Dict K V) : Int :=
  collHashAll (fun h : Int => h)
    (((joinedPairs strK strV d).insertionSort (fun a b => a ≤ b)).map stringHash)

/-- `MyEvent.__eq__`, log/event_log.py:34-35 with `__hash__` 31-32: equality of hashes. -/
def eventEq {K V : Type} (strK : K → String) (strV : V → String) (d e : Dict K V) : Bool :=
  decide (dictHash strK strV d = dictHash strK strV e)

/-- `MyEventsSequence.__hash__`, log/event_log.py:66-67 (traces inherit it; trace attributes do not take part). -/
def traceHash {K V : Type} (strK : K → String) (strV : V → String) (t : List (Dict K V)) : Int :=
  collHashAll (dictHash strK strV) t

/-- `MyEventsSequence.__eq__`, log/event_log.py:69-70. -/
def traceEq {K V : Type} (strK : K → String) (strV : V → String) (s t : List (Dict K V)) : Bool :=
  decide (traceHash strK strV s = traceHash strK strV t)

/-- `combine_list_of_hashes`, util.py:63-71 with `combine_two_hashes` 59-60; `pairHash` stands for python's `hash` of a
pair of integers. -/
def combineListOfHashes (pairHash : Int → Int → Int) : List Int → Int
  | [] => 0
  | h :: hs => hs.foldl pairHash h

end Ficus
