import Verif.Model.Log

/-! Model of the text format of `src/python/ficus/legacy/log/functions.py` (161-212).
Strings are lists of characters here. -/

namespace Ficus

/-- The scan of `str.split(sep)` for a non-empty separator: `skip` characters of the separator remain to be skipped, `cur`
is the piece read so far. Models the python built-in (leftmost, non-overlapping occurrences). -/
def splitLoop (sep : List Char) : Nat → List Char → List Char → List (List Char)
  | _, cur, [] => [cur]
  | skip + 1, cur, _ :: cs => splitLoop sep skip cur cs
  | 0, cur, c :: cs =>
    if sep.isPrefixOf (c :: cs) then cur :: splitLoop sep (sep.length - 1) [] cs
    else splitLoop sep 0 (cur ++ [c]) cs

/-- `str.split(sep)`; an empty separator raises `ValueError`. -/
def pySplit (sep s : List Char) : Except PyErr (List (List Char)) :=
  if sep = [] then .error .valueError else .ok (splitLoop sep 0 [] s)

/-- `parse_trace_from_string`, functions.py:175-181. An event that only has a name is represented by its name. -/
def parseTraceFromString (sep s : List Char) : Except PyErr (Trace String) := do
  let parts ← pySplit sep s
  return { events := parts.map String.ofList }

/-- `parse_log_from_strings`, functions.py:161-166. -/
def parseLogFromStrings (sep : List Char) : List (List Char) → Except PyErr (List (Trace String))
  | [] => .ok []
  | s :: ss => do
    let t ← parseTraceFromString sep s
    let ts ← parseLogFromStrings sep ss
    return t :: ts

/-- The inner loop of `serialize_log`, functions.py:189-193, from event index `i` on. -/
def serializeEvents {E : Type} [HasName E] (esep : List Char) : Nat → List Char → List E → List Char
  | _, result, [] => result
  | i, result, e :: es =>
    let result := if i > 0 then result ++ esep else result
    serializeEvents esep (i + 1) (result ++ (name e).toList) es

/-- The outer loop of `serialize_log`, functions.py:188-196, from trace index `i` on; `n` is `len(log)`. -/
def serializeTraces {E : Type} [HasName E] (tsep esep : List Char) (n : Nat) :
    Nat → List Char → List (List E) → List Char
  | _, result, [] => result
  | i, result, t :: ts =>
    let result := serializeEvents esep 0 result t
    let result := if i + 1 < n then result ++ tsep else result
    serializeTraces tsep esep n (i + 1) result ts

/-- `serialize_log`, functions.py:184-198. (`trace_index < len(log) - 1` is written `i + 1 < n`.) -/
def serializeLog {E : Type} [HasName E] (log : Log E) (tsep : List Char := ['\n']) (esep : List Char := [',']) :
    List Char :=
  serializeTraces tsep esep log.evs.length 0 [] log.evs

/-- `serialize_logs`, functions.py:201-212, from log index `i` on. -/
def serializeLogsLoop {E : Type} [HasName E] (lsep tsep esep : List Char) : Nat → List Char → List (Log E) → List Char
  | _, result, [] => result
  | i, result, l :: ls =>
    let result := if i > 0 then result ++ lsep else result
    serializeLogsLoop lsep tsep esep (i + 1) (result ++ serializeLog l tsep esep) ls

/-- `serialize_logs`, functions.py:201-212. -/
def serializeLogs {E : Type} [HasName E] (logs : List (Log E)) (lsep : List Char := ['\n', '\n'])
    (tsep : List Char := ['\n']) (esep : List Char := [',']) : List Char :=
  serializeLogsLoop lsep tsep esep 0 [] logs

end Ficus
