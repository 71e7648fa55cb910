import Verif.Model.Hash
import Verif.Model.Xes

/-! Model of the equality of logs, log/event_log.py:106-115. -/

namespace Ficus

/-- Python's `str` on the values that take part in the hash of a log: attribute values, the dictionary of an extension, the
list of attribute names of a classifier. The keys and the attributes of a log are strings, on which `str` is the identity. -/
structure Strs where
  value : Val → String
  extension : Dict String String → String
  classifier : List String → String

/-- `MyEventLog.__hash__`, log/event_log.py:106-112; `pairHash` stands for python's `hash` of a pair of integers
(`combine_two_hashes`, util.py:59-60). The hash of a trace is that of `MyEventsSequence.__hash__`, 66-67. -/
def logHash (pairHash : Int → Int → Int) (str : Strs) (log : Log Payload) : Int :=
  let h := combineListOfHashes pairHash (log.traces.map (fun t => traceHash (fun s => s) str.value t.events))
  let h := pairHash h (dictHash (fun s => s) (fun s => s) log.attributes)
  let h := pairHash h (dictHash (fun s => s) str.extension log.extensions)
  let h := pairHash h (dictHash (fun s => s) str.classifier log.classifiers)
  pairHash h (dictHash (fun s => s) str.value log.properties)

/-- `MyEventLog.__eq__`, log/event_log.py:114-115. -/
def logEq (pairHash : Int → Int → Int) (str : Strs) (a b : Log Payload) : Bool :=
  decide (logHash pairHash str a = logHash pairHash str b)

end Ficus
