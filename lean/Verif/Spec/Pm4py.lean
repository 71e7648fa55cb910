import Verif.Spec.Heap
import Verif.Model.Pm4py

/-! Specification vocabulary for conversions of logs. -/

namespace Ficus.Spec

/-- A python dictionary has no key twice: all payloads of the log are dictionaries. -/
def RealPayloads (h : Heap) (l : Nat) : Prop := ∀ t ∈ (h.viewLog l).traces, ∀ p ∈ t.events, Dict.WF p

/-- The log consists of objects that did not exist in the first heap and exist in the second, and no trace object and no
event object is used in two places. -/
structure OwnObjects (before after : Heap) (l : Nat) : Prop where
  fresh : ∀ c, Owns after l c → ¬ InHeap before c
  sound : Sound after l
  traces : (after.logObj l).traces.Nodup
  events : (after.eventRefs l).Nodup

end Ficus.Spec
