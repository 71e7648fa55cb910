import Verif.Model.Xes
import Mathlib.Data.List.Forall2

/-! What it means for two logs to have the same content, independent of hashes. -/

namespace Ficus.Spec

/-- Both dictionaries have every key at most once and give the same answer for every key. -/
def SameDict {V : Type} (d e : Dict String V) : Prop := d.WF ∧ e.WF ∧ ∀ k, d.get? k = e.get? k

/-- Position by position the events of the two traces are the same mappings; the attributes of the traces do not matter. -/
def SameEvents (s t : Trace Payload) : Prop := List.Forall₂ SameDict s.events t.events

/-- The logs have the same traces up to the attributes of the traces, and the same attributes, extensions, classifiers and
properties. The insertion orders and the global values do not matter. -/
structure SameContent (a b : Log Payload) : Prop where
  traces : List.Forall₂ SameEvents a.traces b.traces
  attributes : SameDict a.attributes b.attributes
  extensions : SameDict a.extensions b.extensions
  classifiers : SameDict a.classifiers b.classifiers
  properties : SameDict a.properties b.properties

/-- The pairs that are hashed when the numbers of a list are combined one after the other with a hash of pairs. -/
def hashedPairs (pairHash : Int → Int → Int) : Int → List Int → List (Int × Int)
  | _, [] => []
  | h, x :: xs => (h, x) :: hashedPairs pairHash (pairHash h x) xs

end Ficus.Spec
