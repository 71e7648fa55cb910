import Verif.Model.RsTables

/-! What the data sets of traces and activities are, independent of how the code makes them. -/

namespace Ficus.Rs.Cl

/-- `y` is `x`, an entry of a column, scaled to the range from zero to one; one if all entries of the column are equal. -/
def Scaled (column : List ℚ) (x y : ℚ) : Prop :=
  ∃ low ∈ column, ∃ high ∈ column, (∀ z ∈ column, low ≤ z ∧ z ≤ high) ∧ y = if high = low then 1 else (x - low) / (high - low)

/-- A data set with a row for each name: a column for each class that is counted for some row, in alphabetic order, and in it the
scaled counts. -/
structure IsCountTable (t : Table) (names : List String) (counts : List (String → Nat)) : Prop where
  rows : t.rows = names
  sorted : t.columns.Pairwise (· < ·)
  columns : ∀ c, c ∈ t.columns ↔ ∃ f ∈ counts, 0 < f c
  height : t.values.length = counts.length
  values : ∀ (i : Nat) (f : String → Nat), counts[i]? = some f → ∃ row, t.values[i]? = some row ∧ row.length = t.columns.length ∧
    ∀ (j : Nat) (c : String), t.columns[j]? = some c → ∃ y, row[j]? = some y ∧ Scaled (counts.map (fun g => (g c : ℚ))) (f c) y

/-- The class of a name: without an expression the name, else the part that is matched at its beginning, if there is one. -/
def classOf (find : Option (String → Option (Option Match))) (n : String) : String :=
  match find.bind (fun f => (f n).bind id) with
  | some (0, stop) => String.ofList (n.toList.take stop)
  | _ => n

/-- An event by itself. -/
def topOf {E : Type} : Nested E → E
  | .atom e => e
  | .over e _ => e

mutual
/-- The innermost events below an event. -/
def innermost {E : Type} : Nested E → List E
  | .atom e => [e]
  | .over _ underlying => innermostAll underlying
/-- The innermost events below several events, in their order. -/
def innermostAll {E : Type} : List (Nested E) → List E
  | [] => []
  | e :: es => innermost e ++ innermostAll es
end

/-- The events that stand for a trace: those of it, those directly below, or the innermost ones; an event with none below stands for
itself. -/
def eventsOf {E : Type} (trace : List (Nested E)) : TraceSource → List E
  | .events => trace.map topOf
  | .underlying => trace.flatMap (fun e => match e with
    | .atom e => [e]
    | .over _ underlying => underlying.map topOf)
  | .deepest => innermostAll trace

/-- The words of classes of the traces of a log. -/
def wordsOf {E : Type} [HasName E] (find : Option (String → Option (Option Match))) (source : TraceSource)
    (log : List (List (Nested E))) : List (List String) :=
  log.map (fun t => (eventsOf t source).map (fun e => classOf find (name e)))

/-- A data set with a row for each trace: its classes as numbers, which begin with one and are different for different classes, and
zeros up to the width, which is by one more than the length of the longest trace. -/
structure IsWordTable (t : Table) (words : List (List String)) : Prop where
  rows : t.rows = (List.range words.length).map (fun i => "Trace_" ++ Nat.repr i)
  columns : t.columns = (List.range t.columns.length).map (fun i => "Symbol_" ++ Nat.repr i)
  longer : ∀ w ∈ words, w.length < t.columns.length
  width : t.columns.length = 0 ∨ ∃ w ∈ words, t.columns.length = w.length + 1
  values : ∃ number : String → Nat, (∀ c ∈ words.flatten, 1 ≤ number c ∧ number c ≤ words.flatten.dedup.length) ∧
    (∀ c ∈ words.flatten, ∀ c' ∈ words.flatten, number c = number c' → c = c') ∧
    t.values = words.map (fun w => w.map (fun c => (number c : ℚ)) ++ List.replicate (t.columns.length - w.length) 0)

/-- How often a class counts for an activity with the given events: once if it is there, or the number of events with it, or the
number of the innermost underlying events with it. -/
def occurrences {E : Type} [HasName E] (find : Option (String → Option (Option Match))) (source : ActivitySource)
    (events : List (Nested E)) (c : String) : Nat :=
  match source with
  | .eventClasses => if c ∈ events.map (fun e => classOf find (name (topOf e))) then 1 else 0
  | .subTraces => (events.map (fun e => classOf find (name (topOf e)))).count c
  | .deepest => ((innermostAll events).map (fun e => classOf find (name e))).count c

/-- The events that the repeat set of an activity stands for. -/
def RepeatOf {E : Type} (log : List (List (Nested E))) (node : RNode) (events : List (Nested E)) : Prop :=
  ∃ r t, node.repeatSet = some r ∧ log[r.traceIndex]? = some t ∧ r.firstPos + r.length ≤ t.length ∧
    events = (t.drop r.firstPos).take r.length

end Ficus.Rs.Cl
