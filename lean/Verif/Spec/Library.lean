import Verif.Model.Library
import Verif.Spec.Pipeline

/-! What a user is told about the parts of the local pipelines: for each class the values it needs in the context, and
what it does to contexts. Below, how parts combine. Nothing here mentions how a part is executed. -/

namespace Ficus
namespace Library.Spec
open Ficus.Spec
variable {V S : Type}

/-- What a part does to contexts when all needed values are there.

* `shows`: it returns the context that it was given, with the same values;
* `colours`: the same, but there are cached colours afterwards, old ones are kept;
* `puts keys`: it returns the context that it was given, with new values for these keys;
* `derives keys`: it returns a new context with new values for these keys and all other values of the given one, which
  is left as it was;
* `resets keys`: it returns a new context with values for these keys only. -/
inductive Effect
  | shows
  | colours
  | puts (keys : List String)
  | derives (keys : List String)
  | resets (keys : List String)

/-- One line of the table: the needed values, what happens if they are there, and the keys that are put into the given
context before the part fails if they are not there. -/
structure Row where
  needs : List String
  effect : Effect
  early : List String := []

/-- The table of all classes of parts. -/
def row : Cls → Row
  | .emptyStart => { needs := [], effect := .resets [] }
  | .posEntropyDirect | .posEntropyIndirect | .dfgEntropyDirect | .dfgEntropyIndirect
  | .removeByName | .removeByNames | .preprocessNames => { needs := ["log"], effect := .resets ["log"] }
  | .filterByCount | .filterByVariants | .removeByPredicate | .substituteUnderlying =>
    { needs := ["log"], effect := .puts ["log"] }
  | .drawDirectTillEnd | .drawIndirectTillEnd | .tracesHistogram | .entropyHistogram | .posEntropyHistogram
  | .saveEventNames | .printInfo | .printDfg | .preprocessEvents | .applyExtractor | .removeLifecycle | .addArtificial
  | .saveXes | .printUnderlying => { needs := ["log"], effect := .shows }
  | .diversityDiagram | .eventsPlacement | .placementOfEvents => { needs := ["log"], effect := .colours }
  | .activitiesDiagram => { needs := ["log", "traces_activities"], effect := .colours }
  | .drawPatterns => { needs := ["log", "patterns"], effect := .colours }
  | .petriInductive | .petriAlpha | .petriAlphaPlus | .petriHeuristic => { needs := ["log"], effect := .puts ["petri_net"] }
  | .drawPetriNet => { needs := ["petri_net"], effect := .shows }
  | .activityGraph => { needs := ["activities"], effect := .puts ["graph"] }
  | .classGraph => { needs := ["event_class_tree"], effect := .puts ["graph"] }
  | .drawGraph => { needs := ["graph"], effect := .shows }
  | .serializeGraph => { needs := ["graph"], effect := .puts ["serialized_graph"] }
  | .classTree => { needs := ["log"], effect := .puts ["event_class_tree"] }
  | .drawClassTree => { needs := ["event_class_tree"], effect := .shows }
  | .levelGraphs | .drawActivitiesGraph | .printNamesToHashes | .printFound | .saveNames | .printActivities true =>
    { needs := ["activities"], effect := .shows }
  | .printActivities false => { needs := [], effect := .shows }
  | .tandemArrays | .repeats => { needs := ["log"], effect := .puts ["patterns"] }
  | .addAllPatterns => { needs := ["log", "patterns"], effect := .puts ["patterns"] }
  | .repeatSets => { needs := ["log", "patterns"], effect := .puts ["repeat_sets"] }
  | .activities => { needs := ["log", "repeat_sets"], effect := .puts ["activities"] }
  | .inTraces => { needs := ["log", "activities"], effect := .puts ["traces_activities"] }
  | .inUnattached => { needs := ["log", "activities", "traces_activities"], effect := .puts ["traces_activities"] }
  | .logFromActivities => { needs := ["log", "traces_activities"], effect := .puts ["log"] }
  | .printUnattached | .percentage | .tagEvents => { needs := ["log", "traces_activities"], effect := .shows }
  | .singlePlacement => { needs := ["log", "activities", "traces_activities"], effect := .shows }
  | .logsForActivities | .logsWithPromote => { needs := ["log", "traces_activities"], effect := .puts ["activities_logs"] }
  | .saveInstances | .writeIndices => { needs := ["traces_activities"], effect := .shows }
  | .clear =>
    { needs := ["log"], effect := .puts ["activities", "traces_activities", "repeat_sets", "patterns"],
      early := ["activities"] }
  | .fromPatterns _ _ => { needs := ["log"], effect := .derives ["activities", "patterns"] }
  | .discoverTandem _ | .discoverRepeats _ _ =>
    { needs := ["log"], effect := .derives ["activities", "patterns", "traces_activities"] }
  | .adjust _ _ => { needs := ["log"], effect := .puts ["activities", "traces_activities"] }

/-- `DiscoverActivitiesForSeveralLevels`, by the number of class extractors. -/
def levelsRow : Nat → Row
  | 0 => { needs := [], effect := .shows }
  | _ + 1 => row (.adjust true true)

/-- The values of a context. -/
abbrev Values (V : Type) := String → Option V

/-- The values of the context `r` in a world. -/
def vals (w : World V S) (r : Nat) : Values V := fun k => (w.ctx r).get? k

/-- New values for these keys and no others. -/
def Changed (keys : List String) (c c' : Values V) : Prop :=
  (∀ k, k ∉ keys → c' k = c k) ∧ ∀ k ∈ keys, (c' k).isSome

/-- How the run of a part or a pipeline on a context ends. `stops own`: a value is missing; `own` are the values of the
given context at that point. `returns own none`: the given context is returned and has the values `own`.
`returns own (some out)`: another, new context with the values `out` is returned. -/
inductive Ends (V : Type)
  | stops (own : Values V)
  | returns (own : Values V) (out : Option (Values V))

/-- The runs that a line of the table allows on a context with the values `c`. -/
def Row.Allows (row : Row) (c : Values V) : Ends V → Prop
  | .stops own => (∃ k ∈ row.needs, c k = none) ∧ Changed row.early c own
  | .returns own none => (∀ k ∈ row.needs, (c k).isSome) ∧
    match row.effect with
    | .shows => own = c
    | .colours => Changed ["cached_colors"] c own ∧ ∀ a, c "cached_colors" = some a → own "cached_colors" = some a
    | .puts keys => Changed keys c own
    | _ => False
  | .returns own (some out) => (∀ k ∈ row.needs, (c k).isSome) ∧ own = c ∧
    match row.effect with
    | .derives keys => Changed keys c out
    | .resets keys => ∀ k, (out k).isSome ↔ k ∈ keys
    | _ => False

/-- The same end, seen by the owner of a context with the values `own` that was left behind. -/
def Ends.seenFrom (own : Values V) : Ends V → Ends V
  | .stops _ => .stops own
  | .returns o none => .returns own (some o)
  | .returns _ (some o) => .returns own (some o)

/-- One after another: the second gets what the first returns. -/
def Then (A B : Values V → Ends V → Prop) (c : Values V) (e : Ends V) : Prop :=
  (∃ own, A c (.stops own) ∧ e = .stops own) ∨
  (∃ own, A c (.returns own none) ∧ B own e) ∨
  (∃ own out e', A c (.returns own (some out)) ∧ B out e' ∧ e = e'.seenFrom own)

/-- A context with values for exactly these keys. -/
def Exactly (keys : List String) (c : Values V) : Prop := ∀ k, (c k).isSome ↔ k ∈ keys

mutual
/-- What running a part does to a context with the values `c`, in terms of the table. -/
def Does : LPart V S → Values V → Ends V → Prop
  | .one cls _, c, e => (row cls).Allows c e
  | .severalLevels _ _ xs, c, e => (levelsRow xs.length).Allows c e
  | .parallel p ps, c, e => DoesParallel (DoesL p) ps c e
  | .withCopy p, c, e =>
    (∃ own, DoesL p c (.stops own) ∧ e = .stops c) ∨ (∃ own out, DoesL p c (.returns own out) ∧ e = .returns c none)
  | .when _ p, c, e => e = .returns c none ∨ DoesL p c e
  | .beforeAndAfter _ p, c, e => Then (row .printInfo).Allows (Then (DoesL p) (row .printInfo).Allows) c e
  | .eachLog _ p, c, e =>
    (c "activities_logs" = none ∧ e = .stops c) ∨
    ((c "activities_logs").isSome ∧
      (e = .returns c none ∨
        ∃ start own, Exactly ["log", "activity_name_key"] start ∧ DoesL p start (.stops own) ∧ e = .stops c))
/-- The parts of a pipeline run one after another. -/
def DoesL : List (LPart V S) → Values V → Ends V → Prop
  | [], c, e => e = .returns c none
  | p :: ps, c, e => Then (Does p) (DoesL ps) c e
/-- Every pipeline runs on its own copy; the context of the last one is returned. `A` is what the first does. -/
def DoesParallel (A : Values V → Ends V → Prop) : List (List (LPart V S)) → Values V → Ends V → Prop
  | [], c, e => ∃ e', A c e' ∧ e = e'.seenFrom c
  | q :: qs, c, e =>
    (∃ own, A c (.stops own) ∧ e = .stops c) ∨ ((∃ own out, A c (.returns own out)) ∧ DoesParallel (DoesL q) qs c e)
end

/-- The result of a run on the context `r` of the world `w` is one that `D` allows. No other context that existed before
is changed. If no function called by the parts raises (`tot`), the only error is the `ValueError` of a missing value. -/
def Outcome (D : Values V → Ends V → Prop) (tot : Prop) (r : Nat) (w : World V S) :
    Except PyErr Input × World V S → Prop
  | (.ok v, w') => Keeps (fun q => q = r) w w' ∧
    ((v = some r ∧ D (vals w r) (.returns (vals w' r) none)) ∨
      ∃ q, v = some q ∧ w.ctxs.length ≤ q ∧ q < w'.ctxs.length ∧
        D (vals w r) (.returns (vals w' r) (some (vals w' q))))
  | (.error e, w') => Keeps (fun q => q = r) w w' ∧ (tot → e = .valueError ∧ D (vals w r) (.stops (vals w' r)))

/-- The functions of a part never raise. -/
def TotalExt (x : Ext V S) : Prop := ∀ f args s, ∃ a, (x.call f args s).1 = .ok a

mutual
/-- No function or condition of the user's parts raises. -/
def TotalPart : LPart V S → Prop
  | .one _ x => TotalExt x
  | .severalLevels _ _ xs => ∀ x ∈ xs, TotalExt x
  | .parallel p ps => TotalL p ∧ TotalLL ps
  | .withCopy p => TotalL p
  | .when c p => (∀ d s, ∃ b, c d s = .ok b) ∧ TotalL p
  | .beforeAndAfter x p => TotalExt x ∧ TotalL p
  | .eachLog _ p => TotalL p
/-- The same for a pipeline. -/
def TotalL : List (LPart V S) → Prop
  | [] => True
  | p :: ps => TotalPart p ∧ TotalL ps
/-- The same for several pipelines. -/
def TotalLL : List (List (LPart V S)) → Prop
  | [] => True
  | p :: ps => TotalL p ∧ TotalLL ps
end

/-- The keys of the context after a part, given the keys before it; `none` if a needed value is missing. -/
def Row.keysAfter (row : Row) (keys : List String) : Option (List String) :=
  if ∀ k ∈ row.needs, k ∈ keys then
    some (match row.effect with
      | .shows => keys
      | .colours => keys ++ ["cached_colors"]
      | .puts ks => keys ++ ks
      | .derives ks => keys ++ ks
      | .resets ks => ks)
  else none

/-- The keys of the context after a pipeline of parts of these classes; `none` if a value is missing somewhere. -/
def keysAfter : List Cls → List String → Option (List String)
  | [], keys => some keys
  | c :: cs, keys => ((row c).keysAfter keys).bind (keysAfter cs)

end Library.Spec
end Ficus
