import Verif.Model.Front

/-! Specification vocabulary for the messages of remote parts. -/

namespace Ficus.Front.Spec
variable {F : Type}

/-- The part without the flag for the canvas. -/
def shown : Show → Show
  | .diversity _ => .diversity false
  | .full _ => .full false
  | .short _ => .short false
  | s => s

/-- The same arguments with another type of floats. -/
def clusterArgs (f32 : F → Nat) (a : ClusterArgs F) : ClusterArgs Nat :=
  ⟨a.level, f32 a.tolerance, a.extractor, a.source, a.distance⟩

/-- What a message keeps of a part: everything but
- the class that draws (on a canvas or not);
- the strategy, for activities from tandem arrays, and the maximal length of arrays, for activities from repeats;
- the maximal length of arrays, for the discovery of activities until there are no more;
- the digits of floats beyond 32 bits. -/
def kept (f32 : F → Nat) : FPart F → FPart Nat
  | .bare b => .bare b
  | .show s u => .show (shown s) u
  | .writeXes path => .writeXes path
  | .writeBxes path => .writeBxes path
  | .minCount n => .minCount n
  | .byName name => .byName name
  | .byRegex regex => .byRegex regex
  | .tandem primitive n e => .tandem primitive n e
  | .maximalRepeats s e => .maximalRepeats s e
  | .superRepeats s e => .superRepeats s e
  | .nearRepeats s e => .nearRepeats s e
  | .discover level => .discover level
  | .instances narrow n filter => .instances narrow n filter
  | .createLog s => .createLog s
  | .levels a => .levels a
  | .fromPatterns .primitiveTandem _ n level => .fromPatterns .primitiveTandem .allTraces n level
  | .fromPatterns .maximalTandem _ n level => .fromPatterns .maximalTandem .allTraces n level
  | .fromPatterns kind s _ level => .fromPatterns kind s 0 level
  | .noMore a => .noMore { a with maxLength := 0 }
  | .noMoreThen a inner => .noMoreThen { a with maxLength := 0 } (inner.map (kept f32))
  | .eachLog source level inner => .eachLog source level (inner.map (kept f32))
  | .extractor e filter => .extractor e filter
  | .kMeans u a k n => .kMeans u (clusterArgs f32 a) k n
  | .grid u a n => .grid u (clusterArgs f32 a) n
  | .dbscan u a n => .dbscan u (clusterArgs f32 a) n
  | .dataset u level e s => .dataset u level e s
  | .clusterTraces u n t d s e inner => .clusterTraces u n (f32 t) d s e (inner.map (kept f32))
  | .heuristic a => .heuristic ⟨f32 a.dependency, a.observations, f32 a.relative, f32 a.andT, f32 a.loopTwo⟩
  | .fuzzy a => .fuzzy ⟨f32 a.unary, f32 a.binary, f32 a.preserve, f32 a.ratio, f32 a.utility, f32 a.edge, f32 a.node⟩
  | .pnml path b => .pnml path b
  | .viewNet u => .viewNet u
  | .viewGraph u => .viewGraph u
  | .annotate k u b => .annotate k u b
  | .placeName u name _ => .placeName u name false
  | .placeRegex u regex _ => .placeRegex u regex false
  | .beforeAfter inner => .beforeAfter (inner.map (kept f32))
  | .other => .other

/-- The kinds of values. -/
inductive Kind | string | uint32 | bool | float | strings | enum (type : String)
  deriving DecidableEq

/-- The kind of a value. -/
def kindOf : Scalar → Kind
  | .string _ => .string
  | .uint32 _ => .uint32
  | .bool _ => .bool
  | .float _ => .float
  | .strings _ => .strings
  | .enum t _ => .enum t

/-- The kind that belongs to a key. -/
def expected : Dict String Kind :=
  [("path", .string), ("event_name", .string), ("regex", .string), ("event_class_regex", .string),
   ("event_classes_regexes", .strings),
   ("events_count", .uint32), ("tandem_array_length", .uint32), ("activity_level", .uint32), ("min_activity_length", .uint32),
   ("clusters_count", .uint32), ("learning_iterations_count", .uint32), ("min_events_in_cluster_count", .uint32),
   ("positive_observations_threshold", .uint32),
   ("execute_only_on_last_extraction", .bool), ("pnml_use_names_as_ids", .bool), ("terminate_on_unreplayable_traces", .bool),
   ("tolerance", .float), ("dependency_threshold", .float), ("relative_to_best_threshold", .float),
   ("and_threshold", .float), ("loop_length_two_threshold", .float), ("unary_frequency_threshold", .float),
   ("binary_frequency_significance_threshold", .float), ("preserve_threshold", .float), ("ratio_threshold", .float),
   ("utility_rate", .float), ("edge_cutoff_threshold", .float), ("node_cutoff_threshold", .float),
   ("narrow_activities", .enum "ActivityNarrowingKind"), ("adjusting_mode", .enum "AdjustingMode"),
   ("patterns_kind", .enum "PatternsKindDto"), ("patterns_discovery_strategy", .enum "PatternsDiscoveryStrategy"),
   ("activity_in_trace_filter_kind", .enum "ActivityInTraceFilterKind"),
   ("undef_activity_handling_strategy", .enum "UndefActivityHandlingStrategyDto"),
   ("activities_logs_source", .enum "ActivitiesLogsSourceDto"),
   ("activities_repr_source", .enum "ActivityRepresentationSource"), ("distance", .enum "FicusDistance"),
   ("traces_repr_source", .enum "TracesRepresentationSource")]

/-- No key occurs twice, every value has the kind that belongs to its key, and numbers fit into 32 bits. -/
def Regular (c : Config) : Prop :=
  (c.map Prod.fst).Nodup ∧ ∀ kv ∈ c, expected.get? kv.1 = some (kindOf kv.2) ∧ ∀ n, kv.2 = .uint32 n → n < 4294967296

/-- All configurations in a message, at any depth, are regular. -/
inductive WellFormed : GPart → Prop
  | default {name c} : Regular c → WellFormed (.default name c)
  | defaultWith {name c inner} : Regular c → (∀ g ∈ inner, WellFormed g) → WellFormed (.defaultWith name c inner)
  | simple {key u} : WellFormed (.simple key u)
  | complex {keys before c u} : Regular c → WellFormed (.complex keys before c u)
  | complexWith {keys before c u inner} : Regular c → (∀ g ∈ inner, WellFormed g) →
      WellFormed (.complexWith keys before c u inner)

/-- The integers that are sent, of the part itself. -/
def ownNumbers : FPart F → List Int
  | .minCount n => [n]
  | .tandem _ n _ => [n]
  | .discover level => [level]
  | .instances _ n _ => [n]
  | .levels a => [a.level, a.minUnattached, a.minActivity, a.maxLength]
  | .fromPatterns .primitiveTandem _ n level => [n, level]
  | .fromPatterns .maximalTandem _ n level => [n, level]
  | .fromPatterns _ _ _ level => [level]
  | .noMore a => [a.level, a.minUnattached, a.minActivity]
  | .noMoreThen a _ => [a.level, a.minUnattached, a.minActivity]
  | .eachLog _ level _ => [level]
  | .kMeans _ a k n => [a.level, k, n]
  | .grid _ a n => [a.level, n]
  | .dbscan _ a n => [a.level, n]
  | .dataset _ level _ _ => [level]
  | .clusterTraces _ n _ _ _ _ _ => [n]
  | .heuristic a => [a.observations]
  | _ => []

/-- The pipeline of a part. -/
def inner : FPart F → List (FPart F)
  | .noMoreThen _ l => l
  | .eachLog _ _ l => l
  | .clusterTraces _ _ _ _ _ _ l => l
  | .beforeAfter l => l
  | _ => []

/-- `Within p q`: `q` is `p` or in a pipeline of it, at any depth. -/
inductive Within : FPart F → FPart F → Prop
  | self {p} : Within p p
  | deeper {p q r} : q ∈ inner p → Within q r → Within p r

/-- The part itself, without the parts in its pipeline, can be sent. -/
def Sendable (p : FPart F) : Prop :=
  (∀ n ∈ ownNumbers p, 0 ≤ n ∧ n < 4294967296) ∧ p ≠ .other ∧ ∀ l, p ≠ .beforeAfter l

end Ficus.Front.Spec
