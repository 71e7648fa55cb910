import Verif.Spec.Front

/-! A reader of messages: from the names and keys it reconstructs what was sent. -/

namespace Ficus.Front
open Spec

/-! ### Reading values -/

def readStr (c : Config) (k : String) : Option String :=
  match Dict.get? c k with
  | some (.string s) => some s
  | _ => none
def readInt (c : Config) (k : String) : Option Int :=
  match Dict.get? c k with
  | some (.uint32 n) => some (n : Int)
  | _ => none
def readBool (c : Config) (k : String) : Option Bool :=
  match Dict.get? c k with
  | some (.bool b) => some b
  | _ => none
def readFloat (c : Config) (k : String) : Option Nat :=
  match Dict.get? c k with
  | some (.float b) => some b
  | _ => none
def readStrings (c : Config) (k : String) : Option (List String) :=
  match Dict.get? c k with
  | some (.strings l) => some l
  | _ => none
def readEnum {A : Type} (c : Config) (k : String) (name : A → String) (all : List A) : Option A :=
  match Dict.get? c k with
  | some (.enum _ v) => all.find? (fun a => name a == v)
  | _ => none

def allStrategies : List Strategy := [.allTraces, .mergedTrace]
def allKinds : List PatternsKind :=
  [.primitiveTandem, .maximalTandem, .maximalRepeats, .superMaximalRepeats, .nearSuperMaximalRepeats]
def allNarrows : List Narrow := [.dont, .stay, .up, .down]
def allFilters : List FilterKind := [.none, .default]
def allLogsSources : List LogsSource := [.log, .tracesActivities]
def allReprs : List ReprSource := [.eventClasses, .subTraces, .subTracesUnderlying]
def allDistances : List Distance := [.cosine, .l1, .l2, .levenshtein]
def allTracesSources : List TracesSource := [.events, .underlying, .deepest]
def allAdjustings : List Adjusting := [.unattached, .allLog]
def allUndefs : List Undef := [.dont, .single, .all]
def allBares : List Bare := [.readXes, .readBxes, .useNames, .variants, .startEnd, .start, .end, .substitute, .clear, .alpha,
  .alphaPlus, .alphaPlusPlus, .alphaPlusPlusNfc, .initialMarking]
def allShows : List Show := [.names, .info, .underlying, .follows, .diversity false, .full false, .short false]

theorem find_strategy (x : Strategy) : allStrategies.find? (fun a => a.name == x.name) = some x := by cases x <;> decide
theorem find_kind (x : PatternsKind) : allKinds.find? (fun a => a.name == x.name) = some x := by cases x <;> decide
theorem find_narrow (x : Narrow) : allNarrows.find? (fun a => a.name == x.name) = some x := by cases x <;> decide
theorem find_filter (x : FilterKind) : allFilters.find? (fun a => a.name == x.name) = some x := by cases x <;> decide
theorem find_logsSource (x : LogsSource) : allLogsSources.find? (fun a => a.name == x.name) = some x := by cases x <;> decide
theorem find_repr (x : ReprSource) : allReprs.find? (fun a => a.name == x.name) = some x := by cases x <;> decide
theorem find_distance (x : Distance) : allDistances.find? (fun a => a.name == x.name) = some x := by cases x <;> decide
theorem find_tracesSource (x : TracesSource) : allTracesSources.find? (fun a => a.name == x.name) = some x := by
  cases x <;> decide
theorem find_adjusting (x : Adjusting) : allAdjustings.find? (fun a => a.name == x.name) = some x := by cases x <;> decide
theorem find_undef (x : Undef) : allUndefs.find? (fun a => a.name == x.name) = some x := by cases x <;> decide
theorem find_bare (x : Bare) : allBares.find? (fun a => a.name == x.name) = some x := by cases x <;> decide
theorem find_show (x : Show) : allShows.find? (fun a => a.request.2 == x.request.2) = some (shown x) := by
  cases x with
  | diversity c => cases c <;> decide
  | full c => cases c <;> decide
  | short c => cases c <;> decide
  | _ => decide

def readRepeats (c : Config) (make : Strategy → Option String → FPart Nat) : Option (FPart Nat) :=
  (readEnum c "patterns_discovery_strategy" Strategy.name allStrategies).map (fun s => make s (readStr c "event_class_regex"))

def readNoMore (c : Config) : Option NoMoreArgs := do
  return { eventClass := readStr c "event_class_regex", kind := ← readEnum c "patterns_kind" PatternsKind.name allKinds,
           narrow := ← readEnum c "narrow_activities" Narrow.name allNarrows, level := ← readInt c "activity_level",
           strategy := ← readEnum c "patterns_discovery_strategy" Strategy.name allStrategies,
           undef := ← readEnum c "undef_activity_handling_strategy" Undef.name allUndefs, maxLength := 0,
           adjusting := ← readEnum c "adjusting_mode" Adjusting.name allAdjustings,
           minUnattached := ← readInt c "events_count", minActivity := ← readInt c "min_activity_length",
           filter := ← readEnum c "activity_in_trace_filter_kind" FilterKind.name allFilters,
           onlyLast := ← readBool c "execute_only_on_last_extraction" }

def readLevels (c : Config) : Option LevelsArgs := do
  return { classes := ← readStrings c "event_classes_regexes", kind := ← readEnum c "patterns_kind" PatternsKind.name allKinds,
           narrow := ← readEnum c "narrow_activities" Narrow.name allNarrows, level := ← readInt c "activity_level",
           strategy := ← readEnum c "patterns_discovery_strategy" Strategy.name allStrategies,
           maxLength := ← readInt c "tandem_array_length",
           adjusting := ← readEnum c "adjusting_mode" Adjusting.name allAdjustings,
           minUnattached := ← readInt c "events_count", minActivity := ← readInt c "min_activity_length",
           filter := ← readEnum c "activity_in_trace_filter_kind" FilterKind.name allFilters }

def readCluster (c : Config) : Option (ClusterArgs Nat) := do
  return { level := ← readInt c "activity_level", tolerance := ← readFloat c "tolerance",
           extractor := readStr c "event_class_regex",
           source := ← readEnum c "activities_repr_source" ReprSource.name allReprs,
           distance := ← readEnum c "distance" Distance.name allDistances }

def readHeuristic (c : Config) : Option (HeuristicArgs Nat) := do
  return ⟨← readFloat c "dependency_threshold", ← readInt c "positive_observations_threshold",
    ← readFloat c "relative_to_best_threshold", ← readFloat c "and_threshold", ← readFloat c "loop_length_two_threshold"⟩

def readFuzzy (c : Config) : Option (FuzzyArgs Nat) := do
  return ⟨← readFloat c "unary_frequency_threshold", ← readFloat c "binary_frequency_significance_threshold",
    ← readFloat c "preserve_threshold", ← readFloat c "ratio_threshold", ← readFloat c "utility_rate",
    ← readFloat c "edge_cutoff_threshold", ← readFloat c "node_cutoff_threshold"⟩

/-- A default part without pipeline. -/
def readPlain (name : String) (c : Config) : Option (FPart Nat) :=
  match allBares.find? (fun b => b.name == name) with
  | some b => some (.bare b)
  | none =>
    if name = "WriteLogToXes" then (readStr c "path").map .writeXes
    else if name = "WriteLogToBxes" then (readStr c "path").map .writeBxes
    else if name = "FilterTracesByEventsCount" then (readInt c "events_count").map .minCount
    else if name = "FilterEventsByName" then (readStr c "event_name").map .byName
    else if name = "FilterEventsByRegex" then (readStr c "regex").map .byRegex
    else if name = "FindPrimitiveTandemArrays" then
      (readInt c "tandem_array_length").map (fun n => .tandem true n (readStr c "event_class_regex"))
    else if name = "FindMaximalTandemArrays" then
      (readInt c "tandem_array_length").map (fun n => .tandem false n (readStr c "event_class_regex"))
    else if name = "FindMaximalRepeats" then readRepeats c .maximalRepeats
    else if name = "FindSuperMaximalRepeats" then readRepeats c .superRepeats
    else if name = "FindNearSuperMaximalRepeats" then readRepeats c .nearRepeats
    else if name = "DiscoverActivities" then (readInt c "activity_level").map .discover
    else if name = "DiscoverActivitiesInstances" then do
      return .instances (← readEnum c "narrow_activities" Narrow.name allNarrows) (← readInt c "min_activity_length")
        (← readEnum c "activity_in_trace_filter_kind" FilterKind.name allFilters)
    else if name = "CreateLogFromActivities" then
      (readEnum c "undef_activity_handling_strategy" Undef.name allUndefs).map .createLog
    else if name = "DiscoverActivitiesForSeveralLevels" then (readLevels c).map .levels
    else if name = "DiscoverActivitiesUntilNoMore" then (readNoMore c).map .noMore
    else if name = "ApplyClassExtractor" then do return .extractor (← readStr c "event_class_regex") (← readStr c "regex")
    else if name = "DiscoverPetriNetHeuristic" then (readHeuristic c).map .heuristic
    else if name = "DiscoverFuzzyGraph" then (readFuzzy c).map .fuzzy
    else if name = "SerializePetriNet" then do return .pnml (← readStr c "path") (← readBool c "pnml_use_names_as_ids")
    else none

/-- The frontend pipeline of two parts, of which the first tells the kind of the patterns. -/
def readFrontend : List GPart → Option (FPart Nat)
  | [.default a c, .default _ d] =>
    if a = "FindMaximalRepeats" then do
      return .fromPatterns .maximalRepeats (← readEnum c "patterns_discovery_strategy" Strategy.name allStrategies) 0
        (← readInt d "activity_level")
    else if a = "FindSuperMaximalRepeats" then do
      return .fromPatterns .superMaximalRepeats (← readEnum c "patterns_discovery_strategy" Strategy.name allStrategies) 0
        (← readInt d "activity_level")
    else if a = "FindNearSuperMaximalRepeats" then do
      return .fromPatterns .nearSuperMaximalRepeats (← readEnum c "patterns_discovery_strategy" Strategy.name allStrategies) 0
        (← readInt d "activity_level")
    else if a = "FindPrimitiveTandemArrays" then do
      return .fromPatterns .primitiveTandem .allTraces (← readInt c "tandem_array_length") (← readInt d "activity_level")
    else do
      return .fromPatterns .maximalTandem .allTraces (← readInt c "tandem_array_length") (← readInt d "activity_level")
  | _ => none

/-- A request without pipeline. -/
def readComplex (name : String) (c : Config) (u : Uuid) : Option (FPart Nat) :=
  match allShows.find? (fun s => s.request.2 == name) with
  | some s => some (.show s u)
  | none =>
    if name = "ClusterizeActivitiesFromTracesKMeans" then do
      return .kMeans u (← readCluster c) (← readInt c "clusters_count") (← readInt c "learning_iterations_count")
    else if name = "ClusterizeActivitiesFromTracesKMeansGridSearch" then do
      return .grid u (← readCluster c) (← readInt c "learning_iterations_count")
    else if name = "ClusterizeActivitiesFromTracesDbscan" then do
      return .dbscan u (← readCluster c) (← readInt c "min_events_in_cluster_count")
    else if name = "CreateTracesActivitiesDataset" then do
      return .dataset u (← readInt c "activity_level") (readStr c "event_class_regex")
        (← readEnum c "activities_repr_source" ReprSource.name allReprs)
    else if name = "AnnotatePetriNetWithCount" then (readBool c "terminate_on_unreplayable_traces").map (.annotate .count u)
    else if name = "AnnotatePetriNetWithFrequency" then
      (readBool c "terminate_on_unreplayable_traces").map (.annotate .frequency u)
    else if name = "AnnotatePetriNetWithTraceFrequency" then
      (readBool c "terminate_on_unreplayable_traces").map (.annotate .traceFrequency u)
    else if name = "DrawPlacementOfEventByName" then (readStr c "event_name").map (fun n => .placeName u n false)
    else if name = "DrawPlacementOfEventsByRegex" then (readStr c "regex").map (fun n => .placeRegex u n false)
    else none

mutual
/-- Reads a message. -/
def decode : GPart → Option (FPart Nat)
  | .default name c => readPlain name c
  | .defaultWith name c inner =>
    if name = "ExecuteFrontendPipeline" then readFrontend inner
    else if name = "DiscoverActivitiesUntilNoMore" then do
      return .noMoreThen (← readNoMore c) (← decodeAll inner)
    else do
      return .eachLog (← readEnum c "activities_logs_source" LogsSource.name allLogsSources) (← readInt c "activity_level")
        (← decodeAll inner)
  | .simple key u => if key = "petri_net" then some (.viewNet u) else some (.viewGraph u)
  | .complex _ before c u => readComplex before c u
  | .complexWith _ _ c u inner => do
      return .clusterTraces u (← readInt c "min_events_in_cluster_count") (← readFloat c "tolerance")
        (← readEnum c "distance" Distance.name allDistances)
        (← readEnum c "traces_repr_source" TracesSource.name allTracesSources) (readStr c "event_class_regex")
        (← decodeAll inner)
/-- Reads the messages of a pipeline. -/
def decodeAll : List GPart → Option (List (FPart Nat))
  | [] => some []
  | g :: gs => do return (← decode g) :: (← decodeAll gs)
end

/-! ### Configurations -/

theorem u32_ok {k : String} {n : Int} {x : String × Scalar} :
    u32 k n = .ok x ↔ (0 ≤ n ∧ n < 4294967296) ∧ x = (k, .uint32 n.toNat) := by
  unfold u32
  split <;> rename_i h
  · simp only [Except.ok.injEq]
    constructor
    · rintro rfl; exact ⟨by omega, rfl⟩
    · rintro ⟨_, rfl⟩; rfl
  · simp only [reduceCtorEq, false_iff, not_and]
    intro h'; omega

theorem build_nil_ok {c : Config} : build [] = .ok c ↔ c = [] := by
  simp [build, eq_comm]

theorem build_cons_ok {e : Entry} {l : List Entry} {c : Config} :
    build (e :: l) = .ok c ↔ ∃ x c', e = .ok x ∧ build l = .ok c' ∧ c = x :: c' := by
  cases e with
  | error e => simp [build]
  | ok x =>
    cases h : build l with
    | error e => simp [build, h, Except.map]
    | ok c' =>
      simp only [build, h, Except.map, Except.ok.injEq]
      constructor
      · rintro rfl; exact ⟨x, c', rfl, rfl, rfl⟩
      · rintro ⟨_, _, rfl, rfl, rfl⟩; rfl

theorem map_ok {A B : Type} {x : Except PyErr A} {f : A → B} {b : B} : x.map f = .ok b ↔ ∃ a, x = .ok a ∧ b = f a := by
  cases x with
  | error e => simp [Except.map]
  | ok a => simp [Except.map, eq_comm]

theorem bind_ok {A B : Type} {x : Except PyErr A} {f : A → Except PyErr B} {b : B} :
    (x >>= f) = .ok b ↔ ∃ a, x = .ok a ∧ f a = .ok b := by
  cases x with
  | error e => simp [bind, Except.bind]
  | ok a => simp [bind, Except.bind]

theorem pure_ok {A : Type} {a b : A} : (pure a : Except PyErr A) = .ok b ↔ b = a := by
  simp [pure, Except.pure, eq_comm]

variable {F : Type}

theorem toNat_cast {n : Int} (h : 0 ≤ n ∧ n < 4294967296) : ((n.toNat : Nat) : Int) = n := Int.toNat_of_nonneg h.1

theorem build_ok {l : List Entry} {c : Config} :
    build l = .ok c ↔ (∀ e ∈ l, ∃ x, e = .ok x) ∧ c = l.filterMap Except.toOption := by
  induction l generalizing c with
  | nil => simp [build_nil_ok]
  | cons e l ih =>
    rw [build_cons_ok]
    constructor
    · rintro ⟨x, c', rfl, h, rfl⟩
      obtain ⟨h1, rfl⟩ := ih.1 h
      refine ⟨?_, by simp [Except.toOption]⟩
      intro e he
      rcases List.mem_cons.1 he with rfl | he
      · exact ⟨x, rfl⟩
      · exact h1 e he
    · rintro ⟨h1, rfl⟩
      obtain ⟨x, rfl⟩ := h1 e (by simp)
      exact ⟨x, _, rfl, ih.2 ⟨fun e he => h1 e (by simp [he]), rfl⟩, by simp [Except.toOption]⟩

theorem u32_exists {k : String} {n : Int} : (∃ x, u32 k n = .ok x) ↔ (0 ≤ n ∧ n < 4294967296) := by
  simp [u32_ok]

theorem u32_option {k : String} {n : Int} (h : 0 ≤ n ∧ n < 4294967296) :
    (u32 k n).toOption = some (k, .uint32 n.toNat) := by
  rw [u32_ok.2 ⟨h, rfl⟩]; rfl

theorem ok_exists {A : Type} {a : A} : (∃ x, (Except.ok a : Except PyErr A) = .ok x) ↔ True := by simp

theorem fm_nil : ([] : List Entry).filterMap Except.toOption = [] := rfl

theorem fm_ok {x : String × Scalar} {l : List Entry} :
    ((.ok x : Entry) :: l).filterMap Except.toOption = x :: l.filterMap Except.toOption := by
  simp [Except.toOption]

theorem fm_u32 {k : String} {n : Int} {l : List Entry} (h : 0 ≤ n ∧ n < 4294967296) :
    (u32 k n :: l).filterMap Except.toOption = (k, .uint32 n.toNat) :: l.filterMap Except.toOption := by
  simp [u32_option h]

macro "read_message" h:ident : tactic => `(tactic| (
  simp only [FPart.part, RPart.toGrpc, map_ok, bind_ok, pure_ok, build_ok, str, flag, enum, flt,
    narrowEntry, adjustingEntry, kindEntry, strategyEntry, filterEntry, undefEntry, tandemConfig, repeatsConfig,
    discoverConfig, instancesConfig, levelsConfig, noMoreConfig, commonEntries, kMeansConfig, gridConfig, dbscanConfig,
    datasetConfig, clusterTracesConfig, heuristicConfig, fuzzyConfig, optStr, List.cons_append, List.nil_append,
    List.forall_mem_cons, List.forall_mem_nil, u32_exists, ok_exists, true_and, and_true] at $h:ident))

macro "read_back" h:ident : tactic => `(tactic| (
  simp [-Int.ofNat_toNat, toNat_cast, decode, readPlain, readComplex, readFrontend, readRepeats, readNoMore, readLevels,
    readCluster, readHeuristic, readFuzzy, allBares, Bare.name, allShows, Show.request, fm_nil, fm_ok, fm_u32, $h:ident,
    readStr, readStrings, readInt, readEnum, readBool, readFloat, Dict.get?, find_kind, find_narrow, find_strategy,
    find_adjusting, find_filter, find_undef, find_repr, find_distance, find_tracesSource, find_logsSource, kept, shown,
    clusterArgs]))

mutual
/-- Reading the message of a part gives what the message keeps. -/
theorem decode_message (f32 : F → Nat) : ∀ (p : FPart F) (g : GPart), (p.part f32).toGrpc = .ok g → decode g = some (kept f32 p)
  | .bare b, g, h => by
    read_message h
    obtain ⟨_, hc, rfl⟩ := h
    cases hc
    simp [decode, readPlain, find_bare, kept]
  | .show s u, g, h => by
    read_message h
    obtain ⟨_, hc, rfl⟩ := h
    cases hc
    simp [decode, readComplex, find_show, kept]
  | .writeXes path, g, h => by read_message h; obtain ⟨_, ⟨hn, rfl⟩, rfl⟩ := h; read_back hn
  | .writeBxes path, g, h => by read_message h; obtain ⟨_, ⟨hn, rfl⟩, rfl⟩ := h; read_back hn
  | .minCount n, g, h => by read_message h; obtain ⟨_, ⟨hn, rfl⟩, rfl⟩ := h; read_back hn
  | .byName n, g, h => by read_message h; obtain ⟨_, ⟨hn, rfl⟩, rfl⟩ := h; read_back hn
  | .byRegex n, g, h => by read_message h; obtain ⟨_, ⟨hn, rfl⟩, rfl⟩ := h; read_back hn
  | .tandem pr n e, g, h => by
    cases e <;> cases pr <;> read_message h <;> obtain ⟨_, ⟨hn, rfl⟩, rfl⟩ := h <;> read_back hn
  | .maximalRepeats s e, g, h => by cases e <;> read_message h <;> obtain ⟨_, ⟨hn, rfl⟩, rfl⟩ := h <;> read_back hn
  | .superRepeats s e, g, h => by cases e <;> read_message h <;> obtain ⟨_, ⟨hn, rfl⟩, rfl⟩ := h <;> read_back hn
  | .nearRepeats s e, g, h => by cases e <;> read_message h <;> obtain ⟨_, ⟨hn, rfl⟩, rfl⟩ := h <;> read_back hn
  | .discover n, g, h => by read_message h; obtain ⟨_, ⟨hn, rfl⟩, rfl⟩ := h; read_back hn
  | .instances a n f, g, h => by read_message h; obtain ⟨_, ⟨hn, rfl⟩, rfl⟩ := h; read_back hn
  | .createLog s, g, h => by read_message h; obtain ⟨_, ⟨hn, rfl⟩, rfl⟩ := h; read_back hn
  | .levels a, g, h => by read_message h; obtain ⟨_, ⟨hn, rfl⟩, rfl⟩ := h; read_back hn
  | .fromPatterns k s n level, g, h => by
    cases k <;> read_message h <;> simp only [fromPatternsParts, bind_ok, map_ok, pure_ok] at h <;> read_message h
    all_goals
      obtain ⟨_, ⟨_, ⟨_, ⟨hn, rfl⟩, rfl⟩, _, ⟨hm, rfl⟩, rfl⟩, rfl⟩ := h
      have hb := And.intro hn hm
      read_back hb
  | .noMore a, g, h => by
    obtain ⟨ec, _⟩ := a
    cases ec <;> read_message h <;> obtain ⟨_, ⟨hn, rfl⟩, rfl⟩ := h <;> read_back hn
  | .noMoreThen a l, g, h => by
    obtain ⟨ec, _⟩ := a
    cases ec <;> read_message h <;> obtain ⟨_, ⟨hn, rfl⟩, gs, hgs, rfl⟩ := h <;> have := decode_messages f32 l gs hgs <;>
      read_back hn <;> simp [this]
  | .eachLog s n l, g, h => by
    read_message h; obtain ⟨_, ⟨hn, rfl⟩, gs, hgs, rfl⟩ := h; have := decode_messages f32 l gs hgs; read_back hn; simp [this]
  | .extractor a b, g, h => by read_message h; obtain ⟨_, ⟨hn, rfl⟩, rfl⟩ := h; read_back hn
  | .kMeans u a k n, g, h => by
    obtain ⟨_, _, ec, _⟩ := a
    cases ec <;> read_message h <;> obtain ⟨_, ⟨hn, rfl⟩, rfl⟩ := h <;> read_back hn
  | .grid u a n, g, h => by
    obtain ⟨_, _, ec, _⟩ := a
    cases ec <;> read_message h <;> obtain ⟨_, ⟨hn, rfl⟩, rfl⟩ := h <;> read_back hn
  | .dbscan u a n, g, h => by
    obtain ⟨_, _, ec, _⟩ := a
    cases ec <;> read_message h <;> obtain ⟨_, ⟨hn, rfl⟩, rfl⟩ := h <;> read_back hn
  | .dataset u n e s, g, h => by cases e <;> read_message h <;> obtain ⟨_, ⟨hn, rfl⟩, rfl⟩ := h <;> read_back hn
  | .clusterTraces u n t d s e l, g, h => by
    cases e <;> read_message h <;> obtain ⟨_, ⟨hn, rfl⟩, gs, hgs, rfl⟩ := h <;> have := decode_messages f32 l gs hgs <;>
      read_back hn <;> simp [this]
  | .heuristic a, g, h => by read_message h; obtain ⟨_, ⟨hn, rfl⟩, rfl⟩ := h; read_back hn
  | .fuzzy a, g, h => by read_message h; obtain ⟨_, ⟨hn, rfl⟩, rfl⟩ := h; read_back hn
  | .pnml a b, g, h => by read_message h; obtain ⟨_, ⟨hn, rfl⟩, rfl⟩ := h; read_back hn
  | .viewNet u, g, h => by simp only [FPart.part, RPart.toGrpc, Except.ok.injEq] at h; subst h; simp [decode, kept]
  | .viewGraph u, g, h => by simp only [FPart.part, RPart.toGrpc, Except.ok.injEq] at h; subst h; simp [decode, kept]
  | .annotate k u b, g, h => by
    cases k <;> read_message h <;> simp only [Annotation.request] at h <;> obtain ⟨_, ⟨hn, rfl⟩, rfl⟩ := h <;> read_back hn
  | .placeName u n c, g, h => by read_message h; obtain ⟨_, ⟨hn, rfl⟩, rfl⟩ := h; read_back hn
  | .placeRegex u n c, g, h => by read_message h; obtain ⟨_, ⟨hn, rfl⟩, rfl⟩ := h; read_back hn
  | .beforeAfter l, g, h => by
    simp only [FPart.part, RPart.toGrpc, bind_ok] at h
    obtain ⟨_, _, h⟩ := h
    cases h
  | .other, g, h => by simp [FPart.part, RPart.toGrpc] at h
/-- Reading the messages of a pipeline. -/
theorem decode_messages (f32 : F → Nat) : ∀ (ps : List (FPart F)) (gs : List GPart), toGrpcPipeline (parts f32 ps) = .ok gs →
    decodeAll gs = some (ps.map (kept f32))
  | [], gs, h => by simp only [parts, toGrpcPipeline, Except.ok.injEq] at h; subst h; rfl
  | p :: ps, gs, h => by
    simp only [parts, toGrpcPipeline, bind_ok, pure_ok] at h
    obtain ⟨g, hg, gs', hgs, rfl⟩ := h
    simp [decodeAll, decode_message f32 p g hg, decode_messages f32 ps gs' hgs]
end

/-! ### The message depends only on what it keeps -/

mutual
theorem message_kept (f32 : F → Nat) : ∀ p : FPart F, (p.part f32).toGrpc = ((kept f32 p).part id).toGrpc
  | .bare b => by simp [kept, FPart.part]
  | .show s u => by cases s <;> simp [kept, FPart.part, shown, Show.request]
  | .writeXes path => by simp [kept, FPart.part]
  | .writeBxes path => by simp [kept, FPart.part]
  | .minCount n => by simp [kept, FPart.part]
  | .byName n => by simp [kept, FPart.part]
  | .byRegex n => by simp [kept, FPart.part]
  | .tandem pr n e => by simp [kept, FPart.part]
  | .maximalRepeats s e => by simp [kept, FPart.part]
  | .superRepeats s e => by simp [kept, FPart.part]
  | .nearRepeats s e => by simp [kept, FPart.part]
  | .discover n => by simp [kept, FPart.part]
  | .instances a n f => by simp [kept, FPart.part]
  | .createLog s => by simp [kept, FPart.part]
  | .levels a => by simp [kept, FPart.part]
  | .fromPatterns k s n level => by cases k <;> simp [kept, FPart.part, fromPatternsParts]
  | .noMore a => by simp [kept, FPart.part, noMoreConfig]
  | .noMoreThen a l => by simp [kept, FPart.part, noMoreConfig, RPart.toGrpc, messages_kept f32 l]
  | .eachLog s n l => by simp [kept, FPart.part, RPart.toGrpc, messages_kept f32 l]
  | .extractor a b => by simp [kept, FPart.part]
  | .kMeans u a k n => by simp [kept, FPart.part, kMeansConfig, commonEntries, clusterArgs, flt]
  | .grid u a n => by simp [kept, FPart.part, gridConfig, commonEntries, clusterArgs, flt]
  | .dbscan u a n => by simp [kept, FPart.part, dbscanConfig, commonEntries, clusterArgs, flt]
  | .dataset u n e s => by simp [kept, FPart.part]
  | .clusterTraces u n t d s e l => by
    simp [kept, FPart.part, clusterTracesConfig, flt, RPart.toGrpc, messages_kept f32 l]
  | .heuristic a => by simp [kept, FPart.part, heuristicConfig, flt]
  | .fuzzy a => by simp [kept, FPart.part, fuzzyConfig, flt]
  | .pnml a b => by simp [kept, FPart.part]
  | .viewNet u => by simp [kept, FPart.part]
  | .viewGraph u => by simp [kept, FPart.part]
  | .annotate k u b => by simp [kept, FPart.part]
  | .placeName u n c => by simp [kept, FPart.part]
  | .placeRegex u n c => by simp [kept, FPart.part]
  | .beforeAfter l => by simp [kept, FPart.part, RPart.toGrpc, messages_kept f32 l]
  | .other => by simp [kept, FPart.part]
theorem messages_kept (f32 : F → Nat) : ∀ ps : List (FPart F),
    toGrpcPipeline (parts f32 ps) = toGrpcPipeline (parts id (ps.map (kept f32)))
  | [] => rfl
  | p :: ps => by simp [parts, toGrpcPipeline, message_kept f32 p, messages_kept f32 ps]
end

/-! ### Failures -/

/-- The numbers among the entries. -/
inductive Numbered : List Entry → List Int → Prop
  | nil : Numbered [] []
  | fixed {x l ns} : Numbered l ns → Numbered ((.ok x : Entry) :: l) ns
  | num {k n l ns} : Numbered l ns → Numbered (u32 k n :: l) (n :: ns)

theorem numbered_optStr (k : String) (e : Option String) : Numbered (optStr k e) [] := by
  cases e
  · exact .nil
  · exact .fixed .nil

theorem Numbered.append {l m : List Entry} {ns ms : List Int} (h : Numbered l ns) (h' : Numbered m ms) :
    Numbered (l ++ m) (ns ++ ms) := by
  induction h with
  | nil => exact h'
  | fixed _ ih => exact .fixed ih
  | num _ ih => exact .num ih

/-- All numbers fit. -/
def Fit (ns : List Int) : Prop := ∀ n ∈ ns, 0 ≤ n ∧ n < 4294967296

/-- The outcome of filling a configuration. -/
def Outcome {A : Type} (r : Except PyErr A) (ns : List Int) : Prop :=
  (Fit ns ∧ ∃ c, r = .ok c) ∨ ((∃ n ∈ ns, ¬ (0 ≤ n ∧ n < 4294967296)) ∧ r = .error .valueError)

theorem build_outcome {l : List Entry} {ns : List Int} (h : Numbered l ns) : Outcome (build l) ns := by
  induction h with
  | nil => exact Or.inl ⟨fun n hn => by simp at hn, [], rfl⟩
  | @fixed x l ns _ ih =>
    rcases ih with ⟨h1, c, h2⟩ | ⟨h1, h2⟩
    · exact Or.inl ⟨h1, x :: c, by simp [build, h2, Except.map]⟩
    · exact Or.inr ⟨h1, by simp [build, h2, Except.map]⟩
  | @num k n l ns _ ih =>
    by_cases hn : 0 ≤ n ∧ n < 4294967296
    · have hu : u32 k n = .ok (k, .uint32 n.toNat) := u32_ok.2 ⟨hn, rfl⟩
      rcases ih with ⟨h1, c, h2⟩ | ⟨⟨m, hm, h1⟩, h2⟩
      · refine Or.inl ⟨?_, (k, .uint32 n.toNat) :: c, by simp [build, hu, h2, Except.map]⟩
        intro m hm
        rcases List.mem_cons.1 hm with rfl | hm
        · exact hn
        · exact h1 m hm
      · exact Or.inr ⟨⟨m, by simp [hm], h1⟩, by simp [build, hu, h2, Except.map]⟩
    · refine Or.inr ⟨⟨n, by simp, hn⟩, ?_⟩
      have hu : u32 k n = .error .valueError := by
        unfold u32
        rw [if_neg (by omega)]
      simp [build, hu]

theorem Outcome.map {A B : Type} {r : Except PyErr A} {ns : List Int} (h : Outcome r ns) (f : A → B) : Outcome (r.map f) ns := by
  rcases h with ⟨h1, c, rfl⟩ | ⟨h1, rfl⟩
  · exact Or.inl ⟨h1, f c, rfl⟩
  · exact Or.inr ⟨h1, rfl⟩

macro "numbers" : tactic => `(tactic| (
  repeat (first | exact Numbered.nil | refine Numbered.num ?_ | refine Numbered.fixed ?_ | exact numbered_optStr _ _)))

theorem tandem_outcome (n : Int) (e : Option String) : Outcome (tandemConfig n e) [n] :=
  build_outcome (.num (numbered_optStr _ _))
theorem repeats_outcome (s : Strategy) (e : Option String) : Outcome (repeatsConfig s e) [] :=
  build_outcome (.fixed (numbered_optStr _ _))
theorem discover_outcome (n : Int) : Outcome (discoverConfig n) [n] := build_outcome (.num .nil)
theorem noMore_outcome (a : NoMoreArgs) : Outcome (noMoreConfig a) [a.level, a.minUnattached, a.minActivity] := by
  unfold noMoreConfig
  apply build_outcome
  numbers
theorem common_numbered (f32 : F → Nat) (a : ClusterArgs F) : Numbered (commonEntries f32 a) [a.level] := by
  unfold commonEntries
  numbers

theorem Outcome.seq {A B : Type} {x : Except PyErr A} {y : Except PyErr B} {C : Type} {f : A → B → C} {ns ms : List Int}
    (h : Outcome x ns) (h' : Outcome y ms) : Outcome (do let a ← x; let b ← y; return f a b) (ns ++ ms) := by
  rcases h with ⟨h1, c, rfl⟩ | ⟨⟨n, hn, h1⟩, rfl⟩
  · rcases h' with ⟨h2, d, rfl⟩ | ⟨⟨n, hn, h2⟩, rfl⟩
    · refine Or.inl ⟨?_, f c d, rfl⟩
      intro n hn
      rcases List.mem_append.1 hn with hn | hn
      · exact h1 n hn
      · exact h2 n hn
    · exact Or.inr ⟨⟨n, List.mem_append.2 (Or.inr hn), h2⟩, rfl⟩
  · exact Or.inr ⟨⟨n, List.mem_append.2 (Or.inl hn), h1⟩, rfl⟩

/-- Why the conversion of a part fails. -/
def Failure (p : FPart F) (e : PyErr) : Prop :=
  (e = .valueError ∧ ∃ q, Within p q ∧ ∃ n ∈ ownNumbers q, ¬ (0 ≤ n ∧ n < 4294967296)) ∨
  (e = .typeError ∧ ∃ q, Within p q ∧ (q = .other ∨ ∃ l, q = .beforeAfter l))

/-- The outcome of the conversion of a part. -/
def Result {A : Type} (p : FPart F) (r : Except PyErr A) : Prop :=
  (∃ g, r = .ok g ∧ ∀ q, Within p q → Sendable q) ∨ ∃ e, r = .error e ∧ Failure p e

/-- The outcome of the conversion of a pipeline. -/
def Results {A : Type} (ps : List (FPart F)) (r : Except PyErr A) : Prop :=
  (∃ g, r = .ok g ∧ ∀ p ∈ ps, ∀ q, Within p q → Sendable q) ∨ ∃ e, r = .error e ∧ ∃ p ∈ ps, Failure p e

theorem result_leaf {A : Type} {p : FPart F} {r : Except PyErr A} (h : Outcome r (ownNumbers p)) (hi : inner p = [])
    (ho : p ≠ .other) (hb : ∀ l, p ≠ .beforeAfter l) : Result p r := by
  rcases h with ⟨h1, c, rfl⟩ | ⟨h1, rfl⟩
  · refine Or.inl ⟨c, rfl, ?_⟩
    intro q hq
    cases hq with
    | self => exact ⟨h1, ho, hb⟩
    | deeper hm _ => rw [hi] at hm; simp at hm
  · exact Or.inr ⟨_, rfl, Or.inl ⟨rfl, p, .self, h1⟩⟩

theorem Failure.up {p q : FPart F} {e : PyErr} (hq : q ∈ inner p) (h : Failure q e) : Failure p e := by
  rcases h with ⟨rfl, r, h1, h2⟩ | ⟨rfl, r, h1, h2⟩
  · exact Or.inl ⟨rfl, r, .deeper hq h1, h2⟩
  · exact Or.inr ⟨rfl, r, .deeper hq h1, h2⟩

theorem result_nested {A B C : Type} {p : FPart F} {x : Except PyErr A} {y : Except PyErr B} {f : A → B → C}
    (h : Outcome x (ownNumbers p)) (h' : Results (inner p) y) (ho : p ≠ .other) (hb : ∀ l, p ≠ .beforeAfter l) :
    Result p (do let a ← x; let b ← y; return f a b) := by
  rcases h with ⟨h1, c, rfl⟩ | ⟨h1, rfl⟩
  · rcases h' with ⟨d, rfl, h2⟩ | ⟨e, rfl, q, hq, h2⟩
    · refine Or.inl ⟨f c d, rfl, ?_⟩
      intro q hq
      cases hq with
      | self => exact ⟨h1, ho, hb⟩
      | deeper hm hw => exact h2 _ hm q hw
    · exact Or.inr ⟨e, rfl, h2.up hq⟩
  · exact Or.inr ⟨_, rfl, Or.inl ⟨rfl, p, .self, h1⟩⟩

macro "leaf" : tactic => `(tactic| (
  refine result_leaf ?_ rfl (by intro h; cases h) (by intro l h; cases h)
  simp only [FPart.part, RPart.toGrpc, ownNumbers]
  refine Outcome.map ?_ _))

mutual
theorem message_result (f32 : F → Nat) : ∀ p : FPart F, Result p (p.part f32).toGrpc
  | .bare b => by leaf; exact Or.inl ⟨fun n hn => by simp at hn, _, rfl⟩
  | .show s u => by leaf; exact Or.inl ⟨fun n hn => by simp at hn, _, rfl⟩
  | .writeXes path => by leaf; apply build_outcome; numbers
  | .writeBxes path => by leaf; apply build_outcome; numbers
  | .minCount n => by leaf; apply build_outcome; numbers
  | .byName n => by leaf; apply build_outcome; numbers
  | .byRegex n => by leaf; apply build_outcome; numbers
  | .tandem pr n e => by leaf; exact tandem_outcome n e
  | .maximalRepeats s e => by leaf; exact repeats_outcome s e
  | .superRepeats s e => by leaf; exact repeats_outcome s e
  | .nearRepeats s e => by leaf; exact repeats_outcome s e
  | .discover n => by leaf; exact discover_outcome n
  | .instances a n f => by leaf; apply build_outcome; numbers
  | .createLog s => by leaf; apply build_outcome; numbers
  | .levels a => by leaf; apply build_outcome; numbers
  | .fromPatterns k s n level => by
    cases k <;> leaf
    · exact Outcome.seq (f := fun a c => [a, ("DiscoverActivities", c)]) ((tandem_outcome n none).map _) (discover_outcome level)
    · exact Outcome.seq (f := fun a c => [a, ("DiscoverActivities", c)]) ((tandem_outcome n none).map _) (discover_outcome level)
    · exact Outcome.seq (f := fun a c => [a, ("DiscoverActivities", c)]) ((repeats_outcome s none).map _) (discover_outcome level)
    · exact Outcome.seq (f := fun a c => [a, ("DiscoverActivities", c)]) ((repeats_outcome s none).map _) (discover_outcome level)
    · exact Outcome.seq (f := fun a c => [a, ("DiscoverActivities", c)]) ((repeats_outcome s none).map _) (discover_outcome level)
  | .noMore a => by leaf; exact noMore_outcome a
  | .noMoreThen a l => result_nested (p := .noMoreThen a l) (noMore_outcome a) (messages_result f32 l)
      (by intro h; cases h) (by intro l h; cases h)
  | .eachLog s n l => result_nested (p := .eachLog s n l) (build_outcome (.num (.fixed .nil))) (messages_result f32 l)
      (by intro h; cases h) (by intro l h; cases h)
  | .extractor a b => by leaf; apply build_outcome; numbers
  | .kMeans u a k n => by leaf; exact build_outcome ((common_numbered f32 a).append (.num (.num .nil)))
  | .grid u a n => by leaf; exact build_outcome ((common_numbered f32 a).append (.num .nil))
  | .dbscan u a n => by leaf; exact build_outcome ((common_numbered f32 a).append (.num .nil))
  | .dataset u n e s => by leaf; exact build_outcome (.num ((numbered_optStr _ _).append (.fixed .nil)))
  | .clusterTraces u n t d s e l => result_nested (p := .clusterTraces u n t d s e l)
      (build_outcome (.fixed (.fixed (.fixed (.num (numbered_optStr _ _)))))) (messages_result f32 l)
      (by intro h; cases h) (by intro l h; cases h)
  | .heuristic a => by leaf; apply build_outcome; numbers
  | .fuzzy a => by leaf; apply build_outcome; numbers
  | .pnml a b => by leaf; apply build_outcome; numbers
  | .viewNet u => result_leaf (Or.inl ⟨fun n hn => by simp [ownNumbers] at hn, _, rfl⟩) rfl (by intro h; cases h)
      (by intro l h; cases h)
  | .viewGraph u => result_leaf (Or.inl ⟨fun n hn => by simp [ownNumbers] at hn, _, rfl⟩) rfl (by intro h; cases h)
      (by intro l h; cases h)
  | .annotate k u b => by leaf; apply build_outcome; numbers
  | .placeName u n c => by leaf; apply build_outcome; numbers
  | .placeRegex u n c => by leaf; apply build_outcome; numbers
  | .beforeAfter l => by
    have h := messages_result f32 l
    refine Or.inr ?_
    simp only [FPart.part, RPart.toGrpc]
    rcases h with ⟨g, hg, _⟩ | ⟨e, he, q, hq, hf⟩
    · rw [hg]
      exact ⟨.typeError, rfl, Or.inr ⟨rfl, _, .self, Or.inr ⟨l, rfl⟩⟩⟩
    · rw [he]
      exact ⟨e, rfl, Failure.up (p := .beforeAfter l) hq hf⟩
  | .other => Or.inr ⟨.typeError, rfl, Or.inr ⟨rfl, _, .self, Or.inl rfl⟩⟩
theorem messages_result (f32 : F → Nat) : ∀ ps : List (FPart F), Results ps (toGrpcPipeline (parts f32 ps))
  | [] => Or.inl ⟨[], rfl, fun p hp => by simp at hp⟩
  | p :: ps => by
    simp only [parts, toGrpcPipeline]
    rcases message_result f32 p with ⟨g, hg, h1⟩ | ⟨e, he, h1⟩
    · rw [hg]
      rcases messages_result f32 ps with ⟨gs, hgs, h2⟩ | ⟨e, he, q, hq, h2⟩
      · rw [hgs]
        refine Or.inl ⟨g :: gs, rfl, ?_⟩
        intro q hq
        rcases List.mem_cons.1 hq with rfl | hq
        · exact h1
        · exact h2 q hq
      · rw [he]
        exact Or.inr ⟨e, rfl, q, by simp [hq], h2⟩
    · rw [he]
      exact Or.inr ⟨e, rfl, p, by simp, h1⟩
end

/-! ### Shape of the messages -/

macro "regular" h:ident : tactic => `(tactic| (
  simp only [fm_nil, fm_ok, fm_u32, $h:ident, and_self, true_and, and_true, true_implies]
  refine ⟨by simp, ?_⟩
  simp only [List.forall_mem_cons, List.forall_mem_nil, kindOf, and_true, Scalar.uint32.injEq, reduceCtorEq,
    false_implies, implies_true]
  repeat' apply And.intro
  all_goals first | decide | (intro n hn; cases hn; done) | (intro n hn; cases hn; omega)))

mutual
theorem message_wellFormed (f32 : F → Nat) : ∀ (p : FPart F) (g : GPart), (p.part f32).toGrpc = .ok g → WellFormed g
  | .bare b, g, h => by
    read_message h
    obtain ⟨_, hc, rfl⟩ := h
    cases hc
    exact .default (by simp [Regular])
  | .show s u, g, h => by
    read_message h
    obtain ⟨_, hc, rfl⟩ := h
    cases hc
    exact .complex (by simp [Regular])
  | .writeXes path, g, h => by read_message h; obtain ⟨_, ⟨hn, rfl⟩, rfl⟩ := h; refine .default ?_; regular hn
  | .writeBxes path, g, h => by read_message h; obtain ⟨_, ⟨hn, rfl⟩, rfl⟩ := h; refine .default ?_; regular hn
  | .minCount n, g, h => by read_message h; obtain ⟨_, ⟨hn, rfl⟩, rfl⟩ := h; refine .default ?_; regular hn
  | .byName n, g, h => by read_message h; obtain ⟨_, ⟨hn, rfl⟩, rfl⟩ := h; refine .default ?_; regular hn
  | .byRegex n, g, h => by read_message h; obtain ⟨_, ⟨hn, rfl⟩, rfl⟩ := h; refine .default ?_; regular hn
  | .tandem pr n e, g, h => by
    cases e <;> read_message h <;> obtain ⟨_, ⟨hn, rfl⟩, rfl⟩ := h <;> refine .default ?_ <;> regular hn
  | .maximalRepeats s e, g, h => by
    cases e <;> read_message h <;> obtain ⟨_, ⟨hn, rfl⟩, rfl⟩ := h <;> refine .default ?_ <;> regular hn
  | .superRepeats s e, g, h => by
    cases e <;> read_message h <;> obtain ⟨_, ⟨hn, rfl⟩, rfl⟩ := h <;> refine .default ?_ <;> regular hn
  | .nearRepeats s e, g, h => by
    cases e <;> read_message h <;> obtain ⟨_, ⟨hn, rfl⟩, rfl⟩ := h <;> refine .default ?_ <;> regular hn
  | .discover n, g, h => by read_message h; obtain ⟨_, ⟨hn, rfl⟩, rfl⟩ := h; refine .default ?_; regular hn
  | .instances a n f, g, h => by read_message h; obtain ⟨_, ⟨hn, rfl⟩, rfl⟩ := h; refine .default ?_; regular hn
  | .createLog s, g, h => by read_message h; obtain ⟨_, ⟨hn, rfl⟩, rfl⟩ := h; refine .default ?_; regular hn
  | .levels a, g, h => by read_message h; obtain ⟨_, ⟨hn, rfl⟩, rfl⟩ := h; refine .default ?_; regular hn
  | .fromPatterns k s n level, g, h => by
    cases k <;> read_message h <;> simp only [fromPatternsParts, bind_ok, map_ok, pure_ok] at h <;> read_message h
    all_goals
      obtain ⟨_, ⟨_, ⟨_, ⟨hn, rfl⟩, rfl⟩, _, ⟨hm, rfl⟩, rfl⟩, rfl⟩ := h
      have hb := And.intro hn hm
      refine .defaultWith (by simp [Regular]) ?_
      intro g hg
      simp only [List.map_cons, List.map_nil, List.mem_cons, List.not_mem_nil, or_false] at hg
      rcases hg with rfl | rfl
      · refine .default ?_; regular hb
      · refine .default ?_; regular hb
  | .noMore a, g, h => by
    obtain ⟨ec, _⟩ := a
    cases ec <;> read_message h <;> obtain ⟨_, ⟨hn, rfl⟩, rfl⟩ := h <;> refine .default ?_ <;> regular hn
  | .noMoreThen a l, g, h => by
    obtain ⟨ec, _⟩ := a
    cases ec <;> read_message h <;> obtain ⟨_, ⟨hn, rfl⟩, gs, hgs, rfl⟩ := h <;>
      refine .defaultWith ?_ (messages_wellFormed f32 l gs hgs) <;> regular hn
  | .eachLog s n l, g, h => by
    read_message h; obtain ⟨_, ⟨hn, rfl⟩, gs, hgs, rfl⟩ := h
    refine .defaultWith ?_ (messages_wellFormed f32 l gs hgs); regular hn
  | .extractor a b, g, h => by read_message h; obtain ⟨_, ⟨hn, rfl⟩, rfl⟩ := h; refine .default ?_; regular hn
  | .kMeans u a k n, g, h => by
    obtain ⟨_, _, ec, _⟩ := a
    cases ec <;> read_message h <;> obtain ⟨_, ⟨hn, rfl⟩, rfl⟩ := h <;> refine .complex ?_ <;> regular hn
  | .grid u a n, g, h => by
    obtain ⟨_, _, ec, _⟩ := a
    cases ec <;> read_message h <;> obtain ⟨_, ⟨hn, rfl⟩, rfl⟩ := h <;> refine .complex ?_ <;> regular hn
  | .dbscan u a n, g, h => by
    obtain ⟨_, _, ec, _⟩ := a
    cases ec <;> read_message h <;> obtain ⟨_, ⟨hn, rfl⟩, rfl⟩ := h <;> refine .complex ?_ <;> regular hn
  | .dataset u n e s, g, h => by
    cases e <;> read_message h <;> obtain ⟨_, ⟨hn, rfl⟩, rfl⟩ := h <;> refine .complex ?_ <;> regular hn
  | .clusterTraces u n t d s e l, g, h => by
    cases e <;> read_message h <;> obtain ⟨_, ⟨hn, rfl⟩, gs, hgs, rfl⟩ := h <;>
      refine .complexWith ?_ (messages_wellFormed f32 l gs hgs) <;> regular hn
  | .heuristic a, g, h => by read_message h; obtain ⟨_, ⟨hn, rfl⟩, rfl⟩ := h; refine .default ?_; regular hn
  | .fuzzy a, g, h => by read_message h; obtain ⟨_, ⟨hn, rfl⟩, rfl⟩ := h; refine .default ?_; regular hn
  | .pnml a b, g, h => by read_message h; obtain ⟨_, ⟨hn, rfl⟩, rfl⟩ := h; refine .default ?_; regular hn
  | .viewNet u, g, h => by simp only [FPart.part, RPart.toGrpc, Except.ok.injEq] at h; subst h; exact .simple
  | .viewGraph u, g, h => by simp only [FPart.part, RPart.toGrpc, Except.ok.injEq] at h; subst h; exact .simple
  | .annotate k u b, g, h => by read_message h; obtain ⟨_, ⟨hn, rfl⟩, rfl⟩ := h; refine .complex ?_; regular hn
  | .placeName u n c, g, h => by read_message h; obtain ⟨_, ⟨hn, rfl⟩, rfl⟩ := h; refine .complex ?_; regular hn
  | .placeRegex u n c, g, h => by read_message h; obtain ⟨_, ⟨hn, rfl⟩, rfl⟩ := h; refine .complex ?_; regular hn
  | .beforeAfter l, g, h => by
    simp only [FPart.part, RPart.toGrpc, bind_ok] at h
    obtain ⟨_, _, h⟩ := h
    cases h
  | .other, g, h => by simp [FPart.part, RPart.toGrpc] at h
theorem messages_wellFormed (f32 : F → Nat) : ∀ (ps : List (FPart F)) (gs : List GPart),
    toGrpcPipeline (parts f32 ps) = .ok gs → ∀ g ∈ gs, WellFormed g
  | [], gs, h => by simp only [parts, toGrpcPipeline, Except.ok.injEq] at h; subst h; intro g hg; simp at hg
  | p :: ps, gs, h => by
    simp only [parts, toGrpcPipeline, bind_ok, pure_ok] at h
    obtain ⟨g, hg, gs', hgs, rfl⟩ := h
    intro g' hg'
    rcases List.mem_cons.1 hg' with rfl | hg'
    · exact message_wellFormed f32 p _ hg
    · exact messages_wellFormed f32 ps gs' hgs g' hg'
end

end Ficus.Front
