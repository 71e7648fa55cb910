import Verif.Model.Backend
import Verif.Spec.Front

/-! Specification vocabulary for the agreement of the front end with the backend: what a part asks for. -/

namespace Ficus.Backend.Spec
open Front
variable {F : Type}

/-- The search for patterns of a kind. -/
def find (kind : PatternsKind) (strategy : Strategy) (maxLength : Int) : Find :=
  match kind with
  | .primitiveTandem => .tandem true maxLength
  | .maximalTandem => .tandem false maxLength
  | .maximalRepeats => .maximal strategy
  | .superMaximalRepeats => .superMaximal strategy
  | .nearSuperMaximalRepeats => .nearSuperMaximal strategy

/-- The kinds of tandem arrays. -/
def Tandem (kind : PatternsKind) : Prop := kind = .primitiveTandem ∨ kind = .maximalTandem

/-- The discovery of activities until there are no more. -/
def untilNoMore (a : NoMoreArgs) (after : Option (List Command)) : Command :=
  .untilNoMore (find a.kind a.strategy a.maxLength) a.eventClass a.level a.narrow a.minActivity a.filter a.undef a.onlyLast
    after

/-- The parameters of clusters with floats of 32 bits. -/
def cluster (f32 : F → Nat) (a : ClusterArgs F) : ClusterArgs Nat :=
  ⟨a.level, f32 a.tolerance, a.extractor, a.source, a.distance⟩

/-- What is shown, and the value that shows it. -/
def shows : Show → Command × String
  | .names => (.names, "names_event_log")
  | .info => (.info, "event_log_info")
  | .underlying => (.underlying, "underlying_events_count")
  | .follows => (.follows, "graph")
  | .diversity _ => (.diversity, "colors_event_log")
  | .full _ => (.full, "colors_event_log")
  | .short _ => (.short, "colors_event_log")

/-- The value of an annotation. -/
def annotation : Annotation → String
  | .count => "petri_net_count_annotation"
  | .frequency => "petri_net_frequency_annotation"
  | .traceFrequency => "petri_net_trace_frequency_annotation"

/-- What a part asks of the backend. -/
def asks (f32 : F → Nat) : FPart F → Command
  | .bare b => .bare b
  | .show s u => .send (some (shows s).1) [(shows s).2] u
  | .writeXes path => .writeXes path
  | .writeBxes path => .writeBxes path
  | .minCount n => .filterCount n
  | .byName name => .filterName name
  | .byRegex regex => .filterRegex regex
  | .tandem primitive n e => .find (.tandem primitive n) e
  | .maximalRepeats s e => .find (.maximal s) e
  | .superRepeats s e => .find (.superMaximal s) e
  | .nearRepeats s e => .find (.nearSuperMaximal s) e
  | .discover level => .discover level
  | .instances narrow n filter => .instances narrow n filter
  | .createLog s => .createLog s
  | .levels a => .levels a.classes (if a.classes = [] then none else some (find a.kind a.strategy a.maxLength)) a.level
      a.adjusting a.narrow a.minUnattached a.minActivity a.filter
  | .fromPatterns kind s n level => .run [.find (find kind s n) none, .discover level]
  | .noMore a => untilNoMore a none
  | .noMoreThen a inner => untilNoMore a (some (inner.map (asks f32)))
  | .eachLog .log _ inner => .eachLog .log none (inner.map (asks f32))
  | .eachLog .tracesActivities level inner => .eachLog .tracesActivities (some level) (inner.map (asks f32))
  | .extractor e filter => .extract e filter
  | .kMeans u a k n => .send (some (.kMeans (cluster f32 a) k n)) ["labeled_traces_activities_dataset"] u
  | .grid u a n => .send (some (.grid (cluster f32 a) n)) ["labeled_traces_activities_dataset"] u
  | .dbscan u a n => .send (some (.dbscan (cluster f32 a) n)) ["labeled_traces_activities_dataset"] u
  | .dataset u level e s => .send (some (.dataset level e s)) ["traces_activities_dataset"] u
  | .clusterTraces u n t d s e inner =>
    .send (some (.clusterTraces n (f32 t) d s e (inner.map (asks f32)))) ["labeled_log_traces_dataset"] u
  | .heuristic a => .heuristic ⟨f32 a.dependency, a.observations, f32 a.relative, f32 a.andT, f32 a.loopTwo⟩
  | .fuzzy a => .fuzzy ⟨f32 a.unary, f32 a.binary, f32 a.preserve, f32 a.ratio, f32 a.utility, f32 a.edge, f32 a.node⟩
  | .pnml path b => .pnml path b
  | .viewNet u => .send none ["petri_net"] u
  | .viewGraph u => .send none ["graph"] u
  | .annotate k u b => .send (some (.annotate k b)) ["petri_net", annotation k] u
  | .placeName u name _ => .send (some (.placeName name)) ["colors_event_log"] u
  | .placeRegex u regex _ => .send (some (.placeRegex regex)) ["colors_event_log"] u
  | .beforeAfter inner => .run (inner.map (asks f32))
  | .other => .run []

/-- The parts that the backend cannot serve, whatever their other parameters and the log are: tandem arrays in the
discovery until there are no more or on several levels, and the number of underlying events. -/
def Refused : FPart F → Prop
  | .noMore a => Tandem a.kind
  | .noMoreThen a _ => Tandem a.kind
  | .levels a => Tandem a.kind ∧ a.classes ≠ []
  | .show .underlying _ => True
  | _ => False

end Ficus.Backend.Spec
