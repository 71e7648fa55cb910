import Verif.Spec.Backend
import Verif.Proofs.Front

/-! The backend reads messages of the front end as what was asked. -/

namespace Ficus.Backend
open Front Front.Spec
open Spec (asks Refused)

variable {F : Type}

theorem parse_strategy (x : Strategy) : parseStrategy x.name = some x := by cases x <;> rfl
theorem parse_kind (x : PatternsKind) : parseKind x.name = some x := by cases x <;> rfl
theorem parse_narrow (x : Narrow) : parseNarrow x.name = some x := by cases x <;> rfl
theorem parse_filter (x : FilterKind) : parseFilter x.name = some x := by cases x <;> rfl
theorem parse_adjusting (x : Adjusting) : parseAdjusting x.name = some x := by cases x <;> rfl
theorem parse_undef (x : Undef) : parseUndef x.name = some x := by cases x <;> rfl
theorem parse_logsSource (x : LogsSource) : parseLogsSource x.name = some x := by cases x <;> rfl
theorem parse_repr (x : ReprSource) : parseRepr x.name = some x := by cases x <;> rfl
theorem parse_distance (x : Distance) : parseDistance x.name = some x := by cases x <;> rfl
theorem parse_tracesSource (x : TracesSource) : parseTracesSource x.name = some x := by cases x <;> rfl
theorem bareOf_name (x : Bare) : bareOf x.name = some x := by cases x <;> rfl

/-- The outcome of reading the message of a part. -/
def Served (f32 : F → Nat) (p : FPart F) (r : Option Command) : Prop :=
  ((∀ q, Within p q → ¬ Refused q) ∧ r = some (asks f32 p)) ∨ ((∃ q, Within p q ∧ Refused q) ∧ r = none)

/-- The outcome of reading the messages of a pipeline. -/
def AllServed (f32 : F → Nat) (ps : List (FPart F)) (r : Option (List Command)) : Prop :=
  ((∀ p ∈ ps, ∀ q, Within p q → ¬ Refused q) ∧ r = some (ps.map (asks f32))) ∨
    ((∃ p ∈ ps, ∃ q, Within p q ∧ Refused q) ∧ r = none)

theorem within_leaf {p q : FPart F} (h : Front.Spec.inner p = []) (hq : Within p q) : q = p := by
  cases hq with
  | self => rfl
  | deeper h1 _ => rw [h] at h1; simp at h1

theorem served_leaf {f32 : F → Nat} {p : FPart F} {r : Option Command} (h : Front.Spec.inner p = [])
    (hr : ¬ Refused p) (e : r = some (asks f32 p)) : Served f32 p r :=
  Or.inl ⟨fun q hq => by rw [within_leaf h hq]; exact hr, e⟩

theorem refused_self {f32 : F → Nat} {p : FPart F} {r : Option Command} (hr : Refused p) (e : r = none) : Served f32 p r :=
  Or.inr ⟨⟨p, .self, hr⟩, e⟩

theorem served_inner {f32 : F → Nat} {p : FPart F} {l : List (FPart F)} {rs : Option (List Command)} {r : Option Command}
    (h : Front.Spec.inner p = l) (hl : AllServed f32 l rs) (hr : ¬ Refused p)
    (hok : rs = some (l.map (asks f32)) → r = some (asks f32 p)) (hno : rs = none → r = none) : Served f32 p r := by
  rcases hl with ⟨h1, h2⟩ | ⟨⟨q, hq, x, hx, hx'⟩, h2⟩
  · refine Or.inl ⟨?_, hok h2⟩
    intro q hq
    cases hq with
    | self => exact hr
    | deeper a b => rw [h] at a; exact h1 _ a _ b
  · exact Or.inr ⟨⟨x, .deeper (by rw [h]; exact hq) hx, hx'⟩, hno h2⟩

macro "back_read" h:ident : tactic => `(tactic| (
  simp [-Int.ofNat_toNat, toNat_cast, read, readPlain, readWith, bareOf, fm_nil, fm_ok, fm_u32, $h:ident,
    string, strings, number, enumeration, bool, float, optional, entry, Dict.get?, strategy, narrowOf, filterOf, undefOf,
    findTandem, readCluster, readLevels, readUntilNoMore, readEachLog, findPatterns, request, sendable, present,
    parse_strategy, parse_narrow, parse_filter, parse_adjusting, parse_undef, parse_logsSource, parse_repr, parse_distance,
    parse_tracesSource, asks, Spec.shows, Spec.annotation, Spec.cluster, Spec.untilNoMore, Spec.find]))

mutual
/-- The message of a part is read as what the part asks for, or refused. -/
theorem served (f32 : F → Nat) : ∀ (p : FPart F) (g : GPart), (p.part f32).toGrpc = .ok g → Served f32 p (read g)
  | .bare b, g, h => by
    read_message h
    obtain ⟨_, hc, rfl⟩ := h
    cases hc
    exact served_leaf rfl (by simp [Refused]) (by simp [read, readPlain, bareOf_name, asks])
  | .show s u, g, h => by
    read_message h
    obtain ⟨_, hc, rfl⟩ := h
    cases hc
    cases s
    case underlying =>
      exact refused_self (by simp [Refused]) (by simp [Show.request, read, readPlain, bareOf, request, sendable])
    all_goals
      refine served_leaf rfl (by simp [Refused]) ?_
      simp [Show.request, read, readPlain, bareOf, request, sendable, present, asks, Spec.shows]
  | .writeXes path, g, h => by
    read_message h; obtain ⟨_, ⟨hn, rfl⟩, rfl⟩ := h; exact served_leaf rfl (by simp [Refused]) (by back_read hn)
  | .writeBxes path, g, h => by
    read_message h; obtain ⟨_, ⟨hn, rfl⟩, rfl⟩ := h; exact served_leaf rfl (by simp [Refused]) (by back_read hn)
  | .minCount n, g, h => by
    read_message h; obtain ⟨_, ⟨hn, rfl⟩, rfl⟩ := h; exact served_leaf rfl (by simp [Refused]) (by back_read hn)
  | .byName n, g, h => by
    read_message h; obtain ⟨_, ⟨hn, rfl⟩, rfl⟩ := h; exact served_leaf rfl (by simp [Refused]) (by back_read hn)
  | .byRegex n, g, h => by
    read_message h; obtain ⟨_, ⟨hn, rfl⟩, rfl⟩ := h; exact served_leaf rfl (by simp [Refused]) (by back_read hn)
  | .tandem pr n e, g, h => by
    cases e <;> cases pr <;> read_message h <;> obtain ⟨_, ⟨hn, rfl⟩, rfl⟩ := h <;>
      exact served_leaf rfl (by simp [Refused]) (by back_read hn)
  | .maximalRepeats s e, g, h => by
    cases e <;> read_message h <;> obtain ⟨_, ⟨hn, rfl⟩, rfl⟩ := h <;>
      exact served_leaf rfl (by simp [Refused]) (by back_read hn)
  | .superRepeats s e, g, h => by
    cases e <;> read_message h <;> obtain ⟨_, ⟨hn, rfl⟩, rfl⟩ := h <;>
      exact served_leaf rfl (by simp [Refused]) (by back_read hn)
  | .nearRepeats s e, g, h => by
    cases e <;> read_message h <;> obtain ⟨_, ⟨hn, rfl⟩, rfl⟩ := h <;>
      exact served_leaf rfl (by simp [Refused]) (by back_read hn)
  | .discover n, g, h => by
    read_message h; obtain ⟨_, ⟨hn, rfl⟩, rfl⟩ := h; exact served_leaf rfl (by simp [Refused]) (by back_read hn)
  | .instances a n f, g, h => by
    read_message h; obtain ⟨_, ⟨hn, rfl⟩, rfl⟩ := h; exact served_leaf rfl (by simp [Refused]) (by back_read hn)
  | .createLog s, g, h => by
    read_message h; obtain ⟨_, ⟨hn, rfl⟩, rfl⟩ := h; exact served_leaf rfl (by simp [Refused]) (by back_read hn)
  | .levels a, g, h => by
    obtain ⟨cl, k, na, le, st, ml, ad, mu, ma, fi⟩ := a
    read_message h
    obtain ⟨_, ⟨hn, rfl⟩, rfl⟩ := h
    rcases cl with _ | ⟨c, cl⟩
    · refine served_leaf rfl (by simp [Refused]) ?_
      back_read hn
      simp [parse_kind]
    · cases k
      case primitiveTandem =>
        refine refused_self (by simp [Refused, Spec.Tandem]) ?_
        back_read hn
        simp [PatternsKind.name, parseKind]
      case maximalTandem =>
        refine refused_self (by simp [Refused, Spec.Tandem]) ?_
        back_read hn
        simp [PatternsKind.name, parseKind]
      all_goals
        refine served_leaf rfl (by simp [Refused, Spec.Tandem]) ?_
        back_read hn
        simp [PatternsKind.name, parseKind]
  | .fromPatterns k s n level, g, h => by
    cases k <;> read_message h <;> simp only [fromPatternsParts, bind_ok, map_ok, pure_ok] at h <;> read_message h
    all_goals
      obtain ⟨_, ⟨_, ⟨_, ⟨hn, rfl⟩, rfl⟩, _, ⟨hm, rfl⟩, rfl⟩, rfl⟩ := h
      have hb := And.intro hn hm
      refine served_leaf rfl (by simp [Refused]) ?_
      simp only [read, readAll, List.map]
      back_read hb
  | .noMore a, g, h => by
    obtain ⟨ec, k, _⟩ := a
    cases ec <;> read_message h <;> obtain ⟨_, ⟨hn, rfl⟩, rfl⟩ := h
    all_goals
      cases k
      case primitiveTandem =>
        refine refused_self (by simp [Refused, Spec.Tandem]) ?_
        back_read hn
        simp [PatternsKind.name, parseKind]
      case maximalTandem =>
        refine refused_self (by simp [Refused, Spec.Tandem]) ?_
        back_read hn
        simp [PatternsKind.name, parseKind]
      all_goals
        refine served_leaf rfl (by simp [Refused, Spec.Tandem]) ?_
        back_read hn
        simp [PatternsKind.name, parseKind]
  | .noMoreThen a l, g, h => by
    obtain ⟨ec, k, _⟩ := a
    cases ec <;> read_message h <;> obtain ⟨_, ⟨hn, rfl⟩, gs, hgs, rfl⟩ := h
    all_goals
      cases k
      case primitiveTandem =>
        refine refused_self (by simp [Refused, Spec.Tandem]) ?_
        back_read hn
        simp [PatternsKind.name, parseKind]
      case maximalTandem =>
        refine refused_self (by simp [Refused, Spec.Tandem]) ?_
        back_read hn
        simp [PatternsKind.name, parseKind]
      all_goals
        refine served_inner (l := l) rfl (all_served f32 l gs hgs) (by simp [Refused, Spec.Tandem]) ?_ ?_
        · intro e
          back_read hn
          simp [e, PatternsKind.name, parseKind]
        · intro e
          simp [read, e]
  | .eachLog s n l, g, h => by
    read_message h
    obtain ⟨_, ⟨hn, rfl⟩, gs, hgs, rfl⟩ := h
    refine served_inner (l := l) rfl (all_served f32 l gs hgs) (by simp [Refused]) ?_ ?_
    · intro e
      cases s <;> back_read hn <;> simp [e]
    · intro e
      simp [read, e]
  | .extractor a b, g, h => by
    read_message h; obtain ⟨_, ⟨hn, rfl⟩, rfl⟩ := h; exact served_leaf rfl (by simp [Refused]) (by back_read hn)
  | .kMeans u a k n, g, h => by
    obtain ⟨_, _, ec, _⟩ := a
    cases ec <;> read_message h <;> obtain ⟨_, ⟨hn, rfl⟩, rfl⟩ := h <;>
      exact served_leaf rfl (by simp [Refused]) (by back_read hn)
  | .grid u a n, g, h => by
    obtain ⟨_, _, ec, _⟩ := a
    cases ec <;> read_message h <;> obtain ⟨_, ⟨hn, rfl⟩, rfl⟩ := h <;>
      exact served_leaf rfl (by simp [Refused]) (by back_read hn)
  | .dbscan u a n, g, h => by
    obtain ⟨_, _, ec, _⟩ := a
    cases ec <;> read_message h <;> obtain ⟨_, ⟨hn, rfl⟩, rfl⟩ := h <;>
      exact served_leaf rfl (by simp [Refused]) (by back_read hn)
  | .dataset u n e s, g, h => by
    cases e <;> read_message h <;> obtain ⟨_, ⟨hn, rfl⟩, rfl⟩ := h <;>
      exact served_leaf rfl (by simp [Refused]) (by back_read hn)
  | .clusterTraces u n t d s e l, g, h => by
    cases e <;> read_message h <;> obtain ⟨_, ⟨hn, rfl⟩, gs, hgs, rfl⟩ := h
    all_goals
      refine served_inner (l := l) rfl (all_served f32 l gs hgs) (by simp [Refused]) ?_ ?_
      · intro e
        back_read hn
        simp [e]
      · intro e
        simp [read, e]
  | .heuristic a, g, h => by
    read_message h; obtain ⟨_, ⟨hn, rfl⟩, rfl⟩ := h; exact served_leaf rfl (by simp [Refused]) (by back_read hn)
  | .fuzzy a, g, h => by
    read_message h; obtain ⟨_, ⟨hn, rfl⟩, rfl⟩ := h; exact served_leaf rfl (by simp [Refused]) (by back_read hn)
  | .pnml a b, g, h => by
    read_message h; obtain ⟨_, ⟨hn, rfl⟩, rfl⟩ := h; exact served_leaf rfl (by simp [Refused]) (by back_read hn)
  | .viewNet u, g, h => by
    simp only [FPart.part, RPart.toGrpc, Except.ok.injEq] at h
    subst h
    exact served_leaf rfl (by simp [Refused]) (by simp [read, sendable, asks])
  | .viewGraph u, g, h => by
    simp only [FPart.part, RPart.toGrpc, Except.ok.injEq] at h
    subst h
    exact served_leaf rfl (by simp [Refused]) (by simp [read, sendable, asks])
  | .annotate k u b, g, h => by
    cases k <;> read_message h <;> simp only [Annotation.request] at h <;> obtain ⟨_, ⟨hn, rfl⟩, rfl⟩ := h <;>
      exact served_leaf rfl (by simp [Refused]) (by back_read hn)
  | .placeName u n c, g, h => by
    read_message h; obtain ⟨_, ⟨hn, rfl⟩, rfl⟩ := h; exact served_leaf rfl (by simp [Refused]) (by back_read hn)
  | .placeRegex u n c, g, h => by
    read_message h; obtain ⟨_, ⟨hn, rfl⟩, rfl⟩ := h; exact served_leaf rfl (by simp [Refused]) (by back_read hn)
  | .beforeAfter l, g, h => by
    simp only [FPart.part, RPart.toGrpc, bind_ok] at h
    obtain ⟨_, _, h⟩ := h
    cases h
  | .other, g, h => by simp [FPart.part, RPart.toGrpc] at h
/-- The same for pipelines. -/
theorem all_served (f32 : F → Nat) : ∀ (ps : List (FPart F)) (gs : List GPart), toGrpcPipeline (parts f32 ps) = .ok gs →
    AllServed f32 ps (readAll gs)
  | [], gs, h => by
    simp only [parts, toGrpcPipeline, Except.ok.injEq] at h
    subst h
    exact Or.inl ⟨by simp, rfl⟩
  | p :: ps, gs, h => by
    simp only [parts, toGrpcPipeline, bind_ok, pure_ok] at h
    obtain ⟨g, hg, gs', hgs, rfl⟩ := h
    rcases served f32 p g hg with ⟨h1, h2⟩ | ⟨h1, h2⟩
    · rcases all_served f32 ps gs' hgs with ⟨h3, h4⟩ | ⟨⟨q, hq, h3⟩, h4⟩
      · refine Or.inl ⟨?_, by simp [readAll, h2, h4]⟩
        intro q hq
        rcases List.mem_cons.1 hq with rfl | hq
        · exact h1
        · exact h3 q hq
      · exact Or.inr ⟨⟨q, by simp [hq], h3⟩, by simp [readAll, h2, h4]⟩
    · exact Or.inr ⟨⟨p, by simp, h1⟩, by simp [readAll, h2]⟩
end

end Ficus.Backend
