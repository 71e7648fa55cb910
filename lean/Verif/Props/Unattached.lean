import Verif.Props.Abstraction

/-! Properties C36, C37 and C40: adding activities in gaps, counting underlying events, pattern segmentation. -/

namespace Ficus
open Spec
variable {E : Type}

/-- First position of a visit. -/
def _root_.Ficus.Spec.Visit.first : Visit → Nat
  | .gap s _ => s
  | .act i => i.startPos

/-- Position after a visit. -/
def _root_.Ficus.Spec.Visit.stop : Visit → Nat
  | .gap _ e => e
  | .act i => i.startPos + i.length

theorem visits_ordered (n : Nat) (insts : List Instance) (index : Nat) (hw : WellPlaced n (insts.map span))
    (hlo : ∀ i ∈ insts, index ≤ i.startPos) :
    (visitsFrom n index insts).Pairwise (fun a b => a.stop ≤ b.first) ∧
      ∀ v ∈ visitsFrom n index insts, index ≤ v.first := by
  induction insts generalizing index with
  | nil =>
    unfold visitsFrom
    split
    · exact ⟨List.pairwise_singleton _ _, by simp [Visit.first]⟩
    · exact ⟨List.Pairwise.nil, by simp⟩
  | cons i is ih =>
    have hlo' := hlo i (by simp)
    have hw' : WellPlaced n (is.map span) :=
      ⟨fun p hp => hw.1 p (by simp only [List.map_cons, List.mem_cons]; exact Or.inr hp),
        (List.pairwise_cons.1 hw.2).2⟩
    have hnext : ∀ j ∈ is, i.startPos + i.length ≤ j.startPos := fun j hj =>
      (List.pairwise_cons.1 hw.2).1 (span j) (List.mem_map.2 ⟨j, hj, rfl⟩)
    obtain ⟨h1, h2⟩ := ih (i.startPos + i.length) hw' hnext
    have hact : (Visit.act i :: visitsFrom n (i.startPos + i.length) is).Pairwise (fun a b => a.stop ≤ b.first) :=
      List.pairwise_cons.2 ⟨h2, h1⟩
    have hactlo : ∀ v ∈ Visit.act i :: visitsFrom n (i.startPos + i.length) is, i.startPos ≤ v.first := by
      intro v hv
      rcases List.mem_cons.1 hv with rfl | hv
      · exact le_refl _
      · have := h2 v hv; omega
    unfold visitsFrom
    by_cases hc : index < i.startPos
    · rw [if_pos hc]
      refine ⟨List.pairwise_cons.2 ⟨hactlo, hact⟩, ?_⟩
      intro v hv
      rcases List.mem_cons.1 hv with rfl | hv
      · exact le_refl _
      · have := hactlo v hv; omega
    · rw [if_neg hc]
      exact ⟨hact, fun v hv => by have := hactlo v hv; omega⟩

/-- The instances the result has for one visit. -/
noncomputable def addedFor (t : List E) (nodes : List ActTree) (ext : E → String) (filter : Instance → Bool)
    (minEvents : Nat) (narrow : Bool) : Visit → List Instance
  | .gap s e =>
    if e - s < minEvents then []
    else (instancesOf nodes narrow filter (classHashes ext (slice t s (e - s)))).map (relocated s)
  | .act i => [i]

theorem addedFor_short (t : List E) (nodes : List ActTree) (ext : E → String) (filter : Instance → Bool)
    (minEvents : Nat) (narrow : Bool) (s e : Nat) (h : e - s < minEvents) :
    addedFor t nodes ext filter minEvents narrow (.gap s e) = [] := if_pos h

theorem addedFor_long (t : List E) (nodes : List ActTree) (ext : E → String) (filter : Instance → Bool)
    (minEvents : Nat) (narrow : Bool) (s e : Nat) (h : ¬ e - s < minEvents) :
    addedFor t nodes ext filter minEvents narrow (.gap s e) =
      (instancesOf nodes narrow filter (classHashes ext (slice t s (e - s)))).map (relocated s) := if_neg h

theorem addFromGap_eq (t : List E) (nodes : List ActTree) (ext : E → String) (filter : Instance → Bool)
    (minEvents : Nat) (narrow : Bool) (s e : Nat) (he : e ≤ t.length) (acc : List Instance) :
    addFromGap t nodes ext filter minEvents narrow s e acc =
      acc ++ addedFor t nodes ext filter minEvents narrow (.gap s e) := by
  unfold addFromGap addedFor
  simp only
  have hlen : ((slice t s (e - s)).map (fun e => stringHash (ext e))).length = e - s := by
    simp [slice]; omega
  rw [hlen]
  by_cases h : e - s < minEvents
  · rw [if_pos h, if_pos h]; simp
  · rw [if_neg h, if_neg h, extractFromHashes_eq]
    rfl

theorem wellPlaced_added (t : List E) (nodes : List ActTree) (ext : E → String) (filter : Instance → Bool)
    (minEvents : Nat) (narrow : Bool) (insts : List Instance) (hw : WellPlaced t.length (insts.map span)) :
    (∀ v ∈ visitsFrom t.length 0 insts, ∀ j ∈ addedFor t nodes ext filter minEvents narrow v,
      0 < j.length ∧ v.first ≤ j.startPos ∧ j.startPos + j.length ≤ v.stop ∧ v.stop ≤ t.length) ∧
    WellPlaced t.length
      (((visitsFrom t.length 0 insts).flatMap (addedFor t nodes ext filter minEvents narrow)).map span) := by
  have hin : ∀ v ∈ visitsFrom t.length 0 insts,
      (∀ j ∈ addedFor t nodes ext filter minEvents narrow v,
        0 < j.length ∧ v.first ≤ j.startPos ∧ j.startPos + j.length ≤ v.stop ∧ v.stop ≤ t.length) ∧
      (addedFor t nodes ext filter minEvents narrow v).Pairwise (fun a b => a.startPos + a.length ≤ b.startPos) := by
    intro v hv
    cases v with
    | gap s e =>
      have he := gap_le _ _ hw s e hv
      have hse := (gaps_visits _ _ _ _ _ hv).1
      by_cases h : e - s < minEvents
      · rw [addedFor_short _ _ _ _ _ _ _ _ h]; exact ⟨by simp, List.Pairwise.nil⟩
      · rw [addedFor_long _ _ _ _ _ _ _ _ h]
        have hp := instances_wellPlaced nodes narrow filter (classHashes ext (slice t s (e - s)))
        have hlen : (classHashes ext (slice t s (e - s))).length = e - s := by simp [classHashes, slice]; omega
        rw [hlen] at hp
        constructor
        · intro j hj
          obtain ⟨k, hk, rfl⟩ := List.mem_map.1 hj
          have := hp.1 (span k) (List.mem_map.2 ⟨k, hk, rfl⟩)
          simp only [span] at this
          simp only [relocated, Visit.first, Visit.stop]
          omega
        · rw [List.pairwise_map]
          have := hp.2
          rw [List.pairwise_map] at this
          exact this.imp (fun h => by simp only [span] at h; simp only [relocated]; omega)
    | act i =>
      have hi : i ∈ insts := by rw [← filterMap_visits t.length insts 0, act_mem_of_inst]; exact hv
      have := hw.1 (span i) (List.mem_map.2 ⟨i, hi, rfl⟩)
      simp only [span] at this
      refine ⟨?_, List.pairwise_singleton _ _⟩
      intro j hj
      obtain rfl : j = i := by simpa [addedFor] using hj
      simp only [Visit.first, Visit.stop]
      omega
  refine ⟨fun v hv => (hin v hv).1, ?_, ?_⟩
  · intro p hp
    obtain ⟨j, hj, rfl⟩ := List.mem_map.1 hp
    obtain ⟨v, hv, hj⟩ := List.mem_flatMap.1 hj
    have := (hin v hv).1 j hj
    simp only [span]; omega
  · rw [List.pairwise_map, List.pairwise_flatMap]
    refine ⟨fun v hv => (hin v hv).2, ?_⟩
    apply (visits_ordered t.length insts 0 hw (fun _ _ => Nat.zero_le _)).1.imp_of_mem
    intro a b ha hb hab x hx y hy
    have h1 := (hin a ha).1 x hx
    have h2 := (hin b hb).1 y hy
    simp only [span]; omega

theorem sort_eq_of_strict (l m : List Instance) (hp : l.Perm m)
    (hm : m.Pairwise (fun a b => a.startPos < b.startPos)) :
    l.insertionSort (fun a b => a.startPos ≤ b.startPos) = m := by
  have i1 : Std.Total (fun a b : Instance => a.startPos ≤ b.startPos) := ⟨fun a b => by omega⟩
  have i2 : IsTrans Instance (fun a b => a.startPos ≤ b.startPos) := ⟨fun a b c h1 h2 => by omega⟩
  have hs := List.pairwise_insertionSort (fun a b : Instance => a.startPos ≤ b.startPos) l
  have hp' := (List.perm_insertionSort (fun a b : Instance => a.startPos ≤ b.startPos) l).trans hp
  have hnd : (m.map Instance.startPos).Nodup := by
    unfold List.Nodup; rw [List.pairwise_map]; exact hm.imp (fun h => by omega)
  have hnd' : ((l.insertionSort (fun a b => a.startPos ≤ b.startPos)).map Instance.startPos).Nodup :=
    (hp'.map _).nodup_iff.2 hnd
  unfold List.Nodup at hnd'; rw [List.pairwise_map] at hnd'
  have hs' : (l.insertionSort (fun a b => a.startPos ≤ b.startPos)).Pairwise (fun a b => a.startPos < b.startPos) :=
    (hs.and hnd').imp (fun h => by omega)
  exact List.Perm.eq_of_pairwise (fun a b _ _ h1 h2 => by omega) hs' hm hp'

theorem addUnattachedToTrace_eq (t : List E) (nodes : List ActTree) (ext : E → String) (filter : Instance → Bool)
    (minEvents : Nat) (narrow : Bool) (insts : List Instance) (hw : WellPlaced t.length (insts.map span)) :
    addUnattachedToTrace t nodes ext filter minEvents narrow insts =
      .ok ((visitsFrom t.length 0 insts).flatMap (addedFor t nodes ext filter minEvents narrow)) := by
  unfold addUnattachedToTrace
  rw [processTrace_append t.length insts _ _ (perVisit
    (fun s e => addedFor t nodes ext filter minEvents narrow (.gap s e)) (fun _ => [])) ?_
    (fun i acc => by simp [perVisit])]
  · simp only [List.nil_append, bind, Except.bind, pure, Except.pure]
    congr 1
    apply sort_eq_of_strict
    · have hins : insts = (visitsFrom t.length 0 insts).flatMap (perVisit (fun _ _ => []) (fun i => [i])) := by
        rw [flatMap_inst, filterMap_visits]; simp
      conv_lhs => rw [show ∀ x : List Instance, x ++ insts = x ++ (visitsFrom t.length 0 insts).flatMap (perVisit (fun _ _ => []) (fun i => [i])) from fun x => by rw [← hins]]
      generalize visitsFrom t.length 0 insts = vs
      induction vs with
      | nil => simp
      | cons v vs ih =>
        cases v with
        | gap s e =>
          simp only [List.flatMap_cons, List.nil_append, perVisit, List.append_assoc]
          exact ih.append_left _
        | act i =>
          simp only [List.flatMap_cons, List.nil_append, perVisit, addedFor, List.singleton_append]
          exact List.perm_middle.trans (ih.cons _)
    · have := (wellPlaced_added t nodes ext filter minEvents narrow insts hw).2
      have h2 := this.2
      rw [List.pairwise_map] at h2
      apply h2.imp_of_mem
      intro a b ha _ hab
      have := this.1 (span a) (List.mem_map.2 ⟨a, ha, rfl⟩)
      simp only [span] at *
      omega
  · intro s e hg acc
    rw [addFromGap_eq t nodes ext filter minEvents narrow s e (gap_le _ _ hw s e hg)]
    rfl

theorem instancesOf_spec (nodes : List ActTree) (narrow : Bool) (filter : Instance → Bool) (w : List E)
    (ext : E → String) :
    extractActivities (Log.ofEvs [w]) nodes ext filter narrow = some [instancesOf nodes narrow filter (classHashes ext w)] := by
  unfold extractActivities
  rw [extractFromHashes_eq]
  rfl

/-- C36a: the result, exactly. Along the decomposition of the trace every existing instance stays as it is, and a gap
with at least the minimal number of events is filled with the instances that `extract_activities_from_log` finds in
the events of that gap alone, moved to the position of the gap; shorter gaps are left alone. -/
theorem C36_result_exactly (t : List E) (nodes : List ActTree) (ext : E → String) (filter : Instance → Bool)
    (minEvents : Nat) (narrow : Bool) (insts : List Instance) (hw : WellPlaced t.length (insts.map span))
    (vs : List Visit) (hv : Decomposition t.length insts vs) :
    ∃ fill : Nat → Nat → List Instance,
      addUnattachedToTrace t nodes ext filter minEvents narrow insts = .ok (vs.flatMap (perVisit fill (fun i => [i]))) ∧
      ∀ s e, (e - s < minEvents → fill s e = []) ∧
        (minEvents ≤ e - s → ∃ found,
          extractActivities (Log.ofEvs [(t.drop s).take (e - s)]) nodes ext filter narrow = some [found] ∧
            fill s e = found.map (relocated s)) := by
  refine ⟨fun s e => addedFor t nodes ext filter minEvents narrow (.gap s e), ?_, ?_⟩
  · rw [addUnattachedToTrace_eq t nodes ext filter minEvents narrow insts hw,
      visitsFrom_of_decomposition t.length insts hw vs hv]
    have : addedFor t nodes ext filter minEvents narrow =
        perVisit (fun s e => addedFor t nodes ext filter minEvents narrow (.gap s e)) (fun i => [i]) := by
      funext v
      cases v <;> rfl
    rw [← this]
  · intro s e
    refine ⟨fun h => if_pos h, fun h => ⟨_, instancesOf_spec _ _ _ _ _, ?_⟩⟩
    exact if_neg (by omega)

/-- C36b: on a log the result exists, one list per trace; every list is well placed (so sorted by start, disjoint and
inside the trace) and contains the existing instances unchanged and in order; a new instance lies in a gap, of at least
the minimal length. -/
theorem C36_existing_instances_kept (log : Log E) (nodes : List ActTree) (existing : List (List Instance))
    (ext : E → String) (filter : Instance → Bool) (minEvents : Nat) (narrow : Bool) (h : FitsLog log existing) :
    ∃ r, addUnattachedActivities log nodes existing ext filter minEvents narrow = .ok r ∧
      FitsLog log r ∧ List.Forall₂ (fun old new => old.Sublist new) existing r ∧
      ∀ n (hn : n < existing.length) (hn' : n < r.length), ∀ j ∈ r[n], j ∈ existing[n] ∨
        ∃ s e, s ≤ j.startPos ∧ j.startPos + j.length ≤ e ∧ minEvents ≤ e - s ∧
          ∀ i, s ≤ i → i < e → ¬ Covered (existing[n].map span) i := by
  let g := fun (is : List Instance) (t : Trace E) =>
    (visitsFrom t.events.length 0 is).flatMap (addedFor t.events nodes ext filter minEvents narrow)
  have hok : addUnattachedActivities log nodes existing ext filter minEvents narrow =
      .ok (List.zipWith g existing log.traces) := by
    unfold addUnattachedActivities
    exact zip_mapM_ok _ _ _ _ _ h (fun is t hw => addUnattachedToTrace_eq t.events nodes ext filter minEvents narrow is hw)
  have hlen : existing.length = log.traces.length := h.length_eq
  refine ⟨_, hok, ?_, ?_, ?_⟩
  · clear hok hlen
    unfold FitsLog at *
    generalize log.traces = ts at *
    induction h with
    | nil => exact .nil
    | cons hw _ ih =>
      exact .cons (wellPlaced_added _ nodes ext filter minEvents narrow _ hw).2 ih
  · clear hok hlen
    unfold FitsLog at *
    generalize log.traces = ts at *
    induction h with
    | nil => exact .nil
    | @cons is t _ _ hw _ ih =>
      refine .cons ?_ ih
      have hins : is = (visitsFrom t.events.length 0 is).flatMap (perVisit (fun _ _ => []) (fun i => [i])) := by
        rw [flatMap_inst, filterMap_visits]; simp
      conv_lhs => rw [hins]
      show List.Sublist _ ((visitsFrom t.events.length 0 is).flatMap _)
      generalize visitsFrom t.events.length 0 is = vs
      induction vs with
      | nil => simp
      | cons v vs ihv =>
        simp only [List.flatMap_cons]
        refine List.Sublist.append ?_ ihv
        cases v with
        | gap s e => exact List.nil_sublist _
        | act i => exact List.Sublist.refl _
  · intro n hn hn' j hj
    have hnt : n < log.traces.length := by omega
    have hw : WellPlaced (log.traces[n]).events.length (existing[n].map span) := by
      exact h.get hn hnt
    rw [List.getElem_zipWith] at hj
    obtain ⟨v, hv, hj⟩ := List.mem_flatMap.1 hj
    have hb := (wellPlaced_added _ nodes ext filter minEvents narrow _ hw).1 v hv j hj
    cases v with
    | act i =>
      left
      obtain rfl : j = i := by simpa [addedFor] using hj
      rw [← filterMap_visits (log.traces[n]).events.length existing[n] 0, act_mem_of_inst]
      exact hv
    | gap s e =>
      right
      refine ⟨s, e, hb.2.1, hb.2.2.1, ?_, ?_⟩
      · by_contra hc
        rw [addedFor_short _ _ _ _ _ _ _ _ (by omega)] at hj
        simp at hj
      · exact ((decomposition _ _ hw).gaps s e hv).2.1

/-- C36c: with the default filter, an event of a gap that is long enough is covered by the result exactly if it belongs
to one of the added activities. -/
theorem C36_known_events_in_long_gaps (t : List E) (nodes : List ActTree) (ext : E → String) (minEvents : Nat)
    (narrow : Bool) (insts : List Instance) (hw : WellPlaced t.length (insts.map span)) (vs : List Visit)
    (hv : Decomposition t.length insts vs) (r : List Instance)
    (hr : addUnattachedToTrace t nodes ext (fun _ => true) minEvents narrow insts = .ok r) (s e : Nat)
    (hg : Visit.gap s e ∈ vs) (hlong : minEvents ≤ e - s) (i : Nat) (h1 : s ≤ i) (h2 : i < e) (x : E)
    (hx : t[i]? = some x) :
    Covered (r.map span) i ↔ Known (nodes.map ActTree.events) [stringHash (ext x)] := by
  rw [addUnattachedToTrace_eq t nodes ext _ minEvents narrow insts hw,
    visitsFrom_of_decomposition t.length insts hw vs hv] at hr
  have hr := Except.ok.inj hr
  have hvs := visitsFrom_of_decomposition t.length insts hw vs hv
  have hgap : ∀ v ∈ vs, ∀ j ∈ addedFor t nodes ext (fun _ => true) minEvents narrow v, j.startPos ≤ i →
      i < j.startPos + j.length → v = .gap s e := by
    intro v hvm j hj h3 h4
    have hb := (wellPlaced_added t nodes ext (fun _ => true) minEvents narrow insts hw).1 v (hvs ▸ hvm) j hj
    by_contra hne
    have hnd : (vs.flatMap Visit.positions).Nodup := by rw [hv.tiles]; exact List.nodup_range
    rw [List.nodup_flatMap] at hnd
    have hsym : Std.Symm (fun a b : Visit => List.Disjoint a.positions b.positions) := ⟨fun a b h => h.symm⟩
    have hd := hnd.2.forall hvm hg hne
    apply hd (a := i)
    · cases v with
      | gap a b => simp only [Visit.first, Visit.stop] at hb; simp only [Visit.positions, List.mem_range'_1]; omega
      | act k => simp only [Visit.first, Visit.stop] at hb; simp only [Visit.positions, List.mem_range'_1]; omega
    · simp only [Visit.positions, List.mem_range'_1]; omega
  have hgreedy := C30_greedy_segmentation (Log.ofEvs [slice t s (e - s)]) nodes ext narrow _
    (instancesOf_spec nodes narrow (fun _ => true) (slice t s (e - s)) ext) 0 _ rfl _ rfl
  have hxs : (classHashes ext (slice t s (e - s)))[i - s]? = some (stringHash (ext x)) := by
    unfold classHashes slice
    rw [List.getElem?_map, List.getElem?_take_of_lt (by omega), List.getElem?_drop,
      show s + (i - s) = i by omega, hx]
    rfl
  rw [← hgreedy.cover (i - s) _ hxs]
  have hadd := addedFor_long t nodes ext (fun _ => true) minEvents narrow s e (by omega)
  unfold Covered
  constructor
  · rintro ⟨p, hp, h3, h4⟩
    obtain ⟨j, hj, rfl⟩ := List.mem_map.1 hp
    rw [← hr] at hj
    obtain ⟨v, hvm, hj⟩ := List.mem_flatMap.1 hj
    simp only [span] at h3 h4
    have := hgap v hvm j hj h3 h4
    subst this
    rw [hadd] at hj
    obtain ⟨k, hk, rfl⟩ := List.mem_map.1 hj
    simp only [relocated] at h3 h4
    exact ⟨span k, List.mem_map.2 ⟨k, hk, rfl⟩, by simp only [span]; omega, by simp only [span]; omega⟩
  · rintro ⟨p, hp, h3, h4⟩
    obtain ⟨k, hk, rfl⟩ := List.mem_map.1 hp
    simp only [span] at h3 h4
    refine ⟨span (relocated s k), List.mem_map.2 ⟨relocated s k, ?_, rfl⟩, ?_, ?_⟩
    · rw [← hr]
      exact List.mem_flatMap.2 ⟨_, hg, by rw [hadd]; exact List.mem_map.2 ⟨k, hk, rfl⟩⟩
    · simp only [span, relocated]; omega
    · simp only [span, relocated]; omega

/-! ### C37 -/

/-- C37a: counting the underlying events of an event nested to any depth terminates and gives the number of original
events in it. -/
theorem C37_count_is_number_of_leaves (e : NEvent) : countUnderlying e = some (leaves e).length := by
  obtain ⟨ls, hp, he⟩ := underlyingLoop_spec (fun n _ => n + 1) e.weight [e] 0 (by simp [NEvent.weightL])
  unfold countUnderlying
  rw [he]
  have : ∀ (l : List NEvent) (n : Nat), l.foldl (fun n (_ : NEvent) => n + 1) n = n + l.length := by
    intro l; induction l with
    | nil => simp
    | cons a l ih => intro n; simp [ih]; omega
  rw [this, hp.length_eq]
  simp [leavesL]

/-- C37b: the total of a log is the number of original events of all its traces, and equals the length of its
substituted traces. -/
theorem C37_total_count (log : Log NEvent) :
    calculateUnderlyingCount log = some (log.evs.map (fun t => (substituteOriginalEvents t).length)).sum := by
  rw [calculateUnderlyingCount_eq]
  congr 1
  induction log.evs with
  | nil => simp [leavesL]
  | cons t ts ih =>
    rw [List.flatten_cons, leavesL_append, List.length_append, ih, List.map_cons, List.sum_cons,
      substituteOriginalEvents_eq]

/-- C37c: the action given to `execute_with_underlying_events` is executed exactly once for every original event (with
multiplicity), and for nothing else. -/
theorem C37_action_once_per_leaf {S : Type} (e : NEvent) (action : S → NEvent → S) (st : S) :
    ∃ l : List NEvent, l.Perm (leaves e) ∧ executeWithUnderlying e action st = some (l.foldl action st) := by
  obtain ⟨ls, hp, he⟩ := underlyingLoop_spec action e.weight [e] st (by simp [NEvent.weightL])
  exact ⟨ls, by simpa [leavesL] using hp, he⟩

def exNested : NEvent := .comp [] [.comp [] [exEvent "a", exEvent "b"] none, exEvent "c", .comp [] [] none] none

example : countUnderlying exNested = some 3 := by rw [C37_count_is_number_of_leaves]; rfl

/-- The order of the actions is breadth first, not the order of the events: c comes before a. -/
example : executeWithUnderlying exNested (fun acc e => acc ++ [e]) [] =
    some [exEvent "c", exEvent "a", exEvent "b"] := rfl

/-- The existing instance stays; the gap before it has one event, the gap after it two. -/
example : (addUnattachedToTrace ["c", "a", "b", "c", "c"] exNodes id (fun _ => true) 2 false [⟨exNodes[0], 1, 2⟩]).map
    (fun r => r.map (fun i => (i.node.act.name, i.startPos, i.length))) = .ok [("AB", 1, 2), ("C", 3, 2)] := by
  decide +kernel

example : ∃ r, addUnattachedActivities (Log.ofEvs [["c", "a", "b", "c", "c"]]) exNodes [[⟨exNodes[0], 1, 2⟩]] id
    (fun _ => true) 2 false = .ok r ∧ FitsLog (Log.ofEvs [["c", "a", "b", "c", "c"]]) r := by
  obtain ⟨r, h1, h2, _⟩ := C36_existing_instances_kept (Log.ofEvs [["c", "a", "b", "c", "c"]]) exNodes
    [[⟨exNodes[0], 1, 2⟩]] id (fun _ => true) 2 false (.cons ⟨by decide, by decide⟩ .nil)
  exact ⟨r, h1, h2⟩

/-! ### C40 -/

/-- The state of the segmentation after the indices `1, ..., m`. -/
structure PatternInv (find : List Int → Bool) (t : List Int) (m : Nat) (st : PatternState) : Prop where
  tiles : st.out.flatMap (fun s => List.range' s.firstPos s.length) = List.range st.start
  le : st.start ≤ m
  known : ∀ j, st.start < j → j ≤ m → find ((t.drop st.start).take (j - st.start)) = true
  segs : ∀ s ∈ st.out, 0 < s.length ∧ find ((t.drop s.firstPos).take s.length) = false ∧
    ∀ j, 0 < j → j < s.length → find ((t.drop s.firstPos).take j) = true

theorem patternInv (find : List Int → Bool) (t : List Int) (m : Nat) :
    PatternInv find t m ((List.range' 1 m).foldl (patternStep find t) { out := [], start := 0 }) := by
  induction m with
  | zero => exact ⟨by simp, by simp, fun j h1 h2 => absurd (Nat.lt_of_lt_of_le h1 h2) (by simp), by simp⟩
  | succ m ih =>
    rw [List.range'_1_concat, List.foldl_append]
    simp only [List.foldl_cons, List.foldl_nil]
    generalize (List.range' 1 m).foldl (patternStep find t) { out := [], start := 0 } = st at ih
    unfold patternStep slice
    by_cases h : find ((t.drop st.start).take (1 + m - st.start)) = true
    · rw [if_pos h]
      refine ⟨ih.tiles, by have := ih.le; omega, ?_, ih.segs⟩
      intro j h1 h2
      rcases Nat.lt_or_ge m j with h3 | h3
      · obtain rfl : j = 1 + m := by omega
        exact h
      · exact ih.known j h1 h3
    · rw [if_neg h]
      have hle := ih.le
      refine ⟨?_, by simp only; omega, fun j h1 h2 => by simp only at h1; omega, ?_⟩
      · simp only [List.flatMap_append, List.flatMap_cons, List.flatMap_nil, List.append_nil, ih.tiles]
        rw [List.range_eq_range', List.range_eq_range']
        have := List.range'_append_1 (s := 0) (m := st.start) (n := 1 + m - st.start)
        rw [Nat.zero_add] at this
        rw [this]; congr 1; omega
      · intro s hs
        rcases List.mem_append.1 hs with hs | hs
        · exact ih.segs s hs
        · obtain rfl := List.mem_singleton.1 hs
          refine ⟨by simp only; omega, by simpa using h, ?_⟩
          intro j h1 h2
          simp only at h2
          have := ih.known (st.start + j) (by omega) (by omega)
          rwa [show st.start + j - st.start = j by omega] at this

/-- C40a: `add_all_patterns` gives one list per trace (of the shorter list). -/
theorem C40_one_list_per_trace (find : List (List Int) → List Int → Bool) (log : List (List Int))
    (patterns : List (List SubArray)) :
    (addAllPatterns find log patterns).length = min log.length patterns.length := by
  simp [addAllPatterns]

/-- C40b: the segments of a trace are non-empty, in order, without gaps or overlaps, and cover the positions up to some
`k`; each is the shortest unknown word at its start; from `k` on all proper prefixes of the rest are known. For a
non-empty trace `k` is less than its length: the final segment is never emitted. -/
theorem C40_segments_tile_a_prefix (find : List (List Int) → List Int → Bool) (log : List (List Int))
    (patterns : List (List SubArray)) (n : Nat) (t : List Int) (ps segs : List SubArray) (ht : log[n]? = some t)
    (hp : patterns[n]? = some ps) (hs : (addAllPatterns find log patterns)[n]? = some segs) :
    ∃ k known, known = find (ps.map (fun s => (t.drop s.firstPos).take s.length)) ∧
      segs.flatMap (fun s => List.range' s.firstPos s.length) = List.range k ∧ (t ≠ [] → k < t.length) ∧
      (t = [] → segs = []) ∧
      (∀ s ∈ segs, 0 < s.length ∧ known ((t.drop s.firstPos).take s.length) = false ∧
        ∀ j, 0 < j → j < s.length → known ((t.drop s.firstPos).take j) = true) ∧
      (∀ j, 0 < j → k + j < t.length → known ((t.drop k).take j) = true) := by
  unfold addAllPatterns at hs
  rw [List.getElem?_map] at hs
  have hz : (log.zip patterns)[n]? = some (t, ps) := by
    rw [List.getElem?_zip_eq_some]; exact ⟨ht, hp⟩
  rw [hz] at hs
  simp only [Option.map_some, Option.some.injEq] at hs
  have inv := patternInv (find (ps.map (fun s => slice t s.firstPos s.length))) t (t.length - 1)
  generalize hst : (List.range' 1 (t.length - 1)).foldl
      (patternStep (find (ps.map (fun s => slice t s.firstPos s.length))) t) { out := [], start := 0 } = st at inv hs
  subst hs
  refine ⟨st.start, _, rfl, inv.tiles, ?_, ?_, inv.segs, ?_⟩
  · intro hne
    have := inv.le
    have : 0 < t.length := List.length_pos_iff.2 hne
    omega
  · rintro rfl
    rw [← hst]; rfl
  · intro j h1 h2
    have := inv.known (st.start + j) (by omega) (by omega)
    rwa [show st.start + j - st.start = j by omega] at this

/-- The words 1 and 2 are known: 1 2 1 3 1 is cut at the first unknown words, into 1 2 and 1 3, and the last
letter is in no segment. -/
example : addAllPatterns (fun ps w => decide (w ∈ ps)) [[1, 2, 1, 3, 1]] [[⟨0, 1⟩, ⟨1, 1⟩]] =
    [[⟨0, 2⟩, ⟨2, 2⟩]] := by decide +kernel

end Ficus
