import Verif.Proofs.RsInfo
import Verif.Props.Info
import Verif.Spec.RsInfo

/-! C110, C111: what the backend counts in a log, and its directly follows graph. -/

namespace Ficus.Rs
open Spec
variable {E : Type} [HasName E]

theorem keptOf_eq (ignored : Option (List String)) (log : List (List E)) :
    keptOf ignored log = log.map (kept (ignored.getD [])) := by
  unfold keptOf kept
  refine List.map_congr_left (fun t _ => List.filter_congr (fun n _ => ?_))
  rw [isIgnored_getD]

theorem recorded_eq (ignored : Option (List String)) (fake : Bool) (log : List (List E)) :
    (keptOf ignored log).flatMap (recordedPairs fake none) = neighbours (ignored.getD []) fake log := by
  rw [keptOf_eq, neighbours, List.flatMap_map]
  cases fake
  · simp only [recordedPairs_none_false, Bool.false_eq_true, if_false]
  · simp only [recordedPairs_none_true, if_true]; rfl

theorem createInfo_eq (it : Iter) (log : List (List E)) (ignored : Option (List String)) (fake : Bool) :
    createInfo it log ignored fake =
      let P := neighbours (ignored.getD []) fake log
      { eventsCount := (log.map List.length).sum, classes := counter (keptNamesOf (ignored.getD []) log), pairs := nested P,
        followed := (followLoop it (nested P)).followed, precedes := (followLoop it (nested P)).precedes,
        single := (followLoop it (nested P)).single, tracesCount := log.length,
        starts := setOf (log.filterMap (fun t => t.head?.map name)),
        ends := setOf (log.filterMap (fun t => t.getLast?.map name)) } := by
  unfold createInfo
  rw [scan_eq, recorded_eq, keptOf_eq, ← List.flatMap_def]
  rfl

/-- A log for the examples. -/
def exInfo : List (List String) := [["a", "x", "b", "a", "b"], [], ["x"], ["b", "c"]]

/-- C110a: the numbers of events and traces are those of the whole log, also of ignored events and empty traces; classes are
counted without the ignored ones. -/
theorem C110_counts (it : Iter) (log : List (List E)) (ignored : Option (List String)) (fake : Bool) :
    (createInfo it log ignored fake).eventsCount = log.flatten.length ∧
    (createInfo it log ignored fake).tracesCount = log.length ∧
    (∀ c, (createInfo it log ignored fake).eventCount c = (keptNamesOf (ignored.getD []) log).count c) ∧
    (createInfo it log ignored fake).classesCount = (keptNamesOf (ignored.getD []) log).dedup.length := by
  rw [createInfo_eq]
  refine ⟨by rw [List.length_flatten], rfl, fun c => counter_getD _ c, ?_⟩
  show (counter (keptNamesOf (ignored.getD []) log)).length = _
  have h : (counter (keptNamesOf (ignored.getD []) log)).keys.Perm (keptNamesOf (ignored.getD []) log).dedup := by
    refine (List.perm_ext_iff_of_nodup (counter_WF _) (List.nodup_dedup _)).mpr (fun c => ?_)
    rw [mem_counter_keys, List.mem_dedup]
  have h2 := h.length_eq
  rwa [Dict.keys, List.length_map] at h2

example : (createInfo .plain exInfo (some ["x"]) true).eventsCount = 8 ∧ (createInfo .plain exInfo (some ["x"])).tracesCount = 4 ∧
    (createInfo .reversed exInfo (some ["x"])).eventCount "b" = 3 ∧ (createInfo .plain exInfo (some ["x"])).classesCount = 3 := by
  decide

/-- C110b: the count of a pair is the number of places where the second name comes directly after the first one when ignored
events are left out, and the relation holds iff there is such a place. -/
theorem C110_pairs (it : Iter) (log : List (List E)) (ignored : Option (List String)) (fake : Bool) (a b : String) :
    (createInfo it log ignored fake).followsCount a b = (neighbours (ignored.getD []) fake log).count (a, b) ∧
    ((createInfo it log ignored fake).follows a b = true ↔ (a, b) ∈ neighbours (ignored.getD []) fake log) := by
  rw [createInfo_eq]
  have h := nested_count (neighbours (ignored.getD []) fake log) a b
  simp only [Info.followsCount, Info.follows]
  rw [← List.count_pos_iff]
  cases hg : (nested (neighbours (ignored.getD []) fake log)).get? a with
  | none =>
    rw [hg, Option.bind_none] at h
    simp only
    split at h
    · rename_i h0; rw [h0]; simp
    · cases h
  | some m =>
    rw [hg, Option.bind_some] at h
    simp only [Dict.contains, h]
    split
    · rename_i h0; rw [h0]; simp
    · rename_i h0; exact ⟨rfl, by simp only [Option.isSome_some, true_iff]; omega⟩

example : (createInfo .plain exInfo (some ["x"]) true).followsCount "a" "b" = 2 ∧
    (createInfo .plain exInfo none true).followsCount "FAKE_START" "x" = 1 ∧
    (createInfo .plain exInfo none).follows "a" "b" = true := by decide

/-- C110c: the maps of followers and predecessors hold the same counts, whatever the order of iteration. -/
theorem C110_followers (it : Iter) (log : List (List E)) (ignored : Option (List String)) (fake : Bool) (a b : String) (n : Nat) :
    ((∃ m, (createInfo it log ignored fake).followed.get? a = some m ∧ m.get? b = some n) ↔
      n = (neighbours (ignored.getD []) fake log).count (a, b) ∧ 0 < n) ∧
    ((∃ m, (createInfo it log ignored fake).precedes.get? b = some m ∧ m.get? a = some n) ↔
      n = (neighbours (ignored.getD []) fake log).count (a, b) ∧ 0 < n) := by
  rw [createInfo_eq]
  simp only
  generalize neighbours (ignored.getD []) fake log = P
  have hi := followLoop_inv it P
  have hn := entriesOf_nodup it P
  rw [← mem_entriesOf it P a b n]
  constructor
  · simp only [hi.followed]
    have hw : Dict.WF (((entriesOf it (nested P)).filter (fun e => e.1 = a)).map Prod.snd) := by
      unfold Dict.WF Dict.keys
      rw [List.map_map]
      have h1 : (((entriesOf it (nested P)).filter (fun e => e.1 = a)).map (fun e => (e.1, e.2.1))).Nodup :=
        hn.sublist (List.filter_sublist.map _)
      rw [List.Nodup, List.pairwise_map] at h1 ⊢
      refine List.Pairwise.imp_of_mem ?_ h1
      intro x y hx hy hne heq
      simp only [List.mem_filter, decide_eq_true_eq] at hx hy
      simp only [Function.comp] at heq
      exact hne (by rw [hx.2, hy.2, heq])
    constructor
    · rintro ⟨m, hm, hb⟩
      split at hm
      · cases hm
        have := Dict.mem_of_get? hb
        obtain ⟨q, hq, hqb⟩ := List.mem_map.mp this
        rw [List.mem_filter] at hq
        obtain ⟨x, y⟩ := q
        simp only [decide_eq_true_eq] at hq hqb
        rw [hqb] at hq
        rw [← hq.2]; exact hq.1
      · cases hm
    · intro h
      refine ⟨_, if_pos (List.mem_map.mpr ⟨_, h, rfl⟩), ?_⟩
      exact Dict.get?_of_mem hw (List.mem_map.mpr ⟨(a, b, n), List.mem_filter.mpr ⟨h, by simp⟩, rfl⟩)
  · simp only [hi.precedes]
    have hw : Dict.WF (((entriesOf it (nested P)).filter (fun e => e.2.1 = b)).map (fun e => (e.1, e.2.2))) := by
      unfold Dict.WF Dict.keys
      rw [List.map_map]
      have h1 : (((entriesOf it (nested P)).filter (fun e => e.2.1 = b)).map (fun e => (e.1, e.2.1))).Nodup :=
        hn.sublist (List.filter_sublist.map _)
      rw [List.Nodup, List.pairwise_map] at h1 ⊢
      refine List.Pairwise.imp_of_mem ?_ h1
      intro x y hx hy hne heq
      simp only [List.mem_filter, decide_eq_true_eq] at hx hy
      simp only [Function.comp] at heq
      exact hne (by rw [hx.2, hy.2, heq])
    constructor
    · rintro ⟨m, hm, hb⟩
      split at hm
      · cases hm
        have := Dict.mem_of_get? hb
        obtain ⟨q, hq, hqb⟩ := List.mem_map.mp this
        rw [List.mem_filter] at hq
        obtain ⟨x, y, z⟩ := q
        simp only [decide_eq_true_eq, Prod.mk.injEq] at hq hqb
        obtain ⟨rfl, rfl⟩ := hqb
        rw [← hq.2]; exact hq.1
      · cases hm
    · intro h
      refine ⟨_, if_pos (List.mem_map.mpr ⟨_, h, rfl⟩), ?_⟩
      exact Dict.get?_of_mem hw (List.mem_map.mpr ⟨(a, b, n), List.mem_filter.mpr ⟨h, by simp⟩, rfl⟩)

example : (createInfo .reversed exInfo (some ["x"])).followed.get? "b" = some [("c", 1), ("a", 1)] ∧
    (createInfo .plain exInfo (some ["x"])).precedes.get? "b" = some [("a", 2)] := by decide

/-- C110d: a class is noted as one with a single follower iff exactly one name comes directly after it. -/
theorem C110_single (it : Iter) (log : List (List E)) (ignored : Option (List String)) (fake : Bool) (a : String) :
    a ∈ (createInfo it log ignored fake).single ↔ ∃! b, (a, b) ∈ neighbours (ignored.getD []) fake log := by
  rw [createInfo_eq]
  simp only
  generalize neighbours (ignored.getD []) fake log = P
  have hi := followLoop_inv it P
  have hn := entriesOf_nodup it P
  rw [hi.single]
  have hmem : ∀ b, (a, b) ∈ P ↔ ∃ n, (a, b, n) ∈ entriesOf it (nested P) := by
    intro b
    simp only [mem_entriesOf]
    rw [← List.count_pos_iff]
    constructor
    · intro h; exact ⟨_, rfl, h⟩
    · rintro ⟨n, rfl, h⟩; exact h
  constructor
  · intro h
    obtain ⟨e, he⟩ := List.length_eq_one_iff.mp h
    obtain ⟨x, b, n⟩ := e
    have h1 : (x, b, n) ∈ (entriesOf it (nested P)).filter (fun e => e.1 = a) := by rw [he]; simp
    rw [List.mem_filter] at h1
    simp only [decide_eq_true_eq] at h1
    obtain ⟨h1, rfl⟩ := h1
    refine ⟨b, (hmem b).mpr ⟨n, h1⟩, ?_⟩
    intro b' hb'
    obtain ⟨n', hn'⟩ := (hmem b').mp hb'
    have h2 : (x, b', n') ∈ (entriesOf it (nested P)).filter (fun e => e.1 = x) := List.mem_filter.mpr ⟨hn', by simp⟩
    rw [he] at h2
    simp only [List.mem_singleton, Prod.mk.injEq, true_and] at h2
    exact h2.1
  · rintro ⟨b, hb, hu⟩
    obtain ⟨n, hbn⟩ := (hmem b).mp hb
    have h1 : (((entriesOf it (nested P)).filter (fun e => e.1 = a)).map (fun e => (e.1, e.2.1))).Nodup :=
      hn.sublist (List.filter_sublist.map _)
    have h2 : ∀ q ∈ ((entriesOf it (nested P)).filter (fun e => e.1 = a)).map (fun e => (e.1, e.2.1)), q = (a, b) := by
      intro q hq
      obtain ⟨⟨x, y, z⟩, hx, rfl⟩ := List.mem_map.mp hq
      simp only [List.mem_filter, decide_eq_true_eq] at hx
      obtain ⟨hx, rfl⟩ := hx
      simp only [Prod.mk.injEq, true_and]
      exact hu y ((hmem y).mpr ⟨z, hx⟩)
    have h3 : (a, b) ∈ ((entriesOf it (nested P)).filter (fun e => e.1 = a)).map (fun e => (e.1, e.2.1)) :=
      List.mem_map.mpr ⟨(a, b, n), List.mem_filter.mpr ⟨hbn, by simp⟩, rfl⟩
    rw [← List.length_map (f := fun e : String × String × Nat => (e.1, e.2.1))]
    revert h1 h2 h3
    generalize ((entriesOf it (nested P)).filter (fun e => e.1 = a)).map (fun e => (e.1, e.2.1)) = L
    intro h1 h2 h3
    match L, h1, h2, h3 with
    | [x], _, _, _ => rfl
    | x :: y :: r, h1, h2, _ =>
      have hx := h2 x (by simp)
      have hy := h2 y (by simp)
      rw [List.nodup_cons] at h1
      exact absurd (by rw [hx, hy]; simp) h1.1

example : "a" ∈ (createInfo .plain exInfo (some ["x"])).single ∧ "b" ∉ (createInfo .plain exInfo (some ["x"])).single := by decide

/-- C110e: the first and last classes are those of all traces that are not empty; ignored events count as well. -/
theorem C110_starts_ends (it : Iter) (log : List (List E)) (ignored : Option (List String)) (fake : Bool) (c : String) :
    (c ∈ (createInfo it log ignored fake).starts ↔ ∃ t ∈ log, ∃ e, t.head? = some e ∧ name e = c) ∧
    (c ∈ (createInfo it log ignored fake).ends ↔ ∃ t ∈ log, ∃ e, t.getLast? = some e ∧ name e = c) ∧
    (createInfo it log ignored fake).starts.Nodup ∧ (createInfo it log ignored fake).ends.Nodup := by
  rw [createInfo_eq]
  refine ⟨?_, ?_, setOf_nodup _, setOf_nodup _⟩ <;>
  · simp only [mem_setOf, List.mem_filterMap, Option.map_eq_some_iff]

example : "x" ∈ (createInfo .plain exInfo (some ["x"])).starts ∧ "c" ∈ (createInfo .plain exInfo none).ends := by decide

/-- C110f: the backend and the local `create_log_information` (C09) count the same for a log that was sent, and the local graph
(C11) has the same followers. -/
theorem C110_agrees (it : Iter) (log : Log E) (ignored : Option (List String)) (fake : Bool) (a b : String) :
    (createInfo it log.evs ignored fake).followsCount a b =
      ((createLogInformation log ignored fake).pairs.get? (a, b)).getD 0 ∧
    (createInfo it log.evs ignored fake).eventCount a = ((createLogInformation log ignored fake).eventsCount.get? a).getD 0 ∧
    (createInfo it log.evs ignored fake).eventsCount = calculateEventsCount log ∧
    ((createInfo it log.evs).follows a b = true ↔ ∃ m, (createDfg log).followedEvents.get? a = some m ∧ b ∈ m.keys) := by
  refine ⟨?_, ?_, ?_, ?_⟩
  · rw [(C110_pairs it log.evs ignored fake a b).1]
    cases fake
    · rw [C09_pairs_exact_plain]
      simp only [neighbours, Bool.false_eq_true, if_false]
      split <;> simp_all
    · rw [C09_pairs_exact_framed]
      simp only [neighbours, if_true]
      split <;> simp_all
  · rw [createInfo_eq, createLogInformation_eq, keptNames_eq, ← List.flatMap_def]
    rfl
  · rw [(C110_counts it log.evs ignored fake).1, List.length_flatten]; rfl
  · rw [(C110_pairs it log.evs none false a b).2, C11_log_followers]
    simp only [neighbours, List.mem_flatMap, Bool.false_eq_true, if_false]
    have hk : ∀ t : List E, kept ((none : Option (List String)).getD []) t = t.map name := by intro t; simp [kept]
    simp only [hk]

example : (createInfo .plain (Log.ofEvs exInfo).evs (some ["x"]) true).followsCount "a" "b" = 2 ∧
    ((createLogInformation (Log.ofEvs exInfo) (some ["x"]) true).pairs.get? ("a", "b")).getD 0 = 2 := by decide

/-! ### The graph -/

theorem look_mem {g : Graph} (h : g.Ok) (it : Iter) (x y : Nat) (d : Option String) :
    (x, y, d) ∈ g.allEdges it ↔ g.look x y = some d := by
  simp only [Graph.allEdges, List.mem_flatMap, List.mem_map, (it.perm _ _ _).mem_iff, Graph.look, Option.bind_eq_some_iff]
  constructor
  · rintro ⟨⟨k, m⟩, hk, ⟨z, w⟩, hz, he⟩
    simp only [Prod.mk.injEq] at he
    obtain ⟨rfl, rfl, rfl⟩ := he
    exact ⟨m, Dict.get?_of_mem h.1 hk, Dict.get?_of_mem (h.2 _ hk) hz⟩
  · rintro ⟨m, hm, hd⟩
    exact ⟨(x, m), Dict.mem_of_get? hm, (y, d), Dict.mem_of_get? hd, rfl⟩

theorem allEdges_nodup {g : Graph} (h : g.Ok) (it : Iter) : ((g.allEdges it).map (fun e => (e.1, e.2.1))).Nodup := by
  unfold Graph.allEdges
  rw [List.map_flatMap, List.nodup_flatMap]
  constructor
  · rintro ⟨k, m⟩ hk
    rw [(it.perm _ _ _).mem_iff] at hk
    have h1 : ((it.order ("connections of " ++ toString k) 0 m).map Prod.fst).Nodup :=
      (((it.perm ("connections of " ++ toString k) 0 m).map Prod.fst).nodup_iff).mpr (h.2 _ hk)
    have h2 := h1.map (f := fun b : Nat => (k, b)) (fun x y h => (Prod.mk.inj h).2)
    rw [List.map_map] at h2 ⊢
    exact h2
  · have hw : ((it.order "connections" 0 g.connections).map Prod.fst).Nodup :=
      (((it.perm "connections" 0 g.connections).map Prod.fst).nodup_iff).mpr h.1
    rw [List.Nodup, List.pairwise_map] at hw
    refine hw.imp ?_
    rintro ⟨a, m⟩ ⟨b, m'⟩ hab
    simp only [Function.onFun, List.disjoint_left, List.mem_map]
    rintro ⟨x, y⟩ ⟨_, ⟨_, _, rfl⟩, h1⟩ ⟨_, ⟨_, _, rfl⟩, h2⟩
    simp only [Prod.mk.injEq] at h1 h2
    exact hab (h1.1.trans h2.1.symm)

theorem mem_neighbours_kept {ig : List String} {log : List (List E)} {a b : String} (h : (a, b) ∈ neighbours ig false log) :
    a ∈ keptNamesOf ig log ∧ b ∈ keptNamesOf ig log := by
  simp only [neighbours, List.mem_flatMap, Bool.false_eq_true, if_false] at h
  obtain ⟨t, ht, hp⟩ := h
  have h1 : a ∈ (adjacent (kept ig t)).map Prod.fst := List.mem_map.mpr ⟨_, hp, rfl⟩
  have h2 : b ∈ (adjacent (kept ig t)).map Prod.snd := List.mem_map.mpr ⟨_, hp, rfl⟩
  rw [adjacent_map_fst] at h1
  rw [adjacent_map_snd] at h2
  exact ⟨List.mem_flatMap.mpr ⟨t, ht, List.mem_of_mem_dropLast h1⟩, List.mem_flatMap.mpr ⟨t, ht, List.mem_of_mem_tail h2⟩⟩

/-- C111a: the part that discovers the directly follows graph succeeds for every log. Its graph has one node for each event
name, with different identifiers, and between two nodes an edge exactly if the name of the second comes directly after the name
of the first, labelled with the number of such places. -/
theorem C111_dfg_exact (it : Iter) (next : Nat) (log : List (List E)) :
    ∃ g, discoverDfg it next log = some g ∧
      ((g.allNodes it).map Node.id).Nodup ∧
      ((g.allNodes it).map Node.data).Perm ((log.flatten.map name).dedup.map some) ∧
      ((g.allEdges it).map (fun e => (e.1, e.2.1))).Nodup ∧
      ∀ x y d, (x, y, d) ∈ g.allEdges it ↔
        ∃ a b, { id := x, data := some a } ∈ g.allNodes it ∧ { id := y, data := some b } ∈ g.allNodes it ∧
          0 < followPlaces log a b ∧ d = some (toString (followPlaces log a b)) := by
  unfold discoverDfg constructDfg
  set info := createInfo it log with hinfo
  have hcl : info.classes = counter (keptNamesOf [] log) := by rw [hinfo, createInfo_eq]; rfl
  have hperm : ∀ n, (info.allClasses it n).Perm info.classes.keys := fun n => it.perm _ _ _
  have hnd : (info.allClasses it 0).Nodup := ((hperm 0).nodup_iff).mpr (by rw [hcl]; exact counter_WF _)
  have hkn : keptNamesOf [] log = log.flatten.map name := by
    unfold keptNamesOf kept
    rw [List.map_flatten, List.flatMap_def]
    simp
  have hcount : ∀ a b, (neighbours [] false log).count (a, b) = followPlaces log a b := by
    intro a b
    unfold neighbours followPlaces kept
    simp
  have hadd := addClasses_eq (info.allClasses it 0) next {} [] (by simp [Dict.keys]) hnd (by simp [Dict.keys])
  simp only [List.nil_append] at hadd
  rw [hadd]
  simp only
  set ids : Dict String Nat := (info.allClasses it 0).zipIdx next with hids
  have hidk : ids.keys = info.allClasses it 0 := by rw [hids]; exact zipIdx_map_fst _ _
  have hidw : ids.WF := by unfold Dict.WF; rw [hidk]; exact hnd
  have hfo := fun a b n => (C110_followers it log none false a b n).1
  simp only [← hinfo, Option.getD_none, hcount] at hfo
  have hmemc : ∀ c, c ∈ ids.keys ↔ c ∈ log.flatten.map name := by
    intro c; rw [hidk, (hperm 0).mem_iff, hcl, mem_counter_keys, hkn]
  have hfw : ∀ c fs, info.followed.get? c = some fs → Dict.WF fs := by
    intro c fs h
    have hi := followLoop_inv it (neighbours [] false log)
    have hn := entriesOf_nodup it (neighbours [] false log)
    have he : info.followed = (followLoop it (nested (neighbours [] false log))).followed := by rw [hinfo, createInfo_eq]; rfl
    rw [he, hi.followed] at h
    split at h
    · cases h
      unfold Dict.WF Dict.keys
      rw [List.map_map]
      have h1 := hn.sublist (List.filter_sublist (p := fun e : String × String × Nat => decide (e.1 = c)).map
        (fun e : String × String × Nat => (e.1, e.2.1)))
      rw [List.Nodup, List.pairwise_map] at h1 ⊢
      refine List.Pairwise.imp_of_mem ?_ h1
      intro x y hx hy hne heq
      simp only [List.mem_filter, decide_eq_true_eq] at hx hy
      simp only [Function.comp] at heq
      exact hne (by rw [hx.2, hy.2, heq])
    · cases h
  have hfk : ∀ c fs, info.followed.get? c = some fs → ∀ f ∈ fs, f.1 ∈ ids.keys := by
    intro c fs h f hf
    have h1 := (hfo c f.1 f.2).mp ⟨fs, h, Dict.get?_of_mem (hfw c fs h) hf⟩
    rw [← hcount] at h1
    rw [hmemc, ← hkn]
    exact (mem_neighbours_kept (List.count_pos_iff.mp (h1.1 ▸ h1.2))).2
  rw [connectClasses_eq it info ids (info.allClasses it 1) _
    (fun c hc => by rw [hmemc, ← hkn, ← mem_counter_keys, ← hcl, ← (hperm 1).mem_iff]; exact hc) hfk]
  set g0 : Graph := { nodes := ids.map (fun p => (p.2, ({ id := p.2, data := some p.1 } : Node))) } with hg0
  have hidinj : ∀ c, c ∈ ids.keys → ∀ x, idOf ids c = x ↔ (c, x) ∈ ids := by
    intro c hc x
    obtain ⟨v, hv⟩ := (Dict.mem_keys_iff _ _).mp hc
    unfold idOf
    rw [hv, Option.getD_some]
    constructor
    · rintro rfl; exact Dict.mem_of_get? hv
    · intro h; rw [Dict.get?_of_mem hidw h] at hv; exact (Option.some.inj hv).symm
  have hvals : (ids.map Prod.snd).Nodup := by rw [hids]; simp [List.nodup_range']
  have hinj2 : ∀ {c c' : String} {x : Nat}, (c, x) ∈ ids → (c', x) ∈ ids → c = c' := by
    intro c c' x h h'
    exact congrArg Prod.fst (List.inj_on_of_nodup_map hvals h h' rfl)
  have hnodek : g0.nodes.keys = ids.map Prod.snd := by
    simp [hg0, Dict.keys, Function.comp_def]
  have hkeys : ∀ e ∈ edgesFor it info ids (info.allClasses it 1), e.1 ∈ g0.nodes.keys ∧ e.2.1 ∈ g0.nodes.keys := by
    intro e he
    rw [hnodek]
    simp only [edgesFor, List.mem_flatMap] at he
    obtain ⟨c, hc, he⟩ := he
    have hck : c ∈ ids.keys := by rw [hidk, (hperm 0).mem_iff, ← (hperm 1).mem_iff]; exact hc
    cases hf : info.followed.get? c with
    | none => rw [hf] at he; cases he
    | some fs =>
      rw [hf] at he
      obtain ⟨f, hfm, rfl⟩ := List.mem_map.mp he
      rw [(it.perm _ _ _).mem_iff] at hfm
      exact ⟨List.mem_map.mpr ⟨_, (hidinj c hck _).mp rfl, rfl⟩,
        List.mem_map.mpr ⟨_, (hidinj _ (hfk c fs hf f hfm) _).mp rfl, rfl⟩⟩
  have hmemE : ∀ x y d, (x, y, d) ∈ edgesFor it info ids (info.allClasses it 1) ↔
      ∃ a b, (a, x) ∈ ids ∧ (b, y) ∈ ids ∧ 0 < followPlaces log a b ∧ d = some (toString (followPlaces log a b)) := by
    intro x y d
    simp only [edgesFor, List.mem_flatMap]
    constructor
    · rintro ⟨c, hc, he⟩
      have hck : c ∈ ids.keys := by rw [hidk, (hperm 0).mem_iff, ← (hperm 1).mem_iff]; exact hc
      cases hf : info.followed.get? c with
      | none => rw [hf] at he; cases he
      | some fs =>
        rw [hf] at he
        obtain ⟨⟨b, n⟩, hfm, he⟩ := List.mem_map.mp he
        rw [(it.perm _ _ _).mem_iff] at hfm
        simp only [Prod.mk.injEq] at he
        obtain ⟨h1, h2, h3⟩ := he
        have h4 := (hfo c b n).mp ⟨fs, hf, Dict.get?_of_mem (hfw c fs hf) hfm⟩
        exact ⟨c, b, (hidinj c hck _).mp h1, (hidinj _ (hfk c fs hf _ hfm) _).mp h2, h4.1 ▸ h4.2, by rw [← h3, h4.1]⟩
    · rintro ⟨a, b, ha, hb, hp, rfl⟩
      have hak : a ∈ ids.keys := List.mem_map.mpr ⟨_, ha, rfl⟩
      have hbk : b ∈ ids.keys := List.mem_map.mpr ⟨_, hb, rfl⟩
      obtain ⟨fs, hfs, hn⟩ := (hfo a b _).mpr ⟨rfl, hp⟩
      refine ⟨a, by rw [(hperm 1).mem_iff, ← (hperm 0).mem_iff, ← hidk]; exact hak, ?_⟩
      rw [hfs]
      refine List.mem_map.mpr ⟨(b, followPlaces log a b), ((it.perm _ _ _).mem_iff).mpr (Dict.mem_of_get? hn), ?_⟩
      rw [(hidinj a hak x).mpr ha, (hidinj b hbk y).mpr hb]
  have hnodE : ((edgesFor it info ids (info.allClasses it 1)).map (fun e => (e.1, e.2.1))).Nodup := by
    unfold edgesFor
    rw [List.map_flatMap, List.nodup_flatMap]
    have hck : ∀ c ∈ info.allClasses it 1, c ∈ ids.keys := by
      intro c hc; rw [hidk, (hperm 0).mem_iff, ← (hperm 1).mem_iff]; exact hc
    constructor
    · intro c hc
      cases hf : info.followed.get? c with
      | none => simp
      | some fs =>
        simp only [List.map_map]
        have h1 : ((it.order ("followers of " ++ c) 0 fs).map Prod.fst).Nodup :=
          (((it.perm _ _ fs).map Prod.fst).nodup_iff).mpr (hfw c fs hf)
        rw [List.Nodup, List.pairwise_map] at h1 ⊢
        refine List.Pairwise.imp_of_mem ?_ h1
        intro f f' hm hm' hne heq
        rw [(it.perm _ _ _).mem_iff] at hm hm'
        simp only [Function.comp, Prod.mk.injEq, true_and] at heq
        exact hne (hinj2 ((hidinj _ (hfk c fs hf f hm) _).mp heq) ((hidinj _ (hfk c fs hf f' hm') _).mp rfl))
    · have h1 : (info.allClasses it 1).Nodup := ((hperm 1).nodup_iff).mpr (by rw [hcl]; exact counter_WF _)
      refine List.Pairwise.imp_of_mem ?_ h1
      intro c c' hc hc' hne
      simp only [Function.onFun, List.disjoint_left, List.mem_map]
      have key : ∀ (c : String) (q : Nat × Nat), (∃ e ∈ (match info.followed.get? c with
          | some followers => (it.order ("followers of " ++ c) 0 followers).map
              (fun f : String × Nat => (idOf ids c, idOf ids f.1, some (toString f.2)))
          | none => []), (e.1, e.2.1) = q) → q.1 = idOf ids c := by
        rintro c q ⟨e, he, rfl⟩
        cases hf : info.followed.get? c with
        | none => rw [hf] at he; cases he
        | some fs => rw [hf] at he; obtain ⟨f, _, rfl⟩ := List.mem_map.mp he; rfl
      intro q h1 h2
      have e1 := key c q h1
      have e2 := key c' q h2
      exact hne (hinj2 ((hidinj c (hck c hc) _).mp e1.symm) ((hidinj c' (hck c' hc') _).mp e2.symm))
  obtain ⟨r1, r2, r3⟩ := connect_fold _ g0 ⟨by simp [hg0, Dict.WF, Dict.keys], by simp [hg0]⟩ hkeys hnodE
    (by intro x y; simp [hg0, Graph.look])
  have hnodes : ∀ x a, { id := x, data := some a } ∈ Graph.allNodes it
      ((edgesFor it info ids (info.allClasses it 1)).foldl (fun g e => g.connect e.1 e.2.1 e.2.2) g0) ↔ (a, x) ∈ ids := by
    intro x a
    have hn : Graph.allNodes it ((edgesFor it info ids (info.allClasses it 1)).foldl
        (fun g e => g.connect e.1 e.2.1 e.2.2) g0) =
        it.order "nodes" 0 (ids.map (fun p => ({ id := p.2, data := some p.1 } : Node))) := by
      unfold Graph.allNodes
      rw [r2, hg0]; simp only [List.map_map, Function.comp_def]
    rw [hn]
    simp only [(it.perm _ _ _).mem_iff, List.mem_map, Node.mk.injEq, Option.some.injEq]
    constructor
    · rintro ⟨⟨c, v⟩, hm, rfl, rfl⟩; exact hm
    · intro h; exact ⟨_, h, rfl, rfl⟩
  refine ⟨_, rfl, ?_, ?_, allEdges_nodup r1 it, ?_⟩
  · have : (Graph.allNodes it ((edgesFor it info ids (info.allClasses it 1)).foldl
        (fun g e => g.connect e.1 e.2.1 e.2.2) g0)).Perm (ids.map (fun p => ({ id := p.2, data := some p.1 } : Node))) := by
      refine (it.perm _ _ _).trans ?_
      rw [r2, hg0]; simp [Function.comp_def]
    rw [(this.map Node.id).nodup_iff]
    simpa [Function.comp_def] using hvals
  · have : (Graph.allNodes it ((edgesFor it info ids (info.allClasses it 1)).foldl
        (fun g e => g.connect e.1 e.2.1 e.2.2) g0)).Perm (ids.map (fun p => ({ id := p.2, data := some p.1 } : Node))) := by
      refine (it.perm _ _ _).trans ?_
      rw [r2, hg0]; simp [Function.comp_def]
    refine (this.map Node.data).trans ?_
    have h2 : ids.keys.Perm (log.flatten.map name).dedup :=
      (List.perm_ext_iff_of_nodup hidw (List.nodup_dedup _)).mpr (fun c => by rw [hmemc, List.mem_dedup])
    have h3 := h2.map (some : String → Option String)
    rw [Dict.keys, List.map_map] at h3
    rw [List.map_map]
    exact h3
  · intro x y d
    rw [look_mem r1, r3, hmemE]
    simp only [hnodes]

example : (discoverDfg .plain 7 exInfo).map (fun g => (g.allNodes .plain, g.allEdges .plain)) =
    some ([⟨7, some "a"⟩, ⟨8, some "x"⟩, ⟨9, some "b"⟩, ⟨10, some "c"⟩],
      [(7, 8, some "1"), (7, 9, some "1"), (8, 9, some "1"), (9, 7, some "1"), (9, 10, some "1")]) := by decide +kernel

/-- C111b: the edges are those of the local `create_dfg`: between the nodes of two names there is an edge exactly if the second
is among the local followers of the first, with the local count as its label. -/
theorem C111_same_as_local (it : Iter) (next : Nat) (log : Log E) (g : Graph) (h : discoverDfg it next log.evs = some g)
    (x y : Nat) (a b : String) (hx : { id := x, data := some a } ∈ g.allNodes it)
    (hy : { id := y, data := some b } ∈ g.allNodes it) (d : Option String) :
    (x, y, d) ∈ g.allEdges it ↔
      ∃ m n, (createDfg log).followedEvents.get? a = some m ∧ m.get? b = some n ∧ d = some (toString n) := by
  obtain ⟨g', h1, h2, h3, h4, h5⟩ := C111_dfg_exact it next log.evs
  rw [h] at h1; cases h1
  rw [h5]
  have huniq : ∀ {z : Nat} {c c' : String}, { id := z, data := some c } ∈ g.allNodes it →
      { id := z, data := some c' } ∈ g.allNodes it → c = c' := by
    intro z c c' hc hc'
    have := List.inj_on_of_nodup_map h2 hc hc' rfl
    simpa using this
  have hloc : ∀ n, (∃ m, (createDfg log).followedEvents.get? a = some m ∧ m.get? b = some n) ↔
      n = followPlaces log.evs a b ∧ 0 < n := by
    intro n
    have hw := (C09_wellformed log none false).1
    have := C11_followed_events_exact _ hw a b n
    have hk : ∀ t : List E, kept ((none : Option (List String)).getD []) t = t.map name := by intro t; simp [kept]
    rw [createDfg, this, C09_pairs_exact_plain]
    simp only [hk, followPlaces]
    split
    · rename_i h0; rw [h0]; constructor
      · intro h; cases h
      · rintro ⟨rfl, h⟩; omega
    · constructor
      · intro h; cases h; exact ⟨rfl, by omega⟩
      · rintro ⟨rfl, _⟩; rfl
  constructor
  · rintro ⟨a', b', ha, hb, hp, hd⟩
    rw [huniq hx ha, huniq hy hb] at *
    obtain ⟨m, hm, hn⟩ := (hloc _).mpr ⟨rfl, hp⟩
    exact ⟨m, _, hm, hn, hd⟩
  · rintro ⟨m, n, hm, hn, hd⟩
    obtain ⟨rfl, hp⟩ := (hloc n).mp ⟨m, hm, hn⟩
    exact ⟨a, b, hx, hy, hp, hd⟩

end Ficus.Rs
