import Verif.Proofs.Forest
import Verif.Props.RepeatSets
import Verif.Props.Tandem
import Mathlib.Data.List.Pairwise

/-! Property C28: the activity tree is a forest over the repeat sets, ordered by inclusion. -/

namespace Ficus
open Spec
variable {E : Type}

/-- The nodes made from the repeat sets. -/
theorem createActivityNodes_spec (hashes : List (List Int)) (nameOf : RepeatSet → String) (level uid : Nat)
    (rs : List RepeatSet) (nodes : List Activity)
    (h : createActivityNodes hashes nameOf level uid rs = .ok nodes) :
    nodes.map Activity.repeatSet = rs ∧ nodes.map Activity.uid = List.range' uid rs.length ∧
      ∀ a ∈ nodes, a.name = nameOf a.repeatSet ∧ a.level = level ∧
        ∃ t, hashes[a.repeatSet.traceIndex]? = some t ∧
          a.events = (slice t a.repeatSet.firstPos a.repeatSet.length).dedup := by
  induction rs generalizing uid nodes with
  | nil =>
    simp only [createActivityNodes, Except.ok.injEq] at h
    subst h; simp
  | cons r rs ih =>
    unfold createActivityNodes createActivityNode at h
    cases ht : hashes[r.traceIndex]? with
    | none => rw [ht] at h; cases h
    | some t =>
      rw [ht] at h
      cases hr : createActivityNodes hashes nameOf level (uid + 1) rs with
      | error e => rw [hr] at h; cases h
      | ok rest =>
        rw [hr] at h
        have h' : _ :: rest = nodes := Except.ok.inj h
        obtain ⟨h1, h2, h3⟩ := ih (uid + 1) rest hr
        subst h'
        refine ⟨by simp [h1], by simp [h2, List.range'_succ], ?_⟩
        intro a ha
        rcases List.mem_cons.1 ha with rfl | ha
        · exact ⟨rfl, rfl, t, ht, rfl⟩
        · exact h3 a ha

theorem createActivityNodes_ok (hashes : List (List Int)) (nameOf : RepeatSet → String) (level uid : Nat)
    (rs : List RepeatSet) (h : ∀ r ∈ rs, r.traceIndex < hashes.length) :
    ∃ nodes, createActivityNodes hashes nameOf level uid rs = .ok nodes := by
  induction rs generalizing uid with
  | nil => exact ⟨[], rfl⟩
  | cons r rs ih =>
    obtain ⟨rest, hr⟩ := ih (uid + 1) (fun x hx => h x (by simp [hx]))
    unfold createActivityNodes createActivityNode
    rw [List.getElem?_eq_getElem (h r (by simp)), hr]
    exact ⟨_, rfl⟩

/-- The forest returned by `build_repeat_set_tree` comes from nodes with distinct identities. -/
theorem forest_nodes (log : Log E) (rs : List RepeatSet) (nameOf : RepeatSet → String) (level : Nat)
    (ext : E → String) (uid : Nat) (forest : List ActTree)
    (h : buildRepeatSetTree log rs nameOf level ext uid = .ok forest) :
    ∃ nodes, createActivityNodes (hashTraces ext log) nameOf level uid rs = .ok nodes ∧
      forest = forestOfNodes nodes ∧ (nodes.map Activity.uid).Nodup := by
  unfold buildRepeatSetTree buildRepeatSetTreeOfHashes at h
  by_cases hl : rs.length = 0
  · rw [if_pos hl] at h
    have hf := Except.ok.inj h
    have : rs = [] := List.length_eq_zero_iff.1 hl
    subst this
    exact ⟨[], rfl, by rw [← hf]; rfl, by simp⟩
  · rw [if_neg hl] at h
    cases hn : createActivityNodes (hashTraces ext log) nameOf level uid rs with
    | error e => rw [hn] at h; cases h
    | ok nodes =>
      rw [hn] at h
      have hf : forestOfNodes nodes = forest := Except.ok.inj h
      refine ⟨nodes, rfl, hf.symm, ?_⟩
      rw [(createActivityNodes_spec _ _ _ _ _ _ hn).2.1]
      exact List.nodup_range'

/-- C28a: the construction succeeds when every repeat set refers to a trace of the log; otherwise it raises
`IndexError` (`C28_bad_trace_index`). -/
theorem C28_succeeds (log : Log E) (rs : List RepeatSet) (nameOf : RepeatSet → String) (level : Nat)
    (ext : E → String) (uid : Nat) (h : ∀ r ∈ rs, r.traceIndex < log.traces.length) :
    ∃ forest, buildRepeatSetTree log rs nameOf level ext uid = .ok forest := by
  unfold buildRepeatSetTree buildRepeatSetTreeOfHashes
  by_cases hl : rs.length = 0
  · rw [if_pos hl]; exact ⟨[], rfl⟩
  · rw [if_neg hl]
    obtain ⟨nodes, hn⟩ := createActivityNodes_ok (hashTraces ext log) nameOf level uid rs
      (by simpa [hashTraces, Log.evs] using h)
    rw [hn]; exact ⟨_, rfl⟩

/-- C28b: every repeat set is placed exactly once in the forest, with the event set that it covers, its name and
level; all nodes have different identities. -/
theorem C28_each_repeat_set_once (log : Log E) (rs : List RepeatSet) (nameOf : RepeatSet → String) (level : Nat)
    (ext : E → String) (uid : Nat) (forest : List ActTree)
    (h : buildRepeatSetTree log rs nameOf level ext uid = .ok forest) :
    ((actsL forest).map Activity.repeatSet).Perm rs ∧ ((actsL forest).map Activity.uid).Nodup ∧
      ∀ a ∈ actsL forest, a.name = nameOf a.repeatSet ∧ a.level = level ∧ a.events.Nodup ∧
        ∀ e, e ∈ a.events ↔ ∃ w ∈ coveredBy (wordsOf ext log) a.repeatSet, stringHash w = e := by
  obtain ⟨nodes, hn, rfl, hu⟩ := forest_nodes log rs nameOf level ext uid forest h
  obtain ⟨h1, h2, h3⟩ := createActivityNodes_spec _ _ _ _ _ _ hn
  obtain ⟨tops, below, hp, _, _, st, inv, he⟩ := forestOfNodes_spec nodes hu
  have hperm : (actsL (forestOfNodes nodes)).Perm nodes := by rw [he]; exact inv.perm.trans hp
  refine ⟨?_, (hperm.map _).nodup_iff.2 hu, ?_⟩
  · rw [← h1]; exact hperm.map _
  · intro a ha
    obtain ⟨h4, h5, t, ht, h6⟩ := h3 a (hperm.mem_iff.1 ha)
    refine ⟨h4, h5, by rw [h6]; exact List.nodup_dedup _, ?_⟩
    intro e
    rw [h6, List.mem_dedup]
    unfold hashTraces Log.evs at ht
    simp only [List.map_map, List.getElem?_map] at ht
    cases htr : log.traces[a.repeatSet.traceIndex]? with
    | none => rw [htr] at ht; cases ht
    | some tr =>
      rw [htr] at ht
      simp only [Option.map_some, Function.comp_def, Option.some.injEq] at ht
      subst ht
      rw [slice_map]
      unfold coveredBy wordsOf
      simp only [List.getElem?_map, htr, Option.map_some, Option.getD_some, ← List.map_drop, ← List.map_take]
      simp only [slice, List.mem_map]
      constructor
      · rintro ⟨x, hx, rfl⟩; exact ⟨ext x, ⟨x, hx, rfl⟩, rfl⟩
      · rintro ⟨w, ⟨x, hx, rfl⟩, rfl⟩; exact ⟨x, hx, rfl⟩

/-- C28c: the event set of a child is contained in that of its parent. -/
theorem C28_children_contained (log : Log E) (rs : List RepeatSet) (nameOf : RepeatSet → String) (level : Nat)
    (ext : E → String) (uid : Nat) (forest : List ActTree)
    (h : buildRepeatSetTree log rs nameOf level ext uid = .ok forest) (p c : Activity)
    (hpc : (p, c) ∈ linksL forest) : ∀ e ∈ c.events, e ∈ p.events := by
  obtain ⟨nodes, hn, rfl, hu⟩ := forest_nodes log rs nameOf level ext uid forest h
  obtain ⟨tops, below, hp, _, _, st, inv, he⟩ := forestOfNodes_spec nodes hu
  rw [he] at hpc
  obtain ⟨pre, post, _, _, h1, _⟩ := inv.linksIn _ hpc
  exact (containsOther_iff _ _).1 h1

theorem strictlyBelow_size {a b : Activity} (ha : a.events.Nodup) (h : StrictlyBelow a b) : a.size < b.size := by
  obtain ⟨h1, e, he, hn⟩ := h
  have : (e :: a.events).Nodup := List.nodup_cons.2 ⟨hn, ha⟩
  have hs : (e :: a.events).Subperm b.events := this.subperm (by
    intro x hx
    rcases List.mem_cons.1 hx with rfl | hx
    · exact he
    · exact h1 x hx)
  have := hs.length_le
  simp only [List.length_cons] at this
  exact this

/-- In the processing order a strictly larger event set comes earlier. -/
theorem earlier_of_strictlyBelow {tops below pre post nodes : List Activity} {a b : Activity}
    (hp : (tops ++ below).Perm nodes) (hs : below.Pairwise (fun a b => b.size ≤ a.size))
    (hsplit : below = pre ++ a :: post) (hb : b ∈ nodes) (hlt : a.size < b.size) : b ∈ tops ++ pre := by
  have hb' := hp.mem_iff.2 hb
  rw [hsplit] at hb' hs
  rw [List.pairwise_append] at hs
  have hpost := List.pairwise_cons.1 hs.2.1
  rcases List.mem_append.1 hb' with h | h
  · exact List.mem_append_left _ h
  · rcases List.mem_append.1 h with h | h
    · exact List.mem_append_right _ h
    · rcases List.mem_cons.1 h with rfl | h
      · omega
      · have := hpost.1 b h; omega

/-- C28d: a parent has the smallest size among all event sets of the forest that strictly contain the child. -/
theorem C28_parent_smallest (log : Log E) (rs : List RepeatSet) (nameOf : RepeatSet → String) (level : Nat)
    (ext : E → String) (uid : Nat) (forest : List ActTree)
    (h : buildRepeatSetTree log rs nameOf level ext uid = .ok forest) (p c : Activity)
    (hpc : (p, c) ∈ linksL forest) (b : Activity) (hb : b ∈ actsL forest) (hcb : StrictlyBelow c b) :
    p.events.length ≤ b.events.length := by
  obtain ⟨_, _, hall⟩ := C28_each_repeat_set_once log rs nameOf level ext uid forest h
  obtain ⟨nodes, hn, rfl, hu⟩ := forest_nodes log rs nameOf level ext uid forest h
  obtain ⟨tops, below, hp, _, hs, st, inv, he⟩ := forestOfNodes_spec nodes hu
  have hperm : (actsL (forestOfNodes nodes)).Perm nodes := by rw [he]; exact inv.perm.trans hp
  rw [he] at hpc
  obtain ⟨pre, post, hsplit, _, _, hmin⟩ := inv.linksIn _ hpc
  have hc : c ∈ actsL (forestOfNodes nodes) := by
    rw [he]; exact inv.perm.mem_iff.2 (by rw [hsplit]; simp)
  have hlt := strictlyBelow_size (hall c hc).2.2.1 hcb
  exact hmin b (earlier_of_strictlyBelow hp hs hsplit (hperm.mem_iff.1 hb) hlt) ((containsOther_iff _ _).2 hcb.1)

/-- C28e: no event set of the forest strictly contains that of a root. -/
theorem C28_roots_are_maximal (log : Log E) (rs : List RepeatSet) (nameOf : RepeatSet → String) (level : Nat)
    (ext : E → String) (uid : Nat) (forest : List ActTree)
    (h : buildRepeatSetTree log rs nameOf level ext uid = .ok forest) (a : Activity) (ha : a ∈ roots forest)
    (b : Activity) (hb : b ∈ actsL forest) : ¬ StrictlyBelow a b := by
  obtain ⟨_, _, hall⟩ := C28_each_repeat_set_once log rs nameOf level ext uid forest h
  obtain ⟨nodes, hn, rfl, hu⟩ := forest_nodes log rs nameOf level ext uid forest h
  obtain ⟨tops, below, hp, hmax, hs, st, inv, he⟩ := forestOfNodes_spec nodes hu
  have hperm : (actsL (forestOfNodes nodes)).Perm nodes := by rw [he]; exact inv.perm.trans hp
  have haF := mem_roots_actsL _ _ ha
  intro hab
  have hlt := strictlyBelow_size (hall a haF).2.2.1 hab
  have hbn := hperm.mem_iff.1 hb
  rw [he] at ha
  rcases inv.rootsIn a ha with h1 | ⟨pre, post, hsplit, hno⟩
  · have := hmax a h1 b hbn; omega
  · have := hno b (earlier_of_strictlyBelow hp hs hsplit hbn hlt)
    rw [(containsOther_iff _ _).2 hab.1] at this
    cases this

/-- C28f: if different nodes have different event sets, a node is a root exactly if no event set of the forest strictly
contains its own; every other node has a parent. -/
theorem C28_roots_exactly_maximal (log : Log E) (rs : List RepeatSet) (nameOf : RepeatSet → String) (level : Nat)
    (ext : E → String) (uid : Nat) (forest : List ActTree)
    (h : buildRepeatSetTree log rs nameOf level ext uid = .ok forest)
    (hd : ∀ a ∈ actsL forest, ∀ b ∈ actsL forest, SameSet a.events b.events → a = b)
    (a : Activity) (ha : a ∈ actsL forest) :
    a ∈ roots forest ↔ ∀ b ∈ actsL forest, ¬ StrictlyBelow a b := by
  constructor
  · intro hr b hb
    exact C28_roots_are_maximal log rs nameOf level ext uid forest h a hr b hb
  · intro hno
    rcases actsL_root_or_child forest a ha with hr | ⟨p, hpc⟩
    · exact hr
    · exfalso
      have hsub := C28_children_contained log rs nameOf level ext uid forest h p a hpc
      obtain ⟨_, hnd, _⟩ := C28_each_repeat_set_once log rs nameOf level ext uid forest h
      obtain ⟨nodes, hn, rfl, hu⟩ := forest_nodes log rs nameOf level ext uid forest h
      obtain ⟨tops, below, hp, hmax, hs, st, inv, he⟩ := forestOfNodes_spec nodes hu
      rw [he] at hpc hno hd ha hnd
      obtain ⟨pre, post, hsplit, hpm, _, _⟩ := inv.linksIn _ hpc
      have hpF : p ∈ actsL st.forest := inv.perm.mem_iff.2 (by
        rw [hsplit]
        rcases List.mem_append.1 hpm with h' | h'
        · exact List.mem_append_left _ h'
        · exact List.mem_append_right _ (List.mem_append_left _ h'))
      have hne : p ≠ a := by
        rintro rfl
        have hnd' := (inv.perm.map Activity.uid).nodup_iff.1 hnd
        simp only [hsplit, List.map_append, List.map_cons, List.nodup_append, List.nodup_cons, List.mem_append,
          List.mem_map, List.mem_cons] at hnd'
        rcases List.mem_append.1 hpm with h' | h'
        · exact hnd'.2.2 p.uid ⟨p, h', rfl⟩ p.uid (Or.inr (Or.inl rfl)) rfl
        · exact hnd'.2.1.2.2 p.uid ⟨p, h', rfl⟩ p.uid (Or.inl rfl) rfl
      refine hno p hpF ⟨hsub, ?_⟩
      by_contra hcon
      push Not at hcon
      exact hne (hd p hpF a ha (fun e => ⟨fun h' => hcon e h', fun h' => hsub e h'⟩))

/-- For the repeat sets delivered by `create_repeat_sets`, with injective class hashes, different nodes have different event
sets. -/
theorem created_sets_distinct (log : Log E) (subs : List (List SubArray)) (nameOf : RepeatSet → String)
    (level : Nat) (ext : E → String) (uid : Nat) (forest : List ActTree) (hl : subs.length ≤ log.traces.length)
    (hd : DistinctHashes (wordsOf ext log).flatten)
    (h : buildRepeatSetTree log (createRepeatSets log subs ext) nameOf level ext uid = .ok forest) :
    ∀ a ∈ actsL forest, ∀ b ∈ actsL forest, SameSet a.events b.events → a = b := by
  obtain ⟨hperm, hnd, hall⟩ := C28_each_repeat_set_once log _ nameOf level ext uid forest h
  have hpw := C27_no_duplicate_sets log subs ext hl
  intro x hx y hy hs
  by_contra hne
  -- different nodes stem from different repeat sets
  have hsym : ∀ {x y : RepeatSet}, ¬ SameSet (coveredBy (wordsOf ext log) x) (coveredBy (wordsOf ext log) y) →
      ¬ SameSet (coveredBy (wordsOf ext log) y) (coveredBy (wordsOf ext log) x) :=
    fun h h' => h (fun z => (h' z).symm)
  have hpw' : ((actsL forest).map Activity.repeatSet).Pairwise
      (fun x y => ¬ SameSet (coveredBy (wordsOf ext log) x) (coveredBy (wordsOf ext log) y)) :=
    (hperm.pairwise_iff (fun h => hsym h)).2 hpw
  rw [List.pairwise_map] at hpw'
  have hxy : ¬ SameSet (coveredBy (wordsOf ext log) x.repeatSet) (coveredBy (wordsOf ext log) y.repeatSet) :=
    by
      have : Std.Symm (fun a b : Activity => ¬ SameSet (coveredBy (wordsOf ext log) a.repeatSet)
        (coveredBy (wordsOf ext log) b.repeatSet)) := ⟨fun a b h => hsym h⟩
      exact hpw'.forall hx hy hne
  apply hxy
  have hin : ∀ r : RepeatSet, ∀ w ∈ coveredBy (wordsOf ext log) r, w ∈ (wordsOf ext log).flatten := by
    intro r w hw
    unfold coveredBy at hw
    have hw' := List.mem_of_mem_drop (List.mem_of_mem_take hw)
    cases hr : (wordsOf ext log)[r.traceIndex]? with
    | none => rw [hr] at hw'; simp at hw'
    | some t =>
      rw [hr] at hw'
      exact List.mem_flatten.2 ⟨t, List.mem_of_getElem? hr, by simpa using hw'⟩
  have key : ∀ u v : Activity, u ∈ actsL forest → v ∈ actsL forest → SameSet u.events v.events →
      ∀ w ∈ coveredBy (wordsOf ext log) u.repeatSet, w ∈ coveredBy (wordsOf ext log) v.repeatSet := by
    intro u v hu hv huv w hw
    have h1 := ((hall u hu).2.2.2 (stringHash w)).2 ⟨w, hw, rfl⟩
    obtain ⟨w', hw', he⟩ := ((hall v hv).2.2.2 (stringHash w)).1 ((huv _).1 h1)
    have : w' = w := hd (hin _ w' hw') (hin _ w hw) he
    rwa [← this]
  exact fun w => ⟨key x y hx hy hs w, key y x hy hx (fun e => (hs e).symm) w⟩

/-- C28g: for the repeat sets delivered by `create_repeat_sets`, with injective class hashes, the roots are exactly the
nodes whose event set is not strictly contained in another one. -/
theorem C28_roots_of_created_sets (log : Log E) (subs : List (List SubArray)) (nameOf : RepeatSet → String)
    (level : Nat) (ext : E → String) (uid : Nat) (forest : List ActTree) (hl : subs.length ≤ log.traces.length)
    (hd : DistinctHashes (wordsOf ext log).flatten)
    (h : buildRepeatSetTree log (createRepeatSets log subs ext) nameOf level ext uid = .ok forest)
    (a : Activity) (ha : a ∈ actsL forest) :
    a ∈ roots forest ↔ ∀ b ∈ actsL forest, ¬ StrictlyBelow a b := by
  apply C28_roots_exactly_maximal log _ nameOf level ext uid forest h
    (created_sets_distinct log subs nameOf level ext uid forest hl hd h) a ha

/-- C28h: a repeat set that refers to a missing trace raises `IndexError`. -/
theorem C28_bad_trace_index (log : Log E) (r : RepeatSet) (nameOf : RepeatSet → String) (level : Nat)
    (ext : E → String) (uid : Nat) (rs : List RepeatSet) (h : log.traces.length ≤ r.traceIndex) :
    buildRepeatSetTree log (r :: rs) nameOf level ext uid = .error .indexError := by
  unfold buildRepeatSetTree buildRepeatSetTreeOfHashes createActivityNodes createActivityNode
  rw [if_neg (by simp), List.getElem?_eq_none (by simpa [hashTraces, Log.evs] using h)]
  rfl

/-! ### Concrete case: the sets {a, b}, {c}, {a, b, c}, {d, e}, {b} -/

def exForestLog : Log String := Log.ofEvs [["a", "b", "a", "c"], ["d", "e", "b"]]
def exForestSets : List RepeatSet := [⟨0, 2, 0⟩, ⟨3, 1, 0⟩, ⟨0, 4, 0⟩, ⟨0, 2, 1⟩, ⟨2, 1, 1⟩]

/-- The node identities are 0 to 4 in the order of the sets: {a, b, c} is the first root, {d, e} the second; {b} is
below {a, b}, which is below {a, b, c}. -/
example : (buildRepeatSetTree exForestLog exForestSets (fun _ => "") 0 id).map (fun f =>
    ((roots f).map Activity.uid, (linksL f).map (fun l => (l.1.uid, l.2.uid)))) =
    .ok ([2, 3], [(2, 0), (2, 1), (0, 4)]) := by decide +kernel

example : ∃ forest, buildRepeatSetTree exForestLog exForestSets (fun _ => "") 0 id = .ok forest ∧
    ((actsL forest).map Activity.repeatSet).Perm exForestSets ∧
    (∀ p c, (p, c) ∈ linksL forest → ∀ e ∈ c.events, e ∈ p.events) ∧
    (∀ a ∈ roots forest, ∀ b ∈ actsL forest, ¬ StrictlyBelow a b) := by
  obtain ⟨forest, h⟩ := C28_succeeds exForestLog exForestSets (fun _ => "") 0 id 0 (by decide)
  exact ⟨forest, h, (C28_each_repeat_set_once _ _ _ _ _ _ _ h).1,
    fun p c => C28_children_contained _ _ _ _ _ _ _ h p c, fun a => C28_roots_are_maximal _ _ _ _ _ _ _ h a⟩

/-- The hypotheses of C28g hold for sub-arrays of a small log. -/
example : ∃ forest, buildRepeatSetTree exForestLog (createRepeatSets exForestLog [[⟨0, 2⟩, ⟨1, 3⟩], [⟨0, 1⟩]] id)
      (fun _ => "") 0 id = .ok forest ∧
    ∀ a ∈ actsL forest, (a ∈ roots forest ↔ ∀ b ∈ actsL forest, ¬ StrictlyBelow a b) := by
  obtain ⟨forest, h⟩ := C28_succeeds exForestLog (createRepeatSets exForestLog [[⟨0, 2⟩, ⟨1, 3⟩], [⟨0, 1⟩]] id)
    (fun _ => "") 0 id 0 (by decide +kernel)
  exact ⟨forest, h, fun a ha => C28_roots_of_created_sets exForestLog _ _ _ id 0 forest (by decide)
    (distinctHashes_of _ (by decide)) h a ha⟩

end Ficus
