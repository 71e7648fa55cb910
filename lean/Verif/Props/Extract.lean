import Verif.Proofs.Scan
import Verif.Spec.Extract
import Verif.Props.Forest

/-! Properties C29, C30, C31: extraction of activity instances and narrowing. -/

namespace Ficus
open Spec
variable {E : Type}

theorem mapM_some {α β : Type} (f : α → Option β) (g : α → β) (l : List α) (h : ∀ a ∈ l, f a = some (g a)) :
    l.mapM f = some (l.map g) := by
  induction l with
  | nil => rfl
  | cons a l ih =>
    rw [List.mapM_cons, h a (by simp), ih (fun b hb => h b (by simp [hb]))]; rfl

/-- The instances found in one word. -/
noncomputable def instancesOf (nodes : List ActTree) (sn : Bool) (filter : Instance → Bool) (t : List Int) :
    List Instance :=
  ((scan (splitBySize nodes) t 0 none).map (Seg.toInstance sn)).filter filter

theorem extractFromHashes_eq (hashes : List (List Int)) (nodes : List ActTree) (sn : Bool) (filter : Instance → Bool) :
    extractFromHashes hashes nodes sn filter = some (hashes.map (instancesOf nodes sn filter)) := by
  unfold extractFromHashes
  apply mapM_some
  intro t _
  exact extractFromTrace_eq _ _ _ _ _ (le_refl _)

theorem extract_nth (log : Log E) (nodes : List ActTree) (ext : E → String) (filter : Instance → Bool) (sn : Bool)
    (r : List (List Instance)) (h : extractActivities log nodes ext filter sn = some r) (n : Nat) (t : Trace E)
    (ht : log.traces[n]? = some t) : r[n]? = some (instancesOf nodes sn filter (classHashes ext t.events)) := by
  unfold extractActivities at h
  rw [extractFromHashes_eq] at h
  simp only [Option.some.injEq] at h
  subst h
  simp [hashTraces, Log.evs, ht, classHashes]

theorem span_toInstance (sn : Bool) (g : Seg) : span (g.toInstance sn) = (g.start, g.length) := rfl

theorem wellPlaced_filter {n : Nat} {l : List Instance} (p : Instance → Bool) (h : WellPlaced n (l.map span)) :
    WellPlaced n ((l.filter p).map span) := by
  have hs : ((l.filter p).map span).Sublist (l.map span) := List.filter_sublist.map _
  exact ⟨fun x hx => h.1 x (hs.subset hx), h.2.sublist hs⟩

theorem instances_wellPlaced (nodes : List ActTree) (sn : Bool) (filter : Instance → Bool) (t : List Int) :
    WellPlaced t.length ((instancesOf nodes sn filter t).map span) := by
  have h := scan_segsOk nodes t
  unfold instancesOf
  apply wellPlaced_filter
  constructor
  · intro p hp
    simp only [List.map_map, List.mem_map, Function.comp_apply, span_toInstance] at hp
    obtain ⟨g, hg, rfl⟩ := hp
    exact ⟨(h.each g hg).pos, (h.each g hg).bound⟩
  · rw [List.map_map, List.pairwise_map]
    exact h.order

theorem narrowed_spec (t : ActTree) (s : List Int) (ht : ∀ e ∈ s, e ∈ t.events) :
    narrowed t s ∈ subtrees t ∧ ∀ e ∈ s, e ∈ (narrowed t s).events := by
  rcases (narrowActivity_spec t s).choose_spec.2 with ⟨h, _⟩ | ⟨h, _⟩
  · have : narrowed t s = t := h
    rw [this]
    exact ⟨by cases t; simp [subtrees], ht⟩
  · have h' : narrowed t s ∈ reachL s t.children := h
    have := reachL_sound s t.children _ h'
    refine ⟨?_, (covers_iff _ _).1 this.2⟩
    cases t with
    | node a cs => simp only [subtrees, List.mem_cons]; exact Or.inr this.1

theorem subtrees_subset_subtreesL (nodes : List ActTree) : ∀ x ∈ nodes, ∀ y ∈ subtrees x, y ∈ subtreesL nodes := by
  intro x hx y hy
  induction nodes with
  | nil => simp at hx
  | cons z zs ih =>
    simp only [subtreesL, List.mem_append]
    rcases List.mem_cons.1 hx with rfl | hx
    · exact Or.inl hy
    · exact Or.inr (ih hx)

/-- C29a: the extraction terminates and gives one list of instances per trace. -/
theorem C29_terminates (log : Log E) (nodes : List ActTree) (ext : E → String) (filter : Instance → Bool)
    (sn : Bool) : ∃ r, extractActivities log nodes ext filter sn = some r ∧ r.length = log.traces.length :=
  ⟨_, extractFromHashes_eq _ _ _ _, by simp [hashTraces, Log.evs]⟩

/-- C29b: the scan of a trace of length `n` never needs more than `2 n` iterations: more fuel gives the same result. -/
theorem C29_iteration_bound (nodes : List ActTree) (filter : Instance → Bool) (sn : Bool) (t : List Int) (fuel : Nat)
    (hf : 2 * t.length ≤ fuel) :
    ∃ r, extractFromTrace fuel (splitBySize nodes) sn filter t = some r ∧
      extractFromTrace (2 * t.length) (splitBySize nodes) sn filter t = some r :=
  ⟨_, extractFromTrace_eq _ _ _ _ _ hf, extractFromTrace_eq _ _ _ _ _ (le_refl _)⟩

/-- C29c: the instances of a trace are non-empty, inside the trace, ordered by start and pairwise disjoint. -/
theorem C29_instances_well_placed (log : Log E) (nodes : List ActTree) (ext : E → String)
    (filter : Instance → Bool) (sn : Bool) (r : List (List Instance))
    (h : extractActivities log nodes ext filter sn = some r) (n : Nat) (t : Trace E) (ht : log.traces[n]? = some t)
    (is : List Instance) (hi : r[n]? = some is) : WellPlaced t.events.length (is.map span) := by
  rw [extract_nth log nodes ext filter sn r h n t ht] at hi
  simp only [Option.some.injEq] at hi
  subst hi
  have := instances_wellPlaced nodes sn filter (classHashes ext t.events)
  simpa [classHashes] using this

/-- C29d: every event of an instance belongs to the event set of the activity reported for it, and that activity is one
of the given ones or, with narrowing, a node of one of the given trees. -/
theorem C29_instances_homogeneous (log : Log E) (nodes : List ActTree) (ext : E → String)
    (filter : Instance → Bool) (sn : Bool) (r : List (List Instance))
    (h : extractActivities log nodes ext filter sn = some r) (n : Nat) (t : Trace E) (ht : log.traces[n]? = some t)
    (is : List Instance) (hi : r[n]? = some is) (i : Instance) (him : i ∈ is) :
    (∀ e ∈ (t.events.drop i.startPos).take i.length, stringHash (ext e) ∈ i.node.events) ∧
      (if sn then i.node ∈ subtreesL nodes else i.node ∈ nodes) ∧ filter i = true := by
  rw [extract_nth log nodes ext filter sn r h n t ht] at hi
  simp only [Option.some.injEq] at hi
  subst hi
  unfold instancesOf at him
  rw [List.mem_filter, List.mem_map] at him
  obtain ⟨⟨g, hg, rfl⟩, hfil⟩ := him
  have ok := (scan_segsOk nodes (classHashes ext t.events)).each g hg
  have hseen : ∀ e ∈ (t.events.drop g.start).take g.length, stringHash (ext e) ∈ g.seen := by
    intro e he
    rw [ok.seen]
    unfold classHashes
    rw [slice_map]
    exact List.mem_map.2 ⟨e, he, rfl⟩
  refine ⟨?_, ?_, hfil⟩
  · intro e he
    have he' := hseen e he
    unfold Seg.toInstance
    simp only
    cases sn with
    | false => exact ok.sub _ he'
    | true => exact (narrowed_spec g.act g.seen ok.sub).2 _ he'
  · cases sn with
    | false => exact ok.mem
    | true => exact subtrees_subset_subtreesL nodes _ ok.mem _ (narrowed_spec g.act g.seen ok.sub).1

/-- C29e: the filter only selects: with a filter the result is the unfiltered result, filtered per trace. -/
theorem C29_filter_only_selects (log : Log E) (nodes : List ActTree) (ext : E → String)
    (filter : Instance → Bool) (sn : Bool) :
    ∃ r, extractActivities log nodes ext (fun _ => true) sn = some r ∧
      extractActivities log nodes ext filter sn = some (r.map (·.filter filter)) := by
  refine ⟨_, extractFromHashes_eq _ _ _ _, ?_⟩
  unfold extractActivities
  rw [extractFromHashes_eq]
  simp only [Option.some.injEq, List.map_map]
  apply List.map_congr_left
  intro t _
  simp [instancesOf]

/-- C30a: without a filter the instances are the greedy segmentation of the trace with respect to the event sets of the
given activities: an event is covered exactly if it belongs to some activity, all events of an instance belong to one
activity, and no activity contains these and the next event. Narrowing does not change the intervals. -/
theorem C30_greedy_segmentation (log : Log E) (nodes : List ActTree) (ext : E → String) (sn : Bool)
    (r : List (List Instance)) (h : extractActivities log nodes ext (fun _ => true) sn = some r) (n : Nat)
    (t : Trace E) (ht : log.traces[n]? = some t) (is : List Instance) (hi : r[n]? = some is) :
    Greedy (nodes.map ActTree.events) (classHashes ext t.events) (is.map span) := by
  rw [extract_nth log nodes ext _ sn r h n t ht] at hi
  simp only [Option.some.injEq] at hi
  subst hi
  have ok := scan_segsOk nodes (classHashes ext t.events)
  have hmem : ∀ p, p ∈ (instancesOf nodes sn (fun _ => true) (classHashes ext t.events)).map span ↔
      ∃ g ∈ scan (splitBySize nodes) (classHashes ext t.events) 0 none, p = (g.start, g.length) := by
    intro p
    unfold instancesOf
    simp only [List.filter_true, List.map_map, List.mem_map, Function.comp_apply, span_toInstance]
    exact ⟨fun ⟨g, hg, he⟩ => ⟨g, hg, he.symm⟩, fun ⟨g, hg, he⟩ => ⟨g, hg, he.symm⟩⟩
  refine ⟨instances_wellPlaced _ _ _ _, ?_, ?_, ?_⟩
  · intro i e he
    have hc := ok.cover i e (Nat.zero_le _) he
    unfold Covered Known
    constructor
    · rintro ⟨p, hp, h1, h2⟩
      obtain ⟨g, hg, rfl⟩ := (hmem p).1 hp
      obtain ⟨b, hb, hbe⟩ := hc.1 ⟨g, hg, h1, h2⟩
      exact ⟨b.events, List.mem_map.2 ⟨b, hb, rfl⟩, by simpa using hbe⟩
    · rintro ⟨s, hs, hse⟩
      obtain ⟨b, hb, rfl⟩ := List.mem_map.1 hs
      obtain ⟨g, hg, h1, h2⟩ := hc.2 ⟨b, hb, by simpa using hse⟩
      exact ⟨_, (hmem _).2 ⟨g, hg, rfl⟩, h1, h2⟩
  · intro p hp
    obtain ⟨g, hg, rfl⟩ := (hmem p).1 hp
    have hg' := ok.each g hg
    exact ⟨g.act.events, List.mem_map.2 ⟨_, hg'.mem, rfl⟩, fun e he => hg'.sub e ((hg'.seen e).2 he)⟩
  · intro p hp e he hk
    obtain ⟨g, hg, rfl⟩ := (hmem p).1 hp
    have hg' := ok.each g hg
    obtain ⟨s, hs, hse⟩ := hk
    obtain ⟨b, hb, rfl⟩ := List.mem_map.1 hs
    exact hg'.max e he ⟨b, hb, fun x hx => hse x (List.mem_append_left _ ((hg'.seen x).1 hx)),
      hse e (by simp)⟩

/-- C30b: without narrowing the reported activity has the smallest event set among the given activities that contain
all events of the instance. -/
theorem C30_smallest_activity_chosen (log : Log E) (nodes : List ActTree) (ext : E → String)
    (filter : Instance → Bool) (r : List (List Instance))
    (h : extractActivities log nodes ext filter false = some r) (n : Nat) (t : Trace E)
    (ht : log.traces[n]? = some t) (is : List Instance) (hi : r[n]? = some is) (i : Instance) (him : i ∈ is)
    (b : ActTree) (hb : b ∈ nodes)
    (hbs : ∀ e ∈ (t.events.drop i.startPos).take i.length, stringHash (ext e) ∈ b.events) :
    i.node.events.length ≤ b.events.length := by
  rw [extract_nth log nodes ext filter false r h n t ht] at hi
  simp only [Option.some.injEq] at hi
  subst hi
  unfold instancesOf at him
  rw [List.mem_filter, List.mem_map] at him
  obtain ⟨⟨g, hg, rfl⟩, _⟩ := him
  have ok := (scan_segsOk nodes (classHashes ext t.events)).each g hg
  apply ok.min b hb
  intro e he
  have := (ok.seen e).1 he
  unfold classHashes at this
  rw [slice_map] at this
  obtain ⟨x, hx, rfl⟩ := List.mem_map.1 this
  exact hbs x hx

theorem greedy_unique_aux {α : Type} (K : List α → Prop) (hK : ∀ u v, (∀ e ∈ u, e ∈ v) → K v → K u) (t : List α) (lo : Nat)
    (l m : List (Nat × Nat))
    (hl : WellPlaced t.length l) (hm : WellPlaced t.length m)
    (hl0 : ∀ p ∈ l, lo ≤ p.1) (hm0 : ∀ p ∈ m, lo ≤ p.1)
    (hlc : ∀ i e, lo ≤ i → t[i]? = some e → (Covered l i ↔ K [e]))
    (hmc : ∀ i e, lo ≤ i → t[i]? = some e → (Covered m i ↔ K [e]))
    (hlk : ∀ p ∈ l, K ((t.drop p.1).take p.2)) (hmk : ∀ p ∈ m, K ((t.drop p.1).take p.2))
    (hlm : ∀ p ∈ l, ∀ e, t[p.1 + p.2]? = some e → ¬ K ((t.drop p.1).take p.2 ++ [e]))
    (hmm : ∀ p ∈ m, ∀ e, t[p.1 + p.2]? = some e → ¬ K ((t.drop p.1).take p.2 ++ [e])) : l = m := by
  -- a position before the first interval of a well placed list is not covered
  have hnc : ∀ (p : Nat × Nat) (k : List (Nat × Nat)) (i : Nat), WellPlaced t.length (p :: k) → i < p.1 →
      ¬ Covered (p :: k) i := by
    rintro p k i hw hi ⟨q, hq, h1, h2⟩
    rcases List.mem_cons.1 hq with rfl | hq
    · omega
    · have := (List.pairwise_cons.1 hw.2).1 q hq
      omega
  have hcov0 : ∀ (p : Nat × Nat) (k : List (Nat × Nat)), WellPlaced t.length (p :: k) → Covered (p :: k) p.1 := by
    intro p k hw
    exact ⟨p, by simp, le_refl _, by have := (hw.1 p (by simp)).1; omega⟩
  induction l generalizing lo m with
  | nil =>
    cases m with
    | nil => rfl
    | cons q m =>
      exfalso
      have hq := hm.1 q (by simp)
      have hlt : q.1 < t.length := by omega
      have he : t[q.1]? = some t[q.1] := List.getElem?_eq_getElem hlt
      have h1 := (hmc q.1 _ (hm0 q (by simp)) he).1 (hcov0 q m hm)
      have h2 := (hlc q.1 _ (hm0 q (by simp)) he).2 h1
      obtain ⟨p, hp, _⟩ := h2
      simp at hp
  | cons p l ih =>
    have hp := hl.1 p (by simp)
    have hplt : p.1 < t.length := by omega
    have hpe : t[p.1]? = some t[p.1] := List.getElem?_eq_getElem hplt
    have hpk := (hlc p.1 _ (hl0 p (by simp)) hpe).1 (hcov0 p l hl)
    cases m with
    | nil =>
      exfalso
      obtain ⟨q, hq, _⟩ := (hmc p.1 _ (hl0 p (by simp)) hpe).2 hpk
      simp at hq
    | cons q m =>
      have hq := hm.1 q (by simp)
      have hqlt : q.1 < t.length := by omega
      have hqe : t[q.1]? = some t[q.1] := List.getElem?_eq_getElem hqlt
      have hqk := (hmc q.1 _ (hm0 q (by simp)) hqe).1 (hcov0 q m hm)
      have hstart : p.1 = q.1 := by
        rcases Nat.lt_trichotomy p.1 q.1 with h | h | h
        · exact absurd ((hmc p.1 _ (hl0 p (by simp)) hpe).2 hpk) (hnc q m p.1 hm h)
        · exact h
        · exact absurd ((hlc q.1 _ (hm0 q (by simp)) hqe).2 hqk) (hnc p l q.1 hl h)
      -- the ends agree as well
      have hshort : ∀ (s a b : Nat), a < b → s + b ≤ t.length → K ((t.drop s).take b) →
          (∀ e, t[s + a]? = some e → ¬ K ((t.drop s).take a ++ [e])) → False := by
        intro s a b hab hb hk hmax
        have hlt : s + a < t.length := by omega
        apply hmax _ (List.getElem?_eq_getElem hlt)
        refine hK _ _ ?_ hk
        intro e he
        rcases List.mem_append.1 he with he | he
        · exact (List.take_sublist_take_left (by omega)).subset he
        · obtain rfl := List.mem_singleton.1 he
          rw [List.mem_take_iff_getElem]
          exact ⟨a, by simp; omega, by simp⟩
      have hlen : p.2 = q.2 := by
        rcases Nat.lt_trichotomy p.2 q.2 with h | h | h
        · exact (hshort p.1 p.2 q.2 h (by omega) (by rw [hstart]; exact hmk q (by simp)) (hlm p (by simp))).elim
        · exact h
        · exact (hshort q.1 q.2 p.2 h (by omega) (by rw [← hstart]; exact hlk p (by simp)) (hmm q (by simp))).elim
      have hpq : p = q := Prod.ext hstart hlen
      subst hpq
      have htl : l = m := by
        apply ih (p.1 + p.2) m
        · exact ⟨fun x hx => hl.1 x (by simp [hx]), (List.pairwise_cons.1 hl.2).2⟩
        · exact ⟨fun x hx => hm.1 x (by simp [hx]), (List.pairwise_cons.1 hm.2).2⟩
        · exact (List.pairwise_cons.1 hl.2).1
        · exact (List.pairwise_cons.1 hm.2).1
        · intro i e hi he
          rw [← hlc i e (by have := hl0 p (by simp); omega) he]
          constructor
          · rintro ⟨x, hx, hx'⟩; exact ⟨x, by simp [hx], hx'⟩
          · rintro ⟨x, hx, hx'⟩
            rcases List.mem_cons.1 hx with rfl | hx
            · omega
            · exact ⟨x, hx, hx'⟩
        · intro i e hi he
          rw [← hmc i e (by have := hm0 p (by simp); omega) he]
          constructor
          · rintro ⟨x, hx, hx'⟩; exact ⟨x, by simp [hx], hx'⟩
          · rintro ⟨x, hx, hx'⟩
            rcases List.mem_cons.1 hx with rfl | hx
            · omega
            · exact ⟨x, hx, hx'⟩
        · exact fun x hx => hlk x (by simp [hx])
        · exact fun x hx => hmk x (by simp [hx])
        · exact fun x hx => hlm x (by simp [hx])
        · exact fun x hx => hmm x (by simp [hx])
      rw [htl]

/-- C30c: the greedy segmentation is unique, so C30a determines the intervals completely; in particular they do not
depend on the order or the names of the activities. -/
theorem C30_segmentation_unique {α : Type} (family : List (List α)) (t : List α) (l m : List (Nat × Nat))
    (hl : Greedy family t l) (hm : Greedy family t m) : l = m :=
  greedy_unique_aux (Known family) (fun _ _ hs ⟨f, hf, hv⟩ => ⟨f, hf, fun e he => hv e (hs e he)⟩) t 0 l m hl.placed hm.placed (fun _ _ => Nat.zero_le _) (fun _ _ => Nat.zero_le _)
    (fun i e _ => hl.cover i e) (fun i e _ => hm.cover i e) hl.known hm.known hl.maximal hm.maximal

/-- C31a: narrowing terminates and gives the node itself or a node below it, whose event set contains the observed
events. -/
theorem C31_narrowed_covers (t : ActTree) (s : List Int) (hs : ∀ e ∈ s, e ∈ t.events) :
    ∃ r, narrowActivity t s = some r ∧ r ∈ subtrees t ∧ ∀ e ∈ s, e ∈ r.events := by
  refine ⟨_, narrowActivity_eq t s, narrowed_spec t s hs⟩

theorem acts_mem_subtrees_aux :
    ∀ n, (∀ t : ActTree, ActTree.count t ≤ n → ∀ a ∈ acts t, ∃ x ∈ subtrees t, x.act = a) ∧
      (∀ f : List ActTree, ActTree.countL f ≤ n → ∀ a ∈ actsL f, ∃ x ∈ subtreesL f, x.act = a) := by
  intro n
  induction n with
  | zero =>
    constructor
    · intro t ht; cases t; simp [ActTree.count] at ht
    · intro f hf a ha
      cases f with
      | nil => simp [actsL] at ha
      | cons t ts => cases t; simp [ActTree.countL, ActTree.count] at hf
  | succ n ih =>
    have hT : ∀ t : ActTree, ActTree.count t ≤ n + 1 → ∀ a ∈ acts t, ∃ x ∈ subtrees t, x.act = a := by
      intro t ht a ha
      cases t with
      | node b cs =>
        simp only [ActTree.count] at ht
        simp only [acts, List.mem_cons] at ha
        rcases ha with rfl | ha
        · exact ⟨.node a cs, by simp [subtrees], rfl⟩
        · obtain ⟨x, hx, he⟩ := ih.2 cs (by omega) a ha
          exact ⟨x, by simp [subtrees, hx], he⟩
    refine ⟨hT, ?_⟩
    intro f
    induction f with
    | nil => intro _ a ha; simp [actsL] at ha
    | cons t ts ihf =>
      intro hf a ha
      simp only [ActTree.countL] at hf
      simp only [actsL, List.mem_append] at ha
      rcases ha with ha | ha
      · obtain ⟨x, hx, he⟩ := hT t (by omega) a ha
        exact ⟨x, by simp [subtreesL, hx], he⟩
      · obtain ⟨x, hx, he⟩ := ihf (by omega) a ha
        exact ⟨x, by simp [subtreesL, hx], he⟩

theorem acts_mem_subtrees (t : ActTree) (a : Activity) (ha : a ∈ acts t) : ∃ x ∈ subtrees t, x.act = a :=
  (acts_mem_subtrees_aux _).1 t (le_refl _) a ha

/-- C31b: if the event set of every child is contained in that of its parent (as in the trees of C28) and event sets
are duplicate-free, no node of the tree that contains the observed events is smaller than the result. -/
theorem C31_narrowed_smallest (t : ActTree) (s : List Int) (hs : ∀ e ∈ s, e ∈ t.events)
    (hincl : ∀ p c, (p, c) ∈ links t → ∀ e ∈ c.events, e ∈ p.events) (hnd : ∀ a ∈ acts t, a.events.Nodup)
    (r : ActTree) (hr : narrowActivity t s = some r) (d : Activity) (hd : d ∈ acts t)
    (hds : ∀ e ∈ s, e ∈ d.events) : r.events.length ≤ d.events.length := by
  obtain ⟨r', hr', hspec⟩ := narrowActivity_spec t s
  rw [hr] at hr'
  simp only [Option.some.injEq] at hr'
  subst hr'
  obtain ⟨x, hx, rfl⟩ := acts_mem_subtrees t d hd
  have hxc : x.covers s = true := (covers_iff x s).2 hds
  cases t with
  | node a cs =>
    simp only [ActTree.children] at hspec
    have hchildren : ∀ y ∈ subtreesL cs, y.covers s = true → y ∈ reachL s cs := fun y hy hyc =>
      ((reach_complete_aux s).2 cs (fun p c hpc => hincl p c (by simp [links, hpc])) y hy hyc).1
    simp only [subtrees, List.mem_cons] at hx
    rcases hspec with ⟨rfl, hnil⟩ | ⟨hmem, hmin⟩
    · rcases hx with rfl | hx
      · exact le_refl _
      · have := hchildren x hx hxc
        rw [hnil] at this; simp at this
    · rcases hx with rfl | hx
      · -- the result is below a root child, whose set is inside the node's set
        -- every node below is contained in the root
        have hroot : ∀ n, (∀ u : ActTree, ActTree.count u ≤ n →
            (∀ p c, (p, c) ∈ links u → ∀ e ∈ c.events, e ∈ p.events) →
            ∀ y ∈ subtrees u, ∀ e ∈ y.events, e ∈ u.events) := by
          intro n u _ hlu y hy e he
          have := ((reach_complete_aux [e]).1 u hlu y hy ((covers_iff _ _).2 (by simpa using he))).2
          exact (covers_iff _ _).1 this e (by simp)
        have hrs := (reachL_sound s cs r hmem).1
        have hsubr : ∀ e ∈ r.events, e ∈ (ActTree.node a cs).events :=
          hroot _ (.node a cs) (le_refl _) hincl r (by simp [subtrees, hrs])
        have hndr : r.events.Nodup := hnd r.act (by simp [acts, act_mem_actsL cs r hrs])
        exact (hndr.subperm hsubr).length_le
      · exact hmin x (hchildren x hx hxc)

theorem links_subset_linksL (f : List ActTree) : ∀ t ∈ f, ∀ x ∈ links t, x ∈ linksL f := by
  intro t ht x hx
  induction f with
  | nil => simp at ht
  | cons u us ih =>
    simp only [linksL, List.mem_append]
    rcases List.mem_cons.1 ht with rfl | ht
    · exact Or.inl hx
    · exact Or.inr (ih ht)

theorem acts_subset_actsL (f : List ActTree) : ∀ t ∈ f, ∀ x ∈ acts t, x ∈ actsL f := by
  intro t ht x hx
  induction f with
  | nil => simp at ht
  | cons u us ih =>
    simp only [actsL, List.mem_append]
    rcases List.mem_cons.1 ht with rfl | ht
    · exact Or.inl hx
    · exact Or.inr (ih ht)

/-- C31c: in a forest built by `build_repeat_set_tree` the narrowed activity is a smallest one of the tree that
contains the observed events. -/
theorem C31_narrowed_smallest_in_built_forest (log : Log E) (rs : List RepeatSet) (nameOf : RepeatSet → String)
    (level : Nat) (ext : E → String) (uid : Nat) (forest : List ActTree)
    (h : buildRepeatSetTree log rs nameOf level ext uid = .ok forest) (t : ActTree) (ht : t ∈ forest) (s : List Int)
    (hs : ∀ e ∈ s, e ∈ t.events) :
    ∃ r, narrowActivity t s = some r ∧ r ∈ subtrees t ∧ (∀ e ∈ s, e ∈ r.events) ∧
      ∀ d ∈ acts t, (∀ e ∈ s, e ∈ d.events) → r.events.length ≤ d.events.length := by
  obtain ⟨r, hr, hsub, hcov⟩ := C31_narrowed_covers t s hs
  refine ⟨r, hr, hsub, hcov, fun d hd hds => ?_⟩
  apply C31_narrowed_smallest t s hs _ _ r hr d hd hds
  · intro p c hpc
    exact C28_children_contained log rs nameOf level ext uid forest h p c (links_subset_linksL forest t ht _ hpc)
  · intro a ha
    exact ((C28_each_repeat_set_once log rs nameOf level ext uid forest h).2.2 a
      (acts_subset_actsL forest t ht a ha)).2.2.1

/-! ### Concrete case: the activities {a, b} (with the child {a}) and {c}, and the trace x a b a c c a -/

def exAct (uid : Nat) (name : String) (es : List String) : Activity :=
  { uid := uid, name := name, level := 0, repeatSet := ⟨0, 0, 0⟩, events := es.map stringHash }

def exNodes : List ActTree :=
  [.node (exAct 0 "AB" ["a", "b"]) [.node (exAct 1 "A" ["a"]) []], .node (exAct 2 "C" ["c"]) []]

def exExtractLog : Log String := Log.ofEvs [["x", "a", "b", "a", "c", "c", "a"], []]

example : (extractActivities exExtractLog exNodes id (fun _ => true) true).map
    (fun r => r.map (fun is => is.map (fun i => (i.node.act.name, i.startPos, i.length)))) =
    some [[("AB", 1, 3), ("C", 4, 2), ("A", 6, 1)], []] := by decide +kernel

/-- The theorems apply to this log. -/
example : ∃ r is, extractActivities exExtractLog exNodes id (fun _ => true) false = some r ∧ r[0]? = some is ∧
    WellPlaced 7 (is.map span) ∧
    Greedy (exNodes.map ActTree.events) (classHashes id ["x", "a", "b", "a", "c", "c", "a"]) (is.map span) := by
  obtain ⟨r, h, hlen⟩ := C29_terminates exExtractLog exNodes id (fun _ => true) false
  have hlt : 0 < r.length := by rw [hlen]; decide
  refine ⟨r, r[0], h, List.getElem?_eq_getElem hlt, ?_, ?_⟩
  · exact C29_instances_well_placed exExtractLog exNodes id _ false r h 0 _ rfl _ (List.getElem?_eq_getElem hlt)
  · exact C30_greedy_segmentation exExtractLog exNodes id false r h 0 _ rfl _ (List.getElem?_eq_getElem hlt)

/-- The filter case: only instances of length at least two. -/
example : (extractActivities exExtractLog exNodes id (fun i => 2 ≤ i.length) false).map
    (fun r => r.map (fun is => is.map (fun i => (i.node.act.name, i.startPos, i.length)))) =
    some [[("AB", 1, 3), ("C", 4, 2)], []] := by decide +kernel

/-- Narrowing {a, b} to the observed set {a}; the hypotheses of C31b hold. -/
example : (∀ p c, (p, c) ∈ links exNodes[0] → ∀ e ∈ c.events, e ∈ p.events) ∧
    (∀ a ∈ acts exNodes[0], a.events.Nodup) ∧ (∀ e ∈ [stringHash "a"], e ∈ exNodes[0].events) ∧
    (narrowActivity exNodes[0] [stringHash "a"]).map (fun r => r.act.name) = some "A" := by
  refine ⟨?_, by decide +kernel, by decide +kernel, by decide +kernel⟩
  intro p c hpc
  have : (p, c) = (exAct 0 "AB" ["a", "b"], exAct 1 "A" ["a"]) := by simpa [exNodes, links, linksL, ActTree.act] using hpc
  obtain ⟨rfl, rfl⟩ := Prod.mk.inj this
  decide +kernel

end Ficus
