import Verif.Proofs.BuildGraph

/-! Properties C66 to C69: Petri nets and graphs that arrive from the backend, and the drawing of graphs and trees. -/

namespace Ficus
open Spec

/-! ### C66 -/

/-- C66a: if no identifier is repeated among the places and none among the transitions, the net object has exactly the
places, transitions (with all their arcs and data) and marked places of the message, in the same order, each under its
identifier. -/
theorem C66_net_arrives (g : GNet) (hp : (g.places.map (·.id)).Nodup) (ht : (g.transitions.map (·.id)).Nodup) :
    (fromGrpcNet g).places.map (fun kv => (kv.1, kv.2.id, kv.2.name)) = g.places.map (fun p => (p.id, p.id, p.name)) ∧
    (fromGrpcNet g).transitions.map (fun kv => (kv.1, kv.2.id, kv.2.incoming.map arcTuple', kv.2.outgoing.map arcTuple',
        kv.2.data)) =
      g.transitions.map (fun t => (t.id, t.id, t.incoming.map arcTuple, t.outgoing.map arcTuple, some t.data)) ∧
    (fromGrpcNet g).initial.map (fun ms => ms.map (fun m => (m.placeId, m.tokens))) =
      some ((g.initial.getD []).map (fun m => (m.placeId, m.tokens))) ∧
    (fromGrpcNet g).final.map (fun ms => ms.map (fun m => (m.placeId, m.tokens))) =
      some ((g.final.getD []).map (fun m => (m.placeId, m.tokens))) := by
  refine ⟨?_, ?_, ?_, ?_⟩
  · unfold fromGrpcNet
    simp only
    rw [foldSet_nodup (fun p : GPlace => (fromGrpcPlace p).id) fromGrpcPlace g.places []
      (by simpa [Dict.keys, fromGrpcPlace] using hp)]
    simp [fromGrpcPlace]
  · unfold fromGrpcNet
    simp only
    rw [foldSet_nodup (fun t : GTransition => (fromGrpcTransition t).id) fromGrpcTransition g.transitions []
      (by simpa [Dict.keys, fromGrpcTransition] using ht)]
    simp [fromGrpcTransition, fromGrpcArc, arcTuple, arcTuple', Function.comp_def]
  · simp [fromGrpcNet, tryFromGrpcMarking, readField, fromGrpcSingle]
  · simp [fromGrpcNet, tryFromGrpcMarking, readField, fromGrpcSingle]

/-- C66b: with repeated identifiers, each identifier is kept at the position of its first occurrence with the contents of
its last occurrence. -/
theorem C66_repeated_identifiers (g : GNet) :
    (fromGrpcNet g).places.map Prod.fst = (g.places.map (·.id)).eraseDups ∧
    (∀ id, (fromGrpcNet g).places.get? id = (lastWith (·.id) g.places id).map fromGrpcPlace) ∧
    (fromGrpcNet g).transitions.map Prod.fst = (g.transitions.map (·.id)).eraseDups ∧
    (∀ id, (fromGrpcNet g).transitions.get? id = (lastWith (·.id) g.transitions id).map fromGrpcTransition) := by
  refine ⟨?_, ?_, ?_, ?_⟩
  · exact foldSet_keys (fun p : GPlace => (fromGrpcPlace p).id) fromGrpcPlace g.places
  · intro id
    refine (foldSet_get? (fun p : GPlace => (fromGrpcPlace p).id) fromGrpcPlace g.places [] id).trans ?_
    have : lastWith (fun p : GPlace => (fromGrpcPlace p).id) g.places id = lastWith (·.id) g.places id := rfl
    rw [this]
    cases lastWith (·.id) g.places id <;> rfl
  · exact foldSet_keys (fun t : GTransition => (fromGrpcTransition t).id) fromGrpcTransition g.transitions
  · intro id
    refine (foldSet_get? (fun t : GTransition => (fromGrpcTransition t).id) fromGrpcTransition g.transitions [] id).trans ?_
    have : lastWith (fun t : GTransition => (fromGrpcTransition t).id) g.transitions id =
      lastWith (·.id) g.transitions id := rfl
    rw [this]
    cases lastWith (·.id) g.transitions id <;> rfl

/-- C66c: the object never has a missing marking: an unset marking cannot be told from an empty one. -/
theorem C66_unset_marking (g : GNet) :
    fromGrpcNet { g with initial := none } = fromGrpcNet { g with initial := some [] } ∧
    fromGrpcNet { g with final := none } = fromGrpcNet { g with final := some [] } ∧
    (fromGrpcNet g).initial ≠ none ∧ (fromGrpcNet g).final ≠ none := by
  refine ⟨rfl, rfl, ?_, ?_⟩ <;> simp [fromGrpcNet, tryFromGrpcMarking]

/-- A net with two places and one transition, marked at the first place. -/
def exampleNet : GNet :=
  { places := [⟨1, "p"⟩, ⟨2, "q"⟩], transitions := [⟨3, [⟨10, 1, 1⟩], [⟨11, 2, 1⟩], "a"⟩],
    initial := some [⟨1, 1⟩], final := some [⟨2, 1⟩] }

example : (exampleNet.places.map (·.id)).Nodup ∧ (exampleNet.transitions.map (·.id)).Nodup ∧
    (fromGrpcNet exampleNet).places = [(1, ⟨1, "p"⟩), (2, ⟨2, "q"⟩)] := by decide

/-- Two places with the identifier 1: the second replaces the first. -/
example : (fromGrpcNet { exampleNet with places := [⟨1, "p"⟩, ⟨2, "q"⟩, ⟨1, "r"⟩] }).places =
    [(1, ⟨1, "r"⟩), (2, ⟨2, "q"⟩)] := by decide

/-! ### C67 -/

theorem fromGrpcNet_places_ids (g : GNet) :
    (fromGrpcNet g).places.map (fun kv => kv.2.id) = (g.places.map (·.id)).eraseDups := by
  rw [← (C66_repeated_identifiers g).1]
  apply List.map_congr_left
  intro kv hkv
  exact (foldSet_keyed (fun p : GPlace => (fromGrpcPlace p).id) fromGrpcPlace g.places [] (fun k v => v.id = k)
    (by simp) (fun a _ => rfl) kv hkv)

theorem fromGrpcNet_transitions_ids (g : GNet) :
    (fromGrpcNet g).transitions.map (fun kv => kv.2.id) = (g.transitions.map (·.id)).eraseDups := by
  rw [← (C66_repeated_identifiers g).2.2.1]
  apply List.map_congr_left
  intro kv hkv
  exact (foldSet_keyed (fun t : GTransition => (fromGrpcTransition t).id) fromGrpcTransition g.transitions []
    (fun k v => v.id = k) (by simp) (fun a _ => rfl) kv hkv)

theorem eraseDups_nodup {A : Type} [DecidableEq A] (l : List A) : l.eraseDups.Nodup := by
  induction l using List.reverseRecOn with
  | nil => simp
  | append_singleton l a ih =>
    rw [List.eraseDups_append]
    simp only [List.removeAll, List.filter_cons, List.filter_nil]
    by_cases h : a ∈ l
    · simp [h, ih]
    · simp only [List.elem_eq_mem, h, decide_false, Bool.not_false, if_true]
      rw [List.nodup_append]
      refine ⟨ih, by simp [List.eraseDups_cons], ?_⟩
      intro x hx y hy
      simp [List.eraseDups_cons] at hy
      subst hy
      rintro rfl
      exact h (by simpa using hx)

/-- C67a: the declared nodes are the identifiers of the places followed by those of the transitions; they are distinct,
so that each is a node of its own, exactly if no identifier is used for a place and for a transition. -/
theorem C67_nodes (g : GNet) (sn : Bool) (ann : Option (Dict Int String)) :
    nodeNames (viewNet g sn ann) =
      ((g.places.map (·.id)).eraseDups ++ (g.transitions.map (·.id)).eraseDups).map toString ∧
    ((nodeNames (viewNet g sn ann)).Nodup ↔ ∀ p ∈ g.places, ∀ t ∈ g.transitions, p.id ≠ t.id) := by
  have h : nodeNames (viewNet g sn ann) =
      ((g.places.map (·.id)).eraseDups ++ (g.transitions.map (·.id)).eraseDups).map toString := by
    unfold viewNet
    rw [nodeNames_drawNet, ← fromGrpcNet_places_ids, ← fromGrpcNet_transitions_ids, List.map_append, List.map_map,
      List.map_map]
    rfl
  refine ⟨h, ?_⟩
  rw [h, List.nodup_map_iff (fun a b hab => intText_injective hab), List.nodup_append]
  constructor
  · rintro ⟨_, _, h3⟩ p hp t ht
    exact h3 p.id (by simpa using ⟨p, hp, rfl⟩) t.id (by simpa using ⟨t, ht, rfl⟩)
  · intro h
    refine ⟨eraseDups_nodup _, eraseDups_nodup _, ?_⟩
    intro a ha b hb
    simp only [List.mem_eraseDups, List.mem_map] at ha hb
    obtain ⟨p, hp, rfl⟩ := ha
    obtain ⟨t, ht, rfl⟩ := hb
    exact h p hp t ht

theorem arcLabel_eq (ann : Option (Dict Int String)) (a : GArc) : arcLabel ann (fromGrpcArc a) = arcText ann a.id := by
  unfold arcLabel arcText Dict.contains
  cases ann with
  | none => rfl
  | some d => cases h : Dict.get? d a.id <;> simp [fromGrpcArc, h]

theorem edges_viewNet (g : GNet) (sn : Bool) (ann : Option (Dict Int String)) (ht : (g.transitions.map (·.id)).Nodup) :
    edges (viewNet g sn ann) = g.transitions.flatMap (fun t =>
      t.incoming.map (fun a => ((toString a.placeId : String), (toString t.id : String),
        some (arcText ann a.id))) ++
      t.outgoing.map (fun a => ((toString t.id : String), (toString a.placeId : String),
        some (arcText ann a.id)))) := by
  unfold viewNet
  rw [edges_drawNet]
  unfold fromGrpcNet
  simp only
  rw [foldSet_nodup (fun t : GTransition => (fromGrpcTransition t).id) fromGrpcTransition g.transitions []
      (by simpa [Dict.keys, fromGrpcTransition] using ht), List.nil_append, List.flatMap_map]
  simp only [fromGrpcTransition, List.map_map, Function.comp_def, arcLabel_eq]
  rfl

theorem flatMap_filter_one {A B : Type} (l : List A) (f : A → List B) (p : B → Bool) (a : A) (hl : l.Nodup) (ha : a ∈ l)
    (h : ∀ b ∈ l, b ≠ a → (f b).filter p = []) : (l.flatMap f).filter p = (f a).filter p := by
  induction l with
  | nil => simp at ha
  | cons x l ih =>
    rw [List.flatMap_cons, List.filter_append]
    rw [List.nodup_cons] at hl
    by_cases hx : x = a
    · subst hx
      have : (l.flatMap f).filter p = [] := by
        rw [List.filter_flatMap]
        rw [List.flatMap_eq_nil_iff]
        intro b hb
        exact h b (by simp [hb]) (fun e => hl.1 (e ▸ hb))
      rw [this, List.append_nil]
    · have ha' : a ∈ l := by
        rcases List.mem_cons.1 ha with e | e
        · exact absurd e.symm hx
        · exact e
      rw [h x (by simp) hx, List.nil_append]
      exact ih hl.2 ha' (fun b hb => h b (by simp [hb]))

theorem nodup_of_map_nodup {A B : Type} (f : A → B) (l : List A) (h : (l.map f).Nodup) : l.Nodup := List.Nodup.of_map f h

theorem inj_of_nodup_map {A B : Type} (f : A → B) (l : List A) (h : (l.map f).Nodup) {a b : A} (ha : a ∈ l) (hb : b ∈ l)
    (e : f a = f b) : a = b := by
  exact List.inj_on_of_nodup_map h ha hb e

/-- C67b: if no identifier is used twice and the arcs refer to places of the net, then the edges that end in a
transition come from the places of its incoming arcs, and the edges that begin there go to the places of its outgoing
arcs, in their order and with their multiplicity, and labelled by the annotation; and there are no further edges. -/
theorem C67_edges (g : GNet) (sn : Bool) (ann : Option (Dict Int String)) (hu : UniqueIds g) (ha : ArcsInside g) :
    (∀ t ∈ g.transitions,
      (edges (viewNet g sn ann)).filter (fun e => e.2.1 = toString t.id) =
        t.incoming.map (fun a => (toString a.placeId, toString t.id, some (arcText ann a.id))) ∧
      (edges (viewNet g sn ann)).filter (fun e => e.1 = toString t.id) =
        t.outgoing.map (fun a => (toString t.id, toString a.placeId, some (arcText ann a.id)))) ∧
    (edges (viewNet g sn ann)).length = (g.transitions.map (fun t => t.incoming.length + t.outgoing.length)).sum := by
  unfold UniqueIds at hu
  rw [List.nodup_append] at hu
  obtain ⟨_, htn, hdis⟩ := hu
  have hne : ∀ t ∈ g.transitions, ∀ t' ∈ g.transitions, ∀ a ∈ t'.incoming ++ t'.outgoing,
      (toString a.placeId : String) ≠ toString t.id := by
    intro t ht t' ht' a haa e
    exact hdis _ (ha t' ht' a haa) t.id (List.mem_map.2 ⟨t, ht, rfl⟩) (intText_injective e)
  have hid : ∀ t ∈ g.transitions, ∀ t' ∈ g.transitions, t' ≠ t → (toString t'.id : String) ≠ toString t.id := by
    intro t ht t' ht' h e
    exact h (inj_of_nodup_map _ _ htn ht' ht (intText_injective e))
  rw [edges_viewNet g sn ann htn]
  refine ⟨?_, ?_⟩
  · intro t ht
    constructor
    · rw [flatMap_filter_one _ _ _ t (nodup_of_map_nodup _ _ htn) ht]
      · rw [List.filter_append, List.filter_eq_self.2, List.filter_eq_nil_iff.2, List.append_nil]
        · intro e he
          obtain ⟨a, haa, rfl⟩ := List.mem_map.1 he
          simpa using hne t ht t ht a (by simp [haa])
        · intro e he
          obtain ⟨a, haa, rfl⟩ := List.mem_map.1 he
          simp
      · intro t' ht' hh
        rw [List.filter_eq_nil_iff]
        intro e he
        rcases List.mem_append.1 he with he | he
        · obtain ⟨a, haa, rfl⟩ := List.mem_map.1 he
          simpa using hid t ht t' ht' hh
        · obtain ⟨a, haa, rfl⟩ := List.mem_map.1 he
          simpa using hne t ht t' ht' a (by simp [haa])
    · rw [flatMap_filter_one _ _ _ t (nodup_of_map_nodup _ _ htn) ht]
      · rw [List.filter_append, List.filter_eq_nil_iff.2, List.nil_append, List.filter_eq_self.2]
        · intro e he
          obtain ⟨a, haa, rfl⟩ := List.mem_map.1 he
          simp
        · intro e he
          obtain ⟨a, haa, rfl⟩ := List.mem_map.1 he
          simpa using hne t ht t ht a (by simp [haa])
      · intro t' ht' hh
        rw [List.filter_eq_nil_iff]
        intro e he
        rcases List.mem_append.1 he with he | he
        · obtain ⟨a, haa, rfl⟩ := List.mem_map.1 he
          simpa using hne t ht t' ht' a (by simp [haa])
        · obtain ⟨a, haa, rfl⟩ := List.mem_map.1 he
          simpa using hid t ht t' ht' hh
  · rw [List.length_flatMap]
    simp

/-- C67c: with unique identifiers, all edges connect declared nodes exactly if every arc refers to a place or transition
of the net. -/
theorem C67_closed (g : GNet) (sn : Bool) (ann : Option (Dict Int String)) (hu : UniqueIds g) :
    Closed (viewNet g sn ann) ↔ ∀ t ∈ g.transitions, ∀ a ∈ t.incoming ++ t.outgoing,
      a.placeId ∈ g.places.map (·.id) ++ g.transitions.map (·.id) := by
  have htn := (List.nodup_append.1 hu).2.1
  have hm : ∀ i : Int, (toString i : String) ∈ nodeNames (viewNet g sn ann) ↔
      i ∈ g.places.map (·.id) ++ g.transitions.map (·.id) := by
    intro i
    rw [(C67_nodes g sn ann).1, List.mem_map]
    constructor
    · rintro ⟨j, hj, e⟩
      rw [intText_injective e] at hj
      simpa using hj
    · intro h
      exact ⟨i, by simpa using h, rfl⟩
  unfold Closed
  rw [edges_viewNet g sn ann htn]
  constructor
  · intro h t ht a haa
    rw [← hm]
    rcases List.mem_append.1 haa with haa | haa
    · exact (h ((toString a.placeId : String), (toString t.id : String), some (arcText ann a.id))
        (List.mem_flatMap.2 ⟨t, ht, List.mem_append_left _ (List.mem_map.2 ⟨a, haa, rfl⟩)⟩)).1
    · exact (h ((toString t.id : String), (toString a.placeId : String), some (arcText ann a.id))
        (List.mem_flatMap.2 ⟨t, ht, List.mem_append_right _ (List.mem_map.2 ⟨a, haa, rfl⟩)⟩)).2
  · intro h e he
    obtain ⟨t, ht, he⟩ := List.mem_flatMap.1 he
    have htm : (toString t.id : String) ∈ nodeNames (viewNet g sn ann) :=
      (hm _).2 (List.mem_append_right _ (List.mem_map.2 ⟨t, ht, rfl⟩))
    rcases List.mem_append.1 he with he | he
    · obtain ⟨a, haa, rfl⟩ := List.mem_map.1 he
      exact ⟨(hm _).2 (h t ht a (by simp [haa])), htm⟩
    · obtain ⟨a, haa, rfl⟩ := List.mem_map.1 he
      exact ⟨htm, (hm _).2 (h t ht a (by simp [haa]))⟩

/-- C67d: with unique identifiers, the node of a transition is a box with its data, and the node of a place is a circle,
with a dot if it is marked initially; with a double circle and a dot if it is marked finally only; otherwise with its
name or without label. -/
theorem C67_appearance (g : GNet) (sn : Bool) (ann : Option (Dict Int String)) (hu : UniqueIds g) :
    (∀ t ∈ g.transitions, ∀ lab sh, DotStmt.node (toString t.id) lab sh ∈ viewNet g sn ann ↔
      lab = some t.data ∧ sh = some "box") ∧
    (∀ p ∈ g.places, ∀ lab sh, DotStmt.node (toString p.id) lab sh ∈ viewNet g sn ann ↔
      ((p.id ∈ (g.initial.getD []).map (·.placeId) ∧ lab = some "<&#9679;>" ∧ sh = some "circle") ∨
       (p.id ∉ (g.initial.getD []).map (·.placeId) ∧ p.id ∈ (g.final.getD []).map (·.placeId) ∧
          lab = some "<&#9679;>" ∧ sh = some "doublecircle") ∨
       (p.id ∉ (g.initial.getD []).map (·.placeId) ∧ p.id ∉ (g.final.getD []).map (·.placeId) ∧
          lab = some (if sn then p.name else "") ∧ sh = some "circle"))) := by
  unfold UniqueIds at hu
  obtain ⟨hpn, htn, hdis⟩ := List.nodup_append.1 hu
  have hplaces : (fromGrpcNet g).places = g.places.map (fun p => (p.id, fromGrpcPlace p)) := by
    unfold fromGrpcNet
    simp only
    rw [foldSet_nodup (fun p : GPlace => (fromGrpcPlace p).id) fromGrpcPlace g.places []
      (by simpa [Dict.keys, fromGrpcPlace] using hpn)]
    simp [fromGrpcPlace]
  have htrans : (fromGrpcNet g).transitions = g.transitions.map (fun t => (t.id, fromGrpcTransition t)) := by
    unfold fromGrpcNet
    simp only
    rw [foldSet_nodup (fun t : GTransition => (fromGrpcTransition t).id) fromGrpcTransition g.transitions []
      (by simpa [Dict.keys, fromGrpcTransition] using htn)]
    simp [fromGrpcTransition]
  have hi : markedPlaces (fromGrpcNet g).initial = (g.initial.getD []).map (·.placeId) := by
    simp [fromGrpcNet, tryFromGrpcMarking, markedPlaces, readField, fromGrpcSingle]
  have hf : markedPlaces (fromGrpcNet g).final = (g.final.getD []).map (·.placeId) := by
    simp [fromGrpcNet, tryFromGrpcMarking, markedPlaces, readField, fromGrpcSingle]
  have hmem := fun n lab sh => mem_drawNet_node (fromGrpcNet g) sn ann n lab sh
  rw [hplaces, htrans, hi, hf] at hmem
  unfold viewNet
  constructor
  · intro t ht lab sh
    rw [hmem]
    constructor
    · rintro (⟨kv, hkv, h1, _⟩ | ⟨kv, hkv, h1, h2, h3⟩)
      · obtain ⟨p, hp, rfl⟩ := List.mem_map.1 hkv
        exact absurd (intText_injective h1).symm
          (hdis p.id (List.mem_map.2 ⟨p, hp, rfl⟩) t.id (List.mem_map.2 ⟨t, ht, rfl⟩))
      · obtain ⟨t', ht', rfl⟩ := List.mem_map.1 hkv
        have := inj_of_nodup_map _ _ htn ht ht' (intText_injective h1)
        subst this
        exact ⟨h2, h3⟩
    · rintro ⟨h1, h2⟩
      exact Or.inr ⟨_, List.mem_map.2 ⟨t, ht, rfl⟩, rfl, h1, h2⟩
  · intro p hp lab sh
    have hiff : DotStmt.node (toString p.id) lab sh ∈ drawNet (fromGrpcNet g) sn ann ↔
        lab = some (placeLook sn ((g.initial.getD []).map (·.placeId)) ((g.final.getD []).map (·.placeId))
          (fromGrpcPlace p)).1 ∧
        sh = some (placeLook sn ((g.initial.getD []).map (·.placeId)) ((g.final.getD []).map (·.placeId))
          (fromGrpcPlace p)).2 := by
      rw [hmem]
      constructor
      · rintro (⟨kv, hkv, h1, h2, h3⟩ | ⟨kv, hkv, h1, _⟩)
        · obtain ⟨p', hp', rfl⟩ := List.mem_map.1 hkv
          have := inj_of_nodup_map _ _ hpn hp hp' (intText_injective h1)
          subst this
          exact ⟨h2, h3⟩
        · obtain ⟨t', ht', rfl⟩ := List.mem_map.1 hkv
          exact absurd (intText_injective h1)
            (hdis p.id (List.mem_map.2 ⟨p, hp, rfl⟩) t'.id (List.mem_map.2 ⟨t', ht', rfl⟩))
      · rintro ⟨h1, h2⟩
        exact Or.inl ⟨_, List.mem_map.2 ⟨p, hp, rfl⟩, rfl, h1, h2⟩
    rw [hiff]
    unfold placeLook
    have hid : (fromGrpcPlace p).id = p.id := rfl
    have hname : (fromGrpcPlace p).name = p.name := rfl
    rw [hid, hname]
    by_cases h1 : p.id ∈ (g.initial.getD []).map (·.placeId)
    · simp [h1]
    · by_cases h2 : p.id ∈ (g.final.getD []).map (·.placeId)
      · simp [h1, h2]
      · simp only [h1, h2, if_false, not_false_eq_true, true_and, false_and, false_or]

/-- C67e: the label of an arc in an annotated net is the count of its last annotation; an arc without annotation has an
empty label. The same holds for frequencies. -/
theorem C67_labels {F : Type} (showFloat : F → String) (counts : List (Int × Int)) (freqs : List (Int × F)) (id : Int) :
    arcText (some (fromCountAnnotation counts)) id =
      ((lastWith Prod.fst counts id).map (fun c => toString c.2)).getD "" ∧
    arcText (some (fromFrequencyAnnotation showFloat freqs)) id =
      ((lastWith Prod.fst freqs id).map (fun c => showFloat c.2)).getD "" ∧
    arcText none id = "" := by
  refine ⟨?_, ?_, rfl⟩
  · unfold arcText fromCountAnnotation
    rw [Option.bind_some, foldSet_get? Prod.fst (fun c : Int × Int => toString c.2) counts [] id]
    cases lastWith Prod.fst counts id <;> rfl
  · unfold arcText fromFrequencyAnnotation
    rw [Option.bind_some, foldSet_get? Prod.fst (fun c : Int × F => showFloat c.2) freqs [] id]
    cases lastWith Prod.fst freqs id <;> rfl

example : arcText (some (fromCountAnnotation [(1, 5), (2, 6), (1, 7)])) 1 = "7" := by decide +kernel

/-- C67f: neither the number of tokens of arcs and markings nor the final marking of an initially marked place can be
seen in the drawing. -/
theorem C67_not_visible : ∃ g g' : GNet, UniqueIds g ∧ UniqueIds g' ∧ ArcsInside g ∧ ArcsInside g' ∧ g ≠ g' ∧
    g.final ≠ g'.final ∧ g.transitions ≠ g'.transitions ∧
    ∀ sn ann, viewNet g sn ann = viewNet g' sn ann := by
  refine ⟨{ exampleNet with final := some [⟨1, 1⟩] },
    { exampleNet with final := none, transitions := [⟨3, [⟨10, 1, 5⟩], [⟨11, 2, 1⟩], "a"⟩] },
    ?_, ?_, ?_, ?_, ?_, ?_, ?_, ?_⟩
  · unfold UniqueIds; decide
  · unfold UniqueIds; decide
  · unfold ArcsInside; decide
  · unfold ArcsInside; decide
  · decide
  · decide
  · decide
  · intro sn ann; rfl

/-- C67g: a place and a transition with the same identifier are one node of the drawing, which the transition's
statement turns into a box. -/
theorem C67_shared_identifier : ∃ g : GNet, (g.places.map (·.id)).Nodup ∧ (g.transitions.map (·.id)).Nodup ∧
    ArcsInside g ∧ nodeNames (viewNet g false none) = ["1", "1"] := by
  refine ⟨{ places := [⟨1, "p"⟩], transitions := [⟨1, [⟨2, 1, 1⟩], [], "a"⟩], initial := none, final := none },
    by decide, by decide, ?_, by decide +kernel⟩
  unfold ArcsInside; decide

example : UniqueIds exampleNet := by unfold UniqueIds; decide
example : ArcsInside exampleNet := by unfold ArcsInside; decide
example : viewNet exampleNet true (some [(10, "7")]) =
    [.node "1" (some "<&#9679;>") (some "circle"), .node "2" (some "<&#9679;>") (some "doublecircle"),
     .node "3" (some "a") (some "box"), .edge "1" "3" (some "7"), .edge "3" "2" (some "")] := by decide +kernel

/-! ### C68 -/

theorem foldl_snoc_map {A B : Type} (f : A → B) (l : List A) (acc : List B) :
    l.foldl (fun acc a => acc ++ [f a]) acc = acc ++ l.map f := by
  induction l generalizing acc with
  | nil => simp
  | cons a l ih => simp [ih]

/-- C68a: a graph arrives as it was sent, and its drawing has one statement per node, labelled by its data, and one edge
per edge, between the nodes of its ends and labelled by its data, in the same order. -/
theorem C68_graph (g : NGraph) :
    fromGrpcGraph g = g ∧
    (∀ i lab sh, DotStmt.node (toString i) lab sh ∈ viewGraph g ↔
      ∃ data, (i, data) ∈ g.nodes ∧ lab = some data ∧ sh = some "circle") ∧
    nodeNames (viewGraph g) = g.nodes.map (fun n => toString n.1) ∧
    edges (viewGraph g) = g.edges.map (fun e => (toString e.1, toString e.2.1, some e.2.2)) := by
  have hg : fromGrpcGraph g = g := by
    unfold fromGrpcGraph
    rw [foldl_snoc_map (fun n : Nat × String => (n.1, n.2)), foldl_snoc_map (fun e : Nat × Nat × String => (e.1, e.2.1, e.2.2))]
    simp
  have hn : ∀ n : Nat, endNode n.repr = n.repr := endNode_nat
  refine ⟨hg, ?_, ?_, ?_⟩
  · intro i lab sh
    unfold viewGraph drawGraph
    rw [hg, List.mem_append, List.mem_map, List.mem_map]
    constructor
    · rintro (⟨n, hn, h⟩ | ⟨e, _, h⟩)
      · simp only [DotStmt.node.injEq] at h
        obtain ⟨h1, h2, h3⟩ := h
        have := natText_injective h1
        exact ⟨n.2, by rw [← this]; exact hn, h2.symm, h3.symm⟩
      · simp [dotEdge] at h
    · rintro ⟨data, h1, h2, h3⟩
      exact Or.inl ⟨_, h1, by rw [h2, h3]⟩
  · unfold viewGraph drawGraph
    rw [hg, nodeNames_append]
    simp [nodeNames, dotEdge, List.filterMap_map]
  · unfold viewGraph drawGraph
    rw [hg, edges_append]
    simp [edges, dotEdge, List.filterMap_map, hn]

/-- C68b: the nodes are distinct exactly if the identifiers are, and every edge connects declared nodes exactly if the
edges of the graph do. -/
theorem C68_faithful (g : NGraph) :
    ((nodeNames (viewGraph g)).Nodup ↔ (g.nodes.map Prod.fst).Nodup) ∧
    (Closed (viewGraph g) ↔ ∀ e ∈ g.edges, e.1 ∈ g.nodes.map Prod.fst ∧ e.2.1 ∈ g.nodes.map Prod.fst) := by
  obtain ⟨_, _, h3, h4⟩ := C68_graph g
  have hm : ∀ i : Nat, (toString i : String) ∈ nodeNames (viewGraph g) ↔ i ∈ g.nodes.map Prod.fst := by
    intro i
    rw [h3]
    simp only [List.mem_map]
    constructor
    · rintro ⟨n, hn, e⟩; exact ⟨n, hn, natText_injective e⟩
    · rintro ⟨n, hn, e⟩; exact ⟨n, hn, by rw [e]⟩
  constructor
  · rw [h3, show g.nodes.map (fun n => toString n.1) = (g.nodes.map Prod.fst).map toString by simp]
    exact List.nodup_map_iff (fun a b hab => natText_injective hab)
  · unfold Closed
    rw [h4]
    constructor
    · intro h e he
      have := h _ (List.mem_map.2 ⟨e, he, rfl⟩)
      exact ⟨(hm _).1 this.1, (hm _).1 this.2⟩
    · intro h e he
      obtain ⟨e', he', rfl⟩ := List.mem_map.1 he
      exact ⟨(hm _).2 (h e' he').1, (hm _).2 (h e' he').2⟩

example : viewGraph { nodes := [(0, "a"), (1, "b")], edges := [(0, 1, "3"), (1, 1, "")] } =
    [.node "0" (some "a") (some "circle"), .node "1" (some "b") (some "circle"), .edge "0" "1" (some "3"),
     .edge "1" "1" (some "")] := by decide +kernel

/-! ### C69 -/

/-- C69a: for a forest in which no name occurs twice, the drawn tree has exactly its nodes, and one edge from each child
to its parent (and from each top level node to the root node, if wanted). Names with a colon are cut at the colon in
edges, see C69d. -/
theorem C69_distinct_names_partial (f : List NameTree) (addRoot : Bool) (h : ((forestNodes f).map NameTree.name).Nodup) :
    nodeNames (buildGraph f addRoot) = (forestNodes f).map NameTree.name ∧
    (edges (buildGraph f addRoot)).Perm
      (((if addRoot then f.map (fun t => (t.name, "root")) else []) ++ parentPairs f).map
        (fun e => (endNode e.1, endNode e.2, none))) := by
  unfold buildGraph
  obtain ⟨h1, h2⟩ := addNodes_fresh (if addRoot then some "root" else none) f { added := [], stmts := [] } (by simpa using h)
  have hi := (addNodes_inv (if addRoot then some "root" else none) f { added := [], stmts := [] }).inv rfl
  refine ⟨by rw [hi, h1]; simp, h2.trans ?_⟩
  rw [show edges { added := [], stmts := [] : BuildState }.stmts = [] from rfl, List.nil_append, List.map_append]
  apply List.Perm.of_eq
  unfold parentPairs
  cases addRoot <;> simp [toParent, pairEdge, Function.comp_def]

/-- C69b: if nodes with the same name have children with the same names, then every name is declared exactly once, and
the edges are those from the name of a child to the name of a parent (and to the root node). -/
theorem C69_consistent_names_partial (f : List NameTree) (addRoot : Bool) (h : Consistent f) :
    (nodeNames (buildGraph f addRoot)).Nodup ∧
    (∀ n, n ∈ nodeNames (buildGraph f addRoot) ↔ ∃ v ∈ forestNodes f, v.name = n) ∧
    (∀ e, e ∈ edges (buildGraph f addRoot) ↔
      ∃ c p, e = (endNode c, endNode p, none) ∧ ((c, p) ∈ parentPairs f ∨ addRoot = true ∧ p = "root" ∧ c ∈ f.map NameTree.name)) := by
  have inv := addNodes_inv (if addRoot then some "root" else none) f { added := [], stmts := [] }
  have hi := inv.inv rfl
  unfold buildGraph
  generalize addNodes (if addRoot then some "root" else none) f { added := [], stmts := [] } = st at inv hi
  -- every node of the forest is added
  have hall : ∀ v ∈ forestNodes f, v.name ∈ st.added := by
    have hstep : ∀ v ∈ forestNodes f, v.name ∈ st.added → ∀ c ∈ v.children, c.name ∈ st.added := by
      intro v hv hva c hc
      obtain ⟨w, hw, hwn, hwc⟩ := inv.complete _ hva (by simp)
      have := h v hv w hw hwn.symm c hc
      obtain ⟨c', hc', e⟩ := List.mem_map.1 this
      rw [← e]
      exact (hwc c' hc').1
    have hdown : ∀ t, t.name ∈ st.added → (∀ v ∈ treeNodes t, v ∈ forestNodes f) → ∀ v ∈ treeNodes t, v.name ∈ st.added := by
      have key : (∀ t : NameTree, t.name ∈ st.added → (∀ v ∈ treeNodes t, v ∈ forestNodes f) →
          ∀ v ∈ treeNodes t, v.name ∈ st.added) := by
        intro t
        induction t using NameTree.rec (motive_2 := fun ts => (∀ t ∈ ts, t.name ∈ st.added) →
          (∀ v ∈ forestNodes ts, v ∈ forestNodes f) → ∀ v ∈ forestNodes ts, v.name ∈ st.added) with
        | node n cs ih =>
          intro hn hsub v hv
          rw [treeNodes] at hv
          rcases List.mem_cons.1 hv with rfl | hv
          · exact hn
          · exact ih (fun c hc => hstep (.node n cs) (hsub _ (by simp [treeNodes])) hn c hc)
              (fun v hv => hsub v (by simp [treeNodes, hv])) v hv
        | nil => rename_i hv; simp [forestNodes] at hv
        | cons t ts ih1 ih2 =>
          rename_i ht hsub v hv
          rw [forestNodes, List.mem_append] at hv
          rcases hv with hv | hv
          · exact ih1 (ht t (by simp)) (fun v hv => hsub v (by simp [forestNodes, hv])) v hv
          · exact ih2 (fun t ht' => ht t (by simp [ht'])) (fun v hv => hsub v (by simp [forestNodes, hv])) v hv
      exact key
    have hforest : ∀ ts : List NameTree, (∀ t ∈ ts, t.name ∈ st.added) → (∀ v ∈ forestNodes ts, v ∈ forestNodes f) →
        ∀ v ∈ forestNodes ts, v.name ∈ st.added := by
      intro ts
      induction ts with
      | nil => intro _ _ v hv; simp [forestNodes] at hv
      | cons t ts ih =>
        intro ht hsub v hv
        rw [forestNodes, List.mem_append] at hv
        rcases hv with hv | hv
        · exact hdown t (ht t (by simp)) (fun v hv => hsub v (by simp [forestNodes, hv])) v hv
        · exact ih (fun t ht' => ht t (by simp [ht'])) (fun v hv => hsub v (by simp [forestNodes, hv])) v hv
    exact hforest f (fun t ht => inv.tops_added _ (List.mem_map.2 ⟨t, ht, rfl⟩)) (fun v hv => hv)
  refine ⟨by rw [hi]; exact inv.nodup (by simp), ?_, ?_⟩
  · intro n
    rw [hi]
    constructor
    · intro hn
      obtain ⟨v, hv, e, _⟩ := inv.complete n hn (by simp)
      exact ⟨v, hv, e⟩
    · rintro ⟨v, hv, rfl⟩
      exact hall v hv
  · intro e
    constructor
    · intro he
      rcases inv.sound e he with he | he | ⟨v, hv, c, hc, he⟩
      · simp [edges] at he
      · cases addRoot with
        | false => simp [toParent] at he
        | true =>
          simp only [toParent, if_true, List.mem_map] at he
          obtain ⟨n, ⟨t, ht, rfl⟩, rfl⟩ := he
          exact ⟨t.name, "root", rfl, Or.inr ⟨rfl, rfl, List.mem_map.2 ⟨t, ht, rfl⟩⟩⟩
      · refine ⟨c.name, v.name, he, Or.inl ?_⟩
        unfold parentPairs
        exact List.mem_flatMap.2 ⟨v, hv, List.mem_map.2 ⟨c, hc, rfl⟩⟩
    · rintro ⟨c, p, rfl, hcp | ⟨rfl, rfl, hc⟩⟩
      · unfold parentPairs at hcp
        obtain ⟨v, hv, hcv⟩ := List.mem_flatMap.1 hcp
        obtain ⟨c', hc', e⟩ := List.mem_map.1 hcv
        simp only [Prod.mk.injEq] at e
        obtain ⟨rfl, rfl⟩ := e
        obtain ⟨w, hw, hwn, hwc⟩ := inv.complete _ (hall v hv) (by simp)
        obtain ⟨c'', hc'', e⟩ := List.mem_map.1 (h v hv w hw hwn.symm c' hc')
        have := (hwc c'' hc'').2
        rw [e] at this
        exact this
      · apply inv.tops_edges
        simp only [toParent, if_true, List.mem_map]
        exact ⟨c, by simpa using hc, rfl⟩

/-- C69c: without that assumption parts of the forest can be missing: the second of two nodes with the same name loses
its children. Every name and edge that is drawn is in the forest, though. -/
theorem C69_children_lost : ∃ f : List NameTree, "b" ∈ (forestNodes f).map NameTree.name ∧ ("b", "a") ∈ parentPairs f ∧
    "b" ∉ nodeNames (buildGraph f false) ∧ ("b", "a", none) ∉ edges (buildGraph f false) := by
  refine ⟨[.node "a" [], .node "a" [.node "b" []]], ?_, ?_, ?_, ?_⟩ <;> decide +kernel

theorem C69_nothing_invented (f : List NameTree) (addRoot : Bool) :
    (nodeNames (buildGraph f addRoot)).Nodup ∧
    (∀ n ∈ nodeNames (buildGraph f addRoot), ∃ v ∈ forestNodes f, v.name = n) ∧
    (∀ t ∈ f, t.name ∈ nodeNames (buildGraph f addRoot)) ∧
    (∀ e ∈ edges (buildGraph f addRoot), ∃ c p, e = (endNode c, endNode p, none) ∧
      ((c, p) ∈ parentPairs f ∨ addRoot = true ∧ p = "root" ∧ c ∈ f.map NameTree.name)) := by
  have inv := addNodes_inv (if addRoot then some "root" else none) f { added := [], stmts := [] }
  have hi := inv.inv rfl
  unfold buildGraph
  generalize addNodes (if addRoot then some "root" else none) f { added := [], stmts := [] } = st at inv hi
  rw [hi]
  refine ⟨inv.nodup (by simp), ?_, ?_, ?_⟩
  · intro n hn
    obtain ⟨v, hv, e, _⟩ := inv.complete n hn (by simp)
    exact ⟨v, hv, e⟩
  · intro t ht
    exact inv.tops_added _ (List.mem_map.2 ⟨t, ht, rfl⟩)
  · intro e he
    rcases inv.sound e he with he | he | ⟨v, hv, c, hc, he⟩
    · simp [edges] at he
    · cases addRoot with
      | false => simp [toParent] at he
      | true =>
        simp only [toParent, if_true, List.mem_map] at he
        obtain ⟨n, ⟨t, ht, rfl⟩, rfl⟩ := he
        exact ⟨t.name, "root", rfl, Or.inr ⟨rfl, rfl, List.mem_map.2 ⟨t, ht, rfl⟩⟩⟩
    · refine ⟨c.name, v.name, he, Or.inl ?_⟩
      unfold parentPairs
      exact List.mem_flatMap.2 ⟨v, hv, List.mem_map.2 ⟨c, hc, rfl⟩⟩

/-- C69d: if no name has a colon, every edge connects declared nodes (the root node is declared by no statement); a name
with a colon gets edges at another node than its own, even if all names are distinct. -/
theorem C69_colons_partial (f : List NameTree) (h : ∀ v ∈ forestNodes f, ':' ∉ v.name.toList) (hc : Consistent f) :
    Closed (buildGraph f false) := by
  obtain ⟨_, h2, h3⟩ := C69_consistent_names_partial f false hc
  intro e he
  obtain ⟨c, p, rfl, hcp | ⟨h', _⟩⟩ := (h3 e).1 he
  · unfold parentPairs at hcp
    obtain ⟨v, hv, hcv⟩ := List.mem_flatMap.1 hcp
    obtain ⟨c', hc', e⟩ := List.mem_map.1 hcv
    simp only [Prod.mk.injEq] at e
    obtain ⟨rfl, rfl⟩ := e
    have hcf : c' ∈ forestNodes f := by
      have key : ∀ t : NameTree, v ∈ treeNodes t → c' ∈ treeNodes t := by
        intro t
        induction t using NameTree.rec (motive_2 := fun ts => v ∈ forestNodes ts → c' ∈ forestNodes ts) with
        | node n cs ih =>
          intro hvt
          rw [treeNodes] at hvt ⊢
          rcases List.mem_cons.1 hvt with e | hvt
          · subst e
            simp only [NameTree.children_node] at hc'
            apply List.mem_cons_of_mem
            clear ih hvt hv hcp hcv he h2 h3
            induction cs with
            | nil => simp at hc'
            | cons x xs ihx =>
              rw [forestNodes, List.mem_append]
              rcases List.mem_cons.1 hc' with rfl | hc'
              · left
                cases c' with
                | node n cs => simp [treeNodes]
              · exact Or.inr (ihx hc')
          · exact List.mem_cons_of_mem _ (ih hvt)
        | nil => rename_i hh; simp [forestNodes] at hh
        | cons t ts ih1 ih2 =>
          rename_i hvt
          rw [forestNodes, List.mem_append] at hvt ⊢
          rcases hvt with hvt | hvt
          · exact Or.inl (ih1 hvt)
          · exact Or.inr (ih2 hvt)
      clear * - hv key
      induction f with
      | nil => simp [forestNodes] at hv
      | cons t ts ih =>
        rw [forestNodes, List.mem_append] at hv ⊢
        rcases hv with hv | hv
        · exact Or.inl (key t hv)
        · exact Or.inr (ih hv)
    simp only
    rw [endNode_of_noColon _ (h c' hcf), endNode_of_noColon _ (h v hv)]
    exact ⟨(h2 _).2 ⟨c', hcf, rfl⟩, (h2 _).2 ⟨v, hv, rfl⟩⟩
  · exact absurd h' (by decide)

theorem C69_colon_breaks_edges : ∃ f : List NameTree, ((forestNodes f).map NameTree.name).Nodup ∧
    nodeNames (buildGraph f false) = ["a", "b:c"] ∧ edges (buildGraph f false) = [("b", "a", none)] := by
  refine ⟨[.node "a" [.node "b:c" []]], ?_, ?_, ?_⟩ <;> decide +kernel

/-- A forest with a shared child name. -/
def exampleForest : List NameTree := [.node "a" [.node "c" []], .node "b" [.node "c" []]]

example : Consistent exampleForest := by
  unfold Consistent
  decide +kernel

example : buildGraph exampleForest true = [.edge "a" "root" none, .node "a" none none, .edge "c" "a" none,
    .node "c" none none, .edge "b" "root" none, .node "b" none none, .edge "c" "b" none] := by decide +kernel

example : ((forestNodes [.node "a" [.node "b" [.node "c" []]]]).map NameTree.name).Nodup := by decide +kernel

end Ficus
