import Verif.Model.RsNet
import Verif.Proofs.Info
import Mathlib.Tactic

/-! Lemmas about building nets. -/

namespace Ficus.Rs

/-- The identifiers of a transition and its arcs. -/
def Trans.ids (t : Trans) : List Nat := t.id :: (t.incoming.map Arc.id ++ t.outgoing.map Arc.id)

/-- All identifiers of a net. -/
def Net.ids (n : Net) : List Nat := n.places.map Place.id ++ n.transitions.flatMap Trans.ids

/-- The identifiers are all different, and were drawn from the counter since it was at `lo`. -/
def Fresh (lo : Nat) (s : Building) : Prop := s.net.ids.Nodup ∧ (∀ i ∈ s.net.ids, lo ≤ i ∧ i < s.next) ∧ lo ≤ s.next

/-- A transition without the identifiers of its arcs. -/
structure View where
  id : Nat
  name : String
  silent : Bool
  ins : List Nat
  outs : List Nat
  deriving DecidableEq

def Trans.view (t : Trans) : View := ⟨t.id, t.name, t.silent, t.incoming.map Arc.place, t.outgoing.map Arc.place⟩

def Building.views (s : Building) : List View := s.net.transitions.map Trans.view

theorem fresh_of_perm {lo : Nat} {s s' : Building} (h : Fresh lo s) (hp : s'.net.ids.Perm (s.next :: s.net.ids))
    (hn : s'.next = s.next + 1) : Fresh lo s' := by
  obtain ⟨h1, h2, h3⟩ := h
  refine ⟨hp.nodup_iff.mpr (List.nodup_cons.mpr ⟨fun h => ?_, h1⟩), ?_, by omega⟩
  · have := (h2 _ h).2; omega
  · intro i hi
    rw [hp.mem_iff, List.mem_cons] at hi
    rcases hi with rfl | hi
    · exact ⟨h3, by omega⟩
    · exact ⟨(h2 i hi).1, by have := (h2 i hi).2; omega⟩

theorem fresh_addPlace {lo : Nat} {s : Building} (h : Fresh lo s) (name : String) (set : Option ASet) :
    Fresh lo (addPlace s name set).1 := by
  refine fresh_of_perm h ?_ rfl
  simp only [addPlace, Net.ids, List.map_append, List.map_cons, List.map_nil]
  refine (List.Perm.append_right _ (List.perm_append_comm)).trans ?_
  simp

theorem fresh_addTransition {lo : Nat} {s : Building} (h : Fresh lo s) (name : String) (silent : Bool) :
    Fresh lo (addTransition s name silent).1 := by
  refine fresh_of_perm h ?_ rfl
  simp only [addTransition, Net.ids, List.flatMap_append, List.flatMap_cons, List.flatMap_nil, Trans.ids, List.map_nil,
    List.append_nil, ← List.append_assoc]
  exact List.perm_append_comm

theorem ids_nodup_of_fresh {lo : Nat} {s : Building} (h : Fresh lo s) : (s.net.transitions.map Trans.id).Nodup := by
  have h1 := (List.nodup_append.mp h.1).2.1
  refine h1.sublist ?_
  generalize s.net.transitions = l
  induction l with
  | nil => simp
  | cons t l ih =>
    rw [List.map_cons, List.flatMap_cons, Trans.ids]
    refine List.Sublist.cons_cons t.id ?_
    exact ih.trans (List.sublist_append_right _ _)

theorem perm_update (f : Trans → Trans) (t n : Nat) (l : List Trans) (hn : (l.map Trans.id).Nodup) (ht : t ∈ l.map Trans.id)
    (h1 : ∀ x, x.id ≠ t → f x = x) (h2 : ∀ x, x.id = t → (f x).ids.Perm (n :: x.ids)) :
    ((l.map f).flatMap Trans.ids).Perm (n :: l.flatMap Trans.ids) := by
  induction l with
  | nil => simp at ht
  | cons x l ih =>
    rw [List.map_cons, List.nodup_cons] at hn
    rw [List.map_cons, List.flatMap_cons, List.flatMap_cons]
    by_cases hx : x.id = t
    · have hrest : l.map f = l := by
        rw [List.map_congr_left (g := id) (fun y hy => h1 y (fun he => hn.1 (List.mem_map.mpr ⟨y, hy, by rw [he, hx]⟩))),
          List.map_id]
      rw [hrest]
      exact (h2 x hx).append_right _
    · rw [h1 x hx]
      rw [List.map_cons, List.mem_cons] at ht
      have := ih hn.2 (ht.resolve_left (fun h => hx h.symm))
      exact (this.append_left x.ids).trans List.perm_middle

theorem connectIn_spec {lo : Nat} {s : Building} (h : Fresh lo s) (p t : Nat) (ht : t ∈ s.net.transitions.map Trans.id) :
    ∃ s', connectIn s p t = some s' ∧ Fresh lo s' ∧ s'.net.places = s.net.places ∧ s'.net.initial = s.net.initial ∧
      s'.net.final = s.net.final ∧
      s'.views = s.views.map (fun v => if v.id = t then { v with ins := v.ins ++ [p] } else v) := by
  unfold connectIn
  have hany : s.net.transitions.any (fun x => decide (x.id = t)) = true := by
    obtain ⟨x, hx, hxt⟩ := List.mem_map.mp ht
    exact List.any_eq_true.mpr ⟨x, hx, by simpa using hxt⟩
  rw [if_pos hany]
  refine ⟨_, rfl, ?_, rfl, rfl, rfl, ?_⟩
  · refine fresh_of_perm h ?_ rfl
    simp only [Net.ids]
    refine (List.Perm.append_left _ (perm_update (Trans.arcFrom s.next p t) t s.next _ (ids_nodup_of_fresh h) ht ?_ ?_)).trans ?_
    · intro x hx; unfold Trans.arcFrom; rw [if_neg hx]
    · intro x hx
      unfold Trans.arcFrom
      rw [if_pos hx]
      simp only [Trans.ids, List.map_append, List.map_cons, List.map_nil]
      refine (List.Perm.cons _ (List.Perm.append_right _ List.perm_append_comm)).trans ?_
      exact List.Perm.swap _ _ _
    · exact List.perm_middle
  · simp only [Building.views, List.map_map]
    refine List.map_congr_left (fun x _ => ?_)
    show (Trans.arcFrom s.next p t x).view = if x.id = t then _ else _
    unfold Trans.arcFrom
    split
    · simp [Trans.view]
    · rfl

theorem connectOut_spec {lo : Nat} {s : Building} (h : Fresh lo s) (p t : Nat) (ht : t ∈ s.net.transitions.map Trans.id) :
    ∃ s', connectOut s t p = some s' ∧ Fresh lo s' ∧ s'.net.places = s.net.places ∧ s'.net.initial = s.net.initial ∧
      s'.net.final = s.net.final ∧
      s'.views = s.views.map (fun v => if v.id = t then { v with outs := v.outs ++ [p] } else v) := by
  unfold connectOut
  have hany : s.net.transitions.any (fun x => decide (x.id = t)) = true := by
    obtain ⟨x, hx, hxt⟩ := List.mem_map.mp ht
    exact List.any_eq_true.mpr ⟨x, hx, by simpa using hxt⟩
  rw [if_pos hany]
  refine ⟨_, rfl, ?_, rfl, rfl, rfl, ?_⟩
  · refine fresh_of_perm h ?_ rfl
    simp only [Net.ids]
    refine (List.Perm.append_left _ (perm_update (Trans.arcTo s.next p t) t s.next _ (ids_nodup_of_fresh h) ht ?_ ?_)).trans ?_
    · intro x hx; unfold Trans.arcTo; rw [if_neg hx]
    · intro x hx
      unfold Trans.arcTo
      rw [if_pos hx]
      simp only [Trans.ids, List.map_append, List.map_cons, List.map_nil]
      have : (x.incoming.map Arc.id ++ (x.outgoing.map Arc.id ++ [s.next])).Perm
          (s.next :: (x.incoming.map Arc.id ++ x.outgoing.map Arc.id)) := by
        rw [← List.append_assoc]; exact List.perm_append_comm
      exact (List.Perm.cons _ this).trans (List.Perm.swap _ _ _)
    · exact List.perm_middle
  · simp only [Building.views, List.map_map]
    refine List.map_congr_left (fun x _ => ?_)
    show (Trans.arcTo s.next p t x).view = if x.id = t then _ else _
    unfold Trans.arcTo
    split
    · simp [Trans.view]
    · rfl

/-- The table of the classes fits to the transitions. -/
structure Table (ids : Dict String Nat) (s : Building) : Prop where
  eq : s.views.map (fun v => (v.name, v.id)) = ids
  wf : ids.WF

theorem views_ids (s : Building) : s.views.map View.id = s.net.transitions.map Trans.id := by
  simp only [Building.views, List.map_map]; rfl

theorem table_lookup {lo : Nat} {ids : Dict String Nat} {s : Building} (hf : Fresh lo s) (ht : Table ids s) {c : String} {t : Nat}
    (h : ids.get? c = some t) : t ∈ s.net.transitions.map Trans.id ∧ ∀ v ∈ s.views, (v.id = t ↔ v.name = c) := by
  have hm := Dict.mem_of_get? h
  rw [← ht.eq] at hm
  obtain ⟨w, hw, he⟩ := List.mem_map.mp hm
  have e1 : w.name = c := congrArg Prod.fst he
  have e2 : w.id = t := congrArg Prod.snd he
  refine ⟨?_, fun v hv => ⟨fun hvt => ?_, fun hvc => ?_⟩⟩
  · rw [← views_ids]; exact List.mem_map.mpr ⟨w, hw, e2⟩
  · have hn : (s.views.map View.id).Nodup := by rw [views_ids]; exact ids_nodup_of_fresh hf
    have := List.inj_on_of_nodup_map hn hv hw (by rw [hvt, e2])
    rw [this, e1]
  · have hn : (s.views.map View.name).Nodup := by
      have := ht.wf
      unfold Dict.WF Dict.keys at this
      rw [← ht.eq, List.map_map] at this
      exact this
    have := List.inj_on_of_nodup_map hn hv hw (by rw [hvc, e1])
    rw [this, e2]

theorem table_of_views {ids : Dict String Nat} {s s' : Building} (ht : Table ids s) (f : View → View)
    (h : s'.views = s.views.map f) (hf : ∀ v, (f v).name = v.name ∧ (f v).id = v.id) : Table ids s' := by
  refine ⟨?_, ht.wf⟩
  rw [h, List.map_map, ← ht.eq]
  refine List.map_congr_left (fun v _ => ?_)
  simp only [Function.comp_apply, hf v]

theorem connectInAll_spec {lo : Nat} {ids : Dict String Nat} {s : Building} (hf : Fresh lo s) (ht : Table ids s) (p : Nat)
    (cs : List String) (hcs : cs.Nodup) :
    (connectInAll ids p s cs = none ↔ ∃ c ∈ cs, c ∉ ids.keys) ∧
    ∀ s', connectInAll ids p s cs = some s' → Fresh lo s' ∧ Table ids s' ∧ s'.net.places = s.net.places ∧
      s'.net.initial = s.net.initial ∧ s'.net.final = s.net.final ∧
      s'.views = s.views.map (fun v => { v with ins := v.ins ++ (if v.name ∈ cs then [p] else []) }) := by
  induction cs generalizing s with
  | nil =>
    refine ⟨by simp [connectInAll], ?_⟩
    intro s' h
    simp only [connectInAll, List.foldlM_nil, Option.pure_def, Option.some.injEq] at h
    subst h
    refine ⟨hf, ht, rfl, rfl, rfl, ?_⟩
    simp
  | cons c cs ih =>
    rw [List.nodup_cons] at hcs
    have hstep : connectInAll ids p s (c :: cs) =
        ((ids.get? c).bind (fun t => connectIn s p t)).bind (fun s2 => connectInAll ids p s2 cs) := by
      simp only [connectInAll, List.foldlM_cons, Option.bind_eq_bind]
    rw [hstep]
    cases hg : ids.get? c with
    | none =>
      have hc : c ∉ ids.keys := by
        intro h
        obtain ⟨t, h'⟩ := (Dict.mem_keys_iff _ _).mp h
        rw [h'] at hg; cases hg
      refine ⟨by simp only [Option.bind_none, true_iff]; exact ⟨c, by simp, hc⟩, fun s' h => by cases h⟩
    | some t =>
      obtain ⟨k1, k2⟩ := table_lookup hf ht hg
      obtain ⟨s2, e1, e2, e3, e4, e5, e6⟩ := connectIn_spec hf p t k1
      have ht2 : Table ids s2 := table_of_views ht _ e6 (fun v => by split <;> exact ⟨rfl, rfl⟩)
      obtain ⟨i1, i2⟩ := ih e2 ht2 hcs.2
      have hc : c ∈ ids.keys := (Dict.mem_keys_iff _ _).mpr ⟨t, hg⟩
      rw [Option.bind_some, e1, Option.bind_some]
      refine ⟨?_, ?_⟩
      · rw [i1]
        constructor
        · rintro ⟨d, hd, h⟩; exact ⟨d, by simp [hd], h⟩
        · rintro ⟨d, hd, h⟩
          rcases List.mem_cons.mp hd with rfl | hd
          · exact absurd hc h
          · exact ⟨d, hd, h⟩
      · intro s' h
        obtain ⟨j1, j2, j3, j4, j5, j6⟩ := i2 s' h
        refine ⟨j1, j2, j3.trans e3, j4.trans e4, j5.trans e5, ?_⟩
        rw [j6, e6, List.map_map]
        refine List.map_congr_left (fun v hv => ?_)
        simp only [Function.comp_apply, k2 v hv]
        by_cases hvc : v.name = c
        · simp [hvc, hcs.1]
        · simp [hvc]

theorem connectOutAll_spec {lo : Nat} {ids : Dict String Nat} {s : Building} (hf : Fresh lo s) (ht : Table ids s) (p : Nat)
    (cs : List String) (hcs : cs.Nodup) :
    (connectOutAll ids p s cs = none ↔ ∃ c ∈ cs, c ∉ ids.keys) ∧
    ∀ s', connectOutAll ids p s cs = some s' → Fresh lo s' ∧ Table ids s' ∧ s'.net.places = s.net.places ∧
      s'.net.initial = s.net.initial ∧ s'.net.final = s.net.final ∧
      s'.views = s.views.map (fun v => { v with outs := v.outs ++ (if v.name ∈ cs then [p] else []) }) := by
  induction cs generalizing s with
  | nil =>
    refine ⟨by simp [connectOutAll], ?_⟩
    intro s' h
    simp only [connectOutAll, List.foldlM_nil, Option.pure_def, Option.some.injEq] at h
    subst h
    refine ⟨hf, ht, rfl, rfl, rfl, ?_⟩
    simp
  | cons c cs ih =>
    rw [List.nodup_cons] at hcs
    have hstep : connectOutAll ids p s (c :: cs) =
        ((ids.get? c).bind (fun t => connectOut s t p)).bind (fun s2 => connectOutAll ids p s2 cs) := by
      simp only [connectOutAll, List.foldlM_cons, Option.bind_eq_bind]
    rw [hstep]
    cases hg : ids.get? c with
    | none =>
      have hc : c ∉ ids.keys := by
        intro h
        obtain ⟨t, h'⟩ := (Dict.mem_keys_iff _ _).mp h
        rw [h'] at hg; cases hg
      refine ⟨by simp only [Option.bind_none, true_iff]; exact ⟨c, by simp, hc⟩, fun s' h => by cases h⟩
    | some t =>
      obtain ⟨k1, k2⟩ := table_lookup hf ht hg
      obtain ⟨s2, e1, e2, e3, e4, e5, e6⟩ := connectOut_spec hf p t k1
      have ht2 : Table ids s2 := table_of_views ht _ e6 (fun v => by split <;> exact ⟨rfl, rfl⟩)
      obtain ⟨i1, i2⟩ := ih e2 ht2 hcs.2
      have hc : c ∈ ids.keys := (Dict.mem_keys_iff _ _).mpr ⟨t, hg⟩
      rw [Option.bind_some, e1, Option.bind_some]
      refine ⟨?_, ?_⟩
      · rw [i1]
        constructor
        · rintro ⟨d, hd, h⟩; exact ⟨d, by simp [hd], h⟩
        · rintro ⟨d, hd, h⟩
          rcases List.mem_cons.mp hd with rfl | hd
          · exact absurd hc h
          · exact ⟨d, hd, h⟩
      · intro s' h
        obtain ⟨j1, j2, j3, j4, j5, j6⟩ := i2 s' h
        refine ⟨j1, j2, j3.trans e3, j4.trans e4, j5.trans e5, ?_⟩
        rw [j6, e6, List.map_map]
        refine List.map_congr_left (fun v hv => ?_)
        simp only [Function.comp_apply, k2 v hv]
        by_cases hvc : v.name = c
        · simp [hvc, hcs.1]
        · simp [hvc]

theorem addClassTransitions_spec (next : Nat) (classes : List String) (hn : classes.Nodup) :
    Fresh next (addClassTransitions ⟨emptyNet, next⟩ classes).1 ∧
    Table (addClassTransitions ⟨emptyNet, next⟩ classes).2 (addClassTransitions ⟨emptyNet, next⟩ classes).1 ∧
    (addClassTransitions ⟨emptyNet, next⟩ classes).1.net.places = [] ∧
    (addClassTransitions ⟨emptyNet, next⟩ classes).2.keys = classes ∧
    ∀ v ∈ (addClassTransitions ⟨emptyNet, next⟩ classes).1.views, v.silent = false ∧ v.ins = [] ∧ v.outs = [] := by
  suffices h : ∀ (l : List String) (s : Building) (ids : Dict String Nat), Fresh next s → Table ids s → s.net.places = [] →
      (∀ v ∈ s.views, v.silent = false ∧ v.ins = [] ∧ v.outs = []) → (ids.keys ++ l).Nodup →
      let r := l.foldl (fun (acc : Building × Dict String Nat) c =>
        let r := addTransition acc.1 c false
        (r.1, acc.2.set c r.2)) (s, ids)
      Fresh next r.1 ∧ Table r.2 r.1 ∧ r.1.net.places = [] ∧ r.2.keys = ids.keys ++ l ∧
        ∀ v ∈ r.1.views, v.silent = false ∧ v.ins = [] ∧ v.outs = [] by
    have := h classes ⟨emptyNet, next⟩ [] ⟨by simp [Net.ids, emptyNet], by simp [Net.ids, emptyNet], le_refl _⟩
      ⟨by simp [Building.views, emptyNet], by simp [Dict.WF, Dict.keys]⟩ rfl (by simp [Building.views, emptyNet])
      (by simpa [Dict.keys] using hn)
    simpa [Dict.keys, addClassTransitions] using this
  intro l
  induction l with
  | nil => intro s ids h1 h2 h3 h4 h5; exact ⟨h1, h2, h3, by simp, h4⟩
  | cons c l ih =>
    intro s ids h1 h2 h3 h4 h5
    have hc : c ∉ ids.keys := by
      intro h
      have := (List.nodup_append.mp h5).2.2 c h c (by simp)
      exact this rfl
    have hset : ids.set c s.next = ids ++ [(c, s.next)] := set_append_of_notMem _ _ _ hc
    have hviews : (addTransition s c false).1.views = s.views ++ [⟨s.next, c, false, [], []⟩] := by
      simp [addTransition, Building.views, Trans.view]
    rw [List.foldl_cons]
    have := ih (addTransition s c false).1 (ids.set c s.next) (fresh_addTransition h1 c false) ?_ h3 ?_ ?_
    · simp only at this ⊢
      refine ⟨this.1, this.2.1, this.2.2.1, ?_, this.2.2.2.2⟩
      refine this.2.2.2.1.trans ?_
      rw [hset]
      simp [Dict.keys]
    · refine ⟨?_, ?_⟩
      · rw [hviews, hset, List.map_append, h2.eq]; rfl
      · rw [hset]
        unfold Dict.WF Dict.keys
        rw [List.map_append]
        exact List.nodup_append.mpr ⟨h2.wf, by simp, by
          rintro a ha b hb rfl
          simp only [List.map_cons, List.map_nil, List.mem_singleton] at hb
          subst hb; exact hc ha⟩
    · intro v hv
      rw [hviews, List.mem_append, List.mem_singleton] at hv
      rcases hv with hv | rfl
      · exact h4 v hv
      · exact ⟨rfl, rfl, rfl⟩
    · rw [hset]
      simpa [Dict.keys] using h5

/-- The places of the sets with their identifiers. -/
def setPlaces (pids : List Nat) (sets : List ASet) : List Place := List.zipWith (fun i x => ⟨i, x.text, some x⟩) pids sets

/-- The identifiers of the places of the sets that satisfy a condition. -/
def placesWith (pids : List Nat) (sets : List ASet) (f : ASet → Bool) : List Nat :=
  ((pids.zip sets).filter (fun q => f q.2)).map Prod.fst

theorem addSetPlace_spec {lo : Nat} {ids : Dict String Nat} {s : Building} (hf : Fresh lo s) (ht : Table ids s) (x : ASet)
    (hl : x.left.Nodup) (hr : x.right.Nodup) (hcl : ∀ c ∈ x.left, c ∈ ids.keys) (hcr : ∀ c ∈ x.right, c ∈ ids.keys) :
    ∃ s', addSetPlace ids s x = some s' ∧ Fresh lo s' ∧ Table ids s' ∧ s'.net.places = s.net.places ++ [⟨s.next, x.text, some x⟩] ∧
      s'.views = s.views.map (fun v => { v with
        ins := v.ins ++ (if v.name ∈ x.right then [s.next] else []),
        outs := v.outs ++ (if v.name ∈ x.left then [s.next] else []) }) := by
  unfold addSetPlace
  simp only
  have f1 := fresh_addPlace hf x.text (some x)
  have t1 : Table ids (addPlace s x.text (some x)).1 := ⟨ht.eq, ht.wf⟩
  obtain ⟨a1, a2⟩ := connectOutAll_spec f1 t1 s.next x.left hl
  cases h2 : connectOutAll ids s.next (addPlace s x.text (some x)).1 x.left with
  | none =>
    obtain ⟨c, hc, h⟩ := a1.mp h2
    exact absurd (hcl c hc) h
  | some s2 =>
    obtain ⟨b1, b2, b3, b4, b5, b6⟩ := a2 s2 h2
    obtain ⟨c1, c2⟩ := connectInAll_spec b1 b2 s.next x.right hr
    cases h3 : connectInAll ids s.next s2 x.right with
    | none =>
      obtain ⟨c, hc, h⟩ := c1.mp h3
      exact absurd (hcr c hc) h
    | some s3 =>
      obtain ⟨d1, d2, d3, d4, d5, d6⟩ := c2 s3 h3
      refine ⟨s3, ?_, d1, d2, ?_, ?_⟩
      · show (connectOutAll ids s.next (addPlace s x.text (some x)).1 x.left).bind _ = _
        rw [h2, Option.bind_some]
        exact h3
      · rw [d3, b3]; rfl
      · rw [d6, b6, List.map_map]
        refine List.map_congr_left (fun v _ => ?_)
        simp

theorem addSets_spec {lo : Nat} {ids : Dict String Nat} {s : Building} (hf : Fresh lo s) (ht : Table ids s) (sets : List ASet)
    (hs : ∀ x ∈ sets, x.left.Nodup ∧ x.right.Nodup ∧ (∀ c ∈ x.left, c ∈ ids.keys) ∧ (∀ c ∈ x.right, c ∈ ids.keys)) :
    ∃ s' pids, sets.foldlM (addSetPlace ids) s = some s' ∧ pids.length = sets.length ∧ Fresh lo s' ∧ Table ids s' ∧
      s'.net.places = s.net.places ++ setPlaces pids sets ∧
      s'.views = s.views.map (fun v => { v with
        ins := v.ins ++ placesWith pids sets (fun x => decide (v.name ∈ x.right)),
        outs := v.outs ++ placesWith pids sets (fun x => decide (v.name ∈ x.left)) }) := by
  induction sets generalizing s with
  | nil =>
    refine ⟨s, [], rfl, rfl, hf, ht, by simp [setPlaces], ?_⟩
    simp [placesWith]
  | cons x sets ih =>
    obtain ⟨g1, g2, g3, g4⟩ := hs x (by simp)
    obtain ⟨s2, e1, e2, e3, e4, e5⟩ := addSetPlace_spec hf ht x g1 g2 g3 g4
    obtain ⟨s', pids, i1, i2, i3, i4, i5, i6⟩ := ih e2 e3 (fun y hy => hs y (by simp [hy]))
    refine ⟨s', s.next :: pids, ?_, by simp [i2], i3, i4, ?_, ?_⟩
    · rw [List.foldlM_cons, e1]; exact i1
    · rw [i5, e4]; simp [setPlaces]
    · rw [i6, e5, List.map_map]
      refine List.map_congr_left (fun v _ => ?_)
      simp only [Function.comp_apply, placesWith, List.zip_cons_cons, List.filter_cons]
      by_cases h1 : v.name ∈ x.left <;> by_cases h2 : v.name ∈ x.right <;> simp [h1, h2]

theorem addEnds_spec {lo : Nat} (it : Iter) {ids : Dict String Nat} {s : Building} (hf : Fresh lo s) (ht : Table ids s)
    (info : Info) (h1 : info.starts.Nodup) (h2 : info.ends.Nodup) :
    (addEnds it ids info s = none ↔ ∃ c, (c ∈ info.starts ∨ c ∈ info.ends) ∧ c ∉ ids.keys) ∧
    ∀ s', addEnds it ids info s = some s' → ∃ st en, Fresh lo s' ∧ Table ids s' ∧
      s'.net.places = s.net.places ++ [⟨st, "StartPlace", none⟩, ⟨en, "EndPlace", none⟩] ∧
      s'.net.initial = some [(st, 1)] ∧ s'.net.final = some [(en, 1)] ∧
      s'.views = s.views.map (fun v => { v with
        ins := v.ins ++ (if v.name ∈ info.starts then [st] else []),
        outs := v.outs ++ (if v.name ∈ info.ends then [en] else []) }) := by
  unfold addEnds
  simp only
  have p1 := it.perm "start_event_classes" 0 info.starts
  have p2 := it.perm "end_event_classes" 0 info.ends
  have f1 := fresh_addPlace hf "StartPlace" none
  have t1 : Table ids (addPlace s "StartPlace" none).1 := ⟨ht.eq, ht.wf⟩
  obtain ⟨a1, a2⟩ := connectInAll_spec f1 t1 s.next _ (p1.nodup_iff.mpr h1)
  show ((connectInAll ids s.next (addPlace s "StartPlace" none).1 (it.order "start_event_classes" 0 info.starts)).bind _ = none ↔ _) ∧
    ∀ s', (connectInAll ids s.next (addPlace s "StartPlace" none).1 (it.order "start_event_classes" 0 info.starts)).bind _ =
      some s' → _
  cases hg : connectInAll ids s.next (addPlace s "StartPlace" none).1 (it.order "start_event_classes" 0 info.starts) with
  | none =>
    obtain ⟨c, hc, h⟩ := a1.mp hg
    exact ⟨by simp only [Option.bind_none, true_iff]; exact ⟨c, Or.inl (p1.mem_iff.mp hc), h⟩, fun s' h => by cases h⟩
  | some s2 =>
    have hst : ∀ c ∈ info.starts, c ∈ ids.keys := by
      intro c hc
      by_contra h
      rw [a1.mpr ⟨c, p1.mem_iff.mpr hc, h⟩] at hg; cases hg
    obtain ⟨b1, b2, b3, b4, b5, b6⟩ := a2 s2 hg
    have f2 := fresh_addPlace b1 "EndPlace" none
    have t2 : Table ids (addPlace s2 "EndPlace" none).1 := ⟨b2.eq, b2.wf⟩
    obtain ⟨c1, c2⟩ := connectOutAll_spec f2 t2 s2.next _ (p2.nodup_iff.mpr h2)
    rw [Option.bind_some]
    show ((connectOutAll ids s2.next (addPlace s2 "EndPlace" none).1 (it.order "end_event_classes" 0 info.ends)).map _ = none ↔ _) ∧
      ∀ s', (connectOutAll ids s2.next (addPlace s2 "EndPlace" none).1 (it.order "end_event_classes" 0 info.ends)).map _ =
        some s' → _
    cases hg2 : connectOutAll ids s2.next (addPlace s2 "EndPlace" none).1 (it.order "end_event_classes" 0 info.ends) with
    | none =>
      obtain ⟨c, hc, h⟩ := c1.mp hg2
      exact ⟨by simp only [Option.map_none, true_iff]; exact ⟨c, Or.inr (p2.mem_iff.mp hc), h⟩, fun s' h => by cases h⟩
    | some s3 =>
      have hen : ∀ c ∈ info.ends, c ∈ ids.keys := by
        intro c hc
        by_contra h
        rw [c1.mpr ⟨c, p2.mem_iff.mpr hc, h⟩] at hg2; cases hg2
      obtain ⟨d1, d2, d3, d4, d5, d6⟩ := c2 s3 hg2
      refine ⟨⟨fun h => (by cases h), ?_⟩, ?_⟩
      · rintro ⟨c, hc | hc, h⟩
        · exact absurd (hst c hc) h
        · exact absurd (hen c hc) h
      · intro s' h
        cases h
        refine ⟨s.next, s2.next, ⟨d1.1, d1.2.1, d1.2.2⟩, ⟨d2.eq, d2.wf⟩, ?_, rfl, rfl, ?_⟩
        · show s3.net.places = _
          rw [d3]
          show s2.net.places ++ [⟨s2.next, "EndPlace", none⟩] = _
          rw [b3]
          simp [addPlace]
        · show s3.views = _
          rw [d6]
          show s2.views.map _ = _
          rw [b6, List.map_map]
          show s.views.map _ = _
          refine List.map_congr_left (fun v _ => ?_)
          simp only [Function.comp_apply, p1.mem_iff, p2.mem_iff]

/-- The net of the alpha algorithm. -/
theorem createNet_spec (it : Iter) (next : Nat) (info : Info) (sets : List ASet) (hw : info.classes.WF)
    (hs : ∀ x ∈ sets, x.left.Nodup ∧ x.right.Nodup ∧ (∀ c ∈ x.left, c ∈ info.classes.keys) ∧ (∀ c ∈ x.right, c ∈ info.classes.keys))
    (h1 : info.starts.Nodup) (h2 : info.ends.Nodup) :
    (createNet it next info sets = none ↔ ∃ c, (c ∈ info.starts ∨ c ∈ info.ends) ∧ c ∉ info.classes.keys) ∧
    ∀ s', createNet it next info sets = some s' → ∃ pids st en, pids.length = sets.length ∧ Fresh next s' ∧
      s'.net.places = setPlaces pids sets ++ [⟨st, "StartPlace", none⟩, ⟨en, "EndPlace", none⟩] ∧
      s'.net.initial = some [(st, 1)] ∧ s'.net.final = some [(en, 1)] ∧
      s'.views.map View.name = info.allClasses it 2 ∧
      ∀ v ∈ s'.views, v.silent = false ∧
        v.ins = placesWith pids sets (fun x => decide (v.name ∈ x.right)) ++ (if v.name ∈ info.starts then [st] else []) ∧
        v.outs = placesWith pids sets (fun x => decide (v.name ∈ x.left)) ++ (if v.name ∈ info.ends then [en] else []) := by
  have hp : (info.allClasses it 2).Perm info.classes.keys := it.perm _ _ _
  have hn : (info.allClasses it 2).Nodup := hp.nodup_iff.mpr hw
  obtain ⟨a1, a2, a3, a4, a5⟩ := addClassTransitions_spec next _ hn
  unfold createNet
  simp only
  generalize addClassTransitions ⟨emptyNet, next⟩ (info.allClasses it 2) = r at a1 a2 a3 a4 a5
  have hk : ∀ c, c ∈ r.2.keys ↔ c ∈ info.classes.keys := by intro c; rw [a4]; exact hp.mem_iff
  obtain ⟨s2, pids, b1, b2, b3, b4, b5, b6⟩ := addSets_spec a1 a2 sets (fun x hx => by
    obtain ⟨g1, g2, g3, g4⟩ := hs x hx
    exact ⟨g1, g2, fun c hc => (hk c).mpr (g3 c hc), fun c hc => (hk c).mpr (g4 c hc)⟩)
  rw [b1, Option.bind_some]
  obtain ⟨c1, c2⟩ := addEnds_spec it b3 b4 info h1 h2
  refine ⟨by rw [c1]; simp only [hk], ?_⟩
  intro s' h
  obtain ⟨st, en, d1, d2, d3, d4, d5, d6⟩ := c2 s' h
  refine ⟨pids, st, en, b2, d1, ?_, d4, d5, ?_, ?_⟩
  · rw [d3, b5, a3]; rfl
  · rw [← a4]
    have := congrArg (List.map Prod.fst) d2.eq
    rw [List.map_map] at this
    exact this
  · intro v hv
    rw [d6, b6, List.map_map] at hv
    obtain ⟨w, hw', rfl⟩ := List.mem_map.mp hv
    obtain ⟨k1, k2, k3⟩ := a5 w hw'
    simp [k1, k2, k3]

/-! ### Loops of one transition -/

theorem addLoop_spec {lo : Nat} (it : Iter) (info : Info) {s : Building} (hf : Fresh lo s) (c : String × Nat) :
    ∃ s' extra q t, addLoop it info s c = some s' ∧ Fresh lo s' ∧ s'.net.initial = s.net.initial ∧ s'.net.final = s.net.final ∧
      s'.net.places = s.net.places ++ extra ∧
      ((extra = [] ∧ ∃ p ∈ s.net.places, p.name = (loopSet info c.1).text ∧ p.id = q) ∨
        (extra = [⟨q, (loopSet info c.1).text, none⟩] ∧ ∀ p ∈ s.net.places, p.name ≠ (loopSet info c.1).text)) ∧
      s'.views = s.views ++ [⟨t, c.1, false, [q], [q]⟩] := by
  have finish : ∀ (s1 : Building) (q : Nat), Fresh lo s1 → s1.net.initial = s.net.initial → s1.net.final = s.net.final →
      s1.views = s.views ++ [⟨s.next, c.1, false, [], []⟩] →
      ∃ s', (connectOut s1 s.next q).bind (fun s2 => connectIn s2 q s.next) = some s' ∧ Fresh lo s' ∧
        s'.net.initial = s.net.initial ∧ s'.net.final = s.net.final ∧ s'.net.places = s1.net.places ∧
        s'.views = s.views ++ [⟨s.next, c.1, false, [q], [q]⟩] := by
    intro s1 q h1 h2 h3 h4
    have hlt : ∀ v ∈ s.views, v.id ≠ s.next := by
      intro v hv he
      have hm : v.id ∈ s.net.transitions.map Trans.id := by
        rw [← views_ids]; exact List.mem_map_of_mem hv
      obtain ⟨x, hx, hxi⟩ := List.mem_map.mp hm
      have : v.id ∈ s.net.ids := by
        unfold Net.ids
        rw [List.mem_append]
        exact Or.inr (List.mem_flatMap.mpr ⟨x, hx, by simp [Trans.ids, hxi]⟩)
      have := (hf.2.1 _ this).2
      omega
    have hin : s.next ∈ s1.net.transitions.map Trans.id := by
      rw [← views_ids, h4]; simp
    obtain ⟨s2, e1, e2, e3, e4, e5, e6⟩ := connectOut_spec h1 q s.next hin
    have hin2 : s.next ∈ s2.net.transitions.map Trans.id := by
      rw [← views_ids, e6, h4]; simp
    obtain ⟨s3, g1, g2, g3, g4, g5, g6⟩ := connectIn_spec e2 q s.next hin2
    refine ⟨s3, by rw [e1, Option.bind_some, g1], g2, by rw [g4, e4, h2], by rw [g5, e5, h3], by rw [g3, e3], ?_⟩
    rw [g6, e6, h4, List.map_map, List.map_append]
    congr 1
    · have : ∀ v ∈ s.views, ((fun v : View => if v.id = s.next then { v with ins := v.ins ++ [q] } else v) ∘
          (fun v : View => if v.id = s.next then { v with outs := v.outs ++ [q] } else v)) v = id v := by
        intro v hv
        simp [hlt v hv]
      rw [List.map_congr_left this, List.map_id]
    · simp
  have hv : (addTransition s c.1 false).1.views = s.views ++ [⟨s.next, c.1, false, [], []⟩] := by
    simp [addTransition, Building.views, Trans.view]
  have hft := fresh_addTransition hf c.1 false
  cases hfind : findPlace it c.2 (addTransition s c.1 false).1.net (loopSet info c.1).text with
  | some q =>
    obtain ⟨s', k1, k2, k3, k4, k5, k6⟩ := finish (addTransition s c.1 false).1 q hft rfl rfl hv
    refine ⟨s', [], q, s.next, ?_, k2, k3, k4, by rw [k5]; simp [addTransition], Or.inl ⟨rfl, ?_⟩, k6⟩
    · unfold addLoop
      simp only [hfind]
      exact k1
    · unfold findPlace at hfind
      rw [Option.map_eq_some_iff] at hfind
      obtain ⟨p, hp, hpq⟩ := hfind
      have h1 := List.mem_of_find?_eq_some hp
      have h2 := List.find?_some hp
      rw [(it.perm _ _ _).mem_iff] at h1
      exact ⟨p, h1, by simpa using h2, hpq⟩
  | none =>
    obtain ⟨s', k1, k2, k3, k4, k5, k6⟩ := finish (addPlace (addTransition s c.1 false).1 (loopSet info c.1).text none).1
      (s.next + 1) (fresh_addPlace hft _ _) rfl rfl hv
    refine ⟨s', [⟨s.next + 1, (loopSet info c.1).text, none⟩], s.next + 1, s.next, ?_, k2, k3, k4, by rw [k5]; rfl,
      Or.inr ⟨rfl, ?_⟩, k6⟩
    · unfold addLoop
      simp only [hfind]
      exact k1
    · unfold findPlace at hfind
      rw [Option.map_eq_none_iff, List.find?_eq_none] at hfind
      intro p hp
      have := hfind p ((it.perm _ _ _).mem_iff.mpr hp)
      simpa using this

theorem addLoops_spec {lo : Nat} (it : Iter) (info : Info) (cs : List (String × Nat)) {s : Building} (hf : Fresh lo s) :
    ∃ s' extra added, cs.foldlM (addLoop it info) s = some s' ∧ Fresh lo s' ∧ s'.net.initial = s.net.initial ∧
      s'.net.final = s.net.final ∧ s'.net.places = s.net.places ++ extra ∧
      (∀ p ∈ extra, p.set = none ∧ (∀ b ∈ s.net.places, b.name ≠ p.name) ∧ ∃ c ∈ cs, p.name = (loopSet info c.1).text) ∧
      (extra.map Place.name).Nodup ∧
      s'.views = s.views ++ added ∧ added.map View.name = cs.map Prod.fst ∧
      ∀ v ∈ added, v.silent = false ∧ ∃ q ∈ s'.net.places, q.name = (loopSet info v.name).text ∧ v.ins = [q.id] ∧ v.outs = [q.id] := by
  induction cs generalizing s with
  | nil => exact ⟨s, [], [], rfl, hf, rfl, rfl, by simp, by simp, by simp, by simp, by simp, by simp⟩
  | cons c cs ih =>
    obtain ⟨s1, ex, q, t, e1, e2, e3, e4, e5, e6, e7⟩ := addLoop_spec it info hf c
    obtain ⟨s2, ex2, ad2, g1, g2, g3, g4, g5, g6, g7, g8, g9, g10⟩ := ih e2
    refine ⟨s2, ex ++ ex2, ⟨t, c.1, false, [q], [q]⟩ :: ad2, ?_, g2, g3.trans e3, g4.trans e4, ?_, ?_, ?_, ?_, ?_, ?_⟩
    · rw [List.foldlM_cons, e1]; exact g1
    · rw [g5, e5, List.append_assoc]
    · intro p hp
      rcases List.mem_append.mp hp with hp | hp
      · rcases e6 with ⟨h1, _⟩ | ⟨h1, h2⟩
        · rw [h1] at hp; cases hp
        · rw [h1, List.mem_singleton] at hp
          subst hp
          exact ⟨rfl, h2, c, by simp, rfl⟩
      · obtain ⟨k1, k2, d, hd, k3⟩ := g6 p hp
        refine ⟨k1, fun b hb => k2 b (by rw [e5]; simp [hb]), d, by simp [hd], k3⟩
    · rw [List.map_append, List.nodup_append]
      refine ⟨?_, g7, ?_⟩
      · rcases e6 with ⟨h1, _⟩ | ⟨h1, _⟩ <;> rw [h1] <;> simp
      · rintro a ha b hb rfl
        obtain ⟨p, hp, rfl⟩ := List.mem_map.mp ha
        obtain ⟨r, hr, hrp⟩ := List.mem_map.mp hb
        exact (g6 r hr).2.1 p (by rw [e5]; simp [hp]) hrp.symm
    · rw [g8, e7, List.append_assoc]; rfl
    · simp [g9]
    · intro v hv
      rcases List.mem_cons.mp hv with rfl | hv
      · refine ⟨rfl, ?_⟩
        rcases e6 with ⟨_, p, hp, h1, h2⟩ | ⟨h1, _⟩
        · exact ⟨p, by rw [g5, e5]; simp [hp], h1, by rw [h2], by rw [h2]⟩
        · exact ⟨⟨q, (loopSet info c.1).text, none⟩, by rw [g5, e5, h1]; simp, rfl, rfl, rfl⟩
      · exact g10 v hv

/-- If no set of a place is contained in the one of another place, the last step of Alpha++ finds nothing. -/
theorem plusPlusPairs_nil (net : Net) (arcs : Trans → List Arc) (t : Trans)
    (h : ∀ p ∈ net.places, ∀ q ∈ net.places, ∀ x y, p.set = some x → q.set = some y → x.fullSubset y = true → p.id = q.id) :
    plusPlusPairs net arcs t = [] := by
  unfold plusPlusPairs
  rw [List.flatMap_eq_nil_iff]
  intro p hp
  cases hx : p.set with
  | none => rfl
  | some x =>
    simp only
    rw [List.filterMap_eq_nil_iff]
    intro a _
    split
    · rename_i hne
      cases hq : net.places.find? (fun q => decide (q.id = a.place)) with
      | none => rfl
      | some q =>
        have hm := List.mem_of_find?_eq_some hq
        have hid : q.id = a.place := by simpa using List.find?_some hq
        rw [Option.bind_some]
        cases hy : q.set with
        | none => rfl
        | some y =>
          simp only
          split
          · rename_i hsub
            exact absurd ((h p hp q hm x y hx hy hsub).trans hid).symm hne
          · rfl
    · rfl

theorem addPlusPlus_spec (it : Iter) (ready : Bool) (loops : List String) (s : Building)
    (h : ∀ p ∈ s.net.places, ∀ q ∈ s.net.places, ∀ x y, p.set = some x → q.set = some y → x.fullSubset y = true → p.id = q.id) :
    addPlusPlus it ready loops s = if ready = true ∨ ∃ p ∈ s.net.places, p.set ≠ none then some s else none := by
  have hnil : ∀ (arcs : Trans → List Arc) (ts : List Trans), ts.flatMap (plusPlusPairs s.net arcs) = [] := by
    intro arcs ts
    rw [List.flatMap_eq_nil_iff]
    intro t _; exact plusPlusPairs_nil s.net arcs t h
  have hord : ∀ n : String, it.order n 0 ([] : List (Nat × Nat)) = [] := fun n => (it.perm n 0 _).eq_nil
  have hiff : (ready || s.net.places.any (fun p => p.set.isSome)) = true ↔ (ready = true ∨ ∃ p ∈ s.net.places, p.set ≠ none) := by
    simp [Option.isSome_iff_ne_none]
  unfold addPlusPlus
  simp only [hnil, List.foldl_nil, hord, List.foldlM_nil, Option.pure_def, Option.bind_some]
  by_cases hc : (ready || s.net.places.any (fun p => p.set.isSome)) = true
  · rw [hc, if_pos (hiff.mp hc)]; rfl
  · rw [if_neg (fun h => hc (hiff.mpr h))]
    simp only [Bool.not_eq_true] at hc
    rw [hc]; rfl

end Ficus.Rs
