import Verif.Proofs.RsGroups

/-! The net that the heuristic miner builds, as a list of steps. -/

namespace Ficus.Rs
open Spec

theorem view_ext {v w : View} (h1 : v.id = w.id) (h2 : v.name = w.name) (h3 : v.silent = w.silent) (h4 : v.ins = w.ins)
    (h5 : v.outs = w.outs) : v = w := by
  cases v; cases w; simp only at h1 h2 h3 h4 h5; subst h1 h2 h3 h4 h5; rfl

/-- The table of the classes fits to the visible transitions. -/
structure VTable (ids : Dict String Nat) (s : Building) : Prop where
  eq : (s.views.filter (fun v => !v.silent)).map (fun v => (v.name, v.id)) = ids
  wf : ids.WF

theorem vtable_lookup {lo : Nat} {ids : Dict String Nat} {s : Building} (hf : Fresh lo s) (ht : VTable ids s) {c : String} {t : Nat}
    (h : ids.get? c = some t) : t ∈ s.net.transitions.map Trans.id ∧ ∀ v ∈ s.views, (v.id = t ↔ v.silent = false ∧ v.name = c) := by
  have hm := Dict.mem_of_get? h
  rw [← ht.eq] at hm
  obtain ⟨w, hw, he⟩ := List.mem_map.mp hm
  have e1 : w.name = c := congrArg Prod.fst he
  have e2 : w.id = t := congrArg Prod.snd he
  obtain ⟨hw1, hw2⟩ := List.mem_filter.mp hw
  have hws : w.silent = false := by simpa using hw2
  refine ⟨?_, fun v hv => ⟨fun hvt => ?_, fun hvc => ?_⟩⟩
  · rw [← views_ids]; exact List.mem_map.mpr ⟨w, hw1, e2⟩
  · have hn : (s.views.map View.id).Nodup := by rw [views_ids]; exact ids_nodup_of_fresh hf
    have := List.inj_on_of_nodup_map hn hv hw1 (by rw [hvt, e2])
    rw [this]; exact ⟨hws, e1⟩
  · have hn : ((s.views.filter (fun v => !v.silent)).map View.name).Nodup := by
      have := ht.wf
      unfold Dict.WF Dict.keys at this
      rw [← ht.eq, List.map_map] at this
      exact this
    have := List.inj_on_of_nodup_map hn (List.mem_filter.mpr ⟨hv, by simp [hvc.1]⟩) hw (by rw [hvc.2, e1])
    rw [this, e2]

theorem vtable_of_views {ids : Dict String Nat} {s s' : Building} (ht : VTable ids s) (f : View → View) (extra : List View)
    (h : s'.views = s.views.map f ++ extra) (hf : ∀ v, (f v).name = v.name ∧ (f v).id = v.id ∧ (f v).silent = v.silent)
    (he : ∀ v ∈ extra, v.silent = true) : VTable ids s' := by
  refine ⟨?_, ht.wf⟩
  rw [h, List.filter_append, List.filter_eq_nil_iff.mpr (fun v hv => by simp [he v hv] : ∀ v ∈ extra, ¬ (!v.silent) = true), List.append_nil,
    List.filter_map, List.map_map, ← ht.eq]
  have : s.views.filter ((fun v => !v.silent) ∘ f) = s.views.filter (fun v => !v.silent) :=
    List.filter_congr (fun v _ => by simp only [Function.comp_apply, (hf v).2.2])
  rw [this]
  refine List.map_congr_left (fun v _ => ?_)
  simp only [Function.comp_apply, (hf v).1, (hf v).2.1]

/-- What the members of a group add to the places before a transition. -/
def memberIns (ns : List (String × Nat)) (v : View) : List Nat :=
  if v.silent then [] else (ns.filter (fun q => decide (q.1 = v.name))).map Prod.snd

/-- The place of a member. -/
def prePlace (q : String × Nat) : Place := ⟨q.2, "pre_" ++ q.1, none⟩

theorem addMember_spec {lo : Nat} {ids : Dict String Nat} {s : Building} (hf : Fresh lo s) (ht : VTable ids s) (t : Nat)
    (hts : ∀ v ∈ s.views, v.id = t → v.silent = true) (htm : t ∈ s.net.transitions.map Trans.id) (el : String) (hel : el ∈ ids.keys) :
    ∃ s' n, addMember ids t s el = some s' ∧ Fresh lo s' ∧ VTable ids s' ∧ s'.net.places = s.net.places ++ [prePlace (el, n)] ∧
      s'.net.initial = s.net.initial ∧ s'.net.final = s.net.final ∧
      s'.views = s.views.map (fun v => { v with
        ins := v.ins ++ memberIns [(el, n)] v,
        outs := v.outs ++ (if v.id = t then [n] else []) }) := by
  obtain ⟨te, hte⟩ := (Dict.mem_keys_iff _ _).mp hel
  have hf1 := fresh_addPlace hf ("pre_" ++ el) none
  obtain ⟨s2, a1, a2, a3, a4, a5, a6⟩ := connectOut_spec hf1 (addPlace s ("pre_" ++ el) none).2 t htm
  have hv1 : (addPlace s ("pre_" ++ el) none).1.views = s.views := rfl
  rw [hv1] at a6
  have ht2 : VTable ids s2 := vtable_of_views ht _ [] (by rw [a6, List.append_nil]) (fun v => by split <;> exact ⟨rfl, rfl, rfl⟩) (by simp)
  obtain ⟨k1, k2⟩ := vtable_lookup a2 ht2 hte
  obtain ⟨s3, b1, b2, b3, b4, b5, b6⟩ := connectIn_spec a2 (addPlace s ("pre_" ++ el) none).2 te k1
  have ht3 : VTable ids s3 := vtable_of_views ht2 _ [] (by rw [b6, List.append_nil]) (fun v => by split <;> exact ⟨rfl, rfl, rfl⟩) (by simp)
  refine ⟨s3, s.next, ?_, b2, ht3, ?_, b4.trans a4, b5.trans a5, ?_⟩
  · unfold addMember
    simp only [a1, Option.bind_some, hte, b1]
  · rw [b3, a3]; rfl
  · rw [b6, a6, List.map_map]
    refine List.map_congr_left (fun v hv => ?_)
    simp only [Function.comp_apply]
    have hk := k2 (if v.id = t then { v with outs := v.outs ++ [s.next] } else v) (by
      rw [a6]; exact List.mem_map.mpr ⟨v, hv, rfl⟩)
    have hn : (addPlace s ("pre_" ++ el) none).2 = s.next := rfl
    rw [hn]
    unfold memberIns
    by_cases hvt : v.id = t
    · have hsil := hts v hv hvt
      simp only [hvt, if_true, hsil, Bool.true_eq_false, false_and, iff_false] at hk ⊢
      rw [if_neg hk]; simp
    · simp only [hvt, if_false] at hk ⊢
      by_cases hvte : v.id = te
      · obtain ⟨h1, h2⟩ := hk.mp hvte
        rw [if_pos hvte]
        simp [h1, h2]
      · rw [if_neg hvte]
        by_cases hs : v.silent = true
        · apply view_ext <;> simp [hs]
        · have hnn : ¬ el = v.name := fun h => hvte (hk.mpr ⟨by simpa using hs, h.symm⟩)
          apply view_ext <;> simp [hs, hnn]

theorem members_spec {lo : Nat} {ids : Dict String Nat} (t : Nat) (group : List String) : ∀ {s : Building}, Fresh lo s → VTable ids s →
    (∀ v ∈ s.views, v.id = t → v.silent = true) → t ∈ s.net.transitions.map Trans.id → (∀ el ∈ group, el ∈ ids.keys) →
    ∃ (s' : Building) (ns : List (String × Nat)), group.foldlM (addMember ids t) s = some s' ∧ Fresh lo s' ∧ VTable ids s' ∧
      ns.map Prod.fst = group ∧ s'.net.places = s.net.places ++ ns.map prePlace ∧
      s'.net.initial = s.net.initial ∧ s'.net.final = s.net.final ∧
      s'.views = s.views.map (fun v => { v with
        ins := v.ins ++ memberIns ns v,
        outs := v.outs ++ (if v.id = t then ns.map Prod.snd else []) }) := by
  induction group with
  | nil =>
    intro s hf ht _ _ _
    refine ⟨s, [], rfl, hf, ht, rfl, by simp, rfl, rfl, ?_⟩
    simp [memberIns]
  | cons el rest ih =>
    intro s hf ht hts htm hel
    obtain ⟨s2, n, a1, a2, a3, a4, a5, a6, a7⟩ := addMember_spec hf ht t hts htm el (hel el (by simp))
    have hids : s2.net.transitions.map Trans.id = s.net.transitions.map Trans.id := by
      rw [← views_ids, ← views_ids, a7, List.map_map]; rfl
    obtain ⟨s', ns, b1, b2, b3, b4, b5, b6, b7, b8⟩ := ih a2 a3 (by
      intro v hv hvt
      rw [a7] at hv
      obtain ⟨w, hw, rfl⟩ := List.mem_map.mp hv
      exact hts w hw hvt) (by rw [hids]; exact htm) (fun e he => hel e (by simp [he]))
    refine ⟨s', (el, n) :: ns, ?_, b2, b3, by simp [b4], ?_, b6.trans a5, b7.trans a6, ?_⟩
    · rw [List.foldlM_cons, a1]; exact b1
    · rw [b5, a4]; simp
    · rw [b8, a7, List.map_map]
      refine List.map_congr_left (fun v _ => ?_)
      simp only [Function.comp_apply, memberIns, List.append_assoc, View.mk.injEq, true_and]
      refine ⟨?_, ?_⟩
      · cases v.silent
        · by_cases h : el = v.name <;> simp [h]
        · simp
      · split <;> simp

/-- The silent transition of a group. -/
def silentView (a : String) (post : Nat) (g : Nat × List (String × Nat)) : View :=
  ⟨g.1, "silent_start_" ++ a, true, [post], g.2.map Prod.snd⟩

theorem memberIns_silent (ns : List (String × Nat)) (v : View) (h : v.silent = true) : memberIns ns v = [] := by
  unfold memberIns; rw [h]; rfl

theorem addGroup_spec {lo : Nat} {ids : Dict String Nat} {s : Building} (hf : Fresh lo s) (ht : VTable ids s) (a : String) (post : Nat)
    (group : List String) (hg : ∀ el ∈ group, el ∈ ids.keys) :
    ∃ (s' : Building) (g : Nat × List (String × Nat)), addGroup ids a post s group = some s' ∧ Fresh lo s' ∧ VTable ids s' ∧
      g.2.map Prod.fst = group ∧ s'.net.places = s.net.places ++ g.2.map prePlace ∧
      s'.net.initial = s.net.initial ∧ s'.net.final = s.net.final ∧
      s'.views = s.views.map (fun v => { v with ins := v.ins ++ memberIns g.2 v }) ++ [silentView a post g] := by
  have hf1 := fresh_addTransition hf ("silent_start_" ++ a) true
  have hv1 : (addTransition s ("silent_start_" ++ a) true).1.views = s.views ++ [⟨s.next, "silent_start_" ++ a, true, [], []⟩] := by
    simp [addTransition, Building.views, Trans.view]
  have hlt : ∀ v ∈ s.views, v.id ≠ s.next := by
    intro v hv he
    have hm : v.id ∈ s.net.ids := by
      unfold Building.views at hv
      obtain ⟨x, hx, rfl⟩ := List.mem_map.mp hv
      exact List.mem_append.mpr (Or.inr (List.mem_flatMap.mpr ⟨x, hx, by simp [Trans.ids, Trans.view]⟩))
    have := (hf.2.1 _ hm).2
    omega
  have htm : (addTransition s ("silent_start_" ++ a) true).2 ∈ (addTransition s ("silent_start_" ++ a) true).1.net.transitions.map Trans.id := by
    simp [addTransition]
  obtain ⟨s2, a1, a2, a3, a4, a5, a6⟩ := connectIn_spec hf1 post _ htm
  have hsn : (addTransition s ("silent_start_" ++ a) true).2 = s.next := rfl
  rw [hv1, hsn] at a6
  have a6' : s2.views = s.views ++ [⟨s.next, "silent_start_" ++ a, true, [post], []⟩] := by
    rw [a6, List.map_append]
    congr 1
    · conv_rhs => rw [← List.map_id s.views]
      refine List.map_congr_left (fun v hv => ?_)
      rw [if_neg (hlt v hv)]; rfl
    · simp
  have ht2 : VTable ids s2 := vtable_of_views ht id _ (by rw [a6', List.map_id]) (fun v => ⟨rfl, rfl, rfl⟩) (by simp)
  obtain ⟨s', ns, b1, b2, b3, b4, b5, b6, b7, b8⟩ := members_spec s.next group a2 ht2 (by
    intro v hv he
    rw [a6'] at hv
    rcases List.mem_append.mp hv with hv | hv
    · exact absurd he (hlt v hv)
    · rw [List.mem_singleton] at hv; rw [hv]) (by
      rw [← views_ids, a6']; simp) hg
  refine ⟨s', (s.next, ns), ?_, b2, b3, b4, ?_, b6.trans a4, b7.trans a5, ?_⟩
  · unfold addGroup
    simp only [hsn] at a1 ⊢
    rw [a1]; exact b1
  · rw [b5, a3]; rfl
  · rw [b8, a6', List.map_append]
    congr 1
    · refine List.map_congr_left (fun v hv => ?_)
      rw [if_neg (hlt v hv), List.append_nil]
    · simp [silentView, memberIns]

theorem groups_fold {lo : Nat} {ids : Dict String Nat} (a : String) (post : Nat) (groups : List (List String)) :
    ∀ {s : Building}, Fresh lo s → VTable ids s → (∀ g ∈ groups, ∀ el ∈ g, el ∈ ids.keys) →
    ∃ (s' : Building) (gs : List (Nat × List (String × Nat))), groups.foldlM (addGroup ids a post) s = some s' ∧ Fresh lo s' ∧
      VTable ids s' ∧ gs.map (fun g => g.2.map Prod.fst) = groups ∧
      s'.net.places = s.net.places ++ gs.flatMap (fun g => g.2.map prePlace) ∧
      s'.net.initial = s.net.initial ∧ s'.net.final = s.net.final ∧
      s'.views = s.views.map (fun v => { v with ins := v.ins ++ gs.flatMap (fun g => memberIns g.2 v) }) ++ gs.map (silentView a post) := by
  induction groups with
  | nil =>
    intro s hf ht _
    exact ⟨s, [], rfl, hf, ht, rfl, by simp, rfl, rfl, by simp⟩
  | cons group rest ih =>
    intro s hf ht hg
    obtain ⟨s2, g, a1, a2, a3, a4, a5, a6, a7, a8⟩ := addGroup_spec hf ht a post group (hg group (by simp))
    obtain ⟨s', gs, b1, b2, b3, b4, b5, b6, b7, b8⟩ := ih a2 a3 (fun x hx => hg x (by simp [hx]))
    refine ⟨s', g :: gs, ?_, b2, b3, by simp [a4, b4], ?_, b6.trans a6, b7.trans a7, ?_⟩
    · rw [List.foldlM_cons, a1]; exact b1
    · rw [b5, a5]; simp
    · rw [b8, a8, List.map_append, List.map_map]
      have h1 : gs.flatMap (fun g' => memberIns g'.2 (silentView a post g)) = [] := by
        rw [List.flatMap_eq_nil_iff]; intro x _; exact memberIns_silent _ _ rfl
      simp only [List.map_cons, List.map_nil, List.append_assoc, List.flatMap_cons]
      congr 1
      · refine List.map_congr_left (fun v _ => ?_)
        simp only [Function.comp_apply, List.append_assoc]
        rfl
      · rw [h1]; simp only [List.append_nil]; rfl

theorem singles_fold {lo : Nat} {ids : Dict String Nat} (p : Nat) (cs : List String) : ∀ {s : Building}, Fresh lo s → VTable ids s →
    (∀ c ∈ cs, c ∈ ids.keys) → cs.Nodup →
    ∃ s', cs.foldlM (fun s f => (ids.get? f).bind (connectIn s p)) s = some s' ∧ Fresh lo s' ∧ VTable ids s' ∧
      s'.net.places = s.net.places ∧ s'.net.initial = s.net.initial ∧ s'.net.final = s.net.final ∧
      s'.views = s.views.map (fun v => { v with ins := v.ins ++ (if v.silent = false ∧ v.name ∈ cs then [p] else []) }) := by
  induction cs with
  | nil => intro s hf ht _ _; exact ⟨s, rfl, hf, ht, rfl, rfl, rfl, by simp⟩
  | cons c cs ih =>
    intro s hf ht hc hn
    obtain ⟨hcn, hn⟩ := List.nodup_cons.mp hn
    obtain ⟨t, hg⟩ := (Dict.mem_keys_iff _ _).mp (hc c (by simp))
    obtain ⟨k1, k2⟩ := vtable_lookup hf ht hg
    obtain ⟨s2, e1, e2, e3, e4, e5, e6⟩ := connectIn_spec hf p t k1
    have ht2 : VTable ids s2 := vtable_of_views ht _ [] (by rw [e6, List.append_nil]) (fun v => by split <;> exact ⟨rfl, rfl, rfl⟩) (by simp)
    obtain ⟨s', b1, b2, b3, b4, b5, b6, b7⟩ := ih e2 ht2 (fun x hx => hc x (by simp [hx])) hn
    refine ⟨s', ?_, b2, b3, b4.trans e3, b5.trans e4, b6.trans e5, ?_⟩
    · rw [List.foldlM_cons, hg]; simp only [Option.bind_some, e1]; exact b1
    · rw [b7, e6, List.map_map]
      refine List.map_congr_left (fun v hv => ?_)
      simp only [Function.comp_apply, k2 v hv]
      by_cases hs : v.silent = false
      · by_cases hvc : v.name = c
        · simp [hs, hvc, hcn]
        · simp [hs, hvc]
      · simp [hs]

/-- What a class with followers adds to the net. -/
structure Step where
  cls : String
  post : Nat
  groups : List (Nat × List (String × Nat))
  singles : List String

/-- The place after the class. -/
def Step.postPlace (r : Step) : Place := ⟨r.post, "post_" ++ r.cls, none⟩

/-- The new places. -/
def Step.places (r : Step) : List Place := r.postPlace :: r.groups.flatMap (fun g => g.2.map prePlace)

/-- The new places before a class. -/
def Step.before (r : Step) (c : String) : List Place :=
  r.groups.flatMap (fun g => (g.2.filter (fun q => decide (q.1 = c))).map prePlace) ++ (if c ∈ r.singles then [r.postPlace] else [])

/-- The new places after a class. -/
def Step.after (r : Step) (c : String) : List Place := if c = r.cls then [r.postPlace] else []

/-- What becomes of a visible transition. -/
def Step.grow (r : Step) (v : View) : View :=
  if v.silent then v else { v with
    ins := v.ins ++ (r.before v.name).map Place.id,
    outs := v.outs ++ (r.after v.name).map Place.id }

/-- The new silent transitions. -/
def Step.silents (r : Step) : List View := r.groups.map (silentView r.cls r.post)

theorem addFollowers_spec {lo : Nat} (it : Iter) {ids : Dict String Nat} {s : Building} (hf : Fresh lo s) (ht : VTable ids s) (a : String)
    (ha : a ∈ ids.keys) (followers : List String) (hfn : followers.Nodup) (hfk : ∀ c ∈ followers, c ∈ ids.keys)
    (groups : List (List String)) (hg : ∀ g ∈ groups, ∀ el ∈ g, el ∈ ids.keys) :
    ∃ (s' : Building) (r : Step), addFollowers it ids a followers groups s = some s' ∧ Fresh lo s' ∧ VTable ids s' ∧ r.cls = a ∧
      (r.groups.map (fun g => g.2.map Prod.fst)).Perm groups ∧
      (∀ c, c ∈ r.singles ↔ c ∈ followers ∧ ∀ g ∈ groups, c ∉ g) ∧
      s'.net.places = s.net.places ++ r.places ∧ s'.net.initial = s.net.initial ∧ s'.net.final = s.net.final ∧
      s'.views = s.views.map r.grow ++ r.silents := by
  obtain ⟨t, hta⟩ := (Dict.mem_keys_iff _ _).mp ha
  have hf1 := fresh_addPlace hf ("post_" ++ a) none
  have hv1 : (addPlace s ("post_" ++ a) none).1.views = s.views := rfl
  have ht1 : VTable ids (addPlace s ("post_" ++ a) none).1 := ⟨ht.eq, ht.wf⟩
  obtain ⟨k1, k2⟩ := vtable_lookup hf1 ht1 hta
  rw [hv1] at k2
  obtain ⟨s2, a1, a2, a3, a4, a5, a6⟩ := connectOut_spec hf1 (addPlace s ("post_" ++ a) none).2 t k1
  have hn : (addPlace s ("post_" ++ a) none).2 = s.next := rfl
  rw [hv1] at a6
  rw [hn] at a1 a6
  have ht2 : VTable ids s2 := vtable_of_views ht _ [] (by rw [a6, List.append_nil]) (fun v => by split <;> exact ⟨rfl, rfl, rfl⟩) (by simp)
  have hp := it.perm ("parallel_groups of " ++ a) 0 groups
  obtain ⟨s3, gs, b1, b2, b3, b4, b5, b6, b7, b8⟩ := groups_fold (lo := lo) (ids := ids) a s.next _ a2 ht2
    (fun g hg' => hg g (hp.mem_iff.mp hg'))
  obtain ⟨s4, c1, c2, c3, c4, c5, c6, c7⟩ := singles_fold (lo := lo) (ids := ids) s.next
    (followers.filter (fun f => !groups.any (fun g => decide (f ∈ g)))) b2 b3
    (fun c hc => hfk c (List.mem_filter.mp hc).1) (hfn.filter _)
  refine ⟨s4, ⟨a, s.next, gs, followers.filter (fun f => !groups.any (fun g => decide (f ∈ g)))⟩, ?_, c2, c3, rfl, ?_, ?_, ?_,
    c5.trans (b6.trans a4), c6.trans (b7.trans a5), ?_⟩
  · unfold addFollowers
    simp only [hn, hta, Option.bind_some, a1, b1]
    exact c1
  · simp only [b4]; exact hp
  · intro c
    simp only [List.mem_filter, Bool.not_eq_true', List.any_eq_false, decide_eq_true_eq]
  · rw [c4, b5, a3]
    simp [Step.places, Step.postPlace, addPlace]
  · rw [c7, b8, a6, List.map_append, List.map_map, List.map_map]
    congr 1
    · refine List.map_congr_left (fun v hv => ?_)
      have hk := k2 v hv
      simp only [Function.comp_apply, Step.grow, Step.before, Step.after]
      by_cases hs : v.silent = true
      · have hvt : ¬ v.id = t := fun h => by rw [(hk.mp h).1] at hs; cases hs
        have h0 : gs.flatMap (fun g => memberIns g.2 v) = [] := by
          rw [List.flatMap_eq_nil_iff]; intro x _; exact memberIns_silent _ _ hs
        rw [if_neg hvt, h0, if_pos hs]
        apply view_ext <;> simp [hs]
      · have hs' : v.silent = false := by simpa using hs
        have hmi : ∀ w : View, w.silent = v.silent → w.name = v.name → gs.flatMap (fun g => memberIns g.2 w) =
            (gs.flatMap (fun g => (g.2.filter (fun q => decide (q.1 = v.name))).map prePlace)).map Place.id := by
          intro w h1 h2
          rw [List.map_flatMap]
          refine List.flatMap_congr (fun g _ => ?_)
          unfold memberIns
          rw [h1, h2, hs', List.map_map]
          rfl
        rw [if_neg hs]
        by_cases hvt : v.id = t
        · have hva := (hk.mp hvt).2
          rw [if_pos hvt, hmi { v with outs := v.outs ++ [s.next] } rfl rfl]
          apply view_ext
          · rfl
          · rfl
          · rfl
          · simp only [List.map_append, List.append_assoc, hs', true_and]
            congr 2
            split <;> rfl
          · simp only [hva, if_true]; rfl
        · have hva : ¬ v.name = a := fun h => hvt (hk.mpr ⟨hs', h⟩)
          rw [if_neg hvt, hmi _ rfl rfl]
          apply view_ext
          · rfl
          · rfl
          · rfl
          · simp only [List.map_append, List.append_assoc, hs', true_and]
            congr 2
            split <;> rfl
          · simp [hva]
    · rw [List.map_map]
      refine List.map_congr_left (fun g _ => ?_)
      simp [silentView]

end Ficus.Rs
