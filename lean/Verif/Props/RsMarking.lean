import Verif.Model.RsMarking
import Verif.Props.RsReplay

/-! C118: what `EnsureInitialMarking` does to a net. -/

namespace Ficus.Rs
open Spec
variable {E : Type} [HasName E]

theorem fresh_of_net {s : Building} (hw : WellFormed s.net) (hd : Drawn s) : Fresh 0 s := by
  refine ⟨?_, ?_, Nat.zero_le _⟩
  · exact (ids_perm s.net).nodup_iff.mpr hw.distinct
  · intro i hi
    refine ⟨Nat.zero_le _, ?_⟩
    rcases List.mem_append.mp hi with h | h
    · obtain ⟨p, hp, rfl⟩ := List.mem_map.mp h
      exact hd.1 p hp
    · obtain ⟨t, ht, hi⟩ := List.mem_flatMap.mp h
      rcases List.mem_cons.mp hi with rfl | hi
      · exact (hd.2 t ht).1
      · rw [← List.map_append] at hi
        obtain ⟨a, ha, rfl⟩ := List.mem_map.mp hi
        exact (hd.2 t ht).2 a ha

theorem connectIns_spec {lo : Nat} (p : Nat) (ids : List Nat) : ∀ {s : Building}, Fresh lo s → ids.Nodup →
    (∀ t ∈ ids, t ∈ s.net.transitions.map Trans.id) →
    ∃ s', ids.foldlM (fun s t => connectIn s p t) s = some s' ∧ Fresh lo s' ∧ s'.net.places = s.net.places ∧ s'.net.initial = s.net.initial ∧
      s'.net.final = s.net.final ∧ s'.views = s.views.map (fun v => if v.id ∈ ids then { v with ins := v.ins ++ [p] } else v) := by
  induction ids with
  | nil => intro s hf _ _; exact ⟨s, rfl, hf, rfl, rfl, rfl, by simp⟩
  | cons t ids ih =>
    intro s hf hn hm
    rw [List.nodup_cons] at hn
    obtain ⟨s1, e1, f1, p1, i1, n1, v1⟩ := connectIn_spec hf p t (hm t List.mem_cons_self)
    have hids : s1.net.transitions.map Trans.id = s.net.transitions.map Trans.id := by
      rw [← views_ids, ← views_ids, v1, List.map_map]
      refine List.map_congr_left (fun v _ => ?_)
      simp only [Function.comp_apply]; split <;> rfl
    obtain ⟨s2, e2, f2, p2, i2, n2, v2⟩ := ih f1 hn.2 (fun u hu => by rw [hids]; exact hm u (List.mem_cons_of_mem _ hu))
    refine ⟨s2, ?_, f2, p2.trans p1, i2.trans i1, n2.trans n1, ?_⟩
    · rw [List.foldlM_cons, e1]; exact e2
    · rw [v2, v1, List.map_map]
      refine List.map_congr_left (fun v _ => ?_)
      simp only [Function.comp_apply, List.mem_cons]
      by_cases h1 : v.id = t
      · have : v.id ∉ ids := h1 ▸ hn.1
        simp [h1, hn.1]
      · simp [h1]

theorem connectOuts_spec {lo : Nat} (p : Nat) (ids : List Nat) : ∀ {s : Building}, Fresh lo s → ids.Nodup →
    (∀ t ∈ ids, t ∈ s.net.transitions.map Trans.id) →
    ∃ s', ids.foldlM (fun s t => connectOut s t p) s = some s' ∧ Fresh lo s' ∧ s'.net.places = s.net.places ∧ s'.net.initial = s.net.initial ∧
      s'.net.final = s.net.final ∧ s'.views = s.views.map (fun v => if v.id ∈ ids then { v with outs := v.outs ++ [p] } else v) := by
  induction ids with
  | nil => intro s hf _ _; exact ⟨s, rfl, hf, rfl, rfl, rfl, by simp⟩
  | cons t ids ih =>
    intro s hf hn hm
    rw [List.nodup_cons] at hn
    obtain ⟨s1, e1, f1, p1, i1, n1, v1⟩ := connectOut_spec hf p t (hm t List.mem_cons_self)
    have hids : s1.net.transitions.map Trans.id = s.net.transitions.map Trans.id := by
      rw [← views_ids, ← views_ids, v1, List.map_map]
      refine List.map_congr_left (fun v _ => ?_)
      simp only [Function.comp_apply]; split <;> rfl
    obtain ⟨s2, e2, f2, p2, i2, n2, v2⟩ := ih f1 hn.2 (fun u hu => by rw [hids]; exact hm u (List.mem_cons_of_mem _ hu))
    refine ⟨s2, ?_, f2, p2.trans p1, i2.trans i1, n2.trans n1, ?_⟩
    · rw [List.foldlM_cons, e1]; exact e2
    · rw [v2, v1, List.map_map]
      refine List.map_congr_left (fun v _ => ?_)
      simp only [Function.comp_apply, List.mem_cons]
      by_cases h1 : v.id = t
      · have : v.id ∉ ids := h1 ▸ hn.1
        simp [h1, hn.1]
      · simp [h1]

theorem insertFound_spec (it : Iter) (net : Net) (ids : List Nat) (c : String) (hn : ids.Nodup) :
    (insertFound it net ids c).Nodup ∧
      ∀ x, x ∈ insertFound it net ids c ↔ x ∈ ids ∨ ∃ t, findTransition it 0 net c = some t ∧ t.id = x := by
  unfold insertFound
  cases h : findTransition it 0 net c with
  | none => exact ⟨hn, fun x => by simp⟩
  | some t =>
    simp only [insertBy]
    split
    · rename_i ha
      obtain ⟨y, hy, he⟩ := List.any_eq_true.mp ha
      rw [decide_eq_true_eq] at he
      refine ⟨hn, fun x => ⟨Or.inl, ?_⟩⟩
      rintro (hx | ⟨u, hu, rfl⟩)
      · exact hx
      · cases hu; rw [he]; exact hy
    · rename_i ha
      have : t.id ∉ ids := fun hm => ha (List.any_eq_true.mpr ⟨t.id, hm, by simp⟩)
      refine ⟨List.nodup_append.mpr ⟨hn, by simp, by
        intro a ha b hb; rw [List.mem_singleton] at hb; rintro rfl; exact this (hb ▸ ha)⟩, fun x => ?_⟩
      rw [List.mem_append, List.mem_singleton]
      constructor
      · rintro (hx | rfl)
        · exact Or.inl hx
        · exact Or.inr ⟨t, rfl, rfl⟩
      · rintro (hx | ⟨u, hu, rfl⟩)
        · exact Or.inl hx
        · cases hu; exact Or.inr rfl

theorem markEnds_spec (it : Iter) (net : Net) (log : List (List String)) : ∀ acc : List Nat × List Nat, acc.1.Nodup → acc.2.Nodup →
    (markEnds it net log acc = none ↔ [] ∈ log) ∧
    ∀ ids, markEnds it net log acc = some ids → ids.1.Nodup ∧ ids.2.Nodup ∧
      (∀ x, x ∈ ids.1 ↔ x ∈ acc.1 ∨ ∃ c t, IsFirst log c ∧ findTransition it 0 net c = some t ∧ t.id = x) ∧
      (∀ x, x ∈ ids.2 ↔ x ∈ acc.2 ∨ ∃ c t, IsLast log c ∧ findTransition it 0 net c = some t ∧ t.id = x) := by
  induction log with
  | nil =>
    intro acc h1 h2
    refine ⟨by simp [markEnds], ?_⟩
    rintro ids ⟨⟩
    exact ⟨h1, h2, by simp [IsFirst], by simp [IsLast]⟩
  | cons w log ih =>
    intro acc h1 h2
    cases w with
    | nil => exact ⟨by simp [markEnds], fun ids h => by simp [markEnds] at h⟩
    | cons a w =>
      obtain ⟨b, hb⟩ : ∃ b, (a :: w).getLast? = some b := ⟨_, List.getLast?_eq_some_getLast (by simp)⟩
      have he : markEnds it net ((a :: w) :: log) acc = markEnds it net log (insertFound it net acc.1 a, insertFound it net acc.2 b) := by
        rw [markEnds, hb]; rfl
      rw [he]
      obtain ⟨a1, a2⟩ := insertFound_spec it net acc.1 a h1
      obtain ⟨b1, b2⟩ := insertFound_spec it net acc.2 b h2
      obtain ⟨i1, i2⟩ := ih (insertFound it net acc.1 a, insertFound it net acc.2 b) a1 b1
      refine ⟨by rw [i1]; simp, fun ids h => ?_⟩
      obtain ⟨n1, n2, m1, m2⟩ := i2 ids h
      refine ⟨n1, n2, fun x => ?_, fun x => ?_⟩
      · rw [m1, a2, or_assoc]
        refine or_congr_right ⟨?_, ?_⟩
        · rintro (⟨t, h3, h4⟩ | ⟨c, t, ⟨w', hw, hc⟩, h3⟩)
          · exact ⟨a, t, ⟨_, List.mem_cons_self, rfl⟩, h3, h4⟩
          · exact ⟨c, t, ⟨w', List.mem_cons_of_mem _ hw, hc⟩, h3⟩
        · rintro ⟨c, t, ⟨w', hw, hc⟩, h3⟩
          rcases List.mem_cons.mp hw with rfl | hw
          · cases hc; exact Or.inl ⟨t, h3⟩
          · exact Or.inr ⟨c, t, ⟨w', hw, hc⟩, h3⟩
      · rw [m2, b2, or_assoc]
        refine or_congr_right ⟨?_, ?_⟩
        · rintro (⟨t, h3, h4⟩ | ⟨c, t, ⟨w', hw, hc⟩, h3⟩)
          · exact ⟨b, t, ⟨_, List.mem_cons_self, hb⟩, h3, h4⟩
          · exact ⟨c, t, ⟨w', List.mem_cons_of_mem _ hw, hc⟩, h3⟩
        · rintro ⟨c, t, ⟨w', hw, hc⟩, h3⟩
          rcases List.mem_cons.mp hw with rfl | hw
          · rw [hb] at hc; cases hc; exact Or.inl ⟨t, h3⟩
          · exact Or.inr ⟨c, t, ⟨w', hw, hc⟩, h3⟩

/-- C118a, partial as it says nothing about the replay, for which see C118b: the part panics exactly if a trace is empty. Otherwise it adds the places `Start` and `End`, one arc from `Start` to one
transition named like the first event of each trace and one arc to `End` from one transition named like the last event of each trace,
if there is one; `Start` gets the only token of the initial marking. The final marking is not changed, `End` is not in it. -/
theorem C118_ensure_marking_partial (it : Iter) (log : List (List E)) (s : Building) (hw : WellFormed s.net) (hd : Drawn s) :
    (ensureMarking it log s = none ↔ [] ∈ log) ∧
    ([] ∉ log → ∃ (s' : Building) (st en : Nat) (pick : String → Option Trans), ensureMarking it log s = some s' ∧
      WellFormed s'.net ∧ Drawn s' ∧ s'.net.places = s.net.places ++ [⟨st, "Start", none⟩, ⟨en, "End", none⟩] ∧
      s'.net.initial = some [(st, 1)] ∧ s'.net.final = s.net.final ∧
      (∀ c t, pick c = some t → t ∈ s.net.transitions ∧ t.name = c) ∧ (∀ c, pick c = none → ∀ t ∈ s.net.transitions, t.name ≠ c) ∧
      List.Forall₂ (fun t t' => t'.id = t.id ∧ t'.name = t.name ∧ t'.silent = t.silent ∧
        ((∃ c, IsFirst (namesOf log) c ∧ pick c = some t) → t'.incoming.map Arc.place = t.incoming.map Arc.place ++ [st]) ∧
        ((¬ ∃ c, IsFirst (namesOf log) c ∧ pick c = some t) → t'.incoming.map Arc.place = t.incoming.map Arc.place) ∧
        ((∃ c, IsLast (namesOf log) c ∧ pick c = some t) → t'.outgoing.map Arc.place = t.outgoing.map Arc.place ++ [en]) ∧
        ((¬ ∃ c, IsLast (namesOf log) c ∧ pick c = some t) → t'.outgoing.map Arc.place = t.outgoing.map Arc.place))
        s.net.transitions s'.net.transitions) := by
  have hf := fresh_of_net hw hd
  obtain ⟨k1, k2⟩ := markEnds_spec it s.net (namesOf log) ([], []) List.nodup_nil List.nodup_nil
  have hnil : [] ∈ namesOf log ↔ [] ∈ log := by simp [namesOf]
  rw [hnil] at k1
  have hfind : ∀ c t, findTransition it 0 s.net c = some t → t ∈ s.net.transitions ∧ t.name = c := by
    intro c t h
    have h1 := List.mem_of_find?_eq_some h
    have h2 := List.find?_some h
    exact ⟨(it.perm _ _ _).mem_iff.mp h1, by simpa using h2⟩
  have hnone : ∀ c, findTransition it 0 s.net c = none → ∀ t ∈ s.net.transitions, t.name ≠ c := by
    intro c h t ht
    have := List.find?_eq_none.mp h t ((it.perm _ _ _).mem_iff.mpr ht)
    simpa using this
  have main : ∀ ids, markEnds it s.net (namesOf log) ([], []) = some ids → ∃ (s' : Building) (st en : Nat), ensureMarking it log s = some s' ∧
      Fresh 0 s' ∧ s'.net.places = s.net.places ++ [⟨st, "Start", none⟩, ⟨en, "End", none⟩] ∧
      s'.net.initial = some [(st, 1)] ∧ s'.net.final = s.net.final ∧
      s'.views = s.views.map (fun v => { v with
        ins := v.ins ++ (if v.id ∈ ids.1 then [st] else []),
        outs := v.outs ++ (if v.id ∈ ids.2 then [en] else []) }) := by
    intro ids h
    obtain ⟨n1, n2, m1, m2⟩ := k2 ids h
    have q1 := it.perm "start_transitions" 0 ids.1
    have q2 := it.perm "end_transitions" 0 ids.2
    have f1 := fresh_addPlace hf "Start" none
    have f2 := fresh_addPlace f1 "End" none
    obtain ⟨s2, e2, g2, p2, i2, l2, v2⟩ := connectIns_spec s.next (it.order "start_transitions" 0 ids.1) f2 (q1.nodup_iff.mpr n1) (by
      intro x hx
      rw [q1.mem_iff, m1] at hx
      rcases hx with hx | ⟨c, t, _, ht, rfl⟩
      · cases hx
      · exact List.mem_map_of_mem (hfind c t ht).1)
    have hids : s2.net.transitions.map Trans.id = s.net.transitions.map Trans.id := by
      rw [← views_ids, v2, List.map_map]
      show s.views.map _ = _
      rw [← views_ids]
      refine List.map_congr_left (fun v _ => ?_)
      simp only [Function.comp_apply]; split <;> rfl
    obtain ⟨s3, e3, g3, p3, i3, l3, v3⟩ := connectOuts_spec (s.next + 1) (it.order "end_transitions" 0 ids.2) g2 (q2.nodup_iff.mpr n2) (by
      intro x hx
      rw [q2.mem_iff, m2] at hx
      rw [hids]
      rcases hx with hx | ⟨c, t, _, ht, rfl⟩
      · cases hx
      · exact List.mem_map_of_mem (hfind c t ht).1)
    refine ⟨{ s3 with net := { s3.net with initial := some [(s.next, 1)] } }, s.next, s.next + 1, ?_, ⟨g3.1, g3.2.1, g3.2.2⟩, ?_, rfl, ?_, ?_⟩
    · unfold ensureMarking
      have h' : markEnds it s.net (log.map (fun t => t.map name)) ([], []) = some ids := h
      rw [h', Option.bind_some]
      show (List.foldlM (fun s' t => connectIn s' s.next t) (addPlace (addPlace s "Start" none).1 "End" none).1
        (it.order "start_transitions" 0 ids.1)).bind _ = _
      rw [e2, Option.bind_some]
      show (List.foldlM (fun s' t => connectOut s' t (s.next + 1)) s2 (it.order "end_transitions" 0 ids.2)).map _ = _
      rw [e3]; rfl
    · show s3.net.places = _
      rw [p3, p2]; simp [addPlace]
    · show s3.net.final = _
      rw [l3, l2]; rfl
    · show s3.views = _
      rw [v3, v2, List.map_map]
      show s.views.map _ = _
      refine List.map_congr_left (fun v _ => ?_)
      simp only [Function.comp_apply, q1.mem_iff, q2.mem_iff]
      by_cases h1 : v.id ∈ ids.1 <;> by_cases h2 : v.id ∈ ids.2 <;> simp [h1, h2]
  refine ⟨?_, ?_⟩
  · rw [← k1]
    cases h : markEnds it s.net (namesOf log) ([], []) with
    | none =>
      have h' : markEnds it s.net (log.map (fun t => t.map name)) ([], []) = none := h
      simp [ensureMarking, h']
    | some ids =>
      obtain ⟨s', _, _, e, _⟩ := main ids h
      rw [e]; simp
  · intro hn
    obtain ⟨ids, hi⟩ := Option.ne_none_iff_exists'.mp (fun h => hn (k1.mp h))
    obtain ⟨_, _, m1, m2⟩ := k2 ids hi
    obtain ⟨s', st, en, e, f, p, i, l, v⟩ := main ids hi
    have hpt : List.Forall₂ (fun t t' => t'.view = { t.view with
        ins := t.view.ins ++ (if t.view.id ∈ ids.1 then [st] else []),
        outs := t.view.outs ++ (if t.view.id ∈ ids.2 then [en] else []) }) s.net.transitions s'.net.transitions := by
      have hv : s'.net.transitions.map Trans.view = s.net.transitions.map (fun t => { t.view with
          ins := t.view.ins ++ (if t.view.id ∈ ids.1 then [st] else []),
          outs := t.view.outs ++ (if t.view.id ∈ ids.2 then [en] else []) }) := by
        unfold Building.views at v
        rw [v, List.map_map]; rfl
      refine List.forall₂_iff_get.mpr ⟨by simpa using (congrArg List.length hv).symm, fun k h1 h2 => ?_⟩
      have := congrArg (fun l => l[k]?) hv
      simp only [List.getElem?_map] at this
      rw [List.getElem?_eq_getElem h1, List.getElem?_eq_getElem h2] at this
      simpa using this
    have hnd := ids_nodup_of_fresh hf
    refine ⟨s', st, en, findTransition it 0 s.net, e, ⟨distinct_of_fresh f, ?_⟩, drawn_of_fresh f, p, i, l, hfind, hnone, ?_⟩
    · intro t' ht' a ha
      obtain ⟨k, hk, rfl⟩ := List.getElem_of_mem ht'
      obtain ⟨hl, hg⟩ := List.forall₂_iff_get.mp hpt
      have hk' : k < s.net.transitions.length := by omega
      have hv := hg k hk' hk
      have ha' : a.place ∈ (s'.net.transitions[k]).view.ins ++ (s'.net.transitions[k]).view.outs := by
        simp only [Trans.view, ← List.map_append]
        exact List.mem_map_of_mem ha
      rw [List.get_eq_getElem, List.get_eq_getElem] at hv
      rw [hv] at ha'
      have hold : ∀ q ∈ (s.net.transitions[k]).view.ins ++ (s.net.transitions[k]).view.outs, ∃ p ∈ s.net.places, p.id = q := by
        intro q hq
        simp only [Trans.view, ← List.map_append] at hq
        obtain ⟨b, hb, rfl⟩ := List.mem_map.mp hq
        exact hw.closed _ (List.getElem_mem hk') b hb
      rw [p]
      simp only [List.mem_append] at ha' hold ⊢
      have hst : ∀ q x : Nat, ∀ P : Prop, [Decidable P] → q ∈ (if P then [x] else []) → q = x := by
        intro q x P _ h; split at h <;> simp_all
      rcases ha' with (h | h) | (h | h)
      · obtain ⟨p, hp, he⟩ := hold _ (Or.inl h); exact ⟨p, Or.inl hp, he⟩
      · exact ⟨⟨st, "Start", none⟩, Or.inr (by simp), (hst _ _ _ h).symm⟩
      · obtain ⟨p, hp, he⟩ := hold _ (Or.inr h); exact ⟨p, Or.inl hp, he⟩
      · exact ⟨⟨en, "End", none⟩, Or.inr (by simp), (hst _ _ _ h).symm⟩
    · obtain ⟨hl, hg⟩ := List.forall₂_iff_get.mp hpt
      refine List.forall₂_iff_get.mpr ⟨hl, fun k h1 h2 => ?_⟩
      have hv := hg k h1 h2
      rw [List.get_eq_getElem, List.get_eq_getElem] at hv ⊢
      have ht := List.getElem_mem h1
      generalize s.net.transitions[k] = t at hv ht ⊢
      generalize s'.net.transitions[k] = t' at hv ⊢
      have c1 : t.view.id ∈ ids.1 ↔ ∃ c, IsFirst (namesOf log) c ∧ findTransition it 0 s.net c = some t := by
        rw [m1]
        constructor
        · rintro (h | ⟨c, u, hc, hu, he⟩)
          · cases h
          · exact ⟨c, hc, by rw [hu, List.inj_on_of_nodup_map hnd (hfind c u hu).1 ht he]⟩
        · rintro ⟨c, hc, hu⟩; exact Or.inr ⟨c, t, hc, hu, rfl⟩
      have c2 : t.view.id ∈ ids.2 ↔ ∃ c, IsLast (namesOf log) c ∧ findTransition it 0 s.net c = some t := by
        rw [m2]
        constructor
        · rintro (h | ⟨c, u, hc, hu, he⟩)
          · cases h
          · exact ⟨c, hc, by rw [hu, List.inj_on_of_nodup_map hnd (hfind c u hu).1 ht he]⟩
        · rintro ⟨c, hc, hu⟩; exact Or.inr ⟨c, t, hc, hu, rfl⟩
      rw [← c1, ← c2]
      simp only [Trans.view, View.mk.injEq] at hv ⊢
      obtain ⟨v1, v2, v3, v4, v5⟩ := hv
      refine ⟨v1, v2, v3, fun h => ?_, fun h => ?_, fun h => ?_, fun h => ?_⟩
      · rw [v4]; exact congrArg (_ ++ ·) (if_pos h)
      · rw [v4]; exact (congrArg (_ ++ ·) (if_neg h)).trans (List.append_nil _)
      · rw [v5]; exact congrArg (_ ++ ·) (if_pos h)
      · rw [v5]; exact (congrArg (_ ++ ·) (if_neg h)).trans (List.append_nil _)

/-- C118b: after the alpha algorithm, the part makes every trace of the log unfit for the net: the transitions of first events still
need a token in the place `StartPlace`, which the new initial marking does not have. Annotations with counts are then empty. -/
theorem C118_alpha_unfit (it : Iter) (hash : List String → Nat) (next : Nat) (log : List (List E))
    (hh : TellsApart hash (namesOf log).flatten.dedup) (fuel : Nat) (hf : (namesOf log).flatten.dedup.length < fuel) (hn : [] ∉ log) :
    ∃ s s' initial, discoverAlpha it hash fuel next log = some s ∧ ensureMarking it log s = some s' ∧ s'.net.initial = some initial ∧
      (∀ w ∈ namesOf log, ¬ Replayable s'.net (tokensOf initial) w) ∧
      ∃ n, ∀ fuel ≥ n, annotateCounts it s'.net fuel false log = .ok (some []) := by
  obtain ⟨s, sets, h1, h2, _, _, _, hp, h4, h5, p0, hp0, en0, _, hpn, _, _, _, hdr⟩ := C113_alpha_net it hash next log hh fuel hf
  obtain ⟨s', st, en, pick, e, hw', _, hpl, hi, _, hpick, hnone, hts⟩ := (C118_ensure_marking_partial it log s h2 hdr).2 hn
  suffices hall : ∀ w ∈ namesOf log, ¬ Replayable s'.net (tokensOf [(st, 1)]) w by
    refine ⟨s, s', _, h1, e, hi, hall, ?_⟩
    obtain ⟨hl, hg⟩ := List.forall₂_iff_get.mp hts
    have hids : (s'.net.places.map Place.id).Nodup := (List.nodup_append.mp (List.nodup_append.mp hw'.distinct).1).1
    rw [hpl, List.map_append, List.nodup_append] at hids
    have hsil : ∀ t' ∈ s'.net.transitions, t'.silent = false := by
      intro t' ht'
      obtain ⟨k, hk, rfl⟩ := List.getElem_of_mem ht'
      have hk' : k < s.net.transitions.length := by omega
      exact (hg k hk' hk).2.2.1.trans (h5 _ (List.getElem_mem hk')).1
    have hsingle : SingleArcs s'.net := by
      intro t' ht'
      obtain ⟨k, hk, rfl⟩ := List.getElem_of_mem ht'
      have hk' : k < s.net.transitions.length := by omega
      obtain ⟨_, _, _, g4, g5, _, _⟩ := hg k hk' hk
      simp only [List.get_eq_getElem] at g4 g5
      have hs := alpha_single h2 h5 _ (List.getElem_mem hk')
      by_cases h : ∃ c, IsFirst (namesOf log) c ∧ pick c = some s.net.transitions[k]
      · rw [g4 h, List.nodup_append]
        refine ⟨hs, by simp, ?_⟩
        intro q hq q' hq'
        obtain ⟨a, ha, rfl⟩ := List.mem_map.mp hq
        obtain ⟨p, hp, he⟩ := h2.closed _ (List.getElem_mem hk') a (List.mem_append_left _ ha)
        rw [← he]
        exact hids.2.2 _ (List.mem_map_of_mem hp) q' (by rw [List.mem_singleton] at hq'; simp [hq'])
      · rw [g5 h]; exact hs
    obtain ⟨n, runs, r1, _, r3⟩ := C117_counts it s'.net hw' hsingle (silentEnds_of_none hsil) _ hi (by simp [GoodMarking]) false log
    obtain ⟨d, d1, _, _, d2⟩ := r3 (by simp)
    have hd : d = [] := by
      have hk : ∀ k, k ∉ d.keys := by
        intro k hk
        obtain ⟨ts, hts, _⟩ := (d2 k).mp hk
        obtain ⟨hl, hg⟩ := List.forall₂_iff_get.mp r1
        obtain ⟨i, hlt, he⟩ := List.getElem_of_mem hts
        have hil : i < (namesOf log).length := by omega
        obtain ⟨m', hf, hv⟩ := (hg i hil hlt).2 ts (by simpa using he)
        exact hall _ (List.getElem_mem hil) ⟨ts, m', hf, hv⟩
      cases d with
      | nil => rfl
      | cons p d => exact absurd List.mem_cons_self (hk p.1)
    subst hd
    exact ⟨n, d1⟩
  have hset : p0.set = none := by
    have : (p0.name, p0.set) ∈ s.net.places.map (fun p => (p.name, p.set)) := List.mem_map_of_mem hp0
    rw [hp, List.mem_append] at this
    rcases this with h | h
    · obtain ⟨x, _, hx⟩ := List.mem_map.mp h
      have := congrArg Prod.fst hx
      simp only [hpn] at this
      have := congrArg String.toList this
      simp [ASet.text, sideText, String.toList_append] at this
    · simp only [List.mem_cons, Prod.mk.injEq, List.not_mem_nil, or_false] at h
      rcases h with h | h <;> exact h.2
  have hids : (s'.net.places.map Place.id).Nodup := (List.nodup_append.mp (List.nodup_append.mp hw'.distinct).1).1
  rw [hpl, List.map_append, List.nodup_append] at hids
  have hne : ∀ q ∈ [st, en], p0.id ≠ q := fun q hq => hids.2.2 _ (List.mem_map_of_mem hp0) q (by simpa using hq)
  obtain ⟨hl, hg⟩ := List.forall₂_iff_get.mp hts
  have hback : ∀ t' ∈ s'.net.transitions, t'.silent = false ∧ gives t' p0.id = 0 ∧ (IsFirst (namesOf log) t'.name → needs t' p0.id = 1) := by
    intro t' ht'
    obtain ⟨k, hk, rfl⟩ := List.getElem_of_mem ht'
    have hk' : k < s.net.transitions.length := by omega
    obtain ⟨_, g2, g3, g4, g5, g6, g7⟩ := hg k hk' hk
    rw [List.get_eq_getElem, List.get_eq_getElem] at g2 g3
    simp only [List.get_eq_getElem] at g4 g5 g6 g7
    have hc := h5 _ (List.getElem_mem hk')
    obtain ⟨c1, c2, c3, c4⟩ := hc.2 p0 hp0
    refine ⟨g3.trans hc.1, ?_, ?_⟩
    · have h0 := c4 (by
        rintro (⟨x, hx, _⟩ | ⟨_, hx, _⟩)
        · rw [hset] at hx; cases hx
        · rw [hpn] at hx; exact absurd hx (by decide))
      unfold gives
      unfold arcsOutOf at h0
      by_cases h : ∃ c, IsLast (namesOf log) c ∧ pick c = some s.net.transitions[k]
      · rw [g6 h, List.count_append, h0, List.count_eq_zero.mpr (by simpa using hne en (by simp))]
      · rw [g7 h, h0]
    · intro hfirst
      rw [g2] at hfirst
      have h0 := c1 (Or.inr ⟨hset, hpn, hfirst⟩)
      unfold needs
      unfold arcsInto at h0
      by_cases h : ∃ c, IsFirst (namesOf log) c ∧ pick c = some s.net.transitions[k]
      · rw [g4 h, List.count_append, h0, List.count_eq_zero.mpr (by simpa using hne st (by simp))]
      · rw [g5 h, h0]
  rintro w hwm ⟨ts, m', hfires, hv⟩
  cases hfires with
  | nil =>
    rw [← hv] at hwm
    simp [namesOf, visible] at hwm
    exact hn hwm
  | @cons _ _ t ts ht he hr =>
    obtain ⟨b1, _, b3⟩ := hback t ht
    have hfirst : IsFirst (namesOf log) t.name := ⟨w, hwm, by rw [← hv]; simp [visible, b1]⟩
    have h0 := he p0.id
    rw [b3 hfirst] at h0
    have : tokensOf [(st, 1)] p0.id = 0 := by
      simp [tokensOf, (hne st (by simp)).symm]
    omega

/-- The hypotheses of both theorems hold for the net of the example; before the part all traces of the log could be replayed. -/
example : (discoverAlpha .plain exHash 6 0 exAlpha).bind (fun s => (annotateCounts .plain s.net 40 true exAlpha).toOption.map (fun d => d.isSome)) =
      some true ∧
    ((discoverAlpha .plain exHash 6 0 exAlpha).bind (ensureMarking .plain exAlpha)).bind (fun s =>
      (annotateCounts .plain s.net 40 true exAlpha).toOption.map (fun d => d.isSome)) = some false ∧
    ((discoverAlpha .plain exHash 6 0 exAlpha).bind (ensureMarking .plain exAlpha)).map (fun s => s.net.places.map Place.name) =
      some ["({a}, {b,e})", "({a}, {c,e})", "({b,e}, {d})", "({c,e}, {d})", "StartPlace", "EndPlace", "Start", "End"] ∧
    ensureMarking .plain ([[]] : List (List String)) { net := emptyNet, next := 0 } = none := by
  decide +kernel

end Ficus.Rs
