import Verif.Model.RsNfc
import Verif.Proofs.RsNet

/-! The net of Alpha++ NFC. -/

namespace Ficus.Rs.Nfc

/-- The places of the sets with their identifiers. -/
def nfcPlaces (pids : List Nat) (sets : List ASet) : List Place := List.zipWith (fun i x => ⟨i, x.text, none⟩) pids sets

theorem addNfcPlace_spec {lo : Nat} {ids : Dict String Nat} {s : Building} (hf : Fresh lo s) (ht : Table ids s) (x : ASet)
    (hl : x.left.Nodup) (hr : x.right.Nodup) :
    (addNfcPlace ids s x = none ↔ ∃ c ∈ x.left ++ x.right, c ∉ ids.keys) ∧
    ∀ s', addNfcPlace ids s x = some s' → Fresh lo s' ∧ Table ids s' ∧ s'.net.places = s.net.places ++ [⟨s.next, x.text, none⟩] ∧
      s'.net.initial = s.net.initial ∧ s'.net.final = s.net.final ∧
      s'.views = s.views.map (fun v => { v with
        ins := v.ins ++ (if v.name ∈ x.right then [s.next] else []),
        outs := v.outs ++ (if v.name ∈ x.left then [s.next] else []) }) := by
  unfold addNfcPlace
  simp only
  have f1 := fresh_addPlace hf x.text none
  have t1 : Table ids (addPlace s x.text none).1 := ⟨ht.eq, ht.wf⟩
  obtain ⟨a1, a2⟩ := connectOutAll_spec f1 t1 s.next x.left hl
  change ((connectOutAll ids s.next (addPlace s x.text none).1 x.left).bind (fun s2 => connectInAll ids s.next s2 x.right) = none ↔ _) ∧
    ∀ s', (connectOutAll ids s.next (addPlace s x.text none).1 x.left).bind (fun s2 => connectInAll ids s.next s2 x.right) = some s' → _
  cases h2 : connectOutAll ids s.next (addPlace s x.text none).1 x.left with
  | none =>
    obtain ⟨c, hc, h⟩ := a1.mp h2
    refine ⟨⟨fun _ => ⟨c, List.mem_append_left _ hc, h⟩, fun _ => rfl⟩, ?_⟩
    intro s' h'; cases h'
  | some s2 =>
    have hno : ∀ c ∈ x.left, c ∈ ids.keys := by
      intro c hc
      by_contra h
      have := a1.mpr ⟨c, hc, h⟩
      rw [h2] at this; cases this
    obtain ⟨b1, b2, b3, b4, b5, b6⟩ := a2 s2 h2
    obtain ⟨c1, c2⟩ := connectInAll_spec b1 b2 s.next x.right hr
    rw [Option.bind_some]
    refine ⟨?_, ?_⟩
    · rw [c1]
      constructor
      · rintro ⟨c, hc, h⟩; exact ⟨c, List.mem_append_right _ hc, h⟩
      · rintro ⟨c, hc, h⟩
        rcases List.mem_append.mp hc with hc | hc
        · exact absurd (hno c hc) h
        · exact ⟨c, hc, h⟩
    · intro s3 h3
      obtain ⟨d1, d2, d3, d4, d5, d6⟩ := c2 s3 h3
      refine ⟨d1, d2, ?_, by rw [d4, b4]; rfl, by rw [d5, b5]; rfl, ?_⟩
      · rw [d3, b3]; rfl
      · rw [d6, b6, List.map_map]
        refine List.map_congr_left (fun v _ => ?_)
        simp

theorem addNfcPlaces_spec {lo : Nat} {ids : Dict String Nat} {s : Building} (hf : Fresh lo s) (ht : Table ids s) (sets : List ASet)
    (hs : ∀ x ∈ sets, x.left.Nodup ∧ x.right.Nodup) :
    (sets.foldlM (addNfcPlace ids) s = none ↔ ∃ x ∈ sets, ∃ c ∈ x.left ++ x.right, c ∉ ids.keys) ∧
    ∀ s', sets.foldlM (addNfcPlace ids) s = some s' → ∃ pids, pids.length = sets.length ∧ Fresh lo s' ∧ Table ids s' ∧
      s'.net.places = s.net.places ++ nfcPlaces pids sets ∧ s'.net.initial = s.net.initial ∧ s'.net.final = s.net.final ∧
      s'.views = s.views.map (fun v => { v with
        ins := v.ins ++ placesWith pids sets (fun x => decide (v.name ∈ x.right)),
        outs := v.outs ++ placesWith pids sets (fun x => decide (v.name ∈ x.left)) }) := by
  induction sets generalizing s with
  | nil =>
    refine ⟨?_, ?_⟩
    · simp only [List.foldlM_nil, List.not_mem_nil, false_and, exists_false, iff_false]
      exact fun h => nomatch h
    · intro s' h
      cases h
      exact ⟨[], rfl, hf, ht, by simp [nfcPlaces], rfl, rfl, by simp [placesWith]⟩
  | cons x sets ih =>
    obtain ⟨g1, g2⟩ := hs x (by simp)
    obtain ⟨e0, e1⟩ := addNfcPlace_spec hf ht x g1 g2
    rw [List.foldlM_cons]
    cases h : addNfcPlace ids s x with
    | none =>
      obtain ⟨c, hc⟩ := e0.mp h
      refine ⟨⟨fun _ => ⟨x, by simp, c, hc⟩, fun _ => rfl⟩, ?_⟩
      intro s' h'; cases h'
    | some s2 =>
      obtain ⟨e2, e3, e4, e5, e6, e7⟩ := e1 s2 h
      obtain ⟨i0, i1⟩ := ih e2 e3 (fun y hy => hs y (by simp [hy]))
      refine ⟨?_, ?_⟩
      · refine Iff.trans i0 ?_
        constructor
        · rintro ⟨y, hy, k⟩; exact ⟨y, by simp [hy], k⟩
        · rintro ⟨y, hy, k⟩
          rcases List.mem_cons.mp hy with rfl | hy
          · have := e0.mpr k; rw [h] at this; cases this
          · exact ⟨y, hy, k⟩
      · intro s' h'
        obtain ⟨pids, k1, k2, k3, k4, k5, k6, k7⟩ := i1 s' h'
        refine ⟨s.next :: pids, by simp [k1], k2, k3, ?_, k5.trans e5, k6.trans e6, ?_⟩
        · rw [k4, e4]; simp [nfcPlaces]
        · rw [k7, e7, List.map_map]
          refine List.map_congr_left (fun v _ => ?_)
          simp only [Function.comp_apply, placesWith, List.zip_cons_cons, List.filter_cons]
          by_cases h1 : v.name ∈ x.left <;> by_cases h2 : v.name ∈ x.right <;> simp [h1, h2]

theorem addClass_markings (s : Building) (classes : List String) :
    (addClassTransitions s classes).1.net.initial = s.net.initial ∧ (addClassTransitions s classes).1.net.final = s.net.final := by
  unfold addClassTransitions
  generalize ([] : Dict String Nat) = d
  induction classes generalizing s d with
  | nil => exact ⟨rfl, rfl⟩
  | cons c cs ih => rw [List.foldl_cons]; exact ih _ _

theorem resultNet_spec (it : Iter) (next : Nat) (classes loops : List String) (places : List ASet) (hn : (classes ++ loops).Nodup)
    (hs : ∀ x ∈ places, x.left.Nodup ∧ x.right.Nodup) :
    (resultNet it next classes loops places = none ↔ ∃ x ∈ places, ∃ c ∈ x.left ++ x.right, c ∉ classes ++ loops) ∧
    ∀ s, resultNet it next classes loops places = some s → ∃ pids, pids.length = places.length ∧ Fresh next s ∧
      s.net.places = nfcPlaces pids (it.order "p_w" 0 places) ∧ s.net.initial = none ∧ s.net.final = none ∧
      (s.views.map View.name).Perm (classes ++ loops) ∧
      ∀ v ∈ s.views, v.silent = false ∧
        v.ins = placesWith pids (it.order "p_w" 0 places) (fun x => decide (v.name ∈ x.right)) ∧
        v.outs = placesWith pids (it.order "p_w" 0 places) (fun x => decide (v.name ∈ x.left)) := by
  have hp : (it.order "all_event_classes" 2 classes ++ it.order "one_length_loop_transitions" 0 loops).Perm (classes ++ loops) :=
    (it.perm _ _ _).append (it.perm _ _ _)
  obtain ⟨a1, a2, a3, a4, a5⟩ := addClassTransitions_spec next _ (hp.nodup_iff.mpr hn)
  have a6 := addClass_markings ⟨emptyNet, next⟩ (it.order "all_event_classes" 2 classes ++ it.order "one_length_loop_transitions" 0 loops)
  unfold resultNet
  simp only
  generalize addClassTransitions ⟨emptyNet, next⟩
    (it.order "all_event_classes" 2 classes ++ it.order "one_length_loop_transitions" 0 loops) = r at a1 a2 a3 a4 a5 a6
  have hk : ∀ c, c ∈ r.2.keys ↔ c ∈ classes ++ loops := by intro c; rw [a4]; exact hp.mem_iff
  have hpw := it.perm "p_w" 0 places
  obtain ⟨b0, b1⟩ := addNfcPlaces_spec a1 a2 (it.order "p_w" 0 places) (fun x hx => hs x (hpw.mem_iff.mp hx))
  refine ⟨?_, ?_⟩
  · rw [b0]; simp only [hpw.mem_iff, hk]
  · intro s h
    obtain ⟨pids, k1, k2, k3, k4, k5, k6, k7⟩ := b1 s h
    refine ⟨pids, by rw [k1, hpw.length_eq], k2, by rw [k4, a3]; rfl, by rw [k5, a6.1]; rfl, by rw [k6, a6.2]; rfl, ?_, ?_⟩
    · have := congrArg (List.map Prod.fst) k3.eq
      rw [List.map_map] at this
      change s.views.map View.name = r.2.keys at this
      rw [this, a4]
      exact hp
    · intro v hv
      rw [k7] at hv
      obtain ⟨w, hw', rfl⟩ := List.mem_map.mp hv
      obtain ⟨j1, j2, j3⟩ := a5 w hw'
      simp [j1, j2, j3]

theorem placesWith_count_at (pids : List Nat) (sets : List ASet) (hl : pids.length = sets.length) (hn : pids.Nodup)
    (f : ASet → Bool) (i : Nat) (p : Nat) (x : ASet) (hi : pids[i]? = some p) (hx : sets[i]? = some x) :
    (placesWith pids sets f).count p = if f x then 1 else 0 := by
  induction pids generalizing sets i with
  | nil => simp at hi
  | cons q pids ih =>
    cases sets with
    | nil => simp at hx
    | cons y sets =>
      rw [List.nodup_cons] at hn
      have hsub : ∀ j ∈ placesWith pids sets f, j ∈ pids := by
        intro j hj
        obtain ⟨⟨a, b⟩, h1, rfl⟩ := List.mem_map.mp hj
        exact (List.of_mem_zip (List.mem_filter.mp h1).1).1
      have hcons : placesWith (q :: pids) (y :: sets) f = if f y then q :: placesWith pids sets f else placesWith pids sets f := by
        unfold placesWith
        rw [List.zip_cons_cons, List.filter_cons]
        split <;> rfl
      cases i with
      | zero =>
        simp only [List.getElem?_cons_zero, Option.some.injEq] at hi hx
        subst hi hx
        have h0 : (placesWith pids sets f).count q = 0 := List.count_eq_zero.mpr (fun h => hn.1 (hsub q h))
        rw [hcons]
        split
        · rw [List.count_cons_self, h0]
        · exact h0
      | succ i =>
        rw [List.getElem?_cons_succ] at hi hx
        have h4 := ih sets (by simpa using hl) hn.2 i hi hx
        have hne : q ≠ p := fun h => hn.1 (h ▸ List.mem_of_getElem? hi)
        rw [hcons]
        split
        · rw [List.count_cons_of_ne hne, h4]
        · exact h4

end Ficus.Rs.Nfc
