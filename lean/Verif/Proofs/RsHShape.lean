import Verif.Proofs.RsHPlan

/-! The arcs of the net before and after the loops of length two are added. -/

namespace Ficus.Rs
open Spec
variable {E : Type} [HasName E]

theorem flatMap_owner {α β : Type} (f : α → List β) (l : List α) (hn : (l.flatMap f).Nodup) {a b : α} (ha : a ∈ l) (hb : b ∈ l) {x : β}
    (hxa : x ∈ f a) (hxb : x ∈ f b) : a = b := by
  induction l with
  | nil => cases ha
  | cons y ys ih =>
    rw [List.flatMap_cons, List.nodup_append] at hn
    rcases List.mem_cons.mp ha with rfl | ha'
    · rcases List.mem_cons.mp hb with rfl | hb'
      · rfl
      · exact absurd rfl (hn.2.2 x hxa x (List.mem_flatMap.mpr ⟨b, hb', hxb⟩))
    · rcases List.mem_cons.mp hb with rfl | hb'
      · exact absurd rfl (hn.2.2 x hxb x (List.mem_flatMap.mpr ⟨a, ha', hxa⟩))
      · exact ih hn.2.1 ha' hb'

theorem nodup_flatMap_sub {α β : Type} (f g : α → List β) (l : List α) (hn : (l.flatMap f).Nodup) (hg : ∀ a ∈ l, (g a).Nodup)
    (hs : ∀ a ∈ l, ∀ x ∈ g a, x ∈ f a) : (l.flatMap g).Nodup := by
  induction l with
  | nil => simp
  | cons y ys ih =>
    rw [List.flatMap_cons, List.nodup_append] at hn ⊢
    refine ⟨hg y (by simp), ih hn.2.1 (fun a ha => hg a (by simp [ha])) (fun a ha => hs a (by simp [ha])), ?_⟩
    intro a ha b hb
    obtain ⟨z, hz, hbz⟩ := List.mem_flatMap.mp hb
    exact hn.2.2 a (hs y (by simp) a ha) b (List.mem_flatMap.mpr ⟨z, hz, hs z (by simp [hz]) b hbz⟩)

theorem count_ind {α : Type} [DecidableEq α] {l : List α} (hn : l.Nodup) (x : α) : l.count x = ind (x ∈ l) := by
  unfold ind
  split
  · rename_i h; exact List.count_eq_one_of_mem hn h
  · rename_i h; exact List.count_eq_zero_of_not_mem h

theorem ind_congr {p q : Prop} (h : p ↔ q) : ind p = ind q := by rw [propext h]

theorem append_inj_right' (s a b : String) (h : s ++ a = s ++ b) : a = b := by
  have := congrArg String.toList h
  rw [String.toList_append, String.toList_append] at this
  exact String.toList_injective (List.append_cancel_left this)

theorem post_ne_pre (a b : String) : "post_" ++ a ≠ "pre_" ++ b := by
  intro h
  have := congrArg String.toList h
  rw [String.toList_append, String.toList_append] at this
  have h2 := congrArg (fun l => l[1]?) this
  revert h2
  simp [show "post_".toList = ['p', 'o', 's', 't', '_'] from rfl, show "pre_".toList = ['p', 'r', 'e', '_'] from rfl]

/-- A group lies in a maximal one. -/
theorem exists_maximal {F : String → Prop} {R : String → String → Prop} {names : List String} (hF : ∀ b, F b → b ∈ names) :
    ∀ (n : Nat) (s : Finset String), Group F R s → names.length - s.card ≤ n → ∃ t, MaximalGroup F R t ∧ s ⊆ t := by
  intro n
  induction n with
  | zero =>
    intro s hs hn
    refine ⟨s, ⟨hs, fun t ht hst => ?_⟩, Finset.Subset.refl s⟩
    exact (Finset.eq_of_subset_of_card_le hst (by have := group_card hF ht; omega)).symm
  | succ n ih =>
    intro s hs hn
    by_cases hm : MaximalGroup F R s
    · exact ⟨s, hm, Finset.Subset.refl s⟩
    · unfold MaximalGroup at hm
      push Not at hm
      obtain ⟨t, ht, hst, hne⟩ := hm hs
      have hlt : s.card < t.card := Finset.card_lt_card (Finset.ssubset_iff_subset_ne.mpr ⟨hst, Ne.symm hne⟩)
      obtain ⟨u, hu, htu⟩ := ih t ht (by omega)
      exact ⟨u, hu, hst.trans htu⟩

theorem not_parallel_iff {th : Thresholds} {log : List (List String)} {a c : String} (hc : Depends th log a c) :
    (∀ p, MaximalGroup (Depends th log a) (ParallelAfter th log a) p → c ∉ p) ↔
      ∀ b, Depends th log a b → b ≠ c → ¬ ParallelAfter th log a b c := by
  constructor
  · intro h b hb hne hp
    have hg : Group (Depends th log a) (ParallelAfter th log a) {b, c} := by
      refine ⟨by rw [Finset.card_pair hne], ?_, ?_⟩
      · intro x hx; rw [Finset.mem_insert, Finset.mem_singleton] at hx
        rcases hx with rfl | rfl <;> assumption
      · intro x hx y hy hxy
        rw [Finset.mem_insert, Finset.mem_singleton] at hx hy
        rcases hx with rfl | rfl <;> rcases hy with rfl | rfl
        · exact absurd rfl hxy
        · exact hp
        · exact parallelAfter_symm hp
        · exact absurd rfl hxy
    obtain ⟨t, ht, hst⟩ := exists_maximal (names := log.flatten) (fun b hb => hb.1.2.1) _ _ hg (le_refl _)
    exact h t ht (hst (by simp))
  · intro h p hp hcp
    obtain ⟨b, hb, hne⟩ := Finset.exists_mem_ne (by have := hp.1.two; omega : 1 < p.card) c
    exact h b (hp.1.among b hb) hne (hp.1.related b hb c hcp hne)

section
variable {th : Thresholds} {log : List (List String)} {plan : List Step} (hgood : ∀ r ∈ plan, GoodStep th log r)
  (hcls : (plan.map Step.cls).Nodup) (hall : ∀ a, a ∈ plan.map Step.cls ↔ ∃ b, Depends th log a b)
  (hids : ((plan.flatMap Step.places).map Place.id).Nodup)

theorem mem_places (p : Place) : p ∈ plan.flatMap Step.places ↔
    (∃ r ∈ plan, p = r.postPlace) ∨ ∃ r ∈ plan, ∃ g ∈ r.groups, ∃ q ∈ g.2, p = prePlace q := by
  simp only [List.mem_flatMap, Step.places, List.mem_cons, List.mem_map]
  constructor
  · rintro ⟨r, hr, rfl | ⟨g, hg, q, hq, rfl⟩⟩
    · exact Or.inl ⟨r, hr, rfl⟩
    · exact Or.inr ⟨r, hr, g, hg, q, hq, rfl⟩
  · rintro (⟨r, hr, rfl⟩ | ⟨r, hr, g, hg, q, hq, rfl⟩)
    · exact ⟨r, hr, Or.inl rfl⟩
    · exact ⟨r, hr, Or.inr ⟨g, hg, q, hq, rfl⟩⟩

include hcls in
theorem post_unique {r : Step} (hr : r ∈ plan) {p : Place} (hp : p ∈ plan.flatMap Step.places) (hn : p.name = "post_" ++ r.cls) :
    p = r.postPlace := by
  rcases (mem_places p).mp hp with ⟨r', hr', rfl⟩ | ⟨r', _, g, _, q, _, rfl⟩
  · have : r'.cls = r.cls := append_inj_right' "post_" _ _ hn
    rw [List.inj_on_of_nodup_map hcls hr' hr this]
  · exact absurd hn.symm (post_ne_pre _ _)

include hids in
theorem mem_id_iff {p : Place} (hp : p ∈ plan.flatMap Step.places) {L : List Place} (hL : ∀ q ∈ L, q ∈ plan.flatMap Step.places) :
    p.id ∈ L.map Place.id ↔ p ∈ L := by
  constructor
  · intro h
    obtain ⟨q, hq, he⟩ := List.mem_map.mp h
    rw [← List.inj_on_of_nodup_map hids (hL q hq) hp he]; exact hq
  · exact fun h => List.mem_map_of_mem h

theorem before_sub (r : Step) (c : String) : ∀ p ∈ r.before c, p ∈ r.places := by
  intro p hp
  simp only [Step.before, List.mem_append, List.mem_flatMap, List.mem_map, List.mem_filter] at hp
  rcases hp with ⟨g, hg, q, ⟨hq, _⟩, rfl⟩ | hp
  · exact List.mem_cons.mpr (Or.inr (List.mem_flatMap.mpr ⟨g, hg, List.mem_map_of_mem hq⟩))
  · split at hp
    · rw [List.mem_singleton] at hp; rw [hp]; exact List.mem_cons_self
    · cases hp

theorem before_nodup (r : Step) (hn : r.places.Nodup) (c : String) : (r.before c).Nodup := by
  unfold Step.places at hn
  obtain ⟨h1, h2⟩ := List.nodup_cons.mp hn
  unfold Step.before
  rw [List.nodup_append]
  refine ⟨?_, by split <;> simp, ?_⟩
  · refine h2.sublist ?_
    generalize r.groups = l
    induction l with
    | nil => simp
    | cons g l ih => simp only [List.flatMap_cons]; exact ((List.filter_sublist).map prePlace).append ih
  · intro a ha b hb he
    split at hb
    · rw [List.mem_singleton] at hb
      subst he hb
      apply h1
      obtain ⟨g, hg, hq⟩ := List.mem_flatMap.mp ha
      obtain ⟨q, hq, he⟩ := List.mem_map.mp hq
      exact List.mem_flatMap.mpr ⟨g, hg, List.mem_map.mpr ⟨q, (List.mem_filter.mp hq).1, he⟩⟩
    · cases hb

include hids in
theorem places_nodup : (plan.flatMap Step.places).Nodup := List.Nodup.of_map _ hids

include hids in
theorem step_places_nodup {r : Step} (hr : r ∈ plan) : r.places.Nodup := (List.nodup_flatMap.mp (places_nodup hids)).1 r hr

include hgood hcls hall hids in
theorem count_before {p : Place} (hp : p ∈ plan.flatMap Step.places) (c : String) :
    ((plan.flatMap (fun r => r.before c)).map Place.id).count p.id = ind (TakesFrom th log p c) := by
  have hsub : ∀ q ∈ plan.flatMap (fun r => r.before c), q ∈ plan.flatMap Step.places := by
    intro q hq
    obtain ⟨r, hr, hq⟩ := List.mem_flatMap.mp hq
    exact List.mem_flatMap.mpr ⟨r, hr, before_sub r c q hq⟩
  have hnd : (plan.flatMap (fun r => r.before c)).Nodup :=
    nodup_flatMap_sub Step.places _ plan (places_nodup hids) (fun r hr => before_nodup r (step_places_nodup hids hr) c)
      (fun r _ => before_sub r c)
  have hnd2 : ((plan.flatMap (fun r => r.before c)).map Place.id).Nodup :=
    hnd.map_on (fun x hx y hy h => List.inj_on_of_nodup_map hids (hsub x hx) (hsub y hy) h)
  rw [count_ind hnd2, ind_congr (mem_id_iff hids hp hsub)]
  refine ind_congr ?_
  unfold TakesFrom
  constructor
  · intro h
    obtain ⟨r, hr, h⟩ := List.mem_flatMap.mp h
    rcases List.mem_append.mp h with h | h
    · obtain ⟨g, _, h⟩ := List.mem_flatMap.mp h
      obtain ⟨q, hq, rfl⟩ := List.mem_map.mp h
      obtain ⟨_, hq⟩ := List.mem_filter.mp hq
      simp only [decide_eq_true_eq] at hq
      exact Or.inl (by rw [← hq]; rfl)
    · split at h
      · rename_i hc
        rw [List.mem_singleton] at h
        obtain ⟨h1, h2⟩ := ((hgood r hr).singles c).mp hc
        exact Or.inr ⟨r.cls, by rw [h]; rfl, h1, (not_parallel_iff h1).mp h2⟩
      · cases h
  · rintro (h | ⟨a, h, h1, h2⟩)
    · rcases (mem_places p).mp hp with ⟨r', hr', rfl⟩ | ⟨r, hr, g, hg, q, hq, rfl⟩
      · exact absurd h (post_ne_pre _ _)
      · have : q.1 = c := append_inj_right' "pre_" _ _ h
        exact List.mem_flatMap.mpr ⟨r, hr, List.mem_append.mpr (Or.inl (List.mem_flatMap.mpr ⟨g, hg, List.mem_map.mpr
          ⟨q, List.mem_filter.mpr ⟨hq, by simpa using this⟩, rfl⟩⟩))⟩
    · obtain ⟨r, hr, rfl⟩ := List.mem_map.mp ((hall a).mpr ⟨c, h1⟩)
      have hpp := post_unique hcls hr hp h
      refine List.mem_flatMap.mpr ⟨r, hr, List.mem_append.mpr (Or.inr ?_)⟩
      rw [if_pos (((hgood r hr).singles c).mpr ⟨h1, (not_parallel_iff h1).mpr h2⟩)]
      exact List.mem_singleton.mpr hpp

include hcls hids in
theorem count_after {p : Place} (hp : p ∈ plan.flatMap Step.places) (c : String) :
    ((plan.flatMap (fun r => r.after c)).map Place.id).count p.id = ind (p.name = "post_" ++ c) := by
  have hs : ∀ r : Step, ∀ q ∈ r.after c, q ∈ r.places := by
    intro r q hq
    unfold Step.after at hq
    split at hq
    · rw [List.mem_singleton] at hq; rw [hq]; exact List.mem_cons_self
    · cases hq
  have hsub : ∀ q ∈ plan.flatMap (fun r => r.after c), q ∈ plan.flatMap Step.places := by
    intro q hq
    obtain ⟨r, hr, hq⟩ := List.mem_flatMap.mp hq
    exact List.mem_flatMap.mpr ⟨r, hr, hs r q hq⟩
  have hnd : (plan.flatMap (fun r => r.after c)).Nodup :=
    nodup_flatMap_sub Step.places _ plan (places_nodup hids) (fun r _ => by unfold Step.after; split <;> simp) (fun r _ => hs r)
  have hnd2 : ((plan.flatMap (fun r => r.after c)).map Place.id).Nodup :=
    hnd.map_on (fun x hx y hy h => List.inj_on_of_nodup_map hids (hsub x hx) (hsub y hy) h)
  rw [count_ind hnd2, ind_congr (mem_id_iff hids hp hsub)]
  refine ind_congr ?_
  constructor
  · intro h
    obtain ⟨r, hr, h⟩ := List.mem_flatMap.mp h
    unfold Step.after at h
    split at h
    · rename_i hc; rw [List.mem_singleton] at h; rw [h, hc]; rfl
    · cases h
  · intro h
    rcases (mem_places p).mp hp with ⟨r', hr', rfl⟩ | ⟨r, hr, g, hg, q, hq, rfl⟩
    · have : r'.cls = c := append_inj_right' "post_" _ _ h
      exact List.mem_flatMap.mpr ⟨r', hr', by unfold Step.after; rw [if_pos this.symm]; simp⟩
    · exact absurd h.symm (post_ne_pre _ _)

include hcls hall in
theorem posts_count (hids : ((plan.flatMap Step.places).map Place.id).Nodup) (a : String) :
    ((plan.flatMap Step.places).map Place.name).count ("post_" ++ a) = ind (∃ b, Depends th log a b) := by
  have hfil : ((plan.flatMap Step.places).map Place.name).count ("post_" ++ a) =
      ((plan.flatMap Step.places).filter (fun p => decide (p.name = "post_" ++ a))).length := by
    rw [List.count_eq_countP, List.countP_map, List.countP_eq_length_filter]
    congr 1
  rw [hfil]
  have hn := (places_nodup hids).filter (fun p => decide (p.name = "post_" ++ a))
  unfold ind
  split
  · rename_i h
    obtain ⟨r, hr, rfl⟩ := List.mem_map.mp ((hall a).mpr h)
    have : ((plan.flatMap Step.places).filter (fun p => decide (p.name = "post_" ++ r.cls))).Perm [r.postPlace] := by
      refine (List.perm_ext_iff_of_nodup hn (by simp)).mpr (fun p => ?_)
      rw [List.mem_filter, List.mem_singleton, decide_eq_true_eq]
      constructor
      · rintro ⟨h1, h2⟩; exact post_unique hcls hr h1 h2
      · rintro rfl; exact ⟨(mem_places _).mpr (Or.inl ⟨r, hr, rfl⟩), rfl⟩
    rw [this.length_eq]; rfl
  · rename_i h
    rw [List.length_eq_zero_iff, List.filter_eq_nil_iff]
    intro p hp hn
    rw [decide_eq_true_eq] at hn
    rcases (mem_places p).mp hp with ⟨r', hr', rfl⟩ | ⟨r, hr, g, hg, q, hq, rfl⟩
    · have : r'.cls = a := append_inj_right' "post_" _ _ hn
      exact h ((hall a).mp (this ▸ List.mem_map_of_mem hr'))
    · exact post_ne_pre _ _ hn.symm

end
end Ficus.Rs
