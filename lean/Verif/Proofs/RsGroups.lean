import Verif.Proofs.RsHeuristic

/-! The groups of parallel followers are the maximal groups. -/

namespace Ficus.Rs
open Spec Groups
variable {E : Type} [HasName E]

/-- A sorted group. -/
structure GoodGroup (F : String → Prop) (R : String → String → Prop) (x : List String) : Prop where
  sorted : x.Pairwise (· < ·)
  group : Group F R x.toFinset

theorem goodGroup_ext {F : String → Prop} {R : String → String → Prop} {x y : List String} (hx : GoodGroup F R x) (hy : GoodGroup F R y)
    (h : x.toFinset = y.toFinset) : x = y := sorted_ext hx.sorted hy.sorted h

theorem sortedSet_toFinset (l : List String) : (sortedSet l).toFinset = l.toFinset := by
  ext x; rw [List.mem_toFinset, List.mem_toFinset, (sortedSet_spec l).2]

theorem nodup_of_sorted {l : List String} (h : l.Pairwise (· < ·)) : l.Nodup := h.imp (fun h => ne_of_lt h)

theorem group_card {F : String → Prop} {R : String → String → Prop} {names : List String} (hF : ∀ b, F b → b ∈ names) {s : Finset String}
    (h : Group F R s) : s.card ≤ names.length := by
  refine (Finset.card_le_card (fun b hb => ?_ : s ⊆ names.toFinset)).trans (List.toFinset_card_le names)
  exact List.mem_toFinset.mpr (hF b (h.among b hb))

theorem sameGroup_iff {F : String → Prop} {R : String → String → Prop} {names : List String} {hash : List String → Nat}
    (hh : TellsApart hash names) (hF : ∀ b, F b → b ∈ names) {x y : List String} (hx : GoodGroup F R x) (hy : GoodGroup F R y) :
    sameGroup hash x y = true ↔ x = y := by
  unfold sameGroup
  rw [decide_eq_true_eq]
  constructor
  · intro h
    refine hh x y ?_ ?_ (fun b hb => hF b (hx.group.among b (List.mem_toFinset.mpr hb)))
      (fun b hb => hF b (hy.group.among b (List.mem_toFinset.mpr hb))) h
    · rw [← List.toFinset_card_of_nodup (nodup_of_sorted hx.sorted)]; exact group_card hF hx.group
    · rw [← List.toFinset_card_of_nodup (nodup_of_sorted hy.sorted)]; exact group_card hF hy.group
  · rintro rfl; rfl

section
variable (it : Iter) (th : Thresholds) (log : List (List E)) (a : String)

/-- The followers of a class. -/
abbrev FF : String → Prop := Depends th (namesOf log) a
/-- Being parallel after a class. -/
abbrev RR : String → String → Prop := ParallelAfter th (namesOf log) a

theorem mergeGroups_iff {x y : List String} (hx : GoodGroup (FF th log a) (RR th log a) x)
    (hy : GoodGroup (FF th log a) (RR th log a) y) (m : List String) :
    mergeGroups th (createInfo it log) a x y = some m ↔
      Group (FF th log a) (RR th log a) (x.toFinset ∪ y.toFinset) ∧ m = sortedSet (x ++ y) := by
  unfold mergeGroups
  have hmem : ∀ b, b ∈ sortedSet (x ++ y) ↔ b ∈ x.toFinset ∪ y.toFinset := by
    intro b; rw [(sortedSet_spec _).2]; simp
  have hcond : ((sortedSet (x ++ y)).all (fun b => (sortedSet (x ++ y)).all
      (fun c => decide (b = c) || isParallel th (createInfo it log) a b c)) = true) ↔
      Group (FF th log a) (RR th log a) (x.toFinset ∪ y.toFinset) := by
    simp only [List.all_eq_true, hmem, Bool.or_eq_true, decide_eq_true_eq, isParallel_iff]
    constructor
    · intro h
      refine ⟨hx.group.two.trans (Finset.card_le_card Finset.subset_union_left), ?_, fun b hb c hc hne => (h b hb c hc).resolve_left hne⟩
      intro b hb
      rcases Finset.mem_union.mp hb with hb | hb
      · exact hx.group.among b hb
      · exact hy.group.among b hb
    · intro h b hb c hc
      by_cases he : b = c
      · exact Or.inl he
      · exact Or.inr (h.related b hb c hc he)
  split
  · rename_i h
    rw [hcond] at h
    simp only [Option.some.injEq, h, true_and]
    exact eq_comm
  · rename_i h
    rw [hcond] at h
    simp [h]

theorem merged_good {x y : List String} (h : Group (FF th log a) (RR th log a) (x.toFinset ∪ y.toFinset)) :
    GoodGroup (FF th log a) (RR th log a) (sortedSet (x ++ y)) :=
  ⟨(sortedSet_spec _).1, by rw [sortedSet_toFinset, List.toFinset_append]; exact h⟩

/-- The sets of a list of groups. -/
def setsIn (l : List (List String)) (p : Finset String) : Prop := ∃ x ∈ l, x.toFinset = p

theorem groups_next {vec new : List (List String)} (hv : ∀ x ∈ vec, GoodGroup (FF th log a) (RR th log a) x)
    (h : ∀ z, z ∈ new ↔ (∃ x ∈ vec, ∃ y ∈ vec, x ≠ y ∧ mergeGroups th (createInfo it log) a x y = some z) ∨
        (z ∈ vec ∧ ∀ y ∈ vec, y ≠ z → mergeGroups th (createInfo it log) a z y = none ∧ mergeGroups th (createInfo it log) a y z = none))
    (p : Finset String) : setsIn new p ↔ Groups.Next (FF th log a) (RR th log a) (setsIn vec) p := by
  have hnone : ∀ x ∈ vec, ∀ y ∈ vec, (mergeGroups th (createInfo it log) a x y = none ↔
      ¬ Group (FF th log a) (RR th log a) (x.toFinset ∪ y.toFinset)) := by
    intro x hx y hy
    rw [Option.eq_none_iff_forall_ne_some]
    constructor
    · intro h1 h2; exact h1 _ ((mergeGroups_iff it th log a (hv x hx) (hv y hy) _).mpr ⟨h2, rfl⟩)
    · intro h1 m hm; exact h1 ((mergeGroups_iff it th log a (hv x hx) (hv y hy) m).mp hm).1
  have hne : ∀ x ∈ vec, ∀ y ∈ vec, (x ≠ y ↔ x.toFinset ≠ y.toFinset) := by
    intro x hx y hy
    exact ⟨fun h1 h2 => h1 (goodGroup_ext (hv x hx) (hv y hy) h2), fun h1 h2 => h1 (by rw [h2])⟩
  constructor
  · rintro ⟨z, hz, rfl⟩
    rcases (h z).mp hz with ⟨x, hx, y, hy, hxy, hm⟩ | ⟨hz, hno⟩
    · obtain ⟨h1, h2⟩ := (mergeGroups_iff it th log a (hv x hx) (hv y hy) z).mp hm
      exact Or.inl ⟨_, _, ⟨x, hx, rfl⟩, ⟨y, hy, rfl⟩, (hne x hx y hy).mp hxy, h1, by rw [h2, sortedSet_toFinset, List.toFinset_append]⟩
    · refine Or.inr ⟨⟨z, hz, rfl⟩, ?_⟩
      rintro q ⟨y, hy, rfl⟩ hq
      exact (hnone z hz y hy).mp (hno y hy ((hne y hy z hz).mpr hq)).1
  · rintro (⟨p1, q1, ⟨x, hx, rfl⟩, ⟨y, hy, rfl⟩, hxy, hm, rfl⟩ | ⟨⟨z, hz, rfl⟩, hno⟩)
    · exact ⟨sortedSet (x ++ y), (h _).mpr (Or.inl ⟨x, hx, y, hy, (hne x hx y hy).mpr hxy,
        (mergeGroups_iff it th log a (hv x hx) (hv y hy) _).mpr ⟨hm, rfl⟩⟩), by rw [sortedSet_toFinset, List.toFinset_append]⟩
    · refine ⟨z, (h z).mpr (Or.inr ⟨hz, fun y hy hyz => ?_⟩), rfl⟩
      have h1 := hno y.toFinset ⟨y, hy, rfl⟩ ((hne y hy z hz).mp hyz)
      exact ⟨(hnone z hz y hy).mpr h1, (hnone y hy z hz).mpr (by rwa [Finset.union_comm])⟩

theorem maximizeGroups_spec (it' : Iter) {names : List String} {hash : List String → Nat} (hh : TellsApart hash names)
    (hF : ∀ b, FF th log a b → b ∈ names) (fuel t : Nat)
    (current : List (List String)) (hg : ∀ x ∈ current, GoodGroup (FF th log a) (RR th log a) x)
    (hn : current.Nodup) (hinv : Groups.Inv (FF th log a) (RR th log a) t (setsIn current)) (h1 : 1 ≤ fuel) (hf : names.length ≤ t + fuel) :
    ∃ r, maximize it' (sameGroup hash) (mergeGroups th (createInfo it log) a) fuel t current = some r ∧ r.Nodup ∧
      (∀ x ∈ r, GoodGroup (FF th log a) (RR th log a) x) ∧ ∀ p, setsIn r p ↔ MaximalGroup (FF th log a) (RR th log a) p := by
  induction fuel generalizing t current with
  | zero => omega
  | succ fuel ih =>
    have hperm := it'.perm "current" t current
    have hv : ∀ x ∈ it'.order "current" t current, GoodGroup (FF th log a) (RR th log a) x := fun x hx => hg x (hperm.mem_iff.mp hx)
    have hvn : (it'.order "current" t current).Nodup := hperm.nodup_iff.mpr hn
    have hpi : setsIn (it'.order "current" t current) = setsIn current := by
      funext p
      unfold setsIn
      simp only [hperm.mem_iff]
    obtain ⟨hs1, hs2⟩ := maximizeRound_spec (sameGroup hash) (mergeGroups th (createInfo it log) a) (GoodGroup (FF th log a) (RR th log a))
      (fun x y hx hy => sameGroup_iff hh hF hx hy)
      (fun x y m hx hy hm => by
        obtain ⟨h1, h2⟩ := (mergeGroups_iff it th log a hx hy m).mp hm
        rw [h2]; exact merged_good th log a h1) _ hv hvn
    unfold maximize
    cases hr : maximizeRound (sameGroup hash) (mergeGroups th (createInfo it log) a) (it'.order "current" t current) with
    | none =>
      refine ⟨current, rfl, hn, hg, ?_⟩
      apply Groups.final_exact hinv
      rintro p q ⟨x, hx, rfl⟩ ⟨y, hy, rfl⟩ hne hm
      have := hs1.mp hr x (hperm.mem_iff.mpr hx) y (hperm.mem_iff.mpr hy) (fun e => hne (by rw [e]))
      rw [(mergeGroups_iff it th log a (hg x hx) (hg y hy) _).mpr ⟨hm, rfl⟩] at this
      cases this
    | some new =>
      obtain ⟨n1, n2, n3⟩ := hs2 new hr
      have hnext := groups_next it th log a hv n3
      rw [hpi] at hnext
      have hinv' : Groups.Inv (FF th log a) (RR th log a) (t + 1) (setsIn new) := by
        have he : setsIn new = Groups.Next (FF th log a) (RR th log a) (setsIn current) := funext (fun p => propext (hnext p))
        rw [he]; exact Groups.next_inv hinv
      have hbig : t + 2 ≤ names.length := by
        by_contra hlt
        have hno := Groups.no_merge hinv (fun p hp => group_card hF hp) (by omega : names.length < t + 2)
        have : maximizeRound (sameGroup hash) (mergeGroups th (createInfo it log) a) (it'.order "current" t current) = none := by
          refine hs1.mpr (fun x hx y hy hne => ?_)
          cases hm : mergeGroups th (createInfo it log) a x y with
          | none => rfl
          | some m =>
            have hx' := hperm.mem_iff.mp hx
            have hy' := hperm.mem_iff.mp hy
            exact absurd ((mergeGroups_iff it th log a (hv x hx) (hv y hy) m).mp hm).1
              (hno _ _ ⟨x, hx', rfl⟩ ⟨y, hy', rfl⟩ (fun e => hne (goodGroup_ext (hv x hx) (hv y hy) e)))
        rw [this] at hr; cases hr
      exact ih (t + 1) new n2 n1 hinv' (by omega) (by omega)

theorem followersOf_mem (b : String) : b ∈ followersOf it th (createInfo it log) a ↔ Depends th (namesOf log) a b := by
  unfold followersOf
  rw [List.mem_filter, mem_allClasses, dependsOn_iff]
  exact ⟨fun h => h.2, fun h => ⟨h.1.2.1, h⟩⟩

theorem followersOf_nodup : (followersOf it th (createInfo it log) a).Nodup :=
  (allClasses_nodup it _ 1 log).filter _

theorem pair_good {x y : String} (hx : FF th log a x) (hy : FF th log a y) (hne : x ≠ y) (hp : RR th log a x y) :
    GoodGroup (FF th log a) (RR th log a) (sortedSet [x, y]) := by
  have he : (sortedSet [x, y]).toFinset = {x, y} := by rw [sortedSet_toFinset]; ext z; simp
  refine ⟨(sortedSet_spec _).1, ?_⟩
  rw [he]
  refine ⟨by rw [Finset.card_pair hne], ?_, ?_⟩
  · intro b hb; rw [Finset.mem_insert, Finset.mem_singleton] at hb
    rcases hb with rfl | rfl <;> assumption
  · intro b hb c hc hbc
    rw [Finset.mem_insert, Finset.mem_singleton] at hb hc
    rcases hb with rfl | rfl <;> rcases hc with rfl | rfl
    · exact absurd rfl hbc
    · exact hp
    · exact parallelAfter_symm hp
    · exact absurd rfl hbc

theorem parallelPairs_spec {names : List String} {hash : List String → Nat} (hh : TellsApart hash names)
    (hF : ∀ b, FF th log a b → b ∈ names) (l : List String) (hl : ∀ b ∈ l, FF th log a b) (hln : l.Nodup) (acc : List (List String))
    (hacc : ∀ x ∈ acc, GoodGroup (FF th log a) (RR th log a) x) (hn : acc.Nodup) :
    (parallelPairs hash th (createInfo it log) a l acc).Nodup ∧
    (∀ x ∈ parallelPairs hash th (createInfo it log) a l acc, GoodGroup (FF th log a) (RR th log a) x) ∧
    ∀ z, z ∈ parallelPairs hash th (createInfo it log) a l acc ↔
      z ∈ acc ∨ ∃ x ∈ l, ∃ y ∈ l, x ≠ y ∧ RR th log a x y ∧ z = sortedSet [x, y] := by
  induction l generalizing acc with
  | nil => exact ⟨hn, hacc, by simp [parallelPairs]⟩
  | cons x rest ih =>
    have hx := hl x (by simp)
    obtain ⟨hxr, hrn⟩ := List.nodup_cons.mp hln
    set cand := rest.filter (fun y => decide (x ≠ y) && isParallel th (createInfo it log) a x y) with hcand
    have hfold : cand.foldl (fun s y => insertBy (sameGroup hash) s (sortedSet [x, y])) acc =
        (cand.map (fun y => sortedSet [x, y])).foldl (insertBy (sameGroup hash)) acc := by rw [List.foldl_map]
    have hcm : ∀ y, y ∈ cand ↔ y ∈ rest ∧ x ≠ y ∧ RR th log a x y := by
      intro y
      rw [hcand, List.mem_filter, Bool.and_eq_true, decide_eq_true_eq, isParallel_iff]
    have hgood : ∀ z ∈ cand.map (fun y => sortedSet [x, y]), GoodGroup (FF th log a) (RR th log a) z := by
      intro z hz
      obtain ⟨y, hy, rfl⟩ := List.mem_map.mp hz
      obtain ⟨h1, h2, h3⟩ := (hcm y).mp hy
      exact pair_good th log a hx (hl y (by simp [h1])) h2 h3
    obtain ⟨f1, f2⟩ := foldl_insertBy (sameGroup hash) (GoodGroup (FF th log a) (RR th log a)) (fun x y hx hy => sameGroup_iff hh hF hx hy)
      _ acc hgood hacc hn
    have f3 : ∀ z ∈ (cand.map (fun y => sortedSet [x, y])).foldl (insertBy (sameGroup hash)) acc,
        GoodGroup (FF th log a) (RR th log a) z := fun z hz => ((f1 z).mp hz).elim (hacc z) (hgood z)
    unfold parallelPairs
    rw [hfold]
    obtain ⟨i1, i2, i3⟩ := ih (fun b hb => hl b (by simp [hb])) hrn _ f3 f2
    refine ⟨i1, i2, fun z => ?_⟩
    rw [i3 z, f1 z, List.mem_map]
    have hcomm : ∀ x y, sortedSet [x, y] = sortedSet [y, x] := by
      intro x y
      refine sorted_ext (sortedSet_spec _).1 (sortedSet_spec _).1 ?_
      rw [sortedSet_toFinset, sortedSet_toFinset]; ext z; simp [or_comm]
    constructor
    · rintro ((h | ⟨y, hy, rfl⟩) | ⟨u, hu, v, hv, h1, h2, h3⟩)
      · exact Or.inl h
      · obtain ⟨h1, h2, h3⟩ := (hcm y).mp hy
        exact Or.inr ⟨x, by simp, y, by simp [h1], h2, h3, rfl⟩
      · exact Or.inr ⟨u, by simp [hu], v, by simp [hv], h1, h2, h3⟩
    · rintro (h | ⟨u, hu, v, hv, h1, h2, h3⟩)
      · exact Or.inl (Or.inl h)
      · rcases List.mem_cons.mp hu with rfl | hu2
        · rcases List.mem_cons.mp hv with rfl | hv2
          · exact absurd rfl h1
          · exact Or.inl (Or.inr ⟨v, (hcm v).mpr ⟨hv2, h1, h2⟩, h3.symm⟩)
        · rcases List.mem_cons.mp hv with rfl | hv2
          · exact Or.inl (Or.inr ⟨u, (hcm u).mpr ⟨hu2, Ne.symm h1, parallelAfter_symm h2⟩, by rw [h3, hcomm]⟩)
          · exact Or.inr ⟨u, hu2, v, hv2, h1, h2, h3⟩

/-- The groups are the maximal ones. -/
theorem parallelGroups_spec {hash : List String → Nat} (hh : TellsApart hash (namesOf log).flatten.dedup) (fuel : Nat)
    (hf : (namesOf log).flatten.dedup.length < fuel) :
    ∃ r, parallelGroups it hash th (createInfo it log) fuel a = some r ∧ r.Nodup ∧
      (∀ x ∈ r, GoodGroup (FF th log a) (RR th log a) x) ∧ ∀ p, setsIn r p ↔ MaximalGroup (FF th log a) (RR th log a) p := by
  have hF : ∀ b, FF th log a b → b ∈ (namesOf log).flatten.dedup := fun b hb => List.mem_dedup.mpr hb.1.2.1
  obtain ⟨p1, p2, p3⟩ := parallelPairs_spec it th log a hh hF (followersOf it th (createInfo it log) a)
    (fun b hb => (followersOf_mem it th log a b).mp hb) (followersOf_nodup it th log a) [] (by simp) List.nodup_nil
  refine maximizeGroups_spec it th log a (it.sub a) hh hF fuel 0 _ p2 p1 ?_ (by omega) (by omega)
  have : setsIn (parallelPairs hash th (createInfo it log) a (followersOf it th (createInfo it log) a) []) =
      (fun p => Group (FF th log a) (RR th log a) p ∧ p.card = 2) := by
    funext p
    apply propext
    unfold setsIn
    constructor
    · rintro ⟨x, hx, rfl⟩
      refine ⟨(p2 x hx).group, ?_⟩
      obtain ⟨u, _, v, _, hne, _, rfl⟩ := ((p3 x).mp hx).resolve_left (by simp)
      rw [sortedSet_toFinset]
      have : [u, v].toFinset = {u, v} := by ext z; simp
      rw [this, Finset.card_pair hne]
    · rintro ⟨hg, hc⟩
      obtain ⟨u, v, hne, rfl⟩ := Finset.card_eq_two.mp hc
      refine ⟨sortedSet [u, v], (p3 _).mpr (Or.inr ⟨u, ?_, v, ?_, hne, hg.related u (by simp) v (by simp) hne, rfl⟩), ?_⟩
      · exact (followersOf_mem it th log a u).mpr (hg.among u (by simp))
      · exact (followersOf_mem it th log a v).mpr (hg.among v (by simp))
      · rw [sortedSet_toFinset]; ext z; simp
  rw [this]
  exact Groups.start_inv

end
end Ficus.Rs
