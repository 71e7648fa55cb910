import Verif.Proofs.RsHNet

/-! The steps of the heuristic miner for a log. -/

namespace Ficus.Rs
open Spec
variable {E : Type} [HasName E]

/-- A step fits to the relations of a log. -/
structure GoodStep (th : Thresholds) (log : List (List String)) (r : Step) : Prop where
  nodup : (r.groups.map (fun g => g.2.map Prod.fst)).Nodup
  sorted : ∀ g ∈ r.groups, (g.2.map Prod.fst).Pairwise (· < ·)
  groups : ∀ p, (∃ g ∈ r.groups, (g.2.map Prod.fst).toFinset = p) ↔ MaximalGroup (Depends th log r.cls) (ParallelAfter th log r.cls) p
  singles : ∀ c, c ∈ r.singles ↔ Depends th log r.cls c ∧
    ∀ p, MaximalGroup (Depends th log r.cls) (ParallelAfter th log r.cls) p → c ∉ p
  follows : ∃ b, Depends th log r.cls b

/-- What becomes of a transition in some steps. -/
def growAll (plan : List Step) (v : View) : View :=
  if v.silent then v else { v with
    ins := v.ins ++ (plan.flatMap (fun r => r.before v.name)).map Place.id,
    outs := v.outs ++ (plan.flatMap (fun r => r.after v.name)).map Place.id }

theorem growAll_cons (r : Step) (plan : List Step) (v : View) : growAll (r :: plan) v = growAll plan (r.grow v) := by
  unfold growAll Step.grow
  by_cases h : v.silent = true
  · simp only [h, if_true]
  · simp only [h, if_false, Bool.false_eq_true]
    apply view_ext <;> simp

theorem growAll_silent (plan : List Step) (v : View) (h : v.silent = true) : growAll plan v = v := by
  unfold growAll; rw [if_pos h]

theorem classes_fold {lo : Nat} (it : Iter) {hash : List String → Nat} (th : Thresholds) (log : List (List E))
    (hh : TellsApart hash (namesOf log).flatten.dedup) (fuel : Nat) (hfu : (namesOf log).flatten.dedup.length < fuel)
    {ids : Dict String Nat} (hk : ∀ c, c ∈ ids.keys ↔ c ∈ (namesOf log).flatten) (cs : List String) : ∀ {s : Building}, Fresh lo s →
    VTable ids s → (∀ c ∈ cs, c ∈ (namesOf log).flatten) →
    ∃ (s' : Building) (plan : List Step), cs.foldlM (addHeuristicClass it hash th (createInfo it log) fuel ids) s = some s' ∧ Fresh lo s' ∧
      VTable ids s' ∧ (∀ r ∈ plan, GoodStep th (namesOf log) r) ∧
      plan.map Step.cls = cs.filter (fun a => !(followersOf it th (createInfo it log) a).isEmpty) ∧
      s'.net.places = s.net.places ++ plan.flatMap Step.places ∧ s'.net.initial = s.net.initial ∧ s'.net.final = s.net.final ∧
      s'.views = s.views.map (growAll plan) ++ plan.flatMap Step.silents := by
  induction cs with
  | nil =>
    intro s hf ht _
    refine ⟨s, [], rfl, hf, ht, by simp, rfl, by simp, rfl, rfl, ?_⟩
    have : growAll [] = id := by
      funext v; unfold growAll; split
      · rfl
      · simp
    simp [this]
  | cons a cs ih =>
    intro s hf ht hcs
    by_cases he : (followersOf it th (createInfo it log) a).isEmpty = true
    · obtain ⟨s', plan, h1, h2, h3, h4, h5, h6⟩ := ih hf ht (fun c hc => hcs c (by simp [hc]))
      refine ⟨s', plan, ?_, h2, h3, h4, ?_, h6⟩
      · rw [List.foldlM_cons]
        unfold addHeuristicClass
        rw [if_pos he]; exact h1
      · rw [List.filter_cons, he, h5]; rfl
    · obtain ⟨gs, g1, g2, g3, g4⟩ := parallelGroups_spec it th log a hh fuel hfu
      have hdk : ∀ c, Depends th (namesOf log) a c → c ∈ ids.keys := fun c hc => (hk c).mpr hc.1.2.1
      obtain ⟨s2, r, a1, a2, a3, a4, a5, a6, a7, a8, a9, a10⟩ := addFollowers_spec it hf ht a ((hk a).mpr (hcs a (by simp)))
        (followersOf it th (createInfo it log) a) (followersOf_nodup it th log a)
        (fun c hc => hdk c ((followersOf_mem it th log a c).mp hc)) gs
        (fun g hg el hel => hdk el ((g3 g hg).group.among el (List.mem_toFinset.mpr hel)))
      obtain ⟨s', plan, h1, h2, h3, h4, h5, h6, h7, h8, h9⟩ := ih a2 a3 (fun c hc => hcs c (by simp [hc]))
      have hmem : ∀ p, (∃ g ∈ r.groups, (g.2.map Prod.fst).toFinset = p) ↔ setsIn gs p := by
        intro p
        unfold setsIn
        constructor
        · rintro ⟨g, hg, rfl⟩
          exact ⟨_, a5.mem_iff.mp (List.mem_map.mpr ⟨g, hg, rfl⟩), rfl⟩
        · rintro ⟨x, hx, rfl⟩
          obtain ⟨g, hg, rfl⟩ := List.mem_map.mp (a5.mem_iff.mpr hx)
          exact ⟨g, hg, rfl⟩
      have hgood : GoodStep th (namesOf log) r := by
        refine ⟨a5.nodup_iff.mpr g2, ?_, ?_, ?_, ?_⟩
        · intro g hg
          exact (g3 _ (a5.mem_iff.mp (List.mem_map.mpr ⟨g, hg, rfl⟩))).sorted
        · intro p; rw [a4, hmem, g4]
        · intro c
          rw [a6, followersOf_mem, a4]
          refine and_congr Iff.rfl ⟨fun h p hp => ?_, fun h g hg hc => ?_⟩
          · obtain ⟨x, hx, rfl⟩ := (g4 p).mpr hp
            intro hc; exact h x hx (List.mem_toFinset.mp hc)
          · exact h _ ((g4 _).mp ⟨g, hg, rfl⟩) (List.mem_toFinset.mpr hc)
        · rw [a4]
          simp only [List.isEmpty_iff] at he
          obtain ⟨b, hb⟩ := List.exists_mem_of_ne_nil _ he
          exact ⟨b, (followersOf_mem it th log a b).mp hb⟩
      refine ⟨s', r :: plan, ?_, h2, h3, ?_, ?_, ?_, h7.trans a8, h8.trans a9, ?_⟩
      · rw [List.foldlM_cons]
        have : addHeuristicClass it hash th (createInfo it log) fuel ids s a = some s2 := by
          unfold addHeuristicClass
          rw [if_neg he, g1]; exact a1
        rw [this]; exact h1
      · intro x hx
        rcases List.mem_cons.mp hx with rfl | hx
        · exact hgood
        · exact h4 x hx
      · have he' : (followersOf it th (createInfo it log) a).isEmpty = false := by simpa using he
        rw [List.filter_cons, he', List.map_cons, a4, h5]; rfl
      · rw [h6, a7]; simp
      · rw [h9, a10, List.map_append, List.map_map, List.append_assoc, List.flatMap_cons]
        have e1 : r.silents.map (growAll plan) = r.silents := by
          conv_rhs => rw [← List.map_id r.silents]
          refine List.map_congr_left (fun v hv => ?_)
          obtain ⟨g, _, rfl⟩ := List.mem_map.mp hv
          exact growAll_silent _ _ rfl
        rw [e1]
        congr 1
        refine List.map_congr_left (fun v _ => ?_)
        rw [growAll_cons]; rfl

theorem heuristicNet_spec (it : Iter) {hash : List String → Nat} (th : Thresholds) (log : List (List E))
    (hh : TellsApart hash (namesOf log).flatten.dedup) (fuel next : Nat) (hfu : (namesOf log).flatten.dedup.length < fuel) :
    ∃ (s : Building) (plan : List Step) (start : List View), heuristicNet it hash th (createInfo it log) fuel next = some s ∧ Fresh next s ∧
      (∀ r ∈ plan, GoodStep th (namesOf log) r) ∧ (plan.map Step.cls).Nodup ∧
      (∀ a, a ∈ plan.map Step.cls ↔ ∃ b, Depends th (namesOf log) a b) ∧
      s.net.places = plan.flatMap Step.places ∧ s.net.initial = none ∧ s.net.final = none ∧
      (start.map View.name).Perm (namesOf log).flatten.dedup ∧ (∀ v ∈ start, v.silent = false ∧ v.ins = [] ∧ v.outs = []) ∧
      s.views = start.map (growAll plan) ++ plan.flatMap Step.silents := by
  obtain ⟨c1, c2, c3, c4, c5⟩ := addClassTransitions_spec next _ (allClasses_nodup it it 2 log)
  set r := addClassTransitions ⟨emptyNet, next⟩ ((createInfo it log).allClasses it 2) with hr
  have hfil : r.1.views.filter (fun v => !v.silent) = r.1.views := List.filter_eq_self.mpr (fun v hv => by simp [(c5 v hv).1])
  have ht : VTable r.2 r.1 := ⟨by rw [hfil]; exact c2.eq, c2.wf⟩
  have hk : ∀ c, c ∈ r.2.keys ↔ c ∈ (namesOf log).flatten := by
    intro c; rw [c4, mem_allClasses]
  obtain ⟨s, plan, h1, h2, h3, h4, h5, h6, h7, h8, h9⟩ := classes_fold it th log hh fuel hfu hk ((createInfo it log).allClasses it 3) c1 ht
    (fun c hc => (mem_allClasses it it 3 log c).mp hc)
  have hinit : r.1.net.initial = none ∧ r.1.net.final = none := by
    rw [hr]; unfold addClassTransitions
    generalize (createInfo it log).allClasses it 2 = l
    have : ∀ (l : List String) (acc : Building × Dict String Nat), acc.1.net.initial = none ∧ acc.1.net.final = none →
        (l.foldl (fun (acc : Building × Dict String Nat) c =>
          let r := addTransition acc.1 c false
          (r.1, acc.2.set c r.2)) acc).1.net.initial = none ∧ (l.foldl (fun (acc : Building × Dict String Nat) c =>
          let r := addTransition acc.1 c false
          (r.1, acc.2.set c r.2)) acc).1.net.final = none := by
      intro l
      induction l with
      | nil => intro acc h; exact h
      | cons c l ih => intro acc h; exact ih _ h
    exact this l _ ⟨rfl, rfl⟩
  refine ⟨s, plan, r.1.views, h1, h2, h4, ?_, ?_, ?_, h7.trans hinit.1, h8.trans hinit.2, ?_, c5, h9⟩
  · rw [h5]; exact (allClasses_nodup it it 3 log).filter _
  · intro a
    rw [h5, List.mem_filter, mem_allClasses]
    constructor
    · rintro ⟨_, h⟩
      simp only [Bool.not_eq_true', List.isEmpty_eq_false_iff] at h
      obtain ⟨b, hb⟩ := List.exists_mem_of_ne_nil _ h
      exact ⟨b, (followersOf_mem it th log a b).mp hb⟩
    · rintro ⟨b, hb⟩
      refine ⟨hb.1.1, ?_⟩
      simp only [Bool.not_eq_true', List.isEmpty_eq_false_iff]
      intro h0
      have := (followersOf_mem it th log a b).mpr hb
      rw [h0] at this; cases this
  · rw [h6, c3]; rfl
  · have : r.1.views.map View.name = (createInfo it log).allClasses it 2 := by
      rw [← c4, ← c2.eq]; unfold Dict.keys; rw [List.map_map]; rfl
    rw [this]
    refine (List.perm_ext_iff_of_nodup (allClasses_nodup it it 2 log) (List.nodup_dedup _)).mpr (fun c => ?_)
    rw [mem_allClasses, List.mem_dedup]

/-! ### Loops of length two -/

theorem ins_fold {lo : Nat} (cs : List (Nat × Nat)) : ∀ {s : Building}, Fresh lo s → (∀ c ∈ cs, c.2 ∈ s.net.transitions.map Trans.id) →
    ∃ s', cs.foldlM (fun s c => connectIn s c.1 c.2) s = some s' ∧ Fresh lo s' ∧ s'.net.places = s.net.places ∧
      s'.net.initial = s.net.initial ∧ s'.net.final = s.net.final ∧
      s'.views = s.views.map (fun v => { v with ins := v.ins ++ (cs.filter (fun c => decide (c.2 = v.id))).map Prod.fst }) := by
  induction cs with
  | nil => intro s hf _; exact ⟨s, rfl, hf, rfl, rfl, rfl, by simp⟩
  | cons c cs ih =>
    intro s hf hc
    obtain ⟨s2, e1, e2, e3, e4, e5, e6⟩ := connectIn_spec hf c.1 c.2 (hc c (by simp))
    have hids : s2.net.transitions.map Trans.id = s.net.transitions.map Trans.id := by
      rw [← views_ids, ← views_ids, e6, List.map_map]
      refine List.map_congr_left (fun v _ => ?_)
      simp only [Function.comp_apply]; split <;> rfl
    obtain ⟨s', b1, b2, b3, b4, b5, b6⟩ := ih e2 (fun x hx => by rw [hids]; exact hc x (by simp [hx]))
    refine ⟨s', ?_, b2, b3.trans e3, b4.trans e4, b5.trans e5, ?_⟩
    · rw [List.foldlM_cons, e1]; exact b1
    · rw [b6, e6, List.map_map]
      refine List.map_congr_left (fun v _ => ?_)
      simp only [Function.comp_apply]
      by_cases h : v.id = c.2
      · simp [h]
      · have h' : ¬ c.2 = v.id := fun e => h e.symm
        simp [h, h']

theorem outs_fold {lo : Nat} (cs : List (Nat × Nat)) : ∀ {s : Building}, Fresh lo s → (∀ c ∈ cs, c.1 ∈ s.net.transitions.map Trans.id) →
    ∃ s', cs.foldlM (fun s c => connectOut s c.1 c.2) s = some s' ∧ Fresh lo s' ∧ s'.net.places = s.net.places ∧
      s'.net.initial = s.net.initial ∧ s'.net.final = s.net.final ∧
      s'.views = s.views.map (fun v => { v with outs := v.outs ++ (cs.filter (fun c => decide (c.1 = v.id))).map Prod.snd }) := by
  induction cs with
  | nil => intro s hf _; exact ⟨s, rfl, hf, rfl, rfl, rfl, by simp⟩
  | cons c cs ih =>
    intro s hf hc
    obtain ⟨s2, e1, e2, e3, e4, e5, e6⟩ := connectOut_spec hf c.2 c.1 (hc c (by simp))
    have hids : s2.net.transitions.map Trans.id = s.net.transitions.map Trans.id := by
      rw [← views_ids, ← views_ids, e6, List.map_map]
      refine List.map_congr_left (fun v _ => ?_)
      simp only [Function.comp_apply]; split <;> rfl
    obtain ⟨s', b1, b2, b3, b4, b5, b6⟩ := ih e2 (fun x hx => by rw [hids]; exact hc x (by simp [hx]))
    refine ⟨s', ?_, b2, b3.trans e3, b4.trans e4, b5.trans e5, ?_⟩
    · rw [List.foldlM_cons, e1]; exact b1
    · rw [b6, e6, List.map_map]
      refine List.map_congr_left (fun v _ => ?_)
      simp only [Function.comp_apply]
      by_cases h : v.id = c.1
      · simp [h]
      · have h' : ¬ c.1 = v.id := fun e => h e.symm
        simp [h, h']

end Ficus.Rs
