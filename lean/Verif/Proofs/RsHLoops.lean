import Verif.Proofs.RsHShape
import Mathlib.Algebra.BigOperators.Group.Finset.Basic

/-! The arcs that the loops of length two add. -/

namespace Ficus.Rs
open Spec
variable {E : Type} [HasName E]

theorem mapM_some {α β : Type} (f : α → Option β) (g : α → β) (l : List α) (h : ∀ x ∈ l, f x = some (g x)) : l.mapM f = some (l.map g) := by
  induction l with
  | nil => rfl
  | cons x xs ih => rw [List.mapM_cons, h x (by simp), ih (fun y hy => h y (by simp [hy]))]; rfl

/-- The pairs of classes in a loop of length two, as they are visited. -/
def loopPairs (it : Iter) (th : Thresholds) (tri : List (String × String)) (info : Info) : List (String × String) :=
  (info.allClasses it 4).flatMap (fun a => ((info.allClasses (it.sub a) 5).filter (fun b => decide (a ≠ b) && isTwoLoop th tri a b)).map
    (fun b => (a, b)))

/-- The connections from places to transitions. -/
def loopIns (f : String → Trans) (ps : List (String × String)) : List (Nat × Nat) :=
  ps.flatMap (fun p => (f p.2).outgoing.map (fun arc => (arc.place, (f p.1).id)))

/-- The connections from transitions to places. -/
def loopOuts (f : String → Trans) (ps : List (String × String)) : List (Nat × Nat) :=
  ps.flatMap (fun p => (f p.2).incoming.map (fun arc => ((f p.1).id, arc.place)))

theorem addTwoLoops_spec {lo : Nat} (it : Iter) (th : Thresholds) (tri : List (String × String)) (log : List (List E)) {s : Building}
    (hf : Fresh lo s) (f : String → Trans)
    (hfind : ∀ c ∈ (namesOf log).flatten, findTransition it 0 s.net c = some (f c)) :
    ∃ s', addTwoLoops it th tri (createInfo it log) s = some s' ∧ Fresh lo s' ∧ s'.net.places = s.net.places ∧
      s'.net.initial = s.net.initial ∧ s'.net.final = s.net.final ∧
      s'.views = s.views.map (fun v => { v with
        ins := v.ins ++ ((loopIns f (loopPairs it th tri (createInfo it log))).filter (fun c => decide (c.2 = v.id))).map Prod.fst,
        outs := v.outs ++ ((loopOuts f (loopPairs it th tri (createInfo it log))).filter (fun c => decide (c.1 = v.id))).map Prod.snd }) := by
  set P := loopPairs it th tri (createInfo it log) with hP
  have hPc : ∀ p ∈ P, p.1 ∈ (namesOf log).flatten ∧ p.2 ∈ (namesOf log).flatten := by
    intro p hp
    rw [hP] at hp
    unfold loopPairs at hp
    obtain ⟨a, ha, hp⟩ := List.mem_flatMap.mp hp
    obtain ⟨b, hb, rfl⟩ := List.mem_map.mp hp
    exact ⟨(mem_allClasses it it 4 log a).mp ha, (mem_allClasses it _ 5 log b).mp (List.mem_filter.mp hb).1⟩
  have hmem : ∀ c ∈ (namesOf log).flatten, (f c).id ∈ s.net.transitions.map Trans.id := by
    intro c hc
    have := List.mem_of_find?_eq_some (hfind c hc)
    exact List.mem_map_of_mem ((it.perm _ _ _).mem_iff.mp this)
  have htl : twoLoops it th tri (createInfo it log) s.net = some (P.map (fun p => (f p.1, f p.2))) := by
    unfold twoLoops
    refine mapM_some _ (fun p => (f p.1, f p.2)) P (fun p hp => ?_)
    rw [hfind p.1 (hPc p hp).1, hfind p.2 (hPc p hp).2]; rfl
  obtain ⟨s2, a1, a2, a3, a4, a5, a6⟩ := ins_fold (loopIns f P) hf (by
    intro c hc
    obtain ⟨p, hp, hc⟩ := List.mem_flatMap.mp hc
    obtain ⟨arc, _, rfl⟩ := List.mem_map.mp hc
    exact hmem p.1 (hPc p hp).1)
  have hids : s2.net.transitions.map Trans.id = s.net.transitions.map Trans.id := by
    rw [← views_ids, ← views_ids, a6, List.map_map]; rfl
  obtain ⟨s3, b1, b2, b3, b4, b5, b6⟩ := outs_fold (loopOuts f P) a2 (by
    intro c hc
    obtain ⟨p, hp, hc⟩ := List.mem_flatMap.mp hc
    obtain ⟨arc, _, rfl⟩ := List.mem_map.mp hc
    rw [hids]; exact hmem p.1 (hPc p hp).1)
  refine ⟨s3, ?_, b2, b3.trans a3, b4.trans a4, b5.trans a5, ?_⟩
  · unfold addTwoLoops
    rw [htl, Option.bind_some, List.flatMap_map, List.flatMap_map]
    have e1 : (P.flatMap (fun p => (f p.2).outgoing.map (fun arc => (arc.place, (f p.1).id)))) = loopIns f P := rfl
    have e2 : (P.flatMap (fun p => (f p.2).incoming.map (fun arc => ((f p.1).id, arc.place)))) = loopOuts f P := rfl
    simp only [e1, e2, a1, Option.bind_some]
    exact b1
  · rw [b6, a6, List.map_map]; rfl

theorem sum_flatMap_if (L : List String) (M : String → List String) (h : String → Nat) (c : String) (hn : L.Nodup) :
    ((L.flatMap (fun a => (M a).map (fun b => (a, b)))).map (fun p => if p.1 = c then h p.2 else 0)).sum =
      if c ∈ L then ((M c).map h).sum else 0 := by
  induction L with
  | nil => rfl
  | cons a L ih =>
    obtain ⟨h1, h2⟩ := List.nodup_cons.mp hn
    rw [List.flatMap_cons, List.map_append, List.sum_append, ih h2, List.map_map]
    by_cases hac : a = c
    · subst hac
      have : ((M a).map ((fun p : String × String => if p.1 = a then h p.2 else 0) ∘ fun b => (a, b))) = (M a).map h :=
        List.map_congr_left (fun b _ => by simp)
      rw [this]; simp [h1]
    · have hz : ((M a).map ((fun p : String × String => if p.1 = c then h p.2 else 0) ∘ fun b => (a, b))).sum = 0 := by
        rw [List.sum_eq_zero]
        intro x hx
        obtain ⟨b, _, rfl⟩ := List.mem_map.mp hx
        simp [hac]
      have hca : ¬ c = a := fun e => hac e.symm
      rw [hz]; simp [hca]

theorem count_loopIns (f : String → Trans) (ps : List (String × String)) (i x : Nat) :
    (((loopIns f ps).filter (fun c => decide (c.2 = i))).map Prod.fst).count x =
      (ps.map (fun p => if (f p.1).id = i then ((f p.2).outgoing.map Arc.place).count x else 0)).sum := by
  induction ps with
  | nil => rfl
  | cons p ps ih =>
    have : loopIns f (p :: ps) = (f p.2).outgoing.map (fun arc => (arc.place, (f p.1).id)) ++ loopIns f ps := rfl
    rw [this, List.filter_append, List.map_append, List.count_append, ih, List.map_cons, List.sum_cons]
    congr 1
    split
    · rename_i h
      rw [List.filter_eq_self.mpr (fun c hc => by obtain ⟨arc, _, rfl⟩ := List.mem_map.mp hc; simp [h]), List.map_map]
      rfl
    · rename_i h
      rw [List.filter_eq_nil_iff.mpr (fun c hc => by obtain ⟨arc, _, rfl⟩ := List.mem_map.mp hc; simp [h])]
      rfl

theorem count_loopOuts (f : String → Trans) (ps : List (String × String)) (i x : Nat) :
    (((loopOuts f ps).filter (fun c => decide (c.1 = i))).map Prod.snd).count x =
      (ps.map (fun p => if (f p.1).id = i then ((f p.2).incoming.map Arc.place).count x else 0)).sum := by
  induction ps with
  | nil => rfl
  | cons p ps ih =>
    have : loopOuts f (p :: ps) = (f p.2).incoming.map (fun arc => ((f p.1).id, arc.place)) ++ loopOuts f ps := rfl
    rw [this, List.filter_append, List.map_append, List.count_append, ih, List.map_cons, List.sum_cons]
    congr 1
    split
    · rename_i h
      rw [List.filter_eq_self.mpr (fun c hc => by obtain ⟨arc, _, rfl⟩ := List.mem_map.mp hc; simp [h]), List.map_map]
      rfl
    · rename_i h
      rw [List.filter_eq_nil_iff.mpr (fun c hc => by obtain ⟨arc, _, rfl⟩ := List.mem_map.mp hc; simp [h])]
      rfl

/-- The sum over the pairs is the one over the partners. -/
theorem sum_partners (it : Iter) (th : Thresholds) (tri : List (String × String)) (log : List (List E))
    (htri : triangles (namesOf log) = some tri) (c : String) (hc : c ∈ (namesOf log).flatten) (h : String → Nat) :
    ((loopPairs it th tri (createInfo it log)).map (fun p => if p.1 = c then h p.2 else 0)).sum =
      ∑ b ∈ loopPartners th (namesOf log) c, h b := by
  unfold loopPairs
  rw [sum_flatMap_if _ _ h c (allClasses_nodup it it 4 log), if_pos ((mem_allClasses it it 4 log c).mpr hc),
    ← List.sum_toFinset _ ((allClasses_nodup it (it.sub c) 5 log).filter _)]
  refine Finset.sum_congr ?_ (fun _ _ => rfl)
  ext b
  simp only [loopPartners, List.mem_toFinset, List.mem_filter, Finset.mem_filter, mem_allClasses, Bool.and_eq_true, decide_eq_true_eq,
    isTwoLoop_iff th (namesOf log) tri htri]
  exact ⟨fun h => ⟨h.1, Ne.symm h.2.1, h.2.2⟩, fun h => ⟨h.1, Ne.symm h.2.1, h.2.2⟩⟩

end Ficus.Rs
