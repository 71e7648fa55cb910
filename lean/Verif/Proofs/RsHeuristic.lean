import Verif.Proofs.GroupCore
import Verif.Props.RsNet
import Mathlib.Tactic

/-! Lemmas about the relations and the groups of the heuristic miner. -/

namespace Ficus.Rs
open Spec
variable {E : Type} [HasName E]

theorem followsCount_direct (it : Iter) (log : List (List E)) (a b : String) :
    (createInfo it log).followsCount a b = directCount (namesOf log) a b := by
  rw [(C110_pairs it log none false a b).1]
  unfold neighbours directCount namesOf
  rw [List.flatMap_map]
  congr 1
  refine List.flatMap_congr (fun t _ => ?_)
  simp [kept]

theorem measure_strength (it : Iter) (log : List (List E)) (a b : String) :
    (createInfo it log).dependencyMeasure a b = strength (namesOf log) a b := by
  unfold Info.dependencyMeasure strength
  simp only [followsCount_direct]
  by_cases h : a = b
  · subst h; simp
  · simp [h]

theorem mem_classes (it : Iter) (log : List (List E)) (c : String) : c ∈ (createInfo it log).classes.keys ↔ c ∈ (namesOf log).flatten := by
  rw [createInfo_eq]
  simp only [Option.getD_none]
  rw [mem_counter_keys]
  unfold keptNamesOf namesOf
  rw [List.flatMap_def]
  have : List.map (kept []) log = List.map (fun t => List.map name t) log := by
    refine List.map_congr_left (fun t _ => ?_)
    simp [kept]
  rw [this]

theorem mem_allClasses (it it' : Iter) (n : Nat) (log : List (List E)) (c : String) :
    c ∈ (createInfo it log).allClasses it' n ↔ c ∈ (namesOf log).flatten := by
  unfold Info.allClasses
  rw [(it'.perm _ _ _).mem_iff, mem_classes]

theorem allClasses_nodup (it it' : Iter) (n : Nat) (log : List (List E)) : ((createInfo it log).allClasses it' n).Nodup := by
  unfold Info.allClasses
  rw [(it'.perm _ _ _).nodup_iff]
  exact classes_WF it log none

theorem mem_qualified (it : Iter) (th : Thresholds) (log : List (List E)) (a : String) (ha : a ∈ (namesOf log).flatten) (v : String × ℚ) :
    v ∈ qualifiedFor it th (createInfo it log) a ↔ Candidate th (namesOf log) a v.1 ∧ v.2 = strength (namesOf log) a v.1 := by
  unfold qualifiedFor Candidate
  rw [List.mem_filterMap]
  simp only [followsCount_direct, measure_strength]
  constructor
  · rintro ⟨b, hb, hv⟩
    rw [mem_allClasses] at hb
    split at hv
    · cases hv
    · split at hv
      · cases hv
      · rename_i h1 h2
        cases hv
        exact ⟨⟨ha, hb, not_lt.mp h1, not_le.mp h2⟩, rfl⟩
  · rintro ⟨⟨_, hb, h1, h2⟩, hv⟩
    refine ⟨v.1, (mem_allClasses ..).mpr hb, ?_⟩
    rw [if_neg (not_lt.mpr h1), if_neg (not_le.mpr h2), ← hv]

theorem best_spec (l : List (String × ℚ)) :
    (bestMeasure l = none ↔ l = []) ∧ ∀ m, bestMeasure l = some m ↔ IsGreatest {x | ∃ v ∈ l, x = v.2} m := by
  induction l with
  | nil => simp [bestMeasure, IsGreatest]
  | cons v vs ih =>
    obtain ⟨ih1, ih2⟩ := ih
    refine ⟨by simp [bestMeasure], ?_⟩
    have hset : {x | ∃ w ∈ v :: vs, x = w.2} = insert v.2 {x | ∃ w ∈ vs, x = w.2} := by
      ext x; simp [eq_comm]
    have key : ∃ m, bestMeasure (v :: vs) = some m ∧ IsGreatest {x | ∃ w ∈ v :: vs, x = w.2} m := by
      rw [hset]
      unfold bestMeasure
      cases hb : bestMeasure vs with
      | none =>
        rw [ih1.mp hb]
        exact ⟨v.2, rfl, by simp [IsGreatest]⟩
      | some m =>
        have hm := (ih2 m).mp hb
        refine ⟨_, rfl, ?_⟩
        simp only
        split
        · rename_i h
          have := hm.insert v.2
          rwa [max_eq_right h] at this
        · rename_i h
          have := hm.insert v.2
          rwa [max_eq_left (le_of_lt (not_le.mp h))] at this
    obtain ⟨m, h1, h2⟩ := key
    intro m'
    rw [h1]
    constructor
    · intro h; cases h; exact h2
    · intro h; rw [h2.unique h]

theorem dependsOn_iff (it : Iter) (th : Thresholds) (log : List (List E)) (a b : String) :
    dependsOn it th (createInfo it log) a b = true ↔ Depends th (namesOf log) a b := by
  unfold dependsOn
  rw [Bool.and_eq_true, List.any_eq_true]
  constructor
  · rintro ⟨ha, v, hv, hb⟩
    simp only [decide_eq_true_eq] at hb
    subst hb
    have ha' := (mem_classes it log a).mp ((Dict.contains_iff _ _).mp ha)
    unfold dependenciesOf at hv
    split at hv
    · cases hv
    · rename_i best hbest
      rw [List.mem_filter] at hv
      obtain ⟨hq, hlt⟩ := hv
      simp only [Bool.not_eq_true', decide_eq_false_iff_not, not_lt] at hlt
      have hq' := (mem_qualified it th log a ha' v).mp hq
      refine ⟨hq'.1, best, ?_, hq'.2 ▸ hlt⟩
      have := ((best_spec _).2 best).mp hbest
      convert this using 1
      ext m
      constructor
      · rintro ⟨c, hc, rfl⟩
        exact ⟨(c, strength (namesOf log) a c), (mem_qualified it th log a ha' _).mpr ⟨hc, rfl⟩, rfl⟩
      · rintro ⟨w, hw, rfl⟩
        obtain ⟨h1, h2⟩ := (mem_qualified it th log a ha' _).mp hw
        exact ⟨w.1, h1, h2⟩
  · rintro ⟨hc, best, hbest, hle⟩
    have ha := hc.1
    refine ⟨(Dict.contains_iff _ _).mpr ((mem_classes it log a).mpr ha), (b, strength (namesOf log) a b), ?_, by simp⟩
    have hb : bestMeasure (qualifiedFor it th (createInfo it log) a) = some best := by
      refine ((best_spec _).2 best).mpr ?_
      convert hbest using 1
      ext m
      constructor
      · rintro ⟨w, hw, rfl⟩
        obtain ⟨h1, h2⟩ := (mem_qualified it th log a ha _).mp hw
        exact ⟨w.1, h1, h2⟩
      · rintro ⟨c, hc, rfl⟩
        exact ⟨(c, strength (namesOf log) a c), (mem_qualified it th log a ha _).mpr ⟨hc, rfl⟩, rfl⟩
    unfold dependenciesOf
    rw [hb]
    simp only
    rw [List.mem_filter]
    refine ⟨(mem_qualified it th log a ha _).mpr ⟨hc, rfl⟩, ?_⟩
    simp only [Bool.not_eq_true', decide_eq_false_iff_not, not_lt]
    exact hle

theorem isParallel_iff (it : Iter) (th : Thresholds) (log : List (List E)) (a b c : String) :
    isParallel th (createInfo it log) a b c = true ↔ ParallelAfter th (namesOf log) a b c := by
  unfold isParallel ParallelAfter
  rw [decide_eq_true_eq]
  simp only [followsCount_direct]

theorem parallelAfter_symm {th : Thresholds} {log : List (List String)} {a b c : String} (h : ParallelAfter th log a b c) :
    ParallelAfter th log a c b := by
  unfold ParallelAfter at h ⊢
  rwa [add_comm (directCount log c b : ℚ), add_comm (directCount log a c : ℚ)]

/-! ### Triangles -/

theorem triangles_count_one (t : List String) (r : List (String × String)) (h : trianglesOf t = some r) (a b : String) :
    r.count (a, b) = (t.zip (t.tail.zip t.tail.tail)).count (a, b, a) := by
  unfold trianglesOf at h
  split at h
  · cases h
  rename_i hlen
  cases h
  have hz : t.zip (t.tail.zip t.tail.tail) =
      (List.range (t.length - 2)).filterMap (fun i => match t[i]?, t[i + 1]?, t[i + 2]? with
        | some a, some b, some c => some (a, b, c)
        | _, _, _ => none) := by
    clear hlen
    apply List.ext_getElem?
    intro i
    have hm : (List.range (t.length - 2)).filterMap (fun i => match t[i]?, t[i + 1]?, t[i + 2]? with
        | some a, some b, some c => some (a, b, c)
        | _, _, _ => none) = (List.range (t.length - 2)).map (fun i => (t[i]?.getD "", t[i + 1]?.getD "", t[i + 2]?.getD "")) := by
      rw [← List.filterMap_eq_map]
      refine List.filterMap_congr (fun i hi => ?_)
      rw [List.mem_range] at hi
      simp only [Function.comp]
      rw [List.getElem?_eq_getElem (by omega : i < t.length), List.getElem?_eq_getElem (by omega : i + 1 < t.length),
        List.getElem?_eq_getElem (by omega : i + 2 < t.length)]
      rfl
    rw [hm, List.getElem?_map]
    by_cases hi : i < t.length - 2
    · rw [List.getElem?_range hi]
      rw [List.getElem?_eq_getElem (by simp; omega)]
      simp only [List.getElem_zip, List.getElem_tail, Option.map_some]
      rw [List.getElem?_eq_getElem (by omega), List.getElem?_eq_getElem (by omega), List.getElem?_eq_getElem (by omega)]
      rfl
    · rw [List.getElem?_eq_none (by simp; omega), List.getElem?_eq_none (by simp; omega)]
      rfl
  rw [hz]
  induction List.range (t.length - 2) with
  | nil => rfl
  | cons i l ih =>
    rw [List.filterMap_cons, List.filterMap_cons]
    cases h1 : t[i]? with
    | none => simpa [h1] using ih
    | some x =>
      cases h2 : t[i + 1]? with
      | none => simpa [h1, h2] using ih
      | some y =>
        cases h3 : t[i + 2]? with
        | none => simpa [h1, h2, h3] using ih
        | some z =>
          simp only
          by_cases hxz : x = z
          · subst hxz
            rw [if_pos rfl]
            simp only [List.count_cons, ih, beq_iff_eq, Prod.mk.injEq]
            congr 1
            by_cases hx : x = a <;> by_cases hy : y = b <;> simp [hx, hy]
          · rw [if_neg hxz]
            simp only [List.count_cons, ih, beq_iff_eq, Prod.mk.injEq]
            rw [if_neg]
            · rfl
            · rintro ⟨rfl, _, h⟩; exact hxz h.symm

theorem triangles_count (log : List (List String)) (r : List (String × String)) (h : triangles log = some r) (a b : String) :
    r.count (a, b) = triangleCount log a b := by
  unfold triangles at h
  rw [Option.map_eq_some_iff] at h
  obtain ⟨l, hl, rfl⟩ := h
  unfold triangleCount
  induction log generalizing l with
  | nil => cases hl; rfl
  | cons t log ih =>
    rw [List.mapM_cons] at hl
    cases h1 : trianglesOf t with
    | none => rw [h1] at hl; cases hl
    | some x =>
      cases h2 : log.mapM trianglesOf with
      | none => rw [h1, h2] at hl; cases hl
      | some y =>
        rw [h1, h2] at hl
        cases hl
        rw [List.flatten_cons, List.count_append, List.flatMap_cons, List.count_append, ih y h2, triangles_count_one t x h1]

theorem isTwoLoop_iff (th : Thresholds) (log : List (List String)) (r : List (String × String)) (h : triangles log = some r) (a b : String) :
    isTwoLoop th r a b = true ↔ TwoLoop th log a b := by
  unfold isTwoLoop TwoLoop
  rw [decide_eq_true_eq, triangles_count log r h, triangles_count log r h]

end Ficus.Rs
