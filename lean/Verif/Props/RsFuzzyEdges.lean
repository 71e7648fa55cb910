import Verif.Proofs.RsFuzzyEdges
import Verif.Props.Info
import Mathlib.Tactic.NormNum

/-! C146: the nodes and edges of a fuzzy graph before its clusters. -/

namespace Ficus.Rs
open Ficus.Spec Fz
variable {E : Type} [HasName E]

/-- The steps before the clusters never fail. -/
theorem C146_total (it : Iter) (millis : E → E → Int) (p : FuzzyArgs) (log : List (List E)) (next : Nat) :
    ∃ next' g, fuzzyEdges it millis p log next = some (next', g) ∧
      (g.nodes.map Prod.fst).Nodup ∧ (g.nodes.map Prod.snd).Perm (frequentNames p log) ∧
      (∀ e ∈ g.nodes, next ≤ e.1 ∧ e.1 < next') ∧ FOk g := by
  obtain ⟨n1, g1, ids, h1, h2, h3, h4⟩ := initializeFuzzy_spec it p log next
  obtain ⟨g2, h5, h6, h7⟩ := resolveConflicts_ok it (createInfo it log) p ids g1 h2 h4.ok
  obtain ⟨g3, h8, h9, h10, -⟩ := filterEdges_spec it (utility millis log (createInfo it log) p.rate) p g2 h7
  refine ⟨n1, g3, ?_, h10.nodes, ?_, ?_, h10⟩
  · unfold fuzzyEdges
    simp only [h1, Option.bind_eq_bind, Option.bind_some, h5, h8]
  · rw [h9, h6]; exact h3
  · rw [h9, h6]; exact h2.bound

/-- The nodes are the names that occur more often than the threshold, and there is an edge exactly between the names that
the specification calls useful; its weight is the number of times the second name comes directly after the first one. The
order of iteration over maps does not matter. -/
theorem C146_edges (it : Iter) (millis : E → E → Int) (p : FuzzyArgs) (hr : 0 ≤ p.ratio) (log : List (List E)) (next : Nat) :
    ∃ next' g, fuzzyEdges it millis p log next = some (next', g) ∧
      (g.nodes.map Prod.fst).Nodup ∧ (g.nodes.map Prod.snd).Perm (frequentNames p log) ∧
      ∀ x y d, FuzzyEdge g x y = some d ↔
        ∃ a b, (x, a) ∈ g.nodes ∧ (y, b) ∈ g.nodes ∧ Useful millis p log a b ∧ d = (followPlaces log a b : ℚ) := by
  obtain ⟨n1, g1, ids, h1, h2, h3, h4⟩ := initializeFuzzy_spec it p log next
  obtain ⟨g2, h5, h6⟩ := resolveConflicts_spec it p hr log ids g1 h2 h3 h4
  obtain ⟨g3, h8, h9, h10, h11⟩ := filterEdges_spec it (utility millis log (createInfo it log) p.rate) p g2 h6.ok
  refine ⟨n1, g3, ?_, h10.nodes, ?_, ?_⟩
  · unfold fuzzyEdges
    simp only [h1, Option.bind_eq_bind, Option.bind_some, h5, h8]
  · rw [h9, h6.nodes_eq]; exact h3
  · have hnodes : g3.nodes = g1.nodes := h9.trans h6.nodes_eq
    have hmeas : ∀ {y b}, (y, b) ∈ g1.nodes → ∀ s : List Nat, (∀ z, z ∈ s ↔ (FuzzyEdge g2 z y).isSome) →
        {m | ∃ z ∈ s, m = utility millis log (createInfo it log) p.rate (nameAt g2.nodes z) (nameAt g2.nodes y)} =
          measuresTo millis p log b := by
      intro y b hyb s hs
      ext m
      simp only [Set.mem_ofPred_eq, measuresTo, utility_eq]
      rw [h6.nodes_eq, nameAt_eq h2.wf hyb]
      constructor
      · rintro ⟨z, hz, rfl⟩
        obtain ⟨d, hd⟩ := Option.isSome_iff_exists.1 ((hs z).1 hz)
        have hzk := (h6.ok.ends z y d hd).1
        rw [h6.nodes_eq] at hzk
        have hzn := Dict.mem_of_get? (nameAt_mem hzk)
        refine ⟨nameAt g1.nodes z, ?_, ((h6.edge _ _ _ _ hzn hyb d).1 hd).1, rfl⟩
        rw [← h3.mem_iff]
        exact List.mem_map.2 ⟨_, hzn, rfl⟩
      · rintro ⟨c, hc, hR, rfl⟩
        rw [← h3.mem_iff, List.mem_map] at hc
        obtain ⟨⟨z, c'⟩, hz, rfl⟩ := hc
        refine ⟨z, (hs z).2 ?_, by rw [nameAt_eq h2.wf hz]⟩
        rw [(h6.edge _ _ _ _ hz hyb _).2 ⟨hR, rfl⟩]; rfl
    intro x y d
    rw [h11]
    constructor
    · rintro ⟨hd, hcut⟩
      obtain ⟨hxk, hyk⟩ := h6.ok.ends x y d hd
      rw [h6.nodes_eq] at hxk hyk
      have hx := Dict.mem_of_get? (nameAt_mem hxk)
      have hy := Dict.mem_of_get? (nameAt_mem hyk)
      refine ⟨nameAt g1.nodes x, nameAt g1.nodes y, by rw [hnodes]; exact hx, by rw [hnodes]; exact hy, ?_, ?_⟩
      · have hR := ((h6.edge _ _ _ _ hx hy d).1 hd).1
        refine ⟨hR, ?_⟩
        have hs : ∀ z, z ∈ g2.nodes.keys.filter (fun z => (FuzzyEdge g2 z y).isSome) ↔ (FuzzyEdge g2 z y).isSome := by
          intro z
          rw [List.mem_filter]
          constructor
          · exact And.right
          · intro hz
            obtain ⟨d', hd'⟩ := Option.isSome_iff_exists.1 hz
            exact ⟨(h6.ok.ends z y d' hd').1, hz⟩
        have hm := hmeas hy _ hs
        have hne : (g2.nodes.keys.filter (fun z => (FuzzyEdge g2 z y).isSome)) ≠ [] := by
          intro e
          have : x ∈ g2.nodes.keys.filter (fun z => (FuzzyEdge g2 z y).isSome) := (hs x).2 (by rw [hd]; rfl)
          rw [e] at this; cases this
        set s := g2.nodes.keys.filter (fun z => (FuzzyEdge g2 z y).isSome) with hsdef
        have hmap : {m | ∃ z ∈ s, m = utility millis log (createInfo it log) p.rate (nameAt g2.nodes z) (nameAt g2.nodes y)} =
            {m | m ∈ s.map (fun z => utility millis log (createInfo it log) p.rate (nameAt g2.nodes z) (nameAt g2.nodes y))} := by
          ext m
          simp only [Set.mem_ofPred_eq, List.mem_map]
          constructor
          · rintro ⟨z, hz, rfl⟩; exact ⟨z, hz, rfl⟩
          · rintro ⟨z, hz, rfl⟩; exact ⟨z, hz, rfl⟩
        have hl := minOf_least (s.map (fun z => utility millis log (createInfo it log) p.rate (nameAt g2.nodes z) (nameAt g2.nodes y)))
          (by simpa using hne)
        have hh := maxOf_greatest (s.map (fun z => utility millis log (createInfo it log) p.rate (nameAt g2.nodes z) (nameAt g2.nodes y)))
          (by simpa using hne)
        rw [← hmap, hm] at hl hh
        refine ⟨_, _, hl, hh, ?_⟩
        by_contra hlt
        apply hcut
        refine ⟨s, hs, _, _, by rw [hm]; exact hl, by rw [hm]; exact hh, ?_⟩
        have e : utility millis log (createInfo it log) p.rate (nameAt g2.nodes x) (nameAt g2.nodes y) =
            usefulness millis p log (nameAt g1.nodes x) (nameAt g1.nodes y) := by rw [utility_eq, h6.nodes_eq]
        rw [e]
        exact not_le.1 hlt
      · rw [((h6.edge _ _ _ _ hx hy d).1 hd).2, binarySig_eq]
    · rintro ⟨a, b, hx, hy, ⟨hR, low, high, hl, hh, hle⟩, rfl⟩
      rw [hnodes] at hx hy
      refine ⟨(h6.edge _ _ _ _ hx hy _).2 ⟨hR, by rw [binarySig_eq]⟩, ?_⟩
      rintro ⟨s, hs, low', high', hl', hh', hlt⟩
      rw [hmeas hy s hs] at hl' hh'
      obtain rfl := hl'.unique hl
      obtain rfl := hh'.unique hh
      rw [utility_eq, h6.nodes_eq, nameAt_eq h2.wf hx, nameAt_eq h2.wf hy] at hlt
      exact absurd hlt (not_lt.2 hle)

/-- If the cutoff is at most one, each activity that has an incoming edge after the resolution of conflicts keeps the most
useful one. -/
theorem C146_best (millis : E → E → Int) (p : FuzzyArgs) (hc : p.edgeCutoff ≤ 1) (log : List (List E)) (a b : String)
    (ha : a ∈ frequentNames p log) (h : Resolved p log a b) :
    ∃ c ∈ frequentNames p log, Useful millis p log c b ∧
      ∀ d ∈ frequentNames p log, Resolved p log d b → usefulness millis p log d b ≤ usefulness millis p log c b := by
  classical
  set l := (frequentNames p log).filter (fun c => decide (Resolved p log c b)) with hl
  have hne : l.map (fun c => usefulness millis p log c b) ≠ [] := by
    have : a ∈ l := by rw [hl, List.mem_filter]; exact ⟨ha, by simpa using h⟩
    intro e
    have : l = [] := by simpa using e
    simp_all
  have hset : {m | m ∈ l.map (fun c => usefulness millis p log c b)} = measuresTo millis p log b := by
    ext m
    simp only [Set.mem_ofPred_eq, measuresTo, List.mem_map, hl, List.mem_filter, decide_eq_true_eq]
    constructor
    · rintro ⟨c, ⟨h1, h2⟩, rfl⟩; exact ⟨c, h1, h2, rfl⟩
    · rintro ⟨c, h1, h2, rfl⟩; exact ⟨c, ⟨h1, h2⟩, rfl⟩
  have h1 := minOf_least _ hne
  have h2 := maxOf_greatest _ hne
  rw [hset] at h1 h2
  obtain ⟨c, hcm, hcR, hce⟩ := h2.1
  refine ⟨c, hcm, ⟨hcR, _, _, h1, h2, ?_⟩, ?_⟩
  · split
    · exact hc
    · rename_i hne'
      rw [← hce, div_self]
      · exact hc
      · intro e; exact hne' (by linarith)
  · intro d hd hdR
    rw [← hce]
    exact h2.2 ⟨d, hd, hdR, rfl⟩

theorem share_nonneg (p : FuzzyArgs) (log : List (List E)) (a b : String) (s : ℚ) (h : relativeShare p log a b = some s) :
    0 ≤ s := by
  unfold relativeShare at h
  simp only at h
  split at h
  · cases h
  · cases h
    have h1 : 0 ≤ ((frequentNames p log).map (fun c => (followPlaces log a c : ℚ))).sum :=
      List.sum_nonneg (by simp)
    have h2 : 0 ≤ ((frequentNames p log).map (fun c => (followPlaces log c b : ℚ))).sum :=
      List.sum_nonneg (by simp)
    positivity

/-- With no threshold for conflicts and for edges (the defaults of `DiscoverFuzzyGraph`), the edges are all frequent pairs. -/
theorem C146_defaults (it : Iter) (millis : E → E → Int) (p : FuzzyArgs) (hr : 0 ≤ p.ratio) (hp : p.preserve ≤ 0)
    (hc : p.edgeCutoff ≤ 0) (log : List (List E)) (next : Nat) :
    ∃ next' g, fuzzyEdges it millis p log next = some (next', g) ∧
      (g.nodes.map Prod.fst).Nodup ∧ (g.nodes.map Prod.snd).Perm (frequentNames p log) ∧
      ∀ x y d, FuzzyEdge g x y = some d ↔
        ∃ a b, (x, a) ∈ g.nodes ∧ (y, b) ∈ g.nodes ∧ p.binary < (followPlaces log a b : ℚ) ∧
          d = (followPlaces log a b : ℚ) := by
  obtain ⟨n, g, h1, h2, h3, h4⟩ := C146_edges it millis p hr log next
  refine ⟨n, g, h1, h2, h3, ?_⟩
  intro x y d
  rw [h4]
  have hR : ∀ a b, Frequent p log a b → Resolved p log a b := by
    intro a b hF
    refine ⟨hF, ?_⟩
    rintro ⟨-, -, (⟨s, hs, hlt⟩ | ⟨s, hs, hlt⟩)⟩ <;>
    · have := share_nonneg p log _ _ s hs
      linarith
  constructor
  · rintro ⟨a, b, hx, hy, hU, hd⟩; exact ⟨a, b, hx, hy, hU.1.1, hd⟩
  · rintro ⟨a, b, hx, hy, hF, hd⟩
    refine ⟨a, b, hx, hy, ⟨hR a b hF, ?_⟩, hd⟩
    have ha : a ∈ frequentNames p log := by rw [← h3.mem_iff]; exact List.mem_map.2 ⟨_, hx, rfl⟩
    obtain ⟨c, hcm, ⟨-, low, high, hl, hh, -⟩, -⟩ := C146_best millis p (by linarith) log a b ha (hR a b hF)
    refine ⟨low, high, hl, hh, ?_⟩
    split
    · linarith
    · have hm : usefulness millis p log a b ∈ measuresTo millis p log b := ⟨a, ha, hR a b hF, rfl⟩
      have e1 := hl.2 hm
      have e2 := hh.2 hm
      exact le_trans hc (div_nonneg (by linarith) (by linarith))

/-! ### Examples -/

/-- A log for the examples, of names with times. -/
def exFuzzy : List (List (String × Nat)) :=
  [[("a", 0), ("b", 5), ("a", 6), ("c", 20)], [("a", 0), ("c", 1), ("b", 3)], [("a", 0), ("a", 1), ("b", 3)]]

/-- The difference of times for the examples. -/
def exMillis (a b : String × Nat) : Int := (a.2 : Int) - b.2

/-- Thresholds for the examples. -/
def exArgs : FuzzyArgs := { preserve := 1, ratio := 1 / 10, rate := 1 / 2 }

/-- The nodes and edges of a graph for the examples. -/
def FuzzyGraph.parts (g : FuzzyGraph) : List (Nat × String) × List (Nat × List (Nat × ℚ)) := (g.nodes, g.conns)

example : (fuzzyEdges .plain exMillis {} exFuzzy 10).map (fun r => r.2.parts) = some (
    [(10, "a"), (11, "b"), (12, "c")], [(10, [(10, 1), (11, 2), (12, 2)]), (11, [(10, 1)]), (12, [(11, 1)])]) := by
  decide +kernel

example : (fuzzyEdges .plain exMillis exArgs exFuzzy 10).map (fun r => r.2.parts) = some (
    [(10, "a"), (11, "b"), (12, "c")], [(10, [(12, 2)]), (11, [(10, 1)]), (12, [(11, 1)])]) := by
  decide +kernel

example : 0 ≤ exArgs.ratio ∧ exArgs.edgeCutoff ≤ 1 := by constructor <;> norm_num [exArgs]

example : meanDelay exMillis exFuzzy "a" "b" = 10 / 3 ∧ meanDelay exMillis exFuzzy "a" "c" = 15 / 2 ∧
    relativeShare exArgs exFuzzy "a" "b" = some (8 / 15) := by decide +kernel

example : "b" ∈ frequentNames exArgs exFuzzy ∧ Resolved exArgs exFuzzy "b" "a" := by
  have h0 : followPlaces exFuzzy "b" "a" = 1 := by decide
  have h1 : relativeShare exArgs exFuzzy "b" "a" = some (3 / 4) := by decide +kernel
  have h2 : relativeShare exArgs exFuzzy "a" "b" = some (8 / 15) := by decide +kernel
  refine ⟨by decide +kernel, by unfold Frequent; rw [h0]; norm_num [exArgs], fun _ => ⟨_, _, h1, h2, ?_⟩⟩
  norm_num [exArgs]

/-- The order of insertion but for one place in the code, for the witnesses. -/
def onlyReversed (reversed : String) : Iter where
  order place _ := fun l => if place = reversed then l.reverse else l
  perm place n α l := by
    split
    · exact l.reverse_perm
    · exact List.Perm.refl l

/-- C146 without its hypothesis is false: with a negative ratio both directions of a conflict can win, and then the direction
that is looked at first stays. -/
theorem C146_negative_ratio :
    (fuzzyEdges .plain exMillis { preserve := 2, ratio := -1 } [[("a", 0), ("b", 1), ("a", 2)]] 0).map (fun r => r.2.parts) =
      some ([(0, "a"), (1, "b")], [(0, [(1, 1)]), (1, [])]) ∧
    (fuzzyEdges (onlyReversed "classes_to_ids") exMillis { preserve := 2, ratio := -1 } [[("a", 0), ("b", 1), ("a", 2)]] 0).map
        (fun r => r.2.parts) =
      some ([(0, "a"), (1, "b")], [(1, [(0, 1)]), (0, [])]) := by
  constructor <;> decide +kernel

/-- C146: a cutoff above one removes every edge, also the only one to an activity. -/
theorem C146_large_cutoff :
    (fuzzyEdges .plain exMillis { edgeCutoff := 2 } [[("a", 0), ("b", 1)]] 0).map (fun r => r.2.parts) =
      some ([(0, "a"), (1, "b")], [(0, [])]) := by
  decide +kernel

end Ficus.Rs
