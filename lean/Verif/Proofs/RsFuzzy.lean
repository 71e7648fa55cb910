import Verif.Spec.RsFuzzy
import Verif.Proofs.Dict
import Verif.Props.RsInfo
import Mathlib.Data.List.Induction
import Mathlib.Tactic.Linarith
import Mathlib.Tactic.Ring
import Mathlib.Algebra.BigOperators.Group.List.Basic
import Mathlib.Algebra.Order.Field.Basic

/-! Lemmas about the fuzzy miner of the backend. -/

namespace Ficus.Rs.Fz
open Ficus.Spec
variable {E : Type} [HasName E]

/-- What holds of all graphs of the miner. -/
structure FOk (g : FuzzyGraph) : Prop where
  nodes : g.nodes.WF
  conns : g.conns.WF
  inner : ∀ x c, g.conns.get? x = some c → c.WF
  ends : ∀ x y d, FuzzyEdge g x y = some d → x ∈ g.nodes.keys ∧ y ∈ g.nodes.keys

theorem connected_iff (g : FuzzyGraph) (x y : Nat) : g.connected x y = (FuzzyEdge g x y).isSome := by
  unfold FuzzyGraph.connected FuzzyEdge
  cases g.conns.get? x <;> simp [Dict.contains]

theorem connect_nodes (g : FuzzyGraph) (x y : Nat) (d : ℚ) : (g.connect x y d).nodes = g.nodes := by
  unfold FuzzyGraph.connect
  repeat' split
  all_goals rfl

theorem disconnect_nodes (g : FuzzyGraph) (x y : Nat) : (g.disconnect x y).nodes = g.nodes := by
  unfold FuzzyGraph.disconnect
  split <;> rfl

theorem connect_edge (g : FuzzyGraph) (x y : Nat) (d : ℚ) (hx : x ∈ g.nodes.keys) (hy : y ∈ g.nodes.keys) (u v : Nat) :
    FuzzyEdge (g.connect x y d) u v =
      if u = x ∧ v = y ∧ FuzzyEdge g x y = none then some d else FuzzyEdge g u v := by
  unfold FuzzyGraph.connect
  rw [connected_iff, if_pos ((Dict.contains_iff _ _).2 hx), if_pos ((Dict.contains_iff _ _).2 hy)]
  by_cases h : (FuzzyEdge g x y).isSome
  · rw [if_pos h, if_neg]
    rintro ⟨-, -, h'⟩; rw [h'] at h; simp at h
  · rw [if_neg h]
    have h' : FuzzyEdge g x y = none := by simpa using h
    cases hc : g.conns.get? x with
    | none =>
      simp only [FuzzyEdge, Dict.get?_set]
      by_cases hu : u = x
      · subst hu
        by_cases hv : v = y
        · subst hv; simp [hc, Dict.get?_cons]
        · have hv' : ¬ y = v := fun e => hv e.symm
          simp [hv, hc, Dict.get?_cons, hv']
      · have hu' : ¬ x = u := fun e => hu e.symm
        simp [hu, hu']
    | some c =>
      simp only [FuzzyEdge, Dict.get?_set]
      by_cases hu : u = x
      · subst hu
        rw [FuzzyEdge, hc] at h'
        by_cases hv : v = y
        · subst hv
          simp at h'
          simp [h', hc]
        · have hv' : ¬ y = v := fun e => hv e.symm
          simp [hv, hc, Dict.get?_set, hv']
      · have hu' : ¬ x = u := fun e => hu e.symm
        simp [hu, hu']

theorem disconnect_edge (g : FuzzyGraph) (x y u v : Nat) :
    FuzzyEdge (g.disconnect x y) u v = if u = x ∧ v = y then none else FuzzyEdge g u v := by
  unfold FuzzyGraph.disconnect
  cases hc : g.conns.get? x with
  | none =>
    simp only
    by_cases h : u = x ∧ v = y
    · rw [if_pos h, h.1, FuzzyEdge, hc]; rfl
    · rw [if_neg h]
  | some c =>
    simp only [FuzzyEdge, Dict.get?_set]
    by_cases hu : u = x
    · subst hu
      by_cases hv : v = y
      · subst hv; simp [Dict.get?_del]
      · simp only [hc, hv, and_false, if_false, if_true, Option.bind_some, Dict.get?_del]
        split
        · rename_i h; exact absurd h.symm (by simpa using hv)
        · rfl
    · have hu' : ¬ x = u := fun e => hu e.symm
      simp [hu, hu']

theorem connect_ok {g : FuzzyGraph} (h : FOk g) (x y : Nat) (d : ℚ) (hx : x ∈ g.nodes.keys) (hy : y ∈ g.nodes.keys) :
    FOk (g.connect x y d) := by
  refine ⟨by rw [connect_nodes]; exact h.nodes, ?_, ?_, ?_⟩
  · unfold FuzzyGraph.connect
    repeat' split
    all_goals first | exact h.conns | exact Dict.WF_set h.conns _ _
  · intro u c hc
    unfold FuzzyGraph.connect at hc
    repeat' split at hc
    all_goals first | exact h.inner u c hc | skip
    · rename_i c' hc'
      rw [Dict.get?_set] at hc
      split at hc
      · cases hc; exact Dict.WF_set (h.inner _ _ hc') _ _
      · exact h.inner u c hc
    · rw [Dict.get?_set] at hc
      split at hc
      · cases hc; simp [Dict.WF, Dict.keys]
      · exact h.inner u c hc
  · intro u v e he
    rw [connect_nodes]
    rw [connect_edge g x y d hx hy] at he
    split at he
    · rename_i hh; rw [hh.1, hh.2.1]; exact ⟨hx, hy⟩
    · exact h.ends u v e he

theorem disconnect_ok {g : FuzzyGraph} (h : FOk g) (x y : Nat) : FOk (g.disconnect x y) := by
  refine ⟨by rw [disconnect_nodes]; exact h.nodes, ?_, ?_, ?_⟩
  · unfold FuzzyGraph.disconnect
    split
    · exact Dict.WF_set h.conns _ _
    · exact h.conns
  · intro u c hc
    unfold FuzzyGraph.disconnect at hc
    split at hc
    · rename_i c' hc'
      rw [Dict.get?_set] at hc
      split at hc
      · cases hc; exact Dict.WF_del (h.inner _ _ hc') _
      · exact h.inner u c hc
    · exact h.inner u c hc
  · intro u v e he
    rw [disconnect_nodes]
    rw [disconnect_edge] at he
    split at he
    · cases he
    · exact h.ends u v e he

/-! ### The metrics -/

theorem unarySig_eq (it : Iter) (log : List (List E)) (c : String) :
    unarySig (createInfo it log) c = (namePlaces log c : ℚ) := by
  unfold unarySig namePlaces
  rw [(C110_counts it log none false).2.2.1 c]
  congr 2
  unfold keptNamesOf
  apply List.flatMap_congr
  intro t _
  simp [kept]

theorem binarySig_eq (it : Iter) (log : List (List E)) (a b : String) :
    binarySig (createInfo it log) a b = (followPlaces log a b : ℚ) := by
  unfold binarySig followPlaces
  rw [(C110_pairs it log none false a b).1]
  congr 2
  simp [neighbours, kept]

theorem relativeSig_eq (it : Iter) (p : FuzzyArgs) (log : List (List E)) (g : FuzzyGraph)
    (hg : (g.nodes.map Prod.snd).Perm (frequentNames p log)) (a b : String) :
    relativeSig (createInfo it log) g a b = relativeShare p log a b := by
  unfold relativeSig relativeShare
  have h1 : (g.nodes.map (fun n => binarySig (createInfo it log) a n.2)).sum =
      ((frequentNames p log).map (fun c => (followPlaces log a c : ℚ))).sum := by
    rw [← (hg.map (fun c => (followPlaces log a c : ℚ))).sum_eq, List.map_map]
    simp only [binarySig_eq]; rfl
  have h2 : (g.nodes.map (fun n => binarySig (createInfo it log) n.2 b)).sum =
      ((frequentNames p log).map (fun c => (followPlaces log c b : ℚ))).sum := by
    rw [← (hg.map (fun c => (followPlaces log c b : ℚ))).sum_eq, List.map_map]
    simp only [binarySig_eq]; rfl
  simp only [h1, h2]
  simp only [binarySig_eq]

/-- The last event named `a` or `b`, if it is an `a`. -/
def lastFirst (a b : String) (t : List E) : Option E :=
  ((t.filter (fun e => decide (name e = a ∨ name e = b))).getLast?).bind
    (fun e => if name e = a then some e else none)

theorem delaysOf_append (millis : E → E → Int) (a b : String) (t : List E) (e : E) :
    delaysOf millis a b (t ++ [e]) = delaysOf millis a b t ++
      (match lastFirst a b t with
        | some first => if name e = b ∧ name e ≠ a then [(millis e first : ℚ)] else []
        | none => []) := by
  unfold delaysOf
  rw [List.length_append, List.length_singleton, List.range_succ, List.filterMap_append]
  congr 1
  · apply List.filterMap_congr
    intro j hj
    have hj' : j < t.length := List.mem_range.1 hj
    rw [List.getElem?_append_left hj', List.take_append_of_le_length (by omega)]
  · simp only [List.filterMap_cons, List.filterMap_nil]
    have h1 : (t ++ [e])[t.length]? = some e := by simp
    have h2 : (t ++ [e]).take t.length = t := by simp
    rw [h1, h2]
    unfold lastFirst
    cases hl : (t.filter (fun e => decide (name e = a ∨ name e = b))).getLast? with
    | none => simp
    | some f =>
      simp only [Option.bind_some]
      by_cases hf : name f = a
      · by_cases hb : name e = b ∧ name e ≠ a
        · rw [if_pos ⟨hb.1, hb.2, hf⟩, if_pos hf]
          simp only [if_pos hb]
        · rw [if_neg (fun h => hb ⟨h.1, h.2.1⟩), if_pos hf]
          simp only [if_neg hb]
      · simp [hf]

theorem proximity_trace (millis : E → E → Int) (a b : String) (c : Nat) (r : ℚ) (t : List E) :
    t.foldl (proximityEvent millis a b) { count := c, result := r, last := none } =
      { count := c + (delaysOf millis a b t).length, result := r + (delaysOf millis a b t).sum,
        last := lastFirst a b t } := by
  induction t using List.reverseRecOn with
  | nil => simp [delaysOf, lastFirst]
  | append_singleton t e ih =>
    rw [List.foldl_append, ih, List.foldl_cons, List.foldl_nil, delaysOf_append]
    have hl : lastFirst a b (t ++ [e]) =
        if name e = a then some e else if name e = b then none else lastFirst a b t := by
      unfold lastFirst
      rw [List.filter_append]
      by_cases h1 : name e = a
      · simp [h1]
      · by_cases h2 : name e = b
        · have h1' : ¬ b = a := fun h => h1 (h2.trans h)
          simp [h2, h1']
        · simp [h1, h2]
    rw [hl]
    unfold proximityEvent
    by_cases h1 : name e = a
    · simp [h1]
      cases lastFirst a b t <;> simp
    · by_cases h2 : name e = b
      · cases hL : lastFirst a b t with
        | none =>
          have h3 : ¬ b = a := fun h => h1 (h2.trans h)
          simp [h2, h3]
        | some f =>
          have h3 : ¬ b = a := fun h => h1 (h2.trans h)
          simp [h2, h3, add_assoc]
      · cases hL : lastFirst a b t <;> simp [h1, h2]

theorem proximity_eq (millis : E → E → Int) (log : List (List E)) (a b : String) :
    proximity millis log a b = meanDelay millis log a b := by
  have key : ∀ (l : List (List E)) (c : Nat) (r : ℚ) (o : Option E),
      ∃ o', l.foldl (fun st trace => trace.foldl (proximityEvent millis a b) { st with last := none })
        ({ count := c, result := r, last := o } : Proximity E) =
        { count := c + (l.flatMap (delaysOf millis a b)).length, result := r + (l.flatMap (delaysOf millis a b)).sum,
          last := o' } := by
    intro l
    induction l with
    | nil => intro c r o; exact ⟨o, by simp⟩
    | cons t l ih =>
      intro c r o
      rw [List.foldl_cons]
      simp only
      rw [proximity_trace]
      obtain ⟨o', ho'⟩ := ih (c + (delaysOf millis a b t).length) (r + (delaysOf millis a b t).sum) (lastFirst a b t)
      refine ⟨o', ho'.trans ?_⟩
      simp [List.flatMap_cons, add_assoc]
  obtain ⟨o', ho'⟩ := key log 0 0 none
  unfold proximity meanDelay
  rw [ho']
  simp only [zero_add]
  split
  · rfl
  · rename_i h
    have h' : (log.flatMap (delaysOf millis a b)).length = 0 := by simpa using h
    rw [h']; simp

theorem utility_eq (it : Iter) (millis : E → E → Int) (p : FuzzyArgs) (log : List (List E)) (a b : String) :
    utility millis log (createInfo it log) p.rate a b = usefulness millis p log a b := by
  unfold utility usefulness
  rw [binarySig_eq, proximity_eq]

end Ficus.Rs.Fz
