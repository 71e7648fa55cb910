import Verif.Proofs.RsFuzzy
import Verif.Proofs.RsHeuristic
import Verif.Proofs.RsMutations

/-! The edges of a fuzzy graph before the clusters. -/

namespace Ficus.Rs.Fz
open Ficus.Spec
variable {E : Type} [HasName E]

/-! ### The nodes -/

/-- What holds while nodes are added. -/
structure Nodes (lo : Nat) (next : Nat) (g : FuzzyGraph) (ids : Dict String Nat) : Prop where
  swap : ids = g.nodes.map (fun e => (e.2, e.1))
  names : (g.nodes.map Prod.snd).Nodup
  wf : g.nodes.WF
  bound : ∀ e ∈ g.nodes, lo ≤ e.1 ∧ e.1 < next
  le : lo ≤ next

theorem Nodes.ids_keys {lo next : Nat} {g : FuzzyGraph} {ids : Dict String Nat} (h : Nodes lo next g ids) :
    ids.keys = g.nodes.map Prod.snd := by
  rw [h.swap, Dict.keys, List.map_map]; rfl

theorem Nodes.get? {lo next : Nat} {g : FuzzyGraph} {ids : Dict String Nat} (h : Nodes lo next g ids) (a : String) (x : Nat) :
    ids.get? a = some x ↔ (x, a) ∈ g.nodes := by
  have hwf : ids.WF := by unfold Dict.WF; rw [h.ids_keys]; exact h.names
  rw [Dict.get?_eq_some_iff hwf]
  rw [h.swap]
  simp [and_comm]

theorem addFuzzyNodes_spec (i : Info) (p : FuzzyArgs) (lo : Nat) (cs : List String) : ∀ (next : Nat) (g : FuzzyGraph)
    (ids : Dict String Nat), Nodes lo next g ids → cs.Nodup → (∀ c ∈ cs, c ∉ g.nodes.map Prod.snd) →
    ∃ next' g' ids', addFuzzyNodes i p cs next g ids = (next', g', ids') ∧ Nodes lo next' g' ids' ∧ g'.conns = g.conns ∧
      g'.nodes.map Prod.snd = g.nodes.map Prod.snd ++ cs.filter (fun c => decide (p.unary < unarySig i c)) := by
  induction cs with
  | nil => intro next g ids h _ _; exact ⟨next, g, ids, rfl, h, rfl, by simp⟩
  | cons c cs ih =>
    intro next g ids h hn hd
    rw [List.nodup_cons] at hn
    simp only [addFuzzyNodes]
    by_cases hk : p.unary < unarySig i c
    · rw [if_pos hk]
      have hc : c ∉ g.nodes.map Prod.snd := hd c (by simp)
      have hnext : next ∉ g.nodes.keys := by
        intro hm
        obtain ⟨e, he, hee⟩ := List.mem_map.1 hm
        have := (h.bound e he).2
        omega
      have hset : g.nodes.set next c = g.nodes ++ [(next, c)] := set_append_of_notMem _ _ _ hnext
      have hids : ids.set c next = ids ++ [(c, next)] := by
        apply set_append_of_notMem
        rw [h.ids_keys]; exact hc
      have hN : Nodes lo (next + 1) { g with nodes := g.nodes.set next c } (ids.set c next) := by
        refine ⟨?_, ?_, ?_, ?_, ?_⟩
        · simp only [hset, hids]
          rw [List.map_append, ← h.swap]
          simp
        · simp only [hset, List.map_append]
          rw [List.nodup_append]
          refine ⟨h.names, by simp, ?_⟩
          intro a ha b hb
          simp at hb; subst hb
          intro hab; exact hc (hab ▸ ha)
        · exact Dict.WF_set h.wf _ _
        · intro e he
          simp only [hset, List.mem_append, List.mem_singleton] at he
          rcases he with he | he
          · have := h.bound e he; omega
          · subst he; exact ⟨h.le, by simp⟩
        · have := h.le; omega
      obtain ⟨n', g', ids', h1, h2, h3, h4⟩ := ih (next + 1) _ _ hN hn.2 (by
        intro d hdm
        simp only [hset, List.map_append, List.mem_append, List.map_cons, List.map_nil, List.mem_singleton]
        rintro (hx | hx)
        · exact hd d (List.mem_cons_of_mem _ hdm) hx
        · subst hx; exact hn.1 hdm)
      refine ⟨n', g', ids', h1, h2, h3, ?_⟩
      rw [h4]
      simp [hset, hk]
    · rw [if_neg hk]
      obtain ⟨n', g', ids', h1, h2, h3, h4⟩ := ih next g ids h hn.2 (fun d hd' => hd d (List.mem_cons_of_mem _ hd'))
      refine ⟨n', g', ids', h1, h2, h3, ?_⟩
      rw [h4]
      simp [hk]

/-! ### Edges given by the names -/

/-- The graph has the given nodes and the edges between the names of `S`. -/
structure Holds (nodes : Dict Nat String) (sig : String → String → ℚ) (S : String → String → Prop) (g : FuzzyGraph) :
    Prop where
  nodes_eq : g.nodes = nodes
  ok : FOk g
  edge : ∀ x a y b, (x, a) ∈ nodes → (y, b) ∈ nodes → ∀ d, FuzzyEdge g x y = some d ↔ S a b ∧ d = sig a b

theorem Holds.congr {nodes : Dict Nat String} {sig : String → String → ℚ} {S T : String → String → Prop} {g : FuzzyGraph}
    (h : Holds nodes sig S g) (hST : ∀ a b, a ∈ nodes.map Prod.snd → b ∈ nodes.map Prod.snd → (S a b ↔ T a b)) :
    Holds nodes sig T g := by
  refine ⟨h.nodes_eq, h.ok, ?_⟩
  intro x a y b hx hy d
  rw [h.edge x a y b hx hy, hST a b (List.mem_map.2 ⟨_, hx, rfl⟩) (List.mem_map.2 ⟨_, hy, rfl⟩)]

/-- The names of the nodes are different. -/
structure Named (nodes : Dict Nat String) : Prop where
  wf : nodes.WF
  names : (nodes.map Prod.snd).Nodup

theorem Named.id_eq {nodes : Dict Nat String} (h : Named nodes) {x y : Nat} {a : String} (hx : (x, a) ∈ nodes)
    (hy : (y, a) ∈ nodes) : x = y := by
  have := List.inj_on_of_nodup_map h.names hx hy rfl
  exact (Prod.mk.inj this).1

theorem Named.name_eq {nodes : Dict Nat String} (h : Named nodes) {x : Nat} {a b : String} (hx : (x, a) ∈ nodes)
    (hy : (x, b) ∈ nodes) : a = b := by
  have := List.inj_on_of_nodup_map h.wf hx hy rfl
  exact (Prod.mk.inj this).2

theorem Named.iff {nodes : Dict Nat String} (h : Named nodes) {x y : Nat} {a b : String} (hx : (x, a) ∈ nodes)
    (hy : (y, b) ∈ nodes) : x = y ↔ a = b :=
  ⟨fun e => h.name_eq hx (e ▸ hy), fun e => h.id_eq hx (e ▸ hy)⟩

theorem mem_keys_of_mem {nodes : Dict Nat String} {x : Nat} {a : String} (h : (x, a) ∈ nodes) : x ∈ nodes.keys :=
  List.mem_map.2 ⟨_, h, rfl⟩

theorem connectStep_holds {nodes : Dict Nat String} (hN : Named nodes) (i : Info) (p : FuzzyArgs) (ids : Dict String Nat)
    (hids : ∀ a x, ids.get? a = some x ↔ (x, a) ∈ nodes) (S : String → String → Prop) (g : FuzzyGraph)
    (h : Holds nodes (binarySig i) S g) (u v : String) (hu : u ∈ nodes.map Prod.snd) (hv : v ∈ nodes.map Prod.snd) :
    ∃ g', connectStep i p ids g (u, v) = some g' ∧
      Holds nodes (binarySig i) (fun a b => S a b ∨ (a = u ∧ b = v ∧ p.binary < binarySig i a b)) g' := by
  obtain ⟨⟨x, u'⟩, hxu, rfl⟩ := List.mem_map.1 hu
  obtain ⟨⟨y, v'⟩, hyv, rfl⟩ := List.mem_map.1 hv
  simp only [connectStep]
  by_cases hb : p.binary < binarySig i u' v'
  · rw [if_pos hb, (hids u' x).2 hxu, (hids v' y).2 hyv]
    refine ⟨_, rfl, ?_, ?_, ?_⟩
    · rw [connect_nodes]; exact h.nodes_eq
    · apply connect_ok h.ok <;> rw [h.nodes_eq]
      · exact mem_keys_of_mem hxu
      · exact mem_keys_of_mem hyv
    · intro x' a y' b hxa hyb d
      rw [connect_edge _ _ _ _ (by rw [h.nodes_eq]; exact mem_keys_of_mem hxu) (by rw [h.nodes_eq]; exact mem_keys_of_mem hyv)]
      have e1 := hN.iff hxa hxu
      have e2 := hN.iff hyb hyv
      by_cases hc : x' = x ∧ y' = y ∧ FuzzyEdge g x y = none
      · rw [if_pos hc]
        obtain rfl := e1.1 hc.1
        obtain rfl := e2.1 hc.2.1
        constructor
        · intro hd; cases hd; exact ⟨Or.inr ⟨rfl, rfl, hb⟩, rfl⟩
        · rintro ⟨-, rfl⟩; rfl
      · rw [if_neg hc, h.edge x' a y' b hxa hyb]
        constructor
        · rintro ⟨hs, hd⟩; exact ⟨Or.inl hs, hd⟩
        · rintro ⟨hs | ⟨rfl, rfl, -⟩, hd⟩
          · exact ⟨hs, hd⟩
          · refine ⟨?_, hd⟩
            have hx' := e1.2 rfl
            have hy' := e2.2 rfl
            cases hE : FuzzyEdge g x y with
            | none => exact absurd ⟨hx', hy', hE⟩ hc
            | some d' => exact ((h.edge x _ y _ hxu hyv d').1 hE).1
  · rw [if_neg hb]
    refine ⟨g, rfl, h.congr ?_⟩
    intro a b _ _
    constructor
    · exact Or.inl
    · rintro (hs | ⟨rfl, rfl, hb'⟩)
      · exact hs
      · exact absurd hb' hb

theorem fold_steps {A G : Type} (f : G → A → Option G) (Good : A → Prop) (Inv : (A → Prop) → G → Prop)
    (step : ∀ (P : A → Prop) g a, Inv P g → Good a → ∃ g', f g a = some g' ∧ Inv (fun b => P b ∨ b = a) g')
    (congr : ∀ P Q g, (∀ a, P a ↔ Q a) → Inv P g → Inv Q g) (l : List A) : ∀ (P : A → Prop) (g : G), Inv P g →
    (∀ a ∈ l, Good a) → ∃ g', l.foldlM f g = some g' ∧ Inv (fun b => P b ∨ b ∈ l) g' := by
  induction l with
  | nil => intro P g h _; exact ⟨g, rfl, congr _ _ _ (by simp) h⟩
  | cons a l ih =>
    intro P g h hl
    obtain ⟨g1, h1, h2⟩ := step P g a h (hl a (by simp))
    obtain ⟨g2, h3, h4⟩ := ih _ g1 h2 (fun b hb => hl b (List.mem_cons_of_mem _ hb))
    refine ⟨g2, by rw [List.foldlM_cons, h1]; exact h3, congr _ _ _ ?_ h4⟩
    intro b; simp [or_assoc]

theorem mem_keyPairs (it : Iter) (n : Nat) (ids : Dict String Nat) (a b : String) :
    (a, b) ∈ keyPairs it n ids ↔ a ∈ ids.keys ∧ b ∈ ids.keys := by
  unfold keyPairs
  simp only [List.mem_flatMap, List.mem_map, (it.perm _ _ _).mem_iff, Prod.mk.injEq]
  constructor
  · rintro ⟨a', ha, b', hb, rfl, rfl⟩; exact ⟨ha, hb⟩
  · rintro ⟨ha, hb⟩; exact ⟨a, ha, b, hb, rfl, rfl⟩

theorem frequentNames_perm (it : Iter) (p : FuzzyArgs) (log : List (List E)) :
    (((createInfo it log).allClasses it 0).filter (fun c => decide (p.unary < unarySig (createInfo it log) c))).Perm
      (frequentNames p log) := by
  unfold frequentNames
  simp only [unarySig_eq]
  apply List.Perm.filter
  rw [List.perm_ext_iff_of_nodup (allClasses_nodup it it 0 log) (List.nodup_dedup _)]
  intro c
  rw [mem_allClasses, List.mem_dedup, namesOf, List.flatMap_def]

theorem initializeFuzzy_spec (it : Iter) (p : FuzzyArgs) (log : List (List E)) (next : Nat) :
    ∃ next' g ids, initializeFuzzy it (createInfo it log) p next = some (next', g, ids) ∧ Nodes next next' g ids ∧
      (g.nodes.map Prod.snd).Perm (frequentNames p log) ∧
      Holds g.nodes (binarySig (createInfo it log)) (Frequent p log) g := by
  obtain ⟨next', g, ids, h1, h2, h3, h4⟩ := addFuzzyNodes_spec (createInfo it log) p next
    ((createInfo it log).allClasses it 0) next {} [] ⟨rfl, by simp, by simp [Dict.WF, Dict.keys], by simp, le_refl _⟩
    (allClasses_nodup it it 0 log) (by simp)
  have hN : Named g.nodes := ⟨h2.wf, h2.names⟩
  have h0 : Holds g.nodes (binarySig (createInfo it log)) (fun _ _ => False) g := by
    have hno : ∀ x y, FuzzyEdge g x y = none := by intro x y; unfold FuzzyEdge; rw [h3]; rfl
    refine ⟨rfl, ⟨h2.wf, by rw [h3]; simp [Dict.WF, Dict.keys], by rw [h3]; simp, ?_⟩, ?_⟩
    · intro x y d h; rw [hno] at h; cases h
    · intro x a y b _ _ d; rw [hno]; simp
  obtain ⟨g', h5, h6⟩ := fold_steps (connectStep (createInfo it log) p ids)
    (fun ab : String × String => ab.1 ∈ g.nodes.map Prod.snd ∧ ab.2 ∈ g.nodes.map Prod.snd)
    (fun P g' => Holds g.nodes (binarySig (createInfo it log))
      (fun a b => P (a, b) ∧ p.binary < binarySig (createInfo it log) a b) g')
    (by
      rintro P g1 ⟨u, v⟩ hI ⟨hu, hv⟩
      obtain ⟨g2, e1, e2⟩ := connectStep_holds hN _ p ids h2.get? _ g1 hI u v hu hv
      refine ⟨g2, e1, e2.congr ?_⟩
      intro a b _ _
      constructor
      · rintro (⟨ha, hb⟩ | ⟨rfl, rfl, hb⟩)
        · exact ⟨Or.inl ha, hb⟩
        · exact ⟨Or.inr rfl, hb⟩
      · rintro ⟨ha | ha, hb⟩
        · exact Or.inl ⟨ha, hb⟩
        · cases ha; exact Or.inr ⟨rfl, rfl, hb⟩)
    (by
      intro P Q g1 hPQ hI
      exact hI.congr (fun a b _ _ => by rw [hPQ]))
    (keyPairs it 0 ids) (fun _ => False) g (h0.congr (by simp)) (by
      rintro ⟨a, b⟩ hab
      rw [mem_keyPairs, h2.ids_keys] at hab
      exact hab)
  refine ⟨next', g', ids, ?_, ?_, ?_, ?_⟩
  · unfold initializeFuzzy
    rw [h1]
    simp only
    rw [h5]; rfl
  · have e := h6.nodes_eq
    exact ⟨by rw [e]; exact h2.swap, by rw [e]; exact h2.names, by rw [e]; exact h2.wf, by rw [e]; exact h2.bound, h2.le⟩
  · rw [h6.nodes_eq, h4]
    simpa using frequentNames_perm it p log
  · rw [h6.nodes_eq]
    apply h6.congr
    intro a b ha hb
    simp only [mem_keyPairs, h2.ids_keys]
    unfold Frequent
    rw [binarySig_eq]
    constructor
    · rintro ⟨-, h⟩; exact h
    · intro h; exact ⟨Or.inr ⟨ha, hb⟩, h⟩

/-! ### The conflicts -/

/-- One direction wins a conflict. -/
def Wins (ratio : ℚ) (s t : Option ℚ) : Prop := ∃ s' t', s = some s' ∧ t = some t' ∧ ratio < s' - t'

/-- One of the significances is too small. -/
def Small (preserve : ℚ) (s t : Option ℚ) : Prop := (∃ s', s = some s' ∧ s' < preserve) ∨ (∃ t', t = some t' ∧ t' < preserve)

theorem ltNum_iff (s : Option ℚ) (b : ℚ) : ltNum s b = true ↔ ∃ s', s = some s' ∧ s' < b := by
  cases s <;> simp [ltNum]

open Classical in
theorem resolvePair_edge (p : FuzzyArgs) (hr : 0 ≤ p.ratio) (s t : Option ℚ) (x y : Nat) (g : FuzzyGraph) (u v : Nat) :
    FuzzyEdge (resolvePair p s t x y g) u v =
      if Small p.preserve s t ∧ ((u = x ∧ v = y ∧ ¬ Wins p.ratio s t) ∨ (u = y ∧ v = x ∧ ¬ Wins p.ratio t s)) then none
      else FuzzyEdge g u v := by
  unfold resolvePair
  have hsm : (ltNum s p.preserve || ltNum t p.preserve) = true ↔ Small p.preserve s t := by
    rw [Bool.or_eq_true, ltNum_iff, ltNum_iff]; rfl
  by_cases hS : Small p.preserve s t
  · rw [if_pos (hsm.2 hS)]
    simp only [hS, true_and]
    have both : ¬ Wins p.ratio s t → ¬ Wins p.ratio t s →
        FuzzyEdge ((g.disconnect x y).disconnect y x) u v =
          if (u = x ∧ v = y ∧ ¬ Wins p.ratio s t) ∨ (u = y ∧ v = x ∧ ¬ Wins p.ratio t s) then none else FuzzyEdge g u v := by
      intro h1 h2
      rw [disconnect_edge, disconnect_edge]
      simp only [h1, h2, not_false_eq_true, and_true]
      by_cases a1 : u = y ∧ v = x
      · rw [if_pos a1, if_pos (Or.inr a1)]
      · rw [if_neg a1]
        by_cases a2 : u = x ∧ v = y
        · rw [if_pos a2, if_pos (Or.inl a2)]
        · rw [if_neg a2, if_neg (by tauto)]
    match s, t with
    | some s', some t' =>
      simp only
      by_cases ho : p.ratio < |s' - t'|
      · rw [if_pos ho]
        by_cases hl : s' < t'
        · rw [if_pos hl, disconnect_edge]
          have w1 : ¬ Wins p.ratio (some s') (some t') := by
            rintro ⟨a, b, ha, hb, hab⟩; cases ha; cases hb; linarith
          have w2 : Wins p.ratio (some t') (some s') := by
            refine ⟨t', s', rfl, rfl, ?_⟩
            rw [abs_of_neg (by linarith)] at ho; linarith
          simp [w1, w2]
        · rw [if_neg hl, disconnect_edge]
          have w1 : Wins p.ratio (some s') (some t') := by
            refine ⟨s', t', rfl, rfl, ?_⟩
            rwa [abs_of_nonneg (by linarith)] at ho
          have w2 : ¬ Wins p.ratio (some t') (some s') := by
            rintro ⟨a, b, ha, hb, hab⟩; cases ha; cases hb; linarith
          simp [w1, w2]
      · rw [if_neg ho]
        apply both
        · rintro ⟨a, b, ha, hb, hab⟩; cases ha; cases hb
          exact ho (lt_of_lt_of_le hab (le_abs_self _))
        · rintro ⟨a, b, ha, hb, hab⟩; cases ha; cases hb
          apply ho
          rw [abs_sub_comm]
          exact lt_of_lt_of_le hab (le_abs_self _)
    | some s', none => exact both (by rintro ⟨a, b, ha, hb, -⟩; cases hb) (by rintro ⟨a, b, ha, hb, -⟩; cases ha)
    | none, some t' => exact both (by rintro ⟨a, b, ha, hb, -⟩; cases ha) (by rintro ⟨a, b, ha, hb, -⟩; cases hb)
    | none, none => exact both (by rintro ⟨a, b, ha, hb, -⟩; cases ha) (by rintro ⟨a, b, ha, hb, -⟩; cases ha)
  · rw [if_neg (fun h => hS (hsm.1 h)), if_neg (fun h => hS h.1)]

theorem resolvePair_keeps (p : FuzzyArgs) (s t : Option ℚ) (x y : Nat) (g : FuzzyGraph) (h : FOk g) :
    (resolvePair p s t x y g).nodes = g.nodes ∧ FOk (resolvePair p s t x y g) ∧
      ∀ u v d, FuzzyEdge (resolvePair p s t x y g) u v = some d → FuzzyEdge g u v = some d := by
  have d1 : ∀ a b, (g.disconnect a b).nodes = g.nodes ∧ FOk (g.disconnect a b) ∧
      ∀ u v d, FuzzyEdge (g.disconnect a b) u v = some d → FuzzyEdge g u v = some d := by
    intro a b
    refine ⟨disconnect_nodes _ _ _, disconnect_ok h _ _, ?_⟩
    intro u v d; rw [disconnect_edge]; split <;> simp
  have d2 : ∀ a b a' b', ((g.disconnect a b).disconnect a' b').nodes = g.nodes ∧ FOk ((g.disconnect a b).disconnect a' b') ∧
      ∀ u v d, FuzzyEdge ((g.disconnect a b).disconnect a' b') u v = some d → FuzzyEdge g u v = some d := by
    intro a b a' b'
    refine ⟨by rw [disconnect_nodes, disconnect_nodes], disconnect_ok (disconnect_ok h _ _) _ _, ?_⟩
    intro u v d; rw [disconnect_edge, disconnect_edge]; split <;> (try split) <;> simp
  unfold resolvePair
  repeat' split
  all_goals first | exact d1 _ _ | exact d2 _ _ _ _ | exact ⟨rfl, h, fun _ _ _ he => he⟩


theorem resolveStep_ok {nodes : Dict Nat String} (i : Info) (p : FuzzyArgs) (ids : Dict String Nat)
    (hids : ∀ a x, ids.get? a = some x ↔ (x, a) ∈ nodes) (g : FuzzyGraph) (hn : g.nodes = nodes) (hok : FOk g)
    (u v : String) (hu : u ∈ nodes.map Prod.snd) (hv : v ∈ nodes.map Prod.snd) :
    ∃ g', resolveStep i p ids g (u, v) = some g' ∧ g'.nodes = nodes ∧ FOk g' := by
  obtain ⟨⟨x, u'⟩, hxu, rfl⟩ := List.mem_map.1 hu
  obtain ⟨⟨y, v'⟩, hyv, rfl⟩ := List.mem_map.1 hv
  simp only [resolveStep, (hids u' x).2 hxu, (hids v' y).2 hyv]
  simp only [Option.bind_eq_bind, Option.bind_some]
  split
  · have := resolvePair_keeps p (relativeSig i g u' v') (relativeSig i g v' u') x y g hok
    exact ⟨_, rfl, this.1.trans hn, this.2.1⟩
  · exact ⟨g, rfl, hn, hok⟩

theorem resolveConflicts_ok {lo next : Nat} (it : Iter) (i : Info) (p : FuzzyArgs) (ids : Dict String Nat) (g : FuzzyGraph)
    (h : Nodes lo next g ids) (hok : FOk g) :
    ∃ g', resolveConflicts it i p ids g = some g' ∧ g'.nodes = g.nodes ∧ FOk g' := by
  unfold resolveConflicts
  obtain ⟨g', h1, h2⟩ := fold_steps (resolveStep i p ids)
    (fun ab : String × String => ab.1 ∈ g.nodes.map Prod.snd ∧ ab.2 ∈ g.nodes.map Prod.snd)
    (fun _ g' => g'.nodes = g.nodes ∧ FOk g')
    (by
      rintro P g1 ⟨u, v⟩ ⟨hn, hk⟩ ⟨hu, hv⟩
      exact resolveStep_ok i p ids h.get? g1 hn hk u v hu hv)
    (fun _ _ _ _ hI => hI)
    (keyPairs it 1 ids) (fun _ => False) g ⟨rfl, hok⟩ (by
      rintro ⟨a, b⟩ hab
      rw [mem_keyPairs, h.ids_keys] at hab
      exact hab)
  exact ⟨g', h1, h2⟩

theorem conflict_symm {p : FuzzyArgs} {log : List (List E)} {a b : String} (h : InConflict p log a b) :
    InConflict p log b a := ⟨h.2.1, h.1, h.2.2.symm⟩

theorem resolveStep_holds {nodes : Dict Nat String} (hN : Named nodes) (it : Iter) (p : FuzzyArgs) (hr : 0 ≤ p.ratio)
    (log : List (List E)) (hperm : (nodes.map Prod.snd).Perm (frequentNames p log)) (ids : Dict String Nat)
    (hids : ∀ a x, ids.get? a = some x ↔ (x, a) ∈ nodes) (P : String × String → Prop) (g : FuzzyGraph)
    (h : Holds nodes (binarySig (createInfo it log)) (fun a b => Frequent p log a b ∧
      ((P (a, b) ∨ P (b, a)) → InConflict p log a b → Wins p.ratio (relativeShare p log a b) (relativeShare p log b a))) g)
    (u v : String) (hu : u ∈ nodes.map Prod.snd) (hv : v ∈ nodes.map Prod.snd) :
    ∃ g', resolveStep (createInfo it log) p ids g (u, v) = some g' ∧
      Holds nodes (binarySig (createInfo it log)) (fun a b => Frequent p log a b ∧
        (((P (a, b) ∨ (a, b) = (u, v)) ∨ (P (b, a) ∨ (b, a) = (u, v))) → InConflict p log a b →
          Wins p.ratio (relativeShare p log a b) (relativeShare p log b a))) g' := by
  obtain ⟨⟨x, u'⟩, hxu, rfl⟩ := List.mem_map.1 hu
  obtain ⟨⟨y, v'⟩, hyv, rfl⟩ := List.mem_map.1 hv
  simp only [resolveStep, (hids u' x).2 hxu, (hids v' y).2 hyv]
  simp only [Option.bind_eq_bind, Option.bind_some]
  have hg : (g.nodes.map Prod.snd).Perm (frequentNames p log) := by rw [h.nodes_eq]; exact hperm
  rw [relativeSig_eq it p log g hg, relativeSig_eq it p log g hg]
  have hsig : ∀ {x' y' a b}, (x', a) ∈ nodes → (y', b) ∈ nodes → ((FuzzyEdge g x' y').isSome ↔ (Frequent p log a b ∧
      ((P (a, b) ∨ P (b, a)) → InConflict p log a b → Wins p.ratio (relativeShare p log a b) (relativeShare p log b a)))) := by
    intro x' y' a b hx' hy'
    rw [Option.isSome_iff_exists]
    constructor
    · rintro ⟨d, hd⟩; exact ((h.edge _ _ _ _ hx' hy' d).1 hd).1
    · intro hS; exact ⟨_, (h.edge _ _ _ _ hx' hy' _).2 ⟨hS, rfl⟩⟩
  split
  · rename_i hbi
    rw [connected_iff, connected_iff, Bool.and_eq_true] at hbi
    obtain ⟨b1, b2⟩ := hbi
    rw [hsig hxu hyv] at b1
    rw [hsig hyv hxu] at b2
    have hk := resolvePair_keeps p (relativeShare p log u' v') (relativeShare p log v' u') x y g h.ok
    refine ⟨_, rfl, hk.1.trans h.nodes_eq, hk.2.1, ?_⟩
    intro x' a y' b hxa hyb d
    rw [resolvePair_edge p hr]
    have e1 := hN.iff hxa hxu
    have e2 := hN.iff hyb hyv
    have e3 := hN.iff hxa hyv
    have e4 := hN.iff hyb hxu
    have hsm : Small p.preserve (relativeShare p log u' v') (relativeShare p log v' u') ↔ InConflict p log u' v' :=
      ⟨fun hs => ⟨b1.1, b2.1, hs⟩, fun hc => hc.2.2⟩
    split
    · rename_i hc
      rw [hsm, e1, e2, e3, e4] at hc
      constructor
      · intro hd; cases hd
      · rintro ⟨⟨-, hW⟩, -⟩
        exfalso
        obtain ⟨hcon, (⟨rfl, rfl, hw⟩ | ⟨rfl, rfl, hw⟩)⟩ := hc
        · exact hw (hW (Or.inl (Or.inr rfl)) hcon)
        · exact hw (hW (Or.inr (Or.inr rfl)) (conflict_symm hcon))
    · rename_i hc
      rw [hsm, e1, e2, e3, e4] at hc
      rw [h.edge x' a y' b hxa hyb]
      constructor
      · rintro ⟨⟨hF, hW⟩, hd⟩
        refine ⟨⟨hF, ?_⟩, hd⟩
        rintro ((hp | hp) | (hp | hp)) hcon
        · exact hW (Or.inl hp) hcon
        · cases hp
          by_contra hw
          exact hc ⟨hcon, Or.inl ⟨rfl, rfl, hw⟩⟩
        · exact hW (Or.inr hp) hcon
        · cases hp
          by_contra hw
          exact hc ⟨(conflict_symm hcon), Or.inr ⟨rfl, rfl, hw⟩⟩
      · rintro ⟨⟨hF, hW⟩, hd⟩
        refine ⟨⟨hF, ?_⟩, hd⟩
        rintro (hp | hp) hcon
        · exact hW (Or.inl (Or.inl hp)) hcon
        · exact hW (Or.inr (Or.inl hp)) hcon
  · rename_i hbi
    refine ⟨g, rfl, h.congr ?_⟩
    rw [connected_iff, connected_iff, Bool.and_eq_true, hsig hxu hyv, hsig hyv hxu] at hbi
    have hnc : InConflict p log u' v' → (P (u', v') ∨ P (v', u')) := by
      intro hcon
      by_contra hp
      exact hbi ⟨⟨hcon.1, fun hp' => absurd hp' hp⟩, ⟨hcon.2.1, fun hp' => absurd hp'.symm hp⟩⟩
    intro a b _ _
    constructor
    · rintro ⟨hF, hW⟩
      refine ⟨hF, ?_⟩
      rintro ((hp | hp) | (hp | hp)) hcon
      · exact hW (Or.inl hp) hcon
      · cases hp; exact hW (hnc hcon) hcon
      · exact hW (Or.inr hp) hcon
      · cases hp; exact hW (hnc (conflict_symm hcon)).symm hcon
    · rintro ⟨hF, hW⟩
      refine ⟨hF, ?_⟩
      rintro (hp | hp) hcon
      · exact hW (Or.inl (Or.inl hp)) hcon
      · exact hW (Or.inr (Or.inl hp)) hcon

theorem resolveConflicts_spec {lo next : Nat} (it : Iter) (p : FuzzyArgs) (hr : 0 ≤ p.ratio) (log : List (List E))
    (ids : Dict String Nat) (g : FuzzyGraph) (hN : Nodes lo next g ids)
    (hperm : (g.nodes.map Prod.snd).Perm (frequentNames p log))
    (h : Holds g.nodes (binarySig (createInfo it log)) (Frequent p log) g) :
    ∃ g', resolveConflicts it (createInfo it log) p ids g = some g' ∧
      Holds g.nodes (binarySig (createInfo it log)) (Resolved p log) g' := by
  unfold resolveConflicts
  obtain ⟨g', h1, h2⟩ := fold_steps (resolveStep (createInfo it log) p ids)
    (fun ab : String × String => ab.1 ∈ g.nodes.map Prod.snd ∧ ab.2 ∈ g.nodes.map Prod.snd)
    (fun P g' => Holds g.nodes (binarySig (createInfo it log)) (fun a b => Frequent p log a b ∧
      ((P (a, b) ∨ P (b, a)) → InConflict p log a b → Wins p.ratio (relativeShare p log a b) (relativeShare p log b a))) g')
    (by
      rintro P g1 ⟨u, v⟩ hI ⟨hu, hv⟩
      exact resolveStep_holds ⟨hN.wf, hN.names⟩ it p hr log hperm ids hN.get? P g1 hI u v hu hv)
    (by
      intro P Q g1 hPQ hI
      exact hI.congr (fun a b _ _ => by rw [hPQ, hPQ]))
    (keyPairs it 1 ids) (fun _ => False) g (h.congr (by simp)) (by
      rintro ⟨a, b⟩ hab
      rw [mem_keyPairs, hN.ids_keys] at hab
      exact hab)
  refine ⟨g', h1, h2.congr ?_⟩
  intro a b ha hb
  have : (a, b) ∈ keyPairs it 1 ids := by rw [mem_keyPairs, hN.ids_keys]; exact ⟨ha, hb⟩
  constructor
  · rintro ⟨hF, hW⟩
    exact ⟨hF, fun hc => hW (Or.inl (Or.inr this)) hc⟩
  · rintro ⟨hF, hW⟩
    exact ⟨hF, fun _ hc => hW hc⟩

/-! ### The filter of edges -/

theorem mem_insertNat (s : List Nat) (x y : Nat) : y ∈ insertNat s x ↔ y ∈ s ∨ y = x := by
  unfold insertNat
  split
  · constructor
    · exact Or.inl
    · rintro (h | rfl) <;> assumption
  · simp

theorem insertNat_nodup {s : List Nat} (h : s.Nodup) (x : Nat) : (insertNat s x).Nodup := by
  unfold insertNat
  split
  · exact h
  · rename_i hx
    rw [List.nodup_append]
    refine ⟨h, by simp, ?_⟩
    intro a ha b hb
    simp at hb; subst hb
    intro e; exact hx (e ▸ ha)

theorem insertNat_ne_nil (s : List Nat) (x : Nat) : insertNat s x ≠ [] := by
  unfold insertNat
  split
  · rename_i h; intro e; rw [e] at h; cases h
  · simp

theorem incomingSets_spec (edges : List (Nat × Nat)) :
    (incomingSets edges).WF ∧ ∀ y, (∀ s, (incomingSets edges).get? y = some s → s ≠ []) ∧
      ∀ x, (x, y) ∈ edges ↔ ∃ s, (incomingSets edges).get? y = some s ∧ x ∈ s := by
  induction edges using List.reverseRecOn with
  | nil => exact ⟨by simp [incomingSets, Dict.WF, Dict.keys], fun y => ⟨by simp [incomingSets], by simp [incomingSets]⟩⟩
  | append_singleton l e ih =>
    obtain ⟨u, v⟩ := e
    obtain ⟨hwf, ih⟩ := ih
    have hstep : incomingSets (l ++ [(u, v)]) =
        (incomingSets l).set v (match (incomingSets l).get? v with | some s => insertNat s u | none => [u]) := by
      unfold incomingSets
      rw [List.foldl_append, List.foldl_cons, List.foldl_nil]
      split <;> rename_i h <;> simp only at h <;> simp only [h]
    rw [hstep]
    refine ⟨Dict.WF_set hwf _ _, ?_⟩
    intro y
    rw [Dict.get?_set]
    by_cases hv : v = y
    · subst hv
      rw [if_pos rfl]
      constructor
      · intro s hs
        cases hs
        split
        · exact insertNat_ne_nil _ _
        · simp
      · intro x
        rw [List.mem_append, (ih v).2 x]
        cases hg : (incomingSets l).get? v with
        | none => simp
        | some s => simp [mem_insertNat]
    · rw [if_neg hv]
      refine ⟨(ih y).1, ?_⟩
      intro x
      rw [List.mem_append, (ih y).2 x]
      have hv' : ¬ y = v := fun e => hv e.symm
      simp [hv']

theorem mem_allEdges {g : FuzzyGraph} (h : FOk g) (it : Iter) (x y : Nat) :
    (x, y) ∈ g.allEdges it ↔ (FuzzyEdge g x y).isSome := by
  unfold FuzzyGraph.allEdges
  simp only [List.mem_flatMap, List.mem_map, (it.perm _ _ _).mem_iff, Prod.mk.injEq]
  unfold FuzzyEdge
  constructor
  · rintro ⟨⟨x', c⟩, hc, ⟨y', d⟩, hd, rfl, rfl⟩
    have h1 := Dict.get?_of_mem h.conns hc
    have h2 := Dict.get?_of_mem (h.inner _ _ h1) hd
    simp only
    rw [h1, Option.bind_some, h2]; rfl
  · intro hs
    rw [Option.isSome_iff_exists] at hs
    obtain ⟨d, hd⟩ := hs
    rw [Option.bind_eq_some_iff] at hd
    obtain ⟨c, hc, hd⟩ := hd
    exact ⟨(x, c), Dict.mem_of_get? hc, (y, d), Dict.mem_of_get? hd, rfl, rfl⟩

theorem minOf_least (l : List ℚ) (h : l ≠ []) : IsLeast {m | m ∈ l} (minOf l) := by
  cases l with
  | nil => exact absurd rfl h
  | cons x l =>
    simp only [minOf]
    clear h
    induction l generalizing x with
    | nil => exact ⟨by simp, by intro m hm; simp at hm; subst hm; exact le_refl _⟩
    | cons y l ih =>
      rw [List.foldl_cons]
      obtain ⟨h1, h2⟩ := ih (min x y)
      have hle := h2 (show min x y ∈ {m | m ∈ min x y :: l} by simp)
      constructor
      · simp only [Set.mem_ofPred_eq, List.mem_cons] at h1 ⊢
        rcases h1 with h1 | h1
        · rw [h1]
          rcases min_choice x y with e | e <;> rw [e] <;> simp
        · exact Or.inr (Or.inr h1)
      · intro m hm
        simp only [Set.mem_ofPred_eq, List.mem_cons] at hm
        rcases hm with rfl | rfl | hm
        · exact le_trans hle (min_le_left _ _)
        · exact le_trans hle (min_le_right _ _)
        · exact h2 (by simp [hm])

theorem maxOf_greatest (l : List ℚ) (h : l ≠ []) : IsGreatest {m | m ∈ l} (maxOf l) := by
  cases l with
  | nil => exact absurd rfl h
  | cons x l =>
    simp only [maxOf]
    clear h
    induction l generalizing x with
    | nil => exact ⟨by simp, by intro m hm; simp at hm; subst hm; exact le_refl _⟩
    | cons y l ih =>
      rw [List.foldl_cons]
      obtain ⟨h1, h2⟩ := ih (max x y)
      have hle := h2 (show max x y ∈ {m | m ∈ max x y :: l} by simp)
      constructor
      · simp only [Set.mem_ofPred_eq, List.mem_cons] at h1 ⊢
        rcases h1 with h1 | h1
        · rw [h1]
          rcases max_choice x y with e | e <;> rw [e] <;> simp
        · exact Or.inr (Or.inr h1)
      · intro m hm
        simp only [Set.mem_ofPred_eq, List.mem_cons] at hm
        rcases hm with rfl | rfl | hm
        · exact le_trans (le_max_left _ _) hle
        · exact le_trans (le_max_right _ _) hle
        · exact h2 (by simp [hm])

/-- The name of a node. -/
def nameAt (nodes : Dict Nat String) (x : Nat) : String := (nodes.get? x).getD ""

theorem nameAt_mem {nodes : Dict Nat String} {x : Nat} (h : x ∈ nodes.keys) : nodes.get? x = some (nameAt nodes x) := by
  obtain ⟨v, hv⟩ := (Dict.mem_keys_iff _ _).1 h
  rw [nameAt, hv]; rfl

theorem nameAt_eq {nodes : Dict Nat String} (h : nodes.WF) {x : Nat} {a : String} (hx : (x, a) ∈ nodes) :
    nameAt nodes x = a := by
  rw [nameAt, Dict.get?_of_mem h hx]; rfl

/-- The edge from `x` to `y` is cut if the sources are `s`. -/
def Cut (measure : String → String → ℚ) (cutoff : ℚ) (nodes : Dict Nat String) (s : List Nat) (x y : Nat) : Prop :=
  ∃ low high, IsLeast {m | ∃ z ∈ s, m = measure (nameAt nodes z) (nameAt nodes y)} low ∧
    IsGreatest {m | ∃ z ∈ s, m = measure (nameAt nodes z) (nameAt nodes y)} high ∧
    (if low = high then 1 else (measure (nameAt nodes x) (nameAt nodes y) - low) / (high - low)) < cutoff

theorem disconnect_fold (y : Nat) (f : Nat × ℚ → Prop) [DecidablePred f] (l : List (Nat × ℚ)) : ∀ g : FuzzyGraph, FOk g →
    (l.foldl (fun g e => if f e then g.disconnect e.1 y else g) g).nodes = g.nodes ∧
    FOk (l.foldl (fun g e => if f e then g.disconnect e.1 y else g) g) ∧
    ∀ u v d, FuzzyEdge (l.foldl (fun g e => if f e then g.disconnect e.1 y else g) g) u v = some d ↔
      FuzzyEdge g u v = some d ∧ ¬ (v = y ∧ ∃ m, (u, m) ∈ l ∧ f (u, m)) := by
  induction l with
  | nil => intro g h; exact ⟨rfl, h, by simp⟩
  | cons e l ih =>
    intro g h
    rw [List.foldl_cons]
    by_cases hf : f e
    · rw [if_pos hf]
      obtain ⟨h1, h2, h3⟩ := ih _ (disconnect_ok h e.1 y)
      refine ⟨h1.trans (disconnect_nodes _ _ _), h2, ?_⟩
      intro u v d
      rw [h3, disconnect_edge]
      by_cases hc : u = e.1 ∧ v = y
      · rw [if_pos hc]
        constructor
        · rintro ⟨hd, -⟩; cases hd
        · rintro ⟨-, hd⟩
          exact absurd ⟨hc.2, e.2, by rw [hc.1]; simp, by rw [hc.1]; exact hf⟩ hd
      · rw [if_neg hc]
        refine and_congr_right fun _ => not_congr (and_congr_right fun hv => ?_)
        constructor
        · rintro ⟨m, hm, hfm⟩; exact ⟨m, List.mem_cons_of_mem _ hm, hfm⟩
        · rintro ⟨m, hm, hfm⟩
          rcases List.mem_cons.1 hm with hm | hm
          · exact absurd ⟨by rw [← hm], hv⟩ hc
          · exact ⟨m, hm, hfm⟩
    · rw [if_neg hf]
      obtain ⟨h1, h2, h3⟩ := ih g h
      refine ⟨h1, h2, ?_⟩
      intro u v d
      rw [h3]
      refine and_congr_right fun _ => not_congr (and_congr_right fun hv => ?_)
      constructor
      · rintro ⟨m, hm, hfm⟩; exact ⟨m, List.mem_cons_of_mem _ hm, hfm⟩
      · rintro ⟨m, hm, hfm⟩
        rcases List.mem_cons.1 hm with hm | hm
        · rw [hm] at hfm; exact absurd hfm hf
        · exact ⟨m, hm, hfm⟩

theorem filterIncoming_spec (it : Iter) (measure : String → String → ℚ) (p : FuzzyArgs) (g : FuzzyGraph) (hok : FOk g)
    (y : Nat) (s : List Nat) (hs : s ≠ []) (hy : y ∈ g.nodes.keys) (hx : ∀ x ∈ s, x ∈ g.nodes.keys) :
    ∃ g', filterIncoming it measure p g (y, s) = some g' ∧ g'.nodes = g.nodes ∧ FOk g' ∧
      ∀ u v d, FuzzyEdge g' u v = some d ↔
        FuzzyEdge g u v = some d ∧ ¬ (v = y ∧ u ∈ s ∧ Cut measure p.edgeCutoff g.nodes s u v) := by
  unfold filterIncoming
  have hl : ¬ s.length = 0 := by simpa using hs
  simp only [hl, if_false]
  rw [nameAt_mem hy]
  have hm : (it.order ("incoming of " ++ Nat.repr y) 0 s).mapM (fun x => g.nodes.get? x) =
      some ((it.order ("incoming of " ++ Nat.repr y) 0 s).map (nameAt g.nodes)) :=
    mapM_total _ _ _ (fun x h => nameAt_mem (hx x ((it.perm _ _ _).mem_iff.1 h)))
  have hp := it.perm ("incoming of " ++ Nat.repr y) 0 s
  rw [hm]
  generalize hss : it.order ("incoming of " ++ Nat.repr y) 0 s = ss at hp
  simp only [Option.bind_eq_bind, Option.bind_some]
  have hmm : (ss.map (nameAt g.nodes)).map (fun first => measure first (nameAt g.nodes y)) =
      ss.map (fun x => measure (nameAt g.nodes x) (nameAt g.nodes y)) := by rw [List.map_map]; rfl
  rw [hmm]
  have hne : ss.map (fun x => measure (nameAt g.nodes x) (nameAt g.nodes y)) ≠ [] := by
    intro e
    have : ss = [] := by simpa using e
    rw [this] at hp
    exact hs hp.symm.eq_nil
  have hset : {m | m ∈ ss.map (fun x => measure (nameAt g.nodes x) (nameAt g.nodes y))} =
      {m | ∃ z ∈ s, m = measure (nameAt g.nodes z) (nameAt g.nodes y)} := by
    ext m
    simp only [Set.mem_ofPred_eq, List.mem_map, hp.mem_iff]
    constructor
    · rintro ⟨z, hz, rfl⟩; exact ⟨z, hz, rfl⟩
    · rintro ⟨z, hz, rfl⟩; exact ⟨z, hz, rfl⟩
  have hlow := minOf_least _ hne
  have hhigh := maxOf_greatest _ hne
  rw [hset] at hlow hhigh
  generalize minOf (ss.map (fun x => measure (nameAt g.nodes x) (nameAt g.nodes y))) = low at hlow
  generalize maxOf (ss.map (fun x => measure (nameAt g.nodes x) (nameAt g.nodes y))) = high at hhigh
  obtain ⟨h1, h2, h3⟩ := disconnect_fold y
    (fun e => (if high ≠ low then (e.2 - low) / (high - low) else 1) < p.edgeCutoff)
    (ss.zip (ss.map (fun x => measure (nameAt g.nodes x) (nameAt g.nodes y)))) g hok
  refine ⟨_, rfl, h1, h2, ?_⟩
  intro u v d
  refine (h3 u v d).trans (and_congr_right fun _ => not_congr (and_congr_right fun hv => ?_))
  subst hv
  have hzip : ∀ m, (u, m) ∈ ss.zip (ss.map (fun x => measure (nameAt g.nodes x) (nameAt g.nodes v))) ↔
      u ∈ s ∧ m = measure (nameAt g.nodes u) (nameAt g.nodes v) := by
    intro m
    rw [← hp.mem_iff]
    have : ss.zip (ss.map (fun x => measure (nameAt g.nodes x) (nameAt g.nodes v))) =
        ss.map (fun x => (x, measure (nameAt g.nodes x) (nameAt g.nodes v))) := by
      clear hss hm hp hmm hne hset hlow hhigh h1 h2 h3
      induction ss with
      | nil => rfl
      | cons z ss ih => rw [List.map_cons, List.zip_cons_cons, ih, List.map_cons]
    rw [this, List.mem_map]
    constructor
    · rintro ⟨z, hz, he⟩; cases he; exact ⟨hz, rfl⟩
    · rintro ⟨hz, rfl⟩; exact ⟨u, hz, rfl⟩
  simp only [hzip]
  have hite : ∀ q : ℚ, (if high ≠ low then q else 1) = if low = high then 1 else q := by
    intro q
    by_cases e : low = high
    · simp [e]
    · have e' : ¬ high = low := fun h => e h.symm
      simp [e, e']
  constructor
  · rintro ⟨m, ⟨hu, rfl⟩, hc⟩
    rw [hite] at hc
    exact ⟨hu, low, high, hlow, hhigh, hc⟩
  · rintro ⟨hu, low', high', hlow', hhigh', hc⟩
    obtain rfl := hlow'.unique hlow
    obtain rfl := hhigh'.unique hhigh
    exact ⟨_, ⟨hu, rfl⟩, by rw [hite]; exact hc⟩

theorem filterEdges_spec (it : Iter) (measure : String → String → ℚ) (p : FuzzyArgs) (g : FuzzyGraph) (hok : FOk g) :
    ∃ g', filterEdges it measure p g = some g' ∧ g'.nodes = g.nodes ∧ FOk g' ∧
      ∀ u v d, FuzzyEdge g' u v = some d ↔ FuzzyEdge g u v = some d ∧
        ¬ ∃ s, (∀ z, z ∈ s ↔ (FuzzyEdge g z v).isSome) ∧ Cut measure p.edgeCutoff g.nodes s u v := by
  unfold filterEdges
  obtain ⟨hwf, hin⟩ := incomingSets_spec (g.allEdges it)
  have hmem : ∀ e : Nat × List Nat, e ∈ it.order "node_to_incoming_nodes" 0 (incomingSets (g.allEdges it)) ↔
      (incomingSets (g.allEdges it)).get? e.1 = some e.2 := by
    intro e
    rw [(it.perm _ _ _).mem_iff, ← Dict.get?_eq_some_iff hwf]
  have hset : ∀ {y s}, (incomingSets (g.allEdges it)).get? y = some s → ∀ z, z ∈ s ↔ (FuzzyEdge g z y).isSome := by
    intro y s hs z
    rw [← mem_allEdges hok it, (hin y).2 z]
    constructor
    · intro hz; exact ⟨s, hs, hz⟩
    · rintro ⟨s', hs', hz⟩; rw [hs] at hs'; cases hs'; exact hz
  obtain ⟨g', h1, h2, h3, h4⟩ := fold_steps (filterIncoming it measure p)
    (fun e : Nat × List Nat => (incomingSets (g.allEdges it)).get? e.1 = some e.2)
    (fun P g' => g'.nodes = g.nodes ∧ FOk g' ∧ ∀ u v d, FuzzyEdge g' u v = some d ↔ FuzzyEdge g u v = some d ∧
      ¬ ∃ s, P (v, s) ∧ u ∈ s ∧ Cut measure p.edgeCutoff g.nodes s u v)
    (by
      rintro P g1 ⟨y, s⟩ ⟨hn, hk, he⟩ hgood
      have hne : s ≠ [] := (hin y).1 s hgood
      have hsm := hset hgood
      obtain ⟨z, hz⟩ := List.exists_mem_of_ne_nil s hne
      have hends : ∀ x ∈ s, x ∈ g1.nodes.keys ∧ y ∈ g1.nodes.keys := by
        intro x hx
        obtain ⟨d, hd⟩ := Option.isSome_iff_exists.1 ((hsm x).1 hx)
        rw [hn]; exact hok.ends x y d hd
      obtain ⟨g2, e1, e2, e3, e4⟩ := filterIncoming_spec it measure p g1 hk y s hne (hends z hz).2 (fun x hx => (hends x hx).1)
      refine ⟨g2, e1, e2.trans hn, e3, ?_⟩
      intro u v d
      rw [e4, he, hn, and_assoc]
      refine and_congr_right fun _ => ?_
      constructor
      · rintro ⟨n1, n2⟩ ⟨s', (hp | hp), hu, hc⟩
        · exact n1 ⟨s', hp, hu, hc⟩
        · cases hp; exact n2 ⟨rfl, hu, hc⟩
      · intro hno
        refine ⟨?_, ?_⟩
        · rintro ⟨s', hp, hu, hc⟩; exact hno ⟨s', Or.inl hp, hu, hc⟩
        · rintro ⟨rfl, hu, hc⟩; exact hno ⟨s, Or.inr rfl, hu, hc⟩)
    (by
      rintro P Q g1 hPQ ⟨hn, hk, he⟩
      refine ⟨hn, hk, ?_⟩
      intro u v d
      rw [he]
      simp only [hPQ])
    (it.order "node_to_incoming_nodes" 0 (incomingSets (g.allEdges it))) (fun _ => False) g
    ⟨rfl, hok, by simp⟩ (fun e he => (hmem e).1 he)
  refine ⟨g', h1, h2, h3, ?_⟩
  intro u v d
  rw [h4]
  refine and_congr_right fun hd => not_congr ?_
  constructor
  · rintro ⟨s, (hp | hp), hu, hc⟩
    · exact absurd hp id
    · exact ⟨s, hset ((hmem _).1 hp), hc⟩
  · rintro ⟨s, hs, hc⟩
    have hu : (FuzzyEdge g u v).isSome := by rw [hd]; rfl
    rw [← mem_allEdges hok it, (hin v).2 u] at hu
    obtain ⟨s', hs', hu'⟩ := hu
    refine ⟨s', Or.inr ((hmem _).2 hs'), hu', ?_⟩
    have hsame : ∀ z, z ∈ s ↔ z ∈ s' := fun z => (hs z).trans (hset hs' z).symm
    obtain ⟨low, high, a1, a2, a3⟩ := hc
    refine ⟨low, high, ?_, ?_, a3⟩
    · simpa only [hsame] using a1
    · simpa only [hsame] using a2

end Ficus.Rs.Fz
