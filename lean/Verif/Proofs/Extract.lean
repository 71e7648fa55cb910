import Verif.Model.Extract
import Verif.Spec.Activity
import Mathlib.Data.List.Pairwise

namespace Ficus
open Spec

/-! ### Groups by size -/

theorem groupBySizeLoop_spec (groups : List (List ActTree)) (cur : Nat) (xs : List ActTree)
    (hne : groups ≠ []) (hlast : ∀ a ∈ groups.getLastD [], a.size = cur)
    (hgood : ∀ g ∈ groups, g ≠ [] ∧ ∀ a ∈ g, ∀ b ∈ g, a.size = b.size) :
    (groupBySizeLoop groups cur xs).flatten = groups.flatten ++ xs ∧
      ∀ g ∈ groupBySizeLoop groups cur xs, g ≠ [] ∧ ∀ a ∈ g, ∀ b ∈ g, a.size = b.size := by
  induction xs generalizing groups cur with
  | nil => simpa [groupBySizeLoop] using hgood
  | cons x xs ih =>
    unfold groupBySizeLoop
    by_cases h : x.size = cur
    · rw [if_neg (by simpa using h)]
      have hd : groups = groups.dropLast ++ [groups.getLastD []] := by
        rw [List.getLastD_eq_getLast?, List.getLast?_eq_some_getLast hne]
        exact (List.dropLast_append_getLast hne).symm
      have := ih (groups.dropLast ++ [groups.getLastD [] ++ [x]]) cur (by simp)
        (by
          intro a ha
          simp only [List.getLastD_concat, List.mem_append, List.mem_singleton] at ha
          rcases ha with ha | rfl
          · exact hlast a ha
          · exact h)
        (by
          intro g hg
          rcases List.mem_append.1 hg with hg | hg
          · exact hgood g (by rw [hd]; simp [hg])
          · obtain rfl := List.mem_singleton.1 hg
            refine ⟨by simp, ?_⟩
            have hs : ∀ a ∈ groups.getLastD [] ++ [x], a.size = cur := by
              intro a ha
              rcases List.mem_append.1 ha with ha | ha
              · exact hlast a ha
              · obtain rfl := List.mem_singleton.1 ha; exact h
            intro a ha b hb
            rw [hs a ha, hs b hb])
      refine ⟨?_, this.2⟩
      rw [this.1]
      conv_rhs => rw [hd]
      simp
    · rw [if_pos h]
      have := ih (groups ++ [[x]]) x.size (by simp) (by simp)
        (by
          intro g hg
          rcases List.mem_append.1 hg with hg | hg
          · exact hgood g hg
          · obtain rfl := List.mem_singleton.1 hg; simp)
      refine ⟨?_, this.2⟩
      rw [this.1]; simp

/-- What the search relies on: groups of equal size, in order of size. -/
structure SizeGroups (nodes : List ActTree) (groups : List (List ActTree)) : Prop where
  mem : ∀ a, a ∈ groups.flatten ↔ a ∈ nodes
  const : ∀ g ∈ groups, ∀ a ∈ g, ∀ b ∈ g, a.size = b.size
  sorted : groups.flatten.Pairwise (fun a b => a.size ≤ b.size)

theorem splitBySize_spec (nodes : List ActTree) : SizeGroups nodes (splitBySize nodes) := by
  unfold splitBySize
  have hperm := List.perm_insertionSort (fun a b : ActTree => a.size ≤ b.size) nodes
  have : Std.Total (fun a b : ActTree => a.size ≤ b.size) := ⟨fun a b => by omega⟩
  have : IsTrans ActTree (fun a b : ActTree => a.size ≤ b.size) := ⟨fun a b c h1 h2 => by omega⟩
  have hsort := List.pairwise_insertionSort (fun a b : ActTree => a.size ≤ b.size) nodes
  cases hs : nodes.insertionSort (fun a b : ActTree => a.size ≤ b.size) with
  | nil =>
    rw [hs] at hperm
    have hn : nodes = [] := hperm.symm.eq_nil
    subst hn
    exact ⟨by simp, by simp, by simp⟩
  | cons a rest =>
    rw [hs] at hperm hsort
    simp only
    obtain ⟨h1, h2⟩ := groupBySizeLoop_spec [[a]] a.size rest (by simp) (by simp) (by simp)
    have h1' : (groupBySizeLoop [[a]] a.size rest).flatten = a :: rest := by simpa using h1
    refine ⟨?_, ?_, ?_⟩
    · intro b
      rw [← hperm.mem_iff, ← h1']
      simp only [List.mem_flatten, List.mem_map]
      constructor
      · rintro ⟨l, ⟨g, hg, rfl⟩, hb⟩
        exact ⟨g, hg, by simpa using hb⟩
      · rintro ⟨g, hg, hb⟩
        exact ⟨_, ⟨g, hg, rfl⟩, by simpa using hb⟩
    · intro l hl b hb c hc
      obtain ⟨g, hg, rfl⟩ := List.mem_map.1 hl
      exact (h2 g hg).2 b (by simpa using hb) c (by simpa using hc)
    · rw [← h1', List.pairwise_flatten] at hsort
      rw [List.pairwise_flatten]
      constructor
      · intro l hl
        obtain ⟨g, hg, rfl⟩ := List.mem_map.1 hl
        apply List.pairwise_iff_forall_sublist.2
        intro b c hbc
        have hb : b ∈ g := by simpa using hbc.subset (List.mem_cons_self)
        have hc : c ∈ g := by simpa using hbc.subset (List.mem_cons_of_mem _ (List.mem_cons_self))
        exact le_of_eq ((h2 g hg).2 b hb c hc)
      · rw [List.pairwise_map]
        refine hsort.2.imp ?_
        intro g h hgh b hb c hc
        exact hgh b (by simpa using hb) c (by simpa using hc)

theorem find?_congr' {α : Type} {p q : α → Bool} {l : List α} (h : ∀ x ∈ l, p x = q x) : l.find? p = l.find? q := by
  induction l with
  | nil => rfl
  | cons a l ih =>
    rw [List.find?_cons, List.find?_cons, h a (by simp), ih (fun x hx => h x (by simp [hx]))]

theorem findStart_eq (groups : List (List ActTree)) (e : Int) :
    findStart groups e = groups.flatten.find? (fun a => decide (e ∈ a.events)) := by
  unfold findStart; rw [List.find?_flatten]

theorem findLarger_eq (groups : List (List ActTree)) (hc : ∀ g ∈ groups, ∀ a ∈ g, ∀ b ∈ g, a.size = b.size)
    (cur : ActTree) (s : List Int) :
    findLarger groups cur s = groups.flatten.find? (fun a => decide (cur.size ≤ a.size) && a.covers s) := by
  unfold findLarger
  induction groups with
  | nil => rfl
  | cons g groups ih =>
    have ih := ih (fun g' hg' => hc g' (by simp [hg']))
    rw [List.flatten_cons, List.find?_append, List.findSome?_cons, ih]
    cases g with
    | nil => simp
    | cons a g' =>
      have hcg := hc (a :: g') (by simp)
      simp only
      by_cases h : a.size < cur.size
      · rw [if_pos h]
        have : (a :: g').find? (fun a => decide (cur.size ≤ a.size) && a.covers s) = none := by
          rw [List.find?_eq_none]
          intro x hx
          have := hcg x hx a (by simp)
          simp; intro; omega
        rw [this]; rfl
      · rw [if_neg h]
        have : (a :: g').find? (fun a => decide (cur.size ≤ a.size) && a.covers s) =
            (a :: g').find? (fun a => a.covers s) := by
          apply find?_congr'
          intro x hx
          have := hcg x hx a (by simp)
          simp; intro; omega
        rw [this]
        cases (a :: g').find? (fun a => a.covers s) <;> rfl

theorem covers_iff (t : ActTree) (s : List Int) : t.covers s = true ↔ ∀ e ∈ s, e ∈ t.events := by
  simp [ActTree.covers]

theorem find?_min {l : List ActTree} (hl : l.Pairwise (fun a b => a.size ≤ b.size)) {p : ActTree → Bool} {a : ActTree}
    (h : l.find? p = some a) : a ∈ l ∧ p a = true ∧ ∀ b ∈ l, p b = true → a.size ≤ b.size := by
  rw [List.find?_eq_some_iff_append] at h
  obtain ⟨hp, as, bs, rfl, hpre⟩ := h
  refine ⟨by simp, hp, ?_⟩
  intro b hb hpb
  rcases List.mem_append.1 hb with hb | hb
  · have := hpre b hb; simp [hpb] at this
  · rw [List.pairwise_append] at hl
    rcases List.mem_cons.1 hb with rfl | hb
    · exact le_refl _
    · exact (List.pairwise_cons.1 hl.2.1).1 b hb

/-! ### Narrowing -/

mutual
/-- The nodes below (and including) a tree reachable through nodes that cover `s`. -/
def reach (s : List Int) : ActTree → List ActTree
  | .node a cs => if (ActTree.node a cs).covers s then .node a cs :: reachL s cs else []
def reachL (s : List Int) : List ActTree → List ActTree
  | [] => []
  | t :: ts => reach s t ++ reachL s ts
end

theorem reachL_append (s : List Int) (f g : List ActTree) : reachL s (f ++ g) = reachL s f ++ reachL s g := by
  induction f with
  | nil => simp [reachL]
  | cons t f ih => simp [reachL, ih]

theorem countL_append (f g : List ActTree) : ActTree.countL (f ++ g) = ActTree.countL f + ActTree.countL g := by
  induction f with
  | nil => simp [ActTree.countL]
  | cons t f ih => simp [ActTree.countL, ih]; omega

theorem narrowLoop_spec (s : List Int) (fuel : Nat) (q result : List ActTree) (hf : ActTree.countL q ≤ fuel) :
    ∃ r, narrowLoop s fuel q result = some r ∧ r.Perm (result ++ reachL s q) := by
  induction fuel generalizing q result with
  | zero =>
    cases q with
    | nil => exact ⟨result, rfl, by simp [reachL]⟩
    | cons t q =>
      cases t with
      | node a cs => simp [ActTree.countL, ActTree.count] at hf
  | succ fuel ih =>
    cases q with
    | nil => exact ⟨result, rfl, by simp [reachL]⟩
    | cons t q =>
      cases t with
      | node a cs =>
        unfold narrowLoop
        simp only [ActTree.countL, ActTree.count] at hf
        by_cases h : (ActTree.node a cs).covers s = true
        · rw [if_pos h]
          obtain ⟨r, hr, hp⟩ := ih (q ++ cs) (result ++ [.node a cs]) (by rw [countL_append]; omega)
          refine ⟨r, hr, hp.trans ?_⟩
          simp only [reachL, reach, if_pos h, reachL_append]
          simp only [List.append_assoc, List.cons_append, List.nil_append]
          exact (List.Perm.append_left _ (List.Perm.cons _ List.perm_append_comm))
        · rw [if_neg h]
          obtain ⟨r, hr, hp⟩ := ih q result (by omega)
          exact ⟨r, hr, by simpa [reachL, reach, h] using hp⟩

mutual
/-- All subtrees of a tree, including itself. -/
def _root_.Ficus.Spec.subtrees : ActTree → List ActTree
  | .node a cs => .node a cs :: subtreesL cs
/-- All subtrees of a forest. -/
def _root_.Ficus.Spec.subtreesL : List ActTree → List ActTree
  | [] => []
  | t :: ts => subtrees t ++ subtreesL ts
end

mutual
theorem reach_sound (s : List Int) (t x : ActTree) (h : x ∈ reach s t) : x ∈ subtrees t ∧ x.covers s = true := by
  match t with
  | .node a cs =>
    unfold reach at h
    split at h
    · rename_i hc
      rcases List.mem_cons.1 h with rfl | h
      · exact ⟨by simp [subtrees], hc⟩
      · have := reachL_sound s cs x h
        exact ⟨by simp [subtrees, this.1], this.2⟩
    · simp at h
theorem reachL_sound (s : List Int) (f : List ActTree) (x : ActTree) (h : x ∈ reachL s f) :
    x ∈ subtreesL f ∧ x.covers s = true := by
  match f with
  | [] => simp [reachL] at h
  | t :: ts =>
    simp only [reachL, List.mem_append] at h
    rcases h with h | h
    · have := reach_sound s t x h
      exact ⟨by simp [subtreesL, this.1], this.2⟩
    · have := reachL_sound s ts x h
      exact ⟨by simp [subtreesL, this.1], this.2⟩
end

mutual
theorem act_mem_acts (t x : ActTree) (h : x ∈ subtrees t) : x.act ∈ acts t := by
  match t with
  | .node a cs =>
    simp only [subtrees, List.mem_cons] at h
    rcases h with rfl | h
    · simp [acts, ActTree.act]
    · simp [acts, act_mem_actsL cs x h]
theorem act_mem_actsL (f : List ActTree) (x : ActTree) (h : x ∈ subtreesL f) : x.act ∈ actsL f := by
  match f with
  | [] => simp [subtreesL] at h
  | t :: ts =>
    simp only [subtreesL, List.mem_append] at h
    rcases h with h | h
    · simp [actsL, act_mem_acts t x h]
    · simp [actsL, act_mem_actsL ts x h]
end

/-- Descendants that cover `s` are reached, if inclusion holds along the links, and their ancestors cover `s` too. -/
theorem reach_complete_aux (s : List Int) :
    (∀ t : ActTree, (∀ p c, (p, c) ∈ links t → ∀ e ∈ c.events, e ∈ p.events) →
      ∀ x ∈ subtrees t, x.covers s = true → x ∈ reach s t ∧ t.covers s = true) ∧
    (∀ f : List ActTree, (∀ p c, (p, c) ∈ linksL f → ∀ e ∈ c.events, e ∈ p.events) →
      ∀ x ∈ subtreesL f, x.covers s = true → x ∈ reachL s f ∧ ∃ t ∈ f, t.covers s = true) := by
  suffices h : ∀ n, (∀ t : ActTree, ActTree.count t ≤ n → (∀ p c, (p, c) ∈ links t → ∀ e ∈ c.events, e ∈ p.events) →
      ∀ x ∈ subtrees t, x.covers s = true → x ∈ reach s t ∧ t.covers s = true) ∧
    (∀ f : List ActTree, ActTree.countL f ≤ n → (∀ p c, (p, c) ∈ linksL f → ∀ e ∈ c.events, e ∈ p.events) →
      ∀ x ∈ subtreesL f, x.covers s = true → x ∈ reachL s f ∧ ∃ t ∈ f, t.covers s = true) from
    ⟨fun t => (h _).1 t (le_refl _), fun f => (h _).2 f (le_refl _)⟩
  intro n
  induction n with
  | zero =>
    constructor
    · intro t ht
      cases t with
      | node a cs => simp [ActTree.count] at ht
    · intro f hf _ x hx
      cases f with
      | nil => simp [subtreesL] at hx
      | cons t ts => cases t with
        | node a cs => simp [ActTree.countL, ActTree.count] at hf
  | succ n ih =>
    have hT : ∀ t : ActTree, ActTree.count t ≤ n + 1 → (∀ p c, (p, c) ∈ links t → ∀ e ∈ c.events, e ∈ p.events) →
        ∀ x ∈ subtrees t, x.covers s = true → x ∈ reach s t ∧ t.covers s = true := by
      intro t ht hl x hx hc
      cases t with
      | node a cs =>
        simp only [ActTree.count] at ht
        simp only [subtrees, List.mem_cons] at hx
        rcases hx with rfl | hx
        · exact ⟨by simp [reach, hc], hc⟩
        · obtain ⟨h1, t', ht', htc⟩ := ih.2 cs (by omega)
            (fun p c hpc => hl p c (by simp [links, hpc])) x hx hc
          have hcov : (ActTree.node a cs).covers s = true := by
            rw [covers_iff] at htc ⊢
            intro e he
            have := hl a t'.act (by simp only [links, List.mem_append, List.mem_map]; exact Or.inl ⟨t', ht', rfl⟩)
            exact this e (htc e he)
          exact ⟨by simp [reach, hcov, h1], hcov⟩
    refine ⟨hT, ?_⟩
    intro f
    induction f with
    | nil => intro _ _ x hx; simp [subtreesL] at hx
    | cons t ts ihf =>
      intro hf hl x hx hc
      simp only [ActTree.countL] at hf
      simp only [subtreesL, List.mem_append] at hx
      rcases hx with hx | hx
      · obtain ⟨h1, h2⟩ := hT t (by omega) (fun p c hpc => hl p c (by simp [linksL, hpc])) x hx hc
        exact ⟨by simp [reachL, h1], t, by simp, h2⟩
      · obtain ⟨h1, t', ht', h2⟩ := ihf (by omega) (fun p c hpc => hl p c (by simp [linksL, hpc])) x hx hc
        exact ⟨by simp [reachL, h1], t', by simp [ht'], h2⟩

theorem narrowActivity_spec (t : ActTree) (s : List Int) :
    ∃ r, narrowActivity t s = some r ∧
      ((r = t ∧ reachL s t.children = []) ∨
        (r ∈ reachL s t.children ∧ ∀ x ∈ reachL s t.children, r.size ≤ x.size)) := by
  unfold narrowActivity
  obtain ⟨res, hr, hp⟩ := narrowLoop_spec s (ActTree.countL t.children) t.children [] (le_refl _)
  rw [hr]
  simp only [List.nil_append] at hp ⊢
  have hperm := List.perm_insertionSort (fun a b : ActTree => a.size ≤ b.size) res
  have : Std.Total (fun a b : ActTree => a.size ≤ b.size) := ⟨fun a b => by omega⟩
  have : IsTrans ActTree (fun a b : ActTree => a.size ≤ b.size) := ⟨fun a b c h1 h2 => by omega⟩
  have hsort := List.pairwise_insertionSort (fun a b : ActTree => a.size ≤ b.size) res
  cases hs : res.insertionSort (fun a b : ActTree => a.size ≤ b.size) with
  | nil =>
    rw [hs] at hperm
    refine ⟨t, rfl, Or.inl ⟨rfl, ?_⟩⟩
    exact (hperm.trans hp).symm.eq_nil
  | cons r rest =>
    rw [hs] at hperm hsort
    refine ⟨r, rfl, Or.inr ⟨(hperm.trans hp).mem_iff.1 (by simp), ?_⟩⟩
    intro x hx
    rcases List.mem_cons.1 ((hperm.trans hp).mem_iff.2 hx) with rfl | h
    · exact le_refl _
    · exact (List.pairwise_cons.1 hsort).1 x h

/-- The narrowed node. -/
noncomputable def narrowed (t : ActTree) (s : List Int) : ActTree := (narrowActivity_spec t s).choose

theorem narrowActivity_eq (t : ActTree) (s : List Int) : narrowActivity t s = some (narrowed t s) :=
  (narrowActivity_spec t s).choose_spec.1

/-! ### The scan as a function of the remaining events -/

/-- A segment before narrowing and filtering: activity, start, length, observed set (latest event first). -/
structure Seg where
  act : ActTree
  start : Nat
  length : Nat
  seen : List Int

/-- The segments found from a given situation. -/
def scan (groups : List (List ActTree)) : List Int → Nat → Option (ActTree × Nat × List Int) → List Seg
  | [], _, none => []
  | [], idx, some (a, s, seen) => [⟨a, s, idx - s, seen⟩]
  | e :: rest, idx, none => scan groups rest (idx + 1) ((findStart groups e).map (fun a => (a, idx, [e])))
  | e :: rest, idx, some (a, s, seen) =>
    if e ∈ a.events then scan groups rest (idx + 1) (some (a, s, e :: seen))
    else
      match findLarger groups a (e :: seen) with
      | some a' => scan groups rest (idx + 1) (some (a', s, e :: seen))
      | none => ⟨a, s, idx - s, seen⟩ ::
          scan groups rest (idx + 1) ((findStart groups e).map (fun a => (a, idx, [e])))

/-- The instance reported for a segment. -/
noncomputable def Seg.toInstance (shouldNarrow : Bool) (g : Seg) : Instance :=
  { node := if shouldNarrow then narrowed g.act g.seen else g.act, startPos := g.start, length := g.length }

theorem emitInstance_eq (sn : Bool) (filter : Instance → Bool) (out : List Instance) (cur : ActTree)
    (start stop : Nat) (s : List Int) :
    emitInstance sn filter out cur start stop s =
      some (out ++ ([Seg.toInstance sn ⟨cur, start, stop - start, s⟩]).filter filter) := by
  unfold emitInstance
  have : (if sn then narrowActivity cur s else some cur) = some (if sn then narrowed cur s else cur) := by
    cases sn
    · rfl
    · simp [narrowActivity_eq]
  rw [this]
  simp only [Option.some.injEq]
  unfold Seg.toInstance
  by_cases h : filter { node := if sn = true then narrowed cur s else cur, startPos := start, length := stop - start } = true
  · rw [if_pos h]; simp [h]
  · rw [if_neg h]; simp only [List.filter_cons, h]; simp

theorem scanLoop_eq (groups : List (List ActTree)) (sn : Bool) (filter : Instance → Bool) (t rest : List Int)
    (fuel : Nat) (st : ScanState) (hr : t.drop st.index = rest)
    (hf : 2 * rest.length ≤ fuel) :
    ∃ st', scanLoop groups sn filter t fuel st = some st' ∧
      finishScan sn filter st' =
        some (st.out ++ ((scan groups rest st.index st.current).map (Seg.toInstance sn)).filter filter) := by
  induction rest generalizing fuel st with
  | nil =>
    have hi : t[st.index]? = none := by
      rw [List.getElem?_eq_none_iff]
      exact List.drop_eq_nil_iff.1 hr
    unfold scanLoop
    rw [hi]
    refine ⟨st, by cases fuel <;> rfl, ?_⟩
    unfold finishScan
    cases hc : st.current with
    | none => simp [scan]
    | some c =>
      obtain ⟨cur, start, s⟩ := c
      simp only [emitInstance_eq, scan, List.map_cons, List.map_nil]
  | cons e rest ih =>
    have hi : t[st.index]? = some e := by
      have := congrArg (fun l => l[0]?) hr
      simpa using this
    have hr' : t.drop (st.index + 1) = rest := by
      rw [← List.tail_drop, hr]; rfl
    simp only [List.length_cons] at hf
    obtain ⟨fuel, rfl⟩ : ∃ k, fuel = k + 2 := ⟨fuel - 2, by omega⟩
    unfold scanLoop
    rw [hi]
    simp only
    unfold scanStep
    cases hc : st.current with
    | none =>
      simp only
      have := ih (fuel + 1) { out := st.out, index := st.index + 1, current := (findStart groups e).map (fun a => (a, st.index, [e])) } hr' (by omega)
      obtain ⟨st', h1, h2⟩ := this
      exact ⟨st', h1, by rw [h2]; simp [scan]⟩
    | some c =>
      obtain ⟨cur, start, s⟩ := c
      simp only
      by_cases he : e ∈ cur.events
      · rw [if_pos he]
        simp only
        obtain ⟨st', h1, h2⟩ := ih (fuel + 1) { out := st.out, index := st.index + 1, current := some (cur, start, e :: s) } hr' (by omega)
        exact ⟨st', h1, by rw [h2]; simp [scan, he]⟩
      · rw [if_neg he]
        cases hl : findLarger groups cur (e :: s) with
        | some a =>
          simp only
          obtain ⟨st', h1, h2⟩ := ih (fuel + 1) { out := st.out, index := st.index + 1, current := some (a, start, e :: s) } hr' (by omega)
          exact ⟨st', h1, by rw [h2]; simp [scan, he, hl]⟩
        | none =>
          simp only [emitInstance_eq]
          unfold scanLoop
          simp only [hi, scanStep]
          obtain ⟨st', h1, h2⟩ := ih fuel
            { index := st.index + 1, current := (findStart groups e).map (fun a => (a, st.index, [e])),
              out := st.out ++ ([Seg.toInstance sn ⟨cur, start, st.index - start, s⟩]).filter filter }
            hr' (by omega)
          refine ⟨st', h1, ?_⟩
          rw [h2]
          simp only [scan, he, hl, if_false]
          rw [List.append_assoc, ← List.filter_append]
          rfl

theorem extractFromTrace_eq (groups : List (List ActTree)) (sn : Bool) (filter : Instance → Bool) (t : List Int)
    (fuel : Nat) (hf : 2 * t.length ≤ fuel) :
    extractFromTrace fuel groups sn filter t =
      some (((scan groups t 0 none).map (Seg.toInstance sn)).filter filter) := by
  obtain ⟨st', h1, h2⟩ := scanLoop_eq groups sn filter t t fuel { index := 0, current := none, out := [] } rfl
    (by simpa using hf)
  unfold extractFromTrace
  rw [h1]
  simpa using h2

end Ficus
