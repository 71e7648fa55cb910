import Verif.Spec.Reports
import Verif.Props.Levels
import Verif.Props.Classes
import Verif.Proofs.Heap
import Std.Data.String.ToNat
import Mathlib.Algebra.Order.Field.Rat
import Mathlib.Algebra.Order.Field.Basic
import Mathlib.Tactic.Positivity

/-! Properties C60-C64: files and prints about activities and instances, tags of events. -/

namespace Ficus
open Spec

/-! ### C60: names of activities -/

theorem subtreesL_append (f g : List ActTree) : subtreesL (f ++ g) = subtreesL f ++ subtreesL g := by
  induction f with
  | nil => rfl
  | cons t ts ih => simp [subtreesL, ih]

theorem self_mem_subtrees (t : ActTree) : t ∈ subtrees t := by cases t; simp [subtrees]

theorem mem_subtreesL (f : List ActTree) (t : ActTree) (h : t ∈ f) : t ∈ subtreesL f :=
  subtrees_subset_subtreesL _ _ h _ (self_mem_subtrees t)

theorem subtreesL_mem_iff (f : List ActTree) (x : ActTree) : x ∈ subtreesL f ↔ ∃ t ∈ f, x ∈ subtrees t := by
  induction f with
  | nil => simp [subtreesL]
  | cons t ts ih => simp [subtreesL, ih]

theorem subtrees_eq (t : ActTree) : subtrees t = t :: subtreesL t.children := by cases t; rfl

theorem count_eq (t : ActTree) : ActTree.count t = ActTree.countL t.children + 1 := by
  cases t; simp [ActTree.count, ActTree.children]; omega

theorem countL_reverse (f : List ActTree) : ActTree.countL f.reverse = ActTree.countL f := by
  induction f with
  | nil => rfl
  | cons t ts ih => simp [countL_append, ActTree.countL, ih]; omega

theorem saveNamesLoop_spec (fuel : Nat) : ∀ (stack : List ActTree) (visited out : List String),
    ActTree.countL stack ≤ fuel → (∀ n, n ∈ visited ↔ n ∈ out) → out.Nodup →
    ∃ res, saveNamesLoop fuel stack visited out = some res ∧ res.Nodup ∧ (∀ n ∈ out, n ∈ res) ∧
      (∀ t ∈ stack, t.act.name ∈ res) ∧
      (∀ n ∈ res, n ∈ out ∨ ∃ t ∈ subtreesL stack, t.act.name = n ∧ ∀ c ∈ t.children, c.act.name ∈ res) := by
  induction fuel with
  | zero =>
    intro stack visited out hf _ hnd
    cases stack with
    | nil => exact ⟨out, rfl, hnd, fun _ h => h, by simp, fun n hn => .inl hn⟩
    | cons t ts => simp [ActTree.countL, count_eq] at hf
  | succ fuel ih =>
    intro stack visited out hf hv hnd
    cases stack with
    | nil => exact ⟨out, rfl, hnd, fun _ h => h, by simp, fun n hn => .inl hn⟩
    | cons t q =>
      simp only [ActTree.countL, count_eq] at hf
      unfold saveNamesLoop
      by_cases hm : t.act.name ∈ visited
      · rw [if_pos hm]
        obtain ⟨res, h1, h2, h3, h4, h5⟩ := ih q visited out (by omega) hv hnd
        refine ⟨res, h1, h2, h3, ?_, ?_⟩
        · intro s hs
          rcases List.mem_cons.1 hs with rfl | hs
          · exact h3 _ ((hv _).1 hm)
          · exact h4 s hs
        · intro n hn
          rcases h5 n hn with h | ⟨s, hs, h⟩
          · exact .inl h
          · exact .inr ⟨s, by simp [subtreesL, hs], h⟩
      · rw [if_neg hm]
        have hno : t.act.name ∉ out := fun h => hm ((hv _).2 h)
        obtain ⟨res, h1, h2, h3, h4, h5⟩ := ih (t.children.reverse ++ q) (t.act.name :: visited) (out ++ [t.act.name])
          (by rw [countL_append, countL_reverse]; omega)
          (by intro n; simp [hv n, or_comm])
          (by rw [List.nodup_append]; exact ⟨hnd, by simp, by intro a ha b hb; simp at hb; subst hb; rintro rfl; exact hno ha⟩)
        refine ⟨res, h1, h2, fun n hn => h3 n (by simp [hn]), ?_, ?_⟩
        · intro s hs
          rcases List.mem_cons.1 hs with rfl | hs
          · exact h3 _ (by simp)
          · exact h4 s (by simp [hs])
        · intro n hn
          rcases h5 n hn with h | ⟨s, hs, h⟩
          · rw [List.mem_append, List.mem_singleton] at h
            rcases h with h | rfl
            · exact .inl h
            · refine .inr ⟨t, mem_subtreesL _ _ (by simp), rfl, fun c hc => h4 c (by simp [hc])⟩
          · refine .inr ⟨s, ?_, h⟩
            rw [subtreesL_append, List.mem_append] at hs
            rcases hs with hs | hs
            · obtain ⟨c, hc, hsc⟩ := (subtreesL_mem_iff _ _).1 hs
              have : s ∈ subtreesL t.children := (subtreesL_mem_iff _ _).2 ⟨c, by simpa using hc, hsc⟩
              simp [subtreesL, subtrees_eq, this]
            · simp [subtreesL, hs]

theorem saveNamesOfLevel_spec (roots : List ActTree) :
    ∃ names, saveNamesOfLevel roots = some names ∧ names.Nodup ∧ (∀ t ∈ roots, t.act.name ∈ names) ∧
      (∀ n ∈ names, ∃ t ∈ subtreesL roots, t.act.name = n ∧ ∀ c ∈ t.children, c.act.name ∈ names) := by
  obtain ⟨res, h1, h2, _, h4, h5⟩ := saveNamesLoop_spec (ActTree.countL roots) roots.reverse [] []
    (by rw [countL_reverse]) (by simp) (by simp)
  refine ⟨res, h1, h2, fun t ht => h4 t (by simpa using ht), ?_⟩
  intro n hn
  rcases h5 n hn with h | ⟨t, ht, h⟩
  · simp at h
  · obtain ⟨s, hs, hts⟩ := (subtreesL_mem_iff _ _).1 ht
    exact ⟨t, (subtreesL_mem_iff _ _).2 ⟨s, by simpa using hs, hts⟩, h⟩

theorem splitTreesByLevel_spec (acts : List ActTree) :
    (splitTreesByLevel acts).Pairwise (fun p q => p.1 < q.1) ∧
    ∀ l g, (l, g) ∈ splitTreesByLevel acts ↔ g = acts.filter (fun a => decide (a.act.level = l)) ∧ g ≠ [] := by
  have hperm := List.perm_insertionSort (fun a b : Nat × List ActTree => a.1 ≤ b.1)
    (groupAll (fun t : ActTree => t.act.level) acts)
  have : Std.Total (fun a b : Nat × List ActTree => a.1 ≤ b.1) := ⟨fun a b => Nat.le_total a.1 b.1⟩
  have : IsTrans (Nat × List ActTree) (fun a b => a.1 ≤ b.1) := ⟨fun a b c => Nat.le_trans⟩
  have hsort := List.pairwise_insertionSort (fun a b : Nat × List ActTree => a.1 ≤ b.1)
    (groupAll (fun t : ActTree => t.act.level) acts)
  have hwf := groupAll_wf (fun t : ActTree => t.act.level) acts
  have heq : splitTreesByLevel acts = (groupAll (fun t : ActTree => t.act.level) acts).insertionSort
    (fun a b => a.1 ≤ b.1) := rfl
  rw [heq]
  refine ⟨?_, ?_⟩
  · have hnd := (hperm.map Prod.fst).nodup_iff.2 hwf
    have hne := List.pairwise_map.1 hnd
    refine List.Pairwise.imp₂ (fun a b h1 h2 => ?_) hsort hne
    have h3 : a.1 ≠ b.1 := h2
    have h4 : a.1 ≤ b.1 := h1
    omega
  · intro l g
    rw [hperm.mem_iff, groupAll_mem]

theorem mapM_some_of {α β : Type} (f : α → Option β) (l : List α) (h : ∀ a ∈ l, ∃ b, f a = some b) :
    ∃ r, l.mapM f = some r ∧ List.Forall₂ (fun a b => f a = some b) l r := by
  induction l with
  | nil => exact ⟨[], rfl, .nil⟩
  | cons a l ih =>
    obtain ⟨b, hb⟩ := h a (by simp)
    obtain ⟨r, hr, hl⟩ := ih (fun x hx => h x (by simp [hx]))
    refine ⟨b :: r, ?_, .cons hb hl⟩
    rw [List.mapM_cons, hb, hr]; rfl

/-- C60a: the file has one section for every level of a top activity, in ascending order. A section has no name twice,
it has the names of all top activities of its level, only names of nodes at or below them, and with every name the names
of the children of some node of that name. -/
theorem C60_names_file (acts : List ActTree) :
    ∃ secs : List (Nat × List String), saveAllNames acts = some (secs.flatMap (fun p => section_ p.1 p.2)) ∧
      secs.Pairwise (fun p q => p.1 < q.1) ∧ (∀ l, (∃ t ∈ acts, t.act.level = l) ↔ l ∈ secs.map Prod.fst) ∧
      ∀ l names, (l, names) ∈ secs → names.Nodup ∧
        (∀ t ∈ acts, t.act.level = l → t.act.name ∈ names) ∧
        ∀ n ∈ names, ∃ t ∈ subtreesL (acts.filter (fun t => decide (t.act.level = l))),
          t.act.name = n ∧ ∀ c ∈ t.children, c.act.name ∈ names := by
  obtain ⟨hs1, hs2⟩ := splitTreesByLevel_spec acts
  obtain ⟨namess, hn1, hn2⟩ := mapM_some_of (fun p : Nat × List ActTree => (saveNamesOfLevel p.2).map (fun n => (p.1, n)))
    (splitTreesByLevel acts) (fun p _ => by
      obtain ⟨n, hn, _⟩ := saveNamesOfLevel_spec p.2
      exact ⟨(p.1, n), by rw [hn]; rfl⟩)
  have hfst : namess.map Prod.fst = (splitTreesByLevel acts).map Prod.fst := by
    clear hn1 hs1 hs2
    generalize splitTreesByLevel acts = ps at hn2
    induction hn2 with
    | nil => rfl
    | cons h _ ih =>
      obtain ⟨n, _, rfl⟩ := Option.map_eq_some_iff.1 h
      simp [ih]
  have hmem : ∀ l names, (l, names) ∈ namess → ∃ g, (l, g) ∈ splitTreesByLevel acts ∧ saveNamesOfLevel g = some names := by
    intro l names
    clear hn1 hs1 hs2 hfst
    generalize splitTreesByLevel acts = ps at hn2
    induction hn2 with
    | nil => simp
    | @cons a b as bs h _ ih =>
      intro hx
      obtain ⟨n, hn, rfl⟩ := Option.map_eq_some_iff.1 h
      rcases List.mem_cons.1 hx with hx | hx
      · simp only [Prod.mk.injEq] at hx
        obtain ⟨rfl, rfl⟩ := hx
        exact ⟨a.2, by simp, hn⟩
      · obtain ⟨g, h1, h2⟩ := ih hx
        exact ⟨g, by simp [h1], h2⟩
  refine ⟨namess, ?_, ?_, ?_, ?_⟩
  · unfold saveAllNames
    have : ∀ (xs : List (Nat × List ActTree)) (ys : List (Nat × List String)),
        List.Forall₂ (fun a b => (saveNamesOfLevel a.2).map (fun n => (a.1, n)) = some b) xs ys →
        (xs.mapM saveLevel).map List.flatten = some (ys.flatMap (fun p => section_ p.1 p.2)) := by
      intro xs ys h
      induction h with
      | nil => rfl
      | @cons a b as bs h _ ih =>
        obtain ⟨n, hn, rfl⟩ := Option.map_eq_some_iff.1 h
        obtain ⟨r, hr, hrf⟩ := Option.map_eq_some_iff.1 ih
        rw [List.mapM_cons, hr]
        unfold saveLevel
        rw [hn]
        simp only [Option.map_some, Option.bind_some, bind, pure, List.flatten_cons, hrf, List.flatMap_cons, Option.some.injEq]
        rfl
    exact this _ _ hn2
  · have h1 : ((splitTreesByLevel acts).map Prod.fst).Pairwise (· < ·) := List.pairwise_map.2 hs1
    rw [← hfst] at h1
    exact List.pairwise_map.1 h1
  · intro l
    rw [hfst, List.mem_map]
    constructor
    · rintro ⟨t, ht, hl⟩
      refine ⟨(l, acts.filter (fun a => decide (a.act.level = l))), (hs2 _ _).2 ⟨rfl, ?_⟩, rfl⟩
      intro hc
      have := List.filter_eq_nil_iff.1 hc t ht
      simp [hl] at this
    · rintro ⟨⟨l', g⟩, hg, rfl⟩
      obtain ⟨h1, h2⟩ := (hs2 _ _).1 hg
      obtain ⟨t, ht⟩ := List.exists_mem_of_ne_nil g h2
      rw [h1] at ht
      have := List.mem_filter.1 ht
      exact ⟨t, this.1, by simpa using this.2⟩
  · intro l names hx
    obtain ⟨g, hg, hsn⟩ := hmem l names hx
    obtain ⟨h1, _⟩ := (hs2 _ _).1 hg
    obtain ⟨n, hn, a1, a2, a3⟩ := saveNamesOfLevel_spec g
    rw [hn] at hsn
    obtain rfl := Option.some.inj hsn
    subst h1
    exact ⟨a1, fun t ht hl => a2 t (List.mem_filter.2 ⟨ht, by simpa using hl⟩), a3⟩

/-- A set of names that has the names of the roots, and with every name those of the children of some node of that name,
has all names when names determine the names of the children. -/
theorem subtree_trans (f : List ActTree) (t : ActTree) (ht : t ∈ subtreesL f) (x : ActTree) (hx : x ∈ subtreesL t.children) :
    x ∈ subtreesL f := by
  have key : ∀ k, ∀ g : List ActTree, ActTree.countL g ≤ k → t ∈ subtreesL g → x ∈ subtreesL g := by
    intro k
    induction k with
    | zero =>
      intro g hk ht
      cases g with
      | nil => simp [subtreesL] at ht
      | cons t ts => simp [ActTree.countL, count_eq] at hk
    | succ k ih =>
      intro g hk ht
      cases g with
      | nil => simp [subtreesL] at ht
      | cons u us =>
        simp only [ActTree.countL, count_eq] at hk
        simp only [subtreesL, subtrees_eq, List.mem_append, List.mem_cons] at ht ⊢
        rcases ht with (rfl | ht) | ht
        · exact .inl (.inr hx)
        · exact .inl (.inr (ih u.children (by omega) ht))
        · exact .inr (ih us (by omega) ht)
  exact key _ f (le_refl _) ht

theorem names_complete (f : List ActTree) (hd : NamesDetermineChildren f) (names : List String)
    (h1 : ∀ t ∈ f, t.act.name ∈ names)
    (h2 : ∀ n ∈ names, ∃ t ∈ subtreesL f, t.act.name = n ∧ ∀ c ∈ t.children, c.act.name ∈ names) :
    ∀ x ∈ subtreesL f, x.act.name ∈ names := by
  have key : ∀ k, ∀ g : List ActTree, ActTree.countL g ≤ k → (∀ t ∈ g, t ∈ subtreesL f) → (∀ t ∈ g, t.act.name ∈ names) →
      ∀ x ∈ subtreesL g, x.act.name ∈ names := by
    intro k
    induction k with
    | zero =>
      intro g hk _ _ x hx
      cases g with
      | nil => simp [subtreesL] at hx
      | cons t ts => simp [ActTree.countL, count_eq] at hk
    | succ k ih =>
      intro g hk hg hn x hx
      cases g with
      | nil => simp [subtreesL] at hx
      | cons t ts =>
        simp only [ActTree.countL, count_eq] at hk
        simp only [subtreesL, subtrees_eq, List.mem_append, List.mem_cons] at hx
        rcases hx with (rfl | hx) | hx
        · exact hn _ (by simp)
        · have ht := hg t (by simp)
          refine ih t.children (by omega) ?_ ?_ x hx
          · intro c hc
            exact subtree_trans f t ht c (mem_subtreesL _ _ hc)
          · intro c hc
            obtain ⟨s, hs, hsn, hsc⟩ := h2 _ (hn t (by simp))
            obtain ⟨d, hd1, hd2⟩ := hd t ht s hs hsn.symm c hc
            rw [← hd2]
            exact hsc d hd1
        · exact ih ts (by omega) (fun s hs => hg s (by simp [hs])) (fun s hs => hn s (by simp [hs])) x hx
  exact key _ f (le_refl _) (fun t ht => mem_subtreesL f t ht) h1

/-- C60b: the section of a level has the name of every node at or below its top activities, provided that nodes with the
same name have children with the same names; what is missing is the same without this hypothesis
(`C60_name_lost`). -/
theorem C60_all_names_written_partial (acts : List ActTree)
    (hd : ∀ l, NamesDetermineChildren (acts.filter (fun t => decide (t.act.level = l)))) :
    ∃ secs : List (Nat × List String), saveAllNames acts = some (secs.flatMap (fun p => section_ p.1 p.2)) ∧
      ∀ t ∈ acts, ∃ names, (t.act.level, names) ∈ secs ∧
        (∀ n, n ∈ names ↔ ∃ x ∈ subtreesL (acts.filter (fun s => decide (s.act.level = t.act.level))), x.act.name = n) := by
  obtain ⟨secs, h1, _, h3, h4⟩ := C60_names_file acts
  refine ⟨secs, h1, ?_⟩
  intro t ht
  obtain ⟨⟨l, names⟩, hm, hl⟩ := List.mem_map.1 ((h3 t.act.level).1 ⟨t, ht, rfl⟩)
  obtain rfl : l = t.act.level := hl
  obtain ⟨_, a2, a3⟩ := h4 _ _ hm
  refine ⟨names, hm, fun n => ⟨fun hn => ?_, ?_⟩⟩
  · obtain ⟨x, hx, hxn, _⟩ := a3 n hn
    exact ⟨x, hx, hxn⟩
  · rintro ⟨x, hx, rfl⟩
    exact names_complete _ (hd t.act.level) names (fun s hs => by
      have := List.mem_filter.1 hs
      exact a2 s this.1 (by simpa using this.2)) a3 x hx

def exReportNode (uid : Nat) (name : String) (level : Nat) (cs : List ActTree) : ActTree :=
  .node { uid := uid, name := name, level := level, repeatSet := ⟨0, 0, 0⟩, events := [] } cs

def exReportTrees : List ActTree :=
  [exReportNode 0 "AB" 1 [exReportNode 1 "A" 0 [], exReportNode 2 "B" 0 []], exReportNode 3 "C" 0 [exReportNode 4 "D" 0 []],
    exReportNode 5 "AC" 1 [exReportNode 6 "A" 0 []]]

example : saveAllNames exReportTrees = some (section_ 0 ["C", "D"] ++ section_ 1 ["AC", "A", "AB", "B"]) := by decide +kernel

/-- C60c: without the hypothesis names are lost: two top activities named `A`, the first with the child `B`. The one popped
first is the last, the other is skipped together with its child. -/
theorem C60_name_lost :
    saveAllNames [exReportNode 0 "A" 0 [exReportNode 1 "B" 0 []], exReportNode 2 "A" 0 []] = some (section_ 0 ["A"]) := by
  decide +kernel

/-! ### C61: names and hashes -/

theorem printLoop_layer (fuel : Nat) (a b : List ActTree) (out : List Activity) :
    printLoop (a.length + fuel) (a ++ b) out = printLoop fuel (b ++ a.flatMap ActTree.children) (out ++ a.map ActTree.act) := by
  induction a generalizing b out with
  | nil => simp
  | cons t ts ih =>
    have : (t :: ts).length + fuel = (ts.length + fuel) + 1 := by simp; omega
    rw [this, List.cons_append, printLoop, List.append_assoc, ih]
    simp

theorem countL_flatMap (f : List ActTree) : ActTree.countL f = f.length + ActTree.countL (f.flatMap ActTree.children) := by
  induction f with
  | nil => rfl
  | cons t ts ih =>
    rw [List.flatMap_cons, countL_append]
    simp only [ActTree.countL, count_eq, List.length_cons]; omega

theorem printLoop_layers (n : Nat) : ∀ (f : List ActTree) (fuel : Nat) (out : List Activity), ActTree.countL f ≤ n →
    ActTree.countL f ≤ fuel → printLoop fuel f out = some (out ++ (layers n f).map ActTree.act) := by
  induction n with
  | zero =>
    intro f fuel out hn hf
    cases f with
    | nil => cases fuel <;> simp [printLoop, layers]
    | cons t ts => simp [ActTree.countL, count_eq] at hn
  | succ n ih =>
    intro f fuel out hn hf
    have hc := countL_flatMap f
    cases f with
    | nil =>
      have hl : ∀ m, layers m ([] : List ActTree) = [] := by
        intro m; induction m with
        | zero => rfl
        | succ m ih => simp [layers, ih]
      cases fuel <;> simp [printLoop, hl]
    | cons t ts =>
      obtain ⟨k, hk⟩ : ∃ k, fuel = (t :: ts).length + k := ⟨fuel - (t :: ts).length, by omega⟩
      have := printLoop_layer k (t :: ts) [] out
      rw [List.append_nil] at this
      rw [hk, this, List.nil_append, ih _ _ _ (by simp only [List.length_cons] at hc; omega) (by omega)]
      simp [layers]

theorem layers_perm (n : Nat) : ∀ f : List ActTree, ActTree.countL f ≤ n → ((layers n f).map ActTree.act).Perm (actsL f) := by
  have hx : ∀ f : List ActTree, (actsL f).Perm (f.map ActTree.act ++ actsL (f.flatMap ActTree.children)) := by
    intro f
    induction f with
    | nil => exact .refl _
    | cons t ts ih =>
      cases t with
      | node a cs =>
        simp only [actsL, acts, List.map_cons, ActTree.act, List.flatMap_cons, ActTree.children, actsL_append,
          List.cons_append]
        refine .cons _ ?_
        exact (List.Perm.append_left _ ih).trans (List.perm_append_comm_assoc _ _ _)
  induction n with
  | zero =>
    intro f hn
    cases f with
    | nil => exact .refl _
    | cons t ts => simp [ActTree.countL, count_eq] at hn
  | succ n ih =>
    intro f hn
    have hc := countL_flatMap f
    cases f with
    | nil =>
      have hl : ∀ m, layers m ([] : List ActTree) = [] := by
        intro m; induction m with
        | zero => rfl
        | succ m ih => simp [layers, ih]
      simp [hl, actsL]
    | cons t ts =>
      simp only [layers, List.map_append]
      refine List.Perm.trans (List.Perm.append_left _ (ih _ ?_)) (hx _).symm
      simp only [List.length_cons] at hc; omega

/-- C61: the print has one line, with the hash of the name and the name, for every node of the forest (with
multiplicity), layer by layer from the top activities on. -/
theorem C61_every_node_printed_once (acts : List ActTree) :
    ∃ nodes : List Activity, printNamesToHashes acts = some (nodes.map (fun a => (stringHash a.name, a.name))) ∧
      nodes.Perm (actsL acts) ∧ ∀ n, (actsL acts).length ≤ n → nodes = (layers n acts).map ActTree.act := by
  have hlen := (countL_eq_length _).2 acts (le_refl _)
  have hp := fun n hn => printLoop_layers n acts (ActTree.countL acts) [] hn (le_refl _)
  refine ⟨(layers (ActTree.countL acts) acts).map ActTree.act, ?_, layers_perm _ acts (le_refl _), ?_⟩
  · unfold printNamesToHashes
    rw [hp _ (le_refl _)]; rfl
  · intro n hn
    have h1 := hp _ (le_refl _)
    rw [hp n (by omega)] at h1
    simpa using (Option.some.inj h1).symm

example : (printNamesToHashes exReportTrees).map (·.map Prod.snd) = some ["AB", "C", "AC", "A", "B", "D", "A"] := by
  decide +kernel

/-! ### C62: files about instances -/

theorem saveInstancesLoop_spec (is : List Instance) (hid : IdentityOfNodes is) : ∀ visited : List Nat,
    ((saveInstancesLoop is visited).map Activity.uid).Nodup ∧
    (saveInstancesLoop is visited).Sublist (is.map (fun i => i.node.act)) ∧
    ∀ a, a ∈ saveInstancesLoop is visited ↔ a.uid ∉ visited ∧ ∃ i ∈ is, i.node.act = a := by
  induction is with
  | nil => intro visited; simp [saveInstancesLoop]
  | cons i is ih =>
    intro visited
    have hid' : IdentityOfNodes is := fun a ha b hb => hid a (by simp [ha]) b (by simp [hb])
    unfold saveInstancesLoop
    by_cases hm : i.node.act.uid ∈ visited
    · rw [if_pos hm]
      obtain ⟨h1, h2, h3⟩ := ih hid' visited
      refine ⟨h1, h2.cons _, fun a => ?_⟩
      rw [h3]
      constructor
      · rintro ⟨ha, j, hj, rfl⟩; exact ⟨ha, j, by simp [hj], rfl⟩
      · rintro ⟨ha, j, hj, rfl⟩
        rcases List.mem_cons.1 hj with rfl | hj
        · exact absurd hm ha
        · exact ⟨ha, j, hj, rfl⟩
    · rw [if_neg hm]
      obtain ⟨h1, h2, h3⟩ := ih hid' (i.node.act.uid :: visited)
      refine ⟨?_, h2.cons_cons _, fun a => ?_⟩
      · rw [List.map_cons, List.nodup_cons]
        refine ⟨?_, h1⟩
        intro hx
        obtain ⟨a, ha, hau⟩ := List.mem_map.1 hx
        exact ((h3 a).1 ha).1 (by simp [hau])
      · rw [List.mem_cons, h3]
        constructor
        · rintro (rfl | ⟨ha, j, hj, rfl⟩)
          · exact ⟨hm, i, by simp, rfl⟩
          · exact ⟨fun h => ha (by simp [h]), j, by simp [hj], rfl⟩
        · rintro ⟨ha, j, hj, rfl⟩
          by_cases he : j.node.act.uid = i.node.act.uid
          · exact .inl (hid j hj i (by simp) he)
          · rcases List.mem_cons.1 hj with rfl | hj
            · exact absurd rfl he
            · exact .inr ⟨by simp [he, ha], j, hj, rfl⟩

theorem uniqueName_inj (a b : Activity) (h : a.uniqueName = b.uniqueName) : a.uid = b.uid := by
  unfold Activity.uniqueName at h
  have h1 : (toString a.uid : String) = toString b.uid := String.append_right_inj _ |>.1 h
  exact Nat.repr_injective h1

theorem saveInstancesLoop_eq (is : List Instance) (hid : IdentityOfNodes is) : ∀ visited : List Nat,
    saveInstancesLoop is visited =
      ((is.map (fun i => i.node.act)).filter (fun a => decide (a.uid ∉ visited))).eraseDups := by
  induction is with
  | nil => intro visited; simp [saveInstancesLoop]
  | cons i is ih =>
    intro visited
    have hid' : IdentityOfNodes is := fun a ha b hb => hid a (by simp [ha]) b (by simp [hb])
    unfold saveInstancesLoop
    by_cases hm : i.node.act.uid ∈ visited
    · rw [if_pos hm, ih hid', List.map_cons, List.filter_cons_of_neg (by simpa using hm)]
    · rw [if_neg hm, ih hid', List.map_cons, List.filter_cons_of_pos (by simpa using hm), List.eraseDups_cons,
        List.filter_filter]
      congr 2
      apply List.filter_congr
      intro a ha
      obtain ⟨j, hj, rfl⟩ := List.mem_map.1 ha
      have : j.node.act.uid = i.node.act.uid ↔ j.node.act = i.node.act :=
        ⟨fun h => hid j (by simp [hj]) i (by simp) h, fun h => by rw [h]⟩
      rw [Bool.eq_iff_iff]
      simp [this]

/-- C62a: the file of names has exactly one line `unique name=name` for every node that has an instance, in the order of
the first instances, and no unique name occurs twice. -/
theorem C62_one_line_per_node (insts : List (List Instance)) (hid : IdentityOfNodes insts.flatten) :
    ∃ nodes : List Activity, saveInstancesNames insts = nodes.map (fun a => a.uniqueName ++ "=" ++ a.name ++ "\n") ∧
      (nodes.map Activity.uniqueName).Nodup ∧ (∀ a, a ∈ nodes ↔ ∃ i ∈ insts.flatten, i.node.act = a) ∧
      nodes = (insts.flatten.map (fun i => i.node.act)).eraseDups := by
  obtain ⟨h1, _, h3⟩ := saveInstancesLoop_spec insts.flatten hid []
  refine ⟨_, rfl, ?_, fun a => by rw [h3]; simp, by
    rw [saveInstancesLoop_eq _ hid]; congr 1; exact List.filter_eq_self.2 (by simp)⟩
  rw [List.nodup_iff_pairwise_ne, List.pairwise_map] at h1 ⊢
  exact h1.imp (fun h1 h2 => h1 (uniqueName_inj _ _ h2))

/-- Digits followed by something else determine the number and what follows. -/
theorem digits_cons_inj (a b : Nat) (x y : Char) (r s : List Char) (hx : x.isDigit = false) (hy : y.isDigit = false)
    (h : Nat.toDigits 10 a ++ x :: r = Nat.toDigits 10 b ++ y :: s) : a = b ∧ x = y ∧ r = s := by
  have htw : ∀ (n : Nat) (c : Char) (t : List Char), c.isDigit = false →
      (Nat.toDigits 10 n ++ c :: t).takeWhile Char.isDigit = Nat.toDigits 10 n := by
    intro n c t hc
    rw [List.takeWhile_append_of_pos (fun d hd => Nat.isDigit_of_mem_toDigits (by omega) (by omega) hd),
      List.takeWhile_cons_of_neg (by simp [hc]), List.append_nil]
  have h1 : Nat.toDigits 10 a = Nat.toDigits 10 b := by
    rw [← htw a x r hx, ← htw b y s hy, h]
  have h2 : a = b := by
    have := congrArg (fun l => Nat.ofDigitChars 10 l 0) h1
    simpa [Nat.ofDigitChars_ten_toDigits] using this
  rw [h1] at h
  have := List.append_cancel_left h
  simp only [List.cons.injEq] at this
  exact ⟨h2, this⟩

/-- The characters of the line of an instance. -/
def lineChars (u s l : Nat) : List Char :=
  '(' :: "Activity_".toList ++ (Nat.toDigits 10 u ++ ',' :: ' ' :: (Nat.toDigits 10 s ++ ',' :: ' ' ::
    (Nat.toDigits 10 l ++ [')', '\n'])))

theorem indexLine_chars (i : Instance) : (indexLine i).toList = lineChars i.node.act.uid i.startPos i.length := by
  unfold indexLine lineChars Activity.uniqueName
  simp [String.toList_append]

theorem lineChars_inj (u s l u' s' l' : Nat) (r r' : List Char)
    (h : lineChars u s l ++ r = lineChars u' s' l' ++ r') : (u, s, l) = (u', s', l') ∧ r = r' := by
  unfold lineChars at h
  simp only [List.cons_append, List.append_assoc, List.cons.injEq, true_and] at h
  have h := List.append_cancel_left h
  obtain ⟨rfl, _, h⟩ := digits_cons_inj _ _ _ _ _ _ (by decide) (by decide) h
  simp only [List.cons.injEq, true_and] at h
  obtain ⟨rfl, _, h⟩ := digits_cons_inj _ _ _ _ _ _ (by decide) (by decide) h
  simp only [List.cons.injEq, true_and] at h
  obtain ⟨rfl, _, h⟩ := digits_cons_inj _ _ _ _ _ _ (by decide) (by decide) h
  simp only [List.nil_append, List.cons.injEq, true_and] at h
  exact ⟨rfl, h⟩

theorem join_toList (l : List String) : (String.join l).toList = l.flatMap String.toList := by
  rw [String.toList_join]

theorem body_inj (is js : List Instance) (r s : List Char)
    (h : is.flatMap (fun i => (indexLine i).toList) ++ '\n' :: r = js.flatMap (fun i => (indexLine i).toList) ++ '\n' :: s) :
    is.map triple = js.map triple ∧ r = s := by
  induction is generalizing js with
  | nil =>
    cases js with
    | nil => simpa using h
    | cons j js => simp [indexLine_chars, lineChars] at h
  | cons i is ih =>
    cases js with
    | nil => simp [indexLine_chars, lineChars] at h
    | cons j js =>
      simp only [List.flatMap_cons, indexLine_chars, List.append_assoc] at h
      obtain ⟨h1, h2⟩ := lineChars_inj _ _ _ _ _ _ _ _ h
      simp only [← indexLine_chars] at h2
      obtain ⟨h3, h4⟩ := ih js h2
      exact ⟨by simp [h3, triple]; simpa using h1, h4⟩

theorem writeIndicesFrom_inj (a b : List (List Instance)) : ∀ k,
    (writeIndicesFrom k a).toList = (writeIndicesFrom k b).toList → a.map (·.map triple) = b.map (·.map triple) := by
  have hd : ∀ n : Nat, (toString n : String).toList = Nat.toDigits 10 n := fun n => Nat.toList_repr
  induction a generalizing b with
  | nil =>
    intro k h
    cases b with
    | nil => rfl
    | cons j js => simp [writeIndicesFrom, String.toList_append] at h
  | cons i is ih =>
    intro k h
    cases b with
    | nil => simp [writeIndicesFrom, String.toList_append] at h
    | cons j js =>
      have hn : "\n".toList = ['\n'] := rfl
      simp only [writeIndicesFrom, String.toList_append, hd, join_toList, hn, List.append_assoc, List.singleton_append,
        List.flatMap_map] at h
      have h := List.append_cancel_left h
      have h := List.append_cancel_left h
      simp only [List.cons_append, List.cons.injEq, true_and] at h
      obtain ⟨h1, h2⟩ := body_inj _ _ _ _ h
      rw [List.map_cons, List.map_cons, h1, ih js (k + 1) h2]

/-- C62b: the text of the file of indices determines, for every trace, the list of the instances by the identity of the
node, start and length. -/
theorem C62_indices_recoverable (a b : List (List Instance)) :
    writeIndices a = writeIndices b ↔ a.map (·.map triple) = b.map (·.map triple) := by
  constructor
  · intro h
    exact writeIndicesFrom_inj a b 0 (by unfold writeIndices at h; rw [h])
  · unfold writeIndices
    generalize 0 = k
    induction a generalizing b k with
    | nil => intro h; cases b with
      | nil => rfl
      | cons _ _ => simp at h
    | cons i is ih =>
      intro h
      cases b with
      | nil => simp at h
      | cons j js =>
        simp only [List.map_cons, List.cons.injEq] at h
        have : ∀ (x y : List Instance), x.map triple = y.map triple → x.map indexLine = y.map indexLine := by
          intro x
          induction x with
          | nil => intro y hy; cases y with
            | nil => rfl
            | cons _ _ => simp at hy
          | cons p x ihx =>
            intro y hy
            cases y with
            | nil => simp at hy
            | cons q y =>
              simp only [List.map_cons, List.cons.injEq] at hy
              rw [List.map_cons, List.map_cons, ihx y hy.2]
              have hpq := hy.1
              simp only [triple, Prod.mk.injEq] at hpq
              unfold indexLine Activity.uniqueName
              rw [hpq.1, hpq.2.1, hpq.2.2]
        unfold writeIndicesFrom
        rw [this _ _ h.1, ih js (k + 1) h.2]

def exReportInsts : List (List Instance) :=
  [[⟨exReportNode 3 "C" 0 [], 0, 2⟩, ⟨exReportNode 12 "D" 0 [], 2, 1⟩], [], [⟨exReportNode 3 "C" 0 [], 10, 11⟩]]

example : writeIndices exReportInsts =
    "Trace 0\n(Activity_3, 0, 2)\n(Activity_12, 2, 1)\n\nTrace 1\n\nTrace 2\n(Activity_3, 10, 11)\n\n" := by decide +kernel

example : IdentityOfNodes exReportInsts.flatten := by unfold IdentityOfNodes; decide
example : saveInstancesNames exReportInsts = ["Activity_3=C\n", "Activity_12=D\n"] := by decide +kernel

/-! ### C63: events in no instance -/

variable {E : Type}

theorem uncovered_lt (n : Nat) (l : List (Nat × Nat)) : ∀ i ∈ uncovered n l, i < n := by
  intro i hi
  have := (List.mem_filter.1 hi).1
  simpa using this

theorem pick_length (t : List E) (ps : List Nat) (h : ∀ i ∈ ps, i < t.length) : (pick t ps).length = ps.length := by
  unfold pick
  induction ps with
  | nil => rfl
  | cons p ps ih =>
    have hp := h p (by simp)
    rw [List.filterMap_cons, List.getElem?_eq_getElem hp]
    simp only [List.length_cons]
    rw [ih (fun i hi => h i (by simp [hi]))]

theorem mem_uncovered (n : Nat) (l : List (Nat × Nat)) (i : Nat) : i ∈ uncovered n l ↔ i < n ∧ ¬ Covered l i := by
  unfold uncovered Covered
  rw [List.mem_filter, List.mem_range]
  simp

theorem zipWith_sum_le {A B : Type} (f : A → B → Nat) (g : B → Nat) (P : A → B → Prop) (as : List A) (bs : List B)
    (h : List.Forall₂ P as bs) (hle : ∀ a b, P a b → f a b ≤ g b) :
    (List.zipWith f as bs).sum ≤ (bs.map g).sum := by
  induction h with
  | nil => simp
  | cons h _ ih => simp only [List.zipWith_cons_cons, List.sum_cons, List.map_cons]; have := hle _ _ h; omega

theorem uncovered_length_le (n : Nat) (l : List (Nat × Nat)) : (uncovered n l).length ≤ n := by
  have := List.length_filter_le (fun i => !l.any (fun p => decide (p.1 ≤ i) && decide (i < p.1 + p.2))) (List.range n)
  simpa [uncovered] using this

theorem uncoveredCount_le (log : Log E) (insts : List (List Instance)) (h : FitsLog log insts) :
    uncoveredCount log insts ≤ eventCount log :=
  zipWith_sum_le _ _ _ _ _ h (fun _ _ _ => uncovered_length_le _ _)

theorem uncoveredCount_zero (log : Log E) (insts : List (List Instance)) (h : FitsLog log insts) :
    uncoveredCount log insts = 0 ↔
      List.Forall₂ (fun is (t : Trace E) => ∀ i, i < t.events.length → Covered (is.map span) i) insts log.traces := by
  unfold uncoveredCount FitsLog at *
  generalize log.traces = ts at h
  induction h with
  | nil => simp
  | cons h _ ih =>
    rw [List.zipWith_cons_cons, List.sum_cons, Nat.add_eq_zero_iff, ih, List.forall₂_cons]
    refine and_congr_left (fun _ => ?_)
    rw [List.length_eq_zero_iff, List.eq_nil_iff_forall_not_mem]
    constructor
    · intro hx i hi
      by_contra hc
      exact hx i ((mem_uncovered _ _ _).2 ⟨hi, hc⟩)
    · intro hx i hi
      obtain ⟨h1, h2⟩ := (mem_uncovered _ _ _).1 hi
      exact h2 (hx i h1)

theorem uncoveredCount_all (log : Log E) (insts : List (List Instance)) (h : FitsLog log insts) :
    uncoveredCount log insts = eventCount log ↔ ∀ is ∈ insts, is = [] := by
  unfold uncoveredCount eventCount FitsLog at *
  generalize log.traces = ts at h
  induction h with
  | nil => simp
  | @cons is t iss ts h hr ih =>
    have h1 := uncovered_length_le t.events.length (is.map span)
    have h2 := zipWith_sum_le (fun is (t : Trace E) => (uncovered t.events.length (is.map span)).length)
      (fun t => t.events.length) _ iss ts hr (fun is t _ => uncovered_length_le _ _)
    rw [List.zipWith_cons_cons, List.sum_cons, List.map_cons, List.sum_cons, List.forall_mem_cons, ← ih]
    have h3 : (uncovered t.events.length (is.map span)).length = t.events.length ↔ is = [] := by
      constructor
      · intro hl
        cases is with
        | nil => rfl
        | cons i is =>
          exfalso
          have hb := h.1 (span i) (by simp)
          simp only [span] at hb
          have : i.startPos ∈ uncovered t.events.length ((i :: is).map span) := by
            have heq : uncovered t.events.length ((i :: is).map span) = List.range t.events.length := by
              unfold uncovered at hl ⊢
              exact List.filter_eq_self.2 (by
                have := List.length_filter_eq_length_iff.1 (hl.trans (List.length_range (n := t.events.length)).symm)
                exact this)
            rw [heq, List.mem_range]; omega
          exact ((mem_uncovered _ _ _).1 this).2 ⟨span i, by simp, by simp [span], by simp [span]; omega⟩
      · rintro rfl
        simp [uncovered]
    rw [← h3]
    omega

/-- C63a: for instances that fit the log, the printed number is the number of events in no instance divided by the number
of events; it is between 0 and 1, it is 0 exactly if every event is in an instance and 1 exactly if there are no
instances. For a log without events there is no number. -/
theorem C63_percentage (log : Log E) (insts : List (List Instance)) (h : FitsLog log insts) :
    (eventCount log = 0 → percentageUnattached log insts = .ok none) ∧
    (eventCount log ≠ 0 → ∃ q : Rat, percentageUnattached log insts = .ok (some q) ∧
      q = (uncoveredCount log insts : Rat) / (eventCount log : Rat) ∧ 0 ≤ q ∧ q ≤ 1 ∧
      (q = 0 ↔ List.Forall₂ (fun is (t : Trace E) => ∀ i, i < t.events.length → Covered (is.map span) i) insts
        log.traces) ∧
      (q = 1 ↔ ∀ is ∈ insts, is = [])) := by
  obtain ⟨r, h1, h2⟩ := C35_unattached_exactly_outside log insts h
  have hcnt : (r.evs.map List.length).sum = uncoveredCount log insts := by
    rw [h2, List.map_zipWith]
    unfold uncoveredCount
    congr 2
    funext is t
    exact pick_length _ _ (uncovered_lt _ _)
  have htot : (log.evs.map List.length).sum = eventCount log := by
    unfold eventCount Log.evs
    rw [List.map_map]; rfl
  have hle := uncoveredCount_le log insts h
  unfold percentageUnattached
  simp only [bind, Except.bind, h1, hcnt, htot, pure, Except.pure]
  refine ⟨fun h0 => by rw [if_pos h0], fun h0 => ?_⟩
  have hpos : (0 : Rat) < (eventCount log : Rat) := by exact_mod_cast Nat.pos_of_ne_zero h0
  refine ⟨_, by rw [if_neg h0], rfl, ?_, ?_, ?_, ?_⟩
  · positivity
  · rw [div_le_one hpos]; exact_mod_cast hle
  · rw [← uncoveredCount_zero log insts h, div_eq_zero_iff]
    constructor
    · rintro (h | h)
      · exact_mod_cast h
      · exact absurd h (ne_of_gt hpos)
    · intro h; exact .inl (by exact_mod_cast h)
  · rw [← uncoveredCount_all log insts h, div_eq_one_iff_eq (ne_of_gt hpos)]
    exact_mod_cast Iff.rfl

/-- C63b: the printed names are exactly the names of the events in no instance, each once. -/
theorem C63_names_of_unattached [HasName E] (log : Log E) (insts : List (List Instance)) (h : FitsLog log insts) :
    ∃ names, unattachedNames log insts = .ok names ∧ names.Nodup ∧
      ∀ n, n ∈ names ↔ ∃ (k : Nat) (is : List Instance) (t : Trace E) (i : Nat) (e : E), insts[k]? = some is ∧
        log.traces[k]? = some t ∧ t.events[i]? = some e ∧ ¬ Covered (is.map span) i ∧ name e = n := by
  obtain ⟨r, h1, h2⟩ := C35_unattached_exactly_outside log insts h
  unfold unattachedNames
  simp only [bind, Except.bind, h1, pure, Except.pure]
  refine ⟨_, rfl, List.nodup_dedup _, fun n => ?_⟩
  rw [List.mem_dedup, List.mem_map, h2]
  constructor
  · rintro ⟨e, he, rfl⟩
    obtain ⟨l, hl, hel⟩ := List.mem_flatten.1 he
    obtain ⟨k, hk⟩ := List.mem_iff_getElem?.1 hl
    rw [List.getElem?_zipWith] at hk
    cases hi : insts[k]? with
    | none => rw [hi] at hk; simp at hk
    | some is =>
      cases ht : log.traces[k]? with
      | none => rw [hi, ht] at hk; simp at hk
      | some t =>
        rw [hi, ht] at hk
        simp only [Option.some.injEq] at hk
        subst hk
        obtain ⟨i, hi', hie⟩ := List.mem_filterMap.1 hel
        exact ⟨k, is, t, i, e, hi, ht, hie, ((mem_uncovered _ _ _).1 hi').2, rfl⟩
  · rintro ⟨k, is, t, i, e, hi, ht, hie, hc, rfl⟩
    refine ⟨e, List.mem_flatten.2 ⟨pick t.events (uncovered t.events.length (is.map span)), ?_, ?_⟩, rfl⟩
    · apply List.mem_of_getElem? (i := k)
      rw [List.getElem?_zipWith, hi, ht]
    · refine List.mem_filterMap.2 ⟨i, (mem_uncovered _ _ _).2 ⟨?_, hc⟩, hie⟩
      exact (List.getElem?_eq_some_iff.1 hie).1

def exReportLog : Log String := Log.ofEvs [["a", "b", "c", "d"], ["x"]]
def exReportFit : List (List Instance) := [[⟨exReportNode 3 "C" 0 [], 0, 2⟩, ⟨exReportNode 12 "D" 0 [], 3, 1⟩], []]
theorem exReportFits : FitsLog exReportLog exReportFit :=
  .cons ⟨by decide, by decide⟩ (.cons ⟨by decide, by decide⟩ .nil)

example : ∃ q : Rat, percentageUnattached exReportLog exReportFit = .ok (some q) ∧ q = 2 / 5 := by
  obtain ⟨q, h1, h2, _⟩ := (C63_percentage exReportLog exReportFit exReportFits).2 (by decide)
  exact ⟨q, h1, by rw [h2]; rfl⟩

end Ficus
