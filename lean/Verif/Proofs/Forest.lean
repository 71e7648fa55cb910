import Verif.Spec.Activity
import Verif.Proofs.RepeatSets
import Mathlib.Data.List.Perm.Subperm
import Mathlib.Data.List.TakeWhile

namespace Ficus
open Spec

theorem actsL_append (f g : List ActTree) : actsL (f ++ g) = actsL f ++ actsL g := by
  induction f with
  | nil => simp [actsL]
  | cons t f ih => simp [actsL, ih]

theorem linksL_append (f g : List ActTree) : linksL (f ++ g) = linksL f ++ linksL g := by
  induction f with
  | nil => simp [linksL]
  | cons t f ih => simp [linksL, ih]

theorem act_appendChild (p : Nat) (c : Activity) (t : ActTree) : (ActTree.appendChild p c t).act = t.act := by
  cases t with
  | node a cs =>
    unfold ActTree.appendChild
    split <;> rfl

theorem roots_appendChildL (p : Nat) (c : Activity) (f : List ActTree) :
    roots (ActTree.appendChildL p c f) = roots f := by
  induction f with
  | nil => rfl
  | cons t f ih =>
    simp only [ActTree.appendChildL, roots, List.map_cons, act_appendChild]
    rw [show List.map ActTree.act (ActTree.appendChildL p c f) = List.map ActTree.act f from ih]

mutual
theorem appendChild_absent (p : Nat) (c : Activity) (t : ActTree) (h : ∀ a ∈ acts t, a.uid ≠ p) :
    ActTree.appendChild p c t = t := by
  match t with
  | .node a cs =>
    unfold ActTree.appendChild
    rw [if_neg (h a (by simp [acts]))]
    rw [appendChildL_absent p c cs (fun b hb => h b (by simp [acts, hb]))]
theorem appendChildL_absent (p : Nat) (c : Activity) (f : List ActTree) (h : ∀ a ∈ actsL f, a.uid ≠ p) :
    ActTree.appendChildL p c f = f := by
  match f with
  | [] => rfl
  | t :: ts =>
    unfold ActTree.appendChildL
    rw [appendChild_absent p c t (fun b hb => h b (by simp [actsL, hb])),
      appendChildL_absent p c ts (fun b hb => h b (by simp [actsL, hb]))]
end

mutual
theorem acts_appendChild (p : Nat) (c : Activity) (t : ActTree) (hn : ((acts t).map Activity.uid).Nodup)
    (hp : p ∈ (acts t).map Activity.uid) : (acts (ActTree.appendChild p c t)).Perm (c :: acts t) := by
  match t with
  | .node a cs =>
    unfold ActTree.appendChild
    by_cases h : a.uid = p
    · rw [if_pos h]
      simp only [acts, actsL_append, actsL, List.append_nil]
      have : (a :: (actsL cs ++ [c])).Perm ([c] ++ (a :: actsL cs)) := by
        rw [← List.cons_append]; exact List.perm_append_comm
      exact this
    · rw [if_neg h]
      simp only [acts, List.map_cons, List.nodup_cons] at hn hp ⊢
      have hp' : p ∈ (actsL cs).map Activity.uid := by
        rcases List.mem_cons.1 hp with h' | h'
        · exact absurd h'.symm h
        · exact h'
      exact ((acts_appendChildL p c cs hn.2 hp').cons a).trans (List.Perm.swap c a _)
theorem acts_appendChildL (p : Nat) (c : Activity) (f : List ActTree) (hn : ((actsL f).map Activity.uid).Nodup)
    (hp : p ∈ (actsL f).map Activity.uid) : (actsL (ActTree.appendChildL p c f)).Perm (c :: actsL f) := by
  match f with
  | [] => simp [actsL] at hp
  | t :: ts =>
    unfold ActTree.appendChildL
    simp only [actsL, List.map_append, List.nodup_append, List.mem_append] at hn hp ⊢
    by_cases h : p ∈ (acts t).map Activity.uid
    · rw [appendChildL_absent p c ts]
      · exact (acts_appendChild p c t hn.1 h).append_right _
      · intro b hb he
        exact hn.2.2 p h _ (List.mem_map.2 ⟨b, hb, rfl⟩) he.symm
    · rw [appendChild_absent p c t]
      · have := acts_appendChildL p c ts hn.2.1 (by tauto)
        exact (this.append_left _).trans List.perm_middle
      · intro b hb he
        exact h (List.mem_map.2 ⟨b, hb, he⟩)
end

mutual
theorem mem_links_appendChild (p : Nat) (c : Activity) (t : ActTree) (x : Activity × Activity)
    (h : x ∈ links (ActTree.appendChild p c t)) : x ∈ links t ∨ (x.1 ∈ acts t ∧ x.1.uid = p ∧ x.2 = c) := by
  match t with
  | .node a cs =>
    unfold ActTree.appendChild at h
    by_cases hp : a.uid = p
    · rw [if_pos hp] at h
      simp only [links, List.map_append, List.map_cons, List.map_nil, linksL_append, linksL, List.append_nil,
        List.mem_append, List.mem_map, List.mem_singleton, ActTree.act] at h ⊢
      rcases h with (h | h) | h
      · exact Or.inl (Or.inl h)
      · subst h; exact Or.inr ⟨by simp [acts], hp, rfl⟩
      · exact Or.inl (Or.inr h)
    · rw [if_neg hp] at h
      simp only [links, List.mem_append, List.mem_map] at h ⊢
      rcases h with ⟨t', ht', rfl⟩ | h
      · have : t'.act ∈ roots (ActTree.appendChildL p c cs) := List.mem_map.2 ⟨t', ht', rfl⟩
        rw [roots_appendChildL] at this
        obtain ⟨t'', ht'', he⟩ := List.mem_map.1 this
        exact Or.inl (Or.inl ⟨t'', ht'', by rw [he]⟩)
      · rcases mem_links_appendChildL p c cs x h with h | h
        · exact Or.inl (Or.inr h)
        · exact Or.inr ⟨by simp [acts, h.1], h.2⟩
theorem mem_links_appendChildL (p : Nat) (c : Activity) (f : List ActTree) (x : Activity × Activity)
    (h : x ∈ linksL (ActTree.appendChildL p c f)) : x ∈ linksL f ∨ (x.1 ∈ actsL f ∧ x.1.uid = p ∧ x.2 = c) := by
  match f with
  | [] => simp [ActTree.appendChildL, linksL] at h
  | t :: ts =>
    unfold ActTree.appendChildL at h
    simp only [linksL, actsL, List.mem_append] at h ⊢
    rcases h with h | h
    · rcases mem_links_appendChild p c t x h with h | h
      · exact Or.inl (Or.inl h)
      · exact Or.inr ⟨Or.inl h.1, h.2⟩
    · rcases mem_links_appendChildL p c ts x h with h | h
      · exact Or.inl (Or.inr h)
      · exact Or.inr ⟨Or.inr h.1, h.2⟩
end

mutual
theorem acts_root_or_child (t : ActTree) (a : Activity) (h : a ∈ acts t) :
    a = t.act ∨ ∃ p, (p, a) ∈ links t := by
  match t with
  | .node b cs =>
    simp only [acts, List.mem_cons] at h
    rcases h with h | h
    · exact Or.inl h
    · right
      rcases actsL_root_or_child cs a h with h | ⟨p, hp⟩
      · obtain ⟨t', ht', rfl⟩ := List.mem_map.1 h
        exact ⟨b, by simp only [links, List.mem_append, List.mem_map]; exact Or.inl ⟨t', ht', rfl⟩⟩
      · exact ⟨p, by simp [links, hp]⟩
theorem actsL_root_or_child (f : List ActTree) (a : Activity) (h : a ∈ actsL f) :
    a ∈ roots f ∨ ∃ p, (p, a) ∈ linksL f := by
  match f with
  | [] => simp [actsL] at h
  | t :: ts =>
    simp only [actsL, List.mem_append] at h
    rcases h with h | h
    · rcases acts_root_or_child t a h with h | ⟨p, hp⟩
      · exact Or.inl (by simp [roots, h])
      · exact Or.inr ⟨p, by simp [linksL, hp]⟩
    · rcases actsL_root_or_child ts a h with h | ⟨p, hp⟩
      · exact Or.inl (by simp only [roots, List.map_cons, List.mem_cons]; exact Or.inr h)
      · exact Or.inr ⟨p, by simp [linksL, hp]⟩
end

theorem mem_roots_actsL (f : List ActTree) (a : Activity) (h : a ∈ roots f) : a ∈ actsL f := by
  induction f with
  | nil => simp [roots] at h
  | cons t ts ih =>
    simp only [roots, List.map_cons, List.mem_cons] at h
    rcases h with h | h
    · cases t with
      | node b cs => simp [actsL, acts, h, ActTree.act]
    · simp only [actsL, List.mem_append]; exact Or.inr (ih h)

theorem actsL_leaves (l : List Activity) : actsL (l.map (fun x => .node x [])) = l := by
  induction l with
  | nil => rfl
  | cons a l ih => simp [actsL, acts, ih]

theorem linksL_leaves (l : List Activity) : linksL (l.map (fun x => .node x [])) = [] := by
  induction l with
  | nil => rfl
  | cons a l ih => simp [linksL, links, ih]

theorem roots_leaves (l : List Activity) : roots (l.map (fun x => .node x [])) = l := by
  simp [roots, ActTree.act, Function.comp_def]

theorem containsOther_iff (a b : Activity) : a.containsOther b = true ↔ ∀ e ∈ b.events, e ∈ a.events := by
  simp [Activity.containsOther]

/-- Invariant of the placing loop: `tops` are the initial roots, `done` the nodes placed so far. -/
structure PlaceInv (tops done : List Activity) (st : ForestState) : Prop where
  perm : (actsL st.forest).Perm (tops ++ done)
  newest : ∃ l ls, st.levels = l :: ls ∧ (∀ x ∈ l, x.size = st.currentLength) ∧
    (∀ x ∈ ls.flatten, st.currentLength ≤ x.size) ∧ ls.flatten.Pairwise (fun a b => a.size ≤ b.size)
  levels : ∀ x, x ∈ st.levels.flatten ↔ x ∈ done
  rootsIn : ∀ x ∈ roots st.forest, x ∈ tops ∨
    ∃ pre post, done = pre ++ x :: post ∧ ∀ y ∈ tops ++ pre, y.containsOther x = false
  topsIn : ∀ x ∈ tops, x ∈ roots st.forest
  linksIn : ∀ x ∈ linksL st.forest, ∃ pre post, done = pre ++ x.2 :: post ∧ x.1 ∈ tops ++ pre ∧
    x.1.containsOther x.2 = true ∧ ∀ y ∈ tops ++ pre, y.containsOther x.2 = true → x.1.size ≤ y.size

theorem split_snoc {α : Type} {done pre post : List α} {x : α} (c : α) (h : done = pre ++ x :: post) :
    done ++ [c] = pre ++ x :: (post ++ [c]) := by simp [h]

theorem placeInv_step (tops done : List Activity) (st : ForestState) (cur : Activity) (M : Nat)
    (htops : ∀ x ∈ tops, x.size = M) (hdone : ∀ x ∈ done, x.size ≤ M)
    (hcur : cur.size ≤ st.currentLength)
    (huid : ((tops ++ done).map Activity.uid).Nodup) (hnew : ∀ x ∈ tops ++ done, x.uid ≠ cur.uid)
    (inv : PlaceInv tops done st) :
    PlaceInv tops (done ++ [cur]) (forestStep st cur) ∧ (forestStep st cur).currentLength = cur.size := by
  obtain ⟨l, ls, hl, hnewest, hold, hpw⟩ := inv.newest
  -- the levels after opening a new one if needed
  obtain ⟨len, levels, hlev, hlen, hflat, hinv⟩ : ∃ len levels,
      (if cur.size < st.currentLength then (cur.size, [] :: st.levels) else (st.currentLength, st.levels)) = (len, levels)
      ∧ len = cur.size ∧ levels.flatten = st.levels.flatten ∧
      (∃ l ls, levels = l :: ls ∧ (∀ x ∈ l, x.size = cur.size) ∧ (∀ x ∈ ls.flatten, cur.size ≤ x.size) ∧
        ls.flatten.Pairwise (fun a b => a.size ≤ b.size)) := by
    by_cases h : cur.size < st.currentLength
    · rw [if_pos h]
      refine ⟨_, _, rfl, rfl, by simp, [], st.levels, rfl, by simp, ?_, ?_⟩
      · intro x hx
        rw [hl, List.flatten_cons, List.mem_append] at hx
        rcases hx with hx | hx
        · have := hnewest x hx; omega
        · have := hold x hx; omega
      · rw [hl, List.flatten_cons, List.pairwise_append]
        refine ⟨?_, hpw, ?_⟩
        · apply List.pairwise_iff_forall_sublist.2
          intro a b hab
          have ha := hnewest a (hab.subset (by simp))
          have hb := hnewest b (hab.subset (by simp))
          omega
        · intro a ha b hb
          have := hnewest a ha
          have := hold b hb
          omega
    · rw [if_neg h]
      have he : cur.size = st.currentLength := by omega
      exact ⟨_, _, rfl, he.symm, rfl, l, ls, hl, by rw [he]; exact hnewest, by rw [he]; exact hold, hpw⟩
  obtain ⟨l', ls', hl', hnewest', hold', hpw'⟩ := hinv
  have hsorted : levels.flatten.Pairwise (fun a b => a.size ≤ b.size) := by
    rw [hl', List.flatten_cons, List.pairwise_append]
    refine ⟨?_, hpw', ?_⟩
    · apply List.pairwise_iff_forall_sublist.2
      intro a b hab
      have ha := hnewest' a (hab.subset (by simp))
      have hb := hnewest' b (hab.subset (by simp))
      omega
    · intro a ha b hb
      have := hnewest' a ha
      have := hold' b hb
      omega
  have hmemlev : ∀ x, x ∈ levels.flatten ↔ x ∈ done := by intro x; rw [hflat]; exact inv.levels x
  have happ : ∀ x, x ∈ (appendToNewest cur levels).flatten ↔ x ∈ done ++ [cur] := by
    intro x
    have := hmemlev x
    rw [hl'] at this ⊢
    simp only [appendToNewest, List.flatten_cons, List.mem_append, List.mem_singleton] at this ⊢
    tauto
  have hnewest'' : ∃ l ls, appendToNewest cur levels = l :: ls ∧ (∀ x ∈ l, x.size = cur.size) ∧
      (∀ x ∈ ls.flatten, cur.size ≤ x.size) ∧ ls.flatten.Pairwise (fun a b => a.size ≤ b.size) := by
    refine ⟨l' ++ [cur], ls', by rw [hl']; rfl, ?_, hold', hpw'⟩
    intro x hx
    rcases List.mem_append.1 hx with hx | hx
    · exact hnewest' x hx
    · obtain rfl := List.mem_singleton.1 hx; rfl
  -- membership of nodes
  have hmem : ∀ x, x ∈ actsL st.forest ↔ x ∈ tops ++ done := fun x => inv.perm.mem_iff
  have huidF : ((actsL st.forest).map Activity.uid).Nodup := (inv.perm.map _).nodup_iff.2 huid
  have huidinj : ∀ x ∈ actsL st.forest, ∀ y ∈ actsL st.forest, x.uid = y.uid → x = y := by
    intro x hx y hy he
    exact List.inj_on_of_nodup_map huidF hx hy he
  -- the case of a parent
  have hparent : ∀ p, p ∈ tops ++ done → p.containsOther cur = true →
      (∀ y ∈ tops ++ done, y.containsOther cur = true → p.size ≤ y.size) →
      PlaceInv tops (done ++ [cur])
        { forest := ActTree.appendChildL p.uid cur st.forest, currentLength := len,
          levels := appendToNewest cur levels } := by
    intro p hp hpc hmin
    have hpF := (hmem p).2 hp
    refine ⟨?_, ?_, happ, ?_, ?_, ?_⟩
    · refine (acts_appendChildL p.uid cur st.forest huidF (List.mem_map.2 ⟨p, hpF, rfl⟩)).trans ?_
      refine (inv.perm.cons cur).trans ?_
      rw [← List.append_assoc]
      exact (List.perm_append_comm (l₁ := [cur]))
    · simp only [hlen]; exact hnewest''
    · intro x hx
      simp only [roots_appendChildL] at hx
      rcases inv.rootsIn x hx with h | ⟨pre, post, h1, h2⟩
      · exact Or.inl h
      · exact Or.inr ⟨pre, _, split_snoc cur h1, h2⟩
    · intro x hx; simp only [roots_appendChildL]; exact inv.topsIn x hx
    · intro x hx
      rcases mem_links_appendChildL _ _ _ _ hx with hx | ⟨h1, h2, h3⟩
      · obtain ⟨pre, post, h1, h2⟩ := inv.linksIn x hx
        exact ⟨pre, _, split_snoc cur h1, h2⟩
      · have : x.1 = p := huidinj _ h1 _ hpF h2
        rw [this, h3]
        exact ⟨done, [], rfl, hp, hpc, hmin⟩
  unfold forestStep
  rw [hlev]
  simp only
  have huidne : ∀ x ∈ tops ++ done, decide (x.uid ≠ cur.uid) = true := by
    intro x hx; simpa using hnew x hx
  cases hfind : levels.flatten.find? (fun x : Activity => x.containsOther cur && decide (x.uid ≠ cur.uid)) with
  | some p =>
    simp only
    refine ⟨?_, hlen⟩
    rw [List.find?_eq_some_iff_append] at hfind
    obtain ⟨hp, as, bs, hsplit, hpre⟩ := hfind
    have hpd : p ∈ done := (hmemlev p).1 (by rw [hsplit]; simp)
    have hpc : p.containsOther cur = true := by simp only [Bool.and_eq_true] at hp; exact hp.1
    apply hparent p (by simp [hpd]) hpc
    intro y hy hyc
    rcases List.mem_append.1 hy with hy' | hy'
    · rw [htops y hy']; exact hdone p hpd
    · have hyl := (hmemlev y).2 hy'
      rw [hsplit] at hyl hsorted
      rcases List.mem_append.1 hyl with h | h
      · have := hpre y h
        simp [hyc, hnew y hy] at this
      · rw [List.pairwise_append] at hsorted
        rcases List.mem_cons.1 h with h | h
        · rw [h]
        · exact (List.pairwise_cons.1 hsorted.2.1).1 y h
  | none =>
    simp only
    have hnone : ∀ y ∈ done, y.containsOther cur = false := by
      intro y hy
      rw [List.find?_eq_none] at hfind
      have := hfind y ((hmemlev y).2 hy)
      simpa [hnew y (by simp [hy])] using this
    cases hfind2 : (st.forest.map ActTree.act).find?
        (fun x : Activity => x.containsOther cur && decide (x.uid ≠ cur.uid)) with
    | some p =>
      simp only
      refine ⟨?_, hlen⟩
      have hpr : p ∈ roots st.forest := List.mem_of_find?_eq_some hfind2
      have hpc : p.containsOther cur = true := by
        have := List.find?_some hfind2
        simp only [Bool.and_eq_true] at this; exact this.1
      have hpm := (hmem p).1 (mem_roots_actsL _ _ hpr)
      apply hparent p hpm hpc
      intro y hy hyc
      have hytop : y ∈ tops := by
        rcases List.mem_append.1 hy with h | h
        · exact h
        · rw [hnone y h] at hyc; cases hyc
      have : p.size ≤ M := by
        rcases List.mem_append.1 hpm with h | h
        · exact le_of_eq (htops p h)
        · exact hdone p h
      rw [htops y hytop]; exact this
    | none =>
      simp only
      refine ⟨?_, hlen⟩
      have hnone2 : ∀ y ∈ tops ++ done, y.containsOther cur = false := by
        intro y hy
        rcases List.mem_append.1 hy with h | h
        · rw [List.find?_eq_none] at hfind2
          have := hfind2 y (inv.topsIn y h)
          simpa [hnew y hy] using this
        · exact hnone y h
      refine ⟨?_, ?_, happ, ?_, ?_, ?_⟩
      · simp only [actsL_append, actsL, acts, List.append_nil]
        rw [← List.append_assoc]
        exact inv.perm.append_right _
      · simp only [hlen]; exact hnewest''
      · intro x hx
        simp only [roots, List.map_append, List.map_cons, List.map_nil, List.mem_append, List.mem_singleton,
          ActTree.act] at hx
        rcases hx with hx | hx
        · rcases inv.rootsIn x hx with h | ⟨pre, post, h1, h2⟩
          · exact Or.inl h
          · exact Or.inr ⟨pre, _, split_snoc cur h1, h2⟩
        · subst hx
          exact Or.inr ⟨done, [], rfl, hnone2⟩
      · intro x hx
        simp only [roots, List.map_append, List.mem_append]
        exact Or.inl (inv.topsIn x hx)
      · intro x hx
        simp only [linksL_append, linksL, links, List.map_nil, List.append_nil] at hx
        obtain ⟨pre, post, h1, h2⟩ := inv.linksIn x hx
        exact ⟨pre, _, split_snoc cur h1, h2⟩

theorem placeInv_fold (tops : List Activity) (M : Nat) (htops : ∀ x ∈ tops, x.size = M) (l done : List Activity)
    (st : ForestState) (hM : st.currentLength ≤ M) (hdone : ∀ x ∈ done, x.size ≤ M)
    (hcur : ∀ x ∈ l, x.size ≤ st.currentLength) (hsorted : l.Pairwise (fun a b => b.size ≤ a.size))
    (huid : ((tops ++ (done ++ l)).map Activity.uid).Nodup) (inv : PlaceInv tops done st) :
    PlaceInv tops (done ++ l) (l.foldl forestStep st) := by
  induction l generalizing done st with
  | nil => simpa using inv
  | cons a l ih =>
    simp only [List.foldl_cons]
    rw [List.pairwise_cons] at hsorted
    have ha : a.size ≤ st.currentLength := hcur a (by simp)
    have huid1 : ((tops ++ done).map Activity.uid).Nodup := by
      rw [← List.append_assoc, List.map_append] at huid
      exact (List.nodup_append.1 huid).1
    have hnew : ∀ x ∈ tops ++ done, x.uid ≠ a.uid := by
      rw [← List.append_assoc, List.map_append] at huid
      intro x hx
      exact (List.nodup_append.1 huid).2.2 _ (List.mem_map.2 ⟨x, hx, rfl⟩) _ (by simp)
    obtain ⟨h1, h2⟩ := placeInv_step tops done st a M htops hdone ha huid1 hnew inv
    have := ih (done ++ [a]) (forestStep st a) (by rw [h2]; omega)
      (by
        intro x hx
        rcases List.mem_append.1 hx with hx | hx
        · exact hdone x hx
        · obtain rfl := List.mem_singleton.1 hx; omega)
      (by intro x hx; rw [h2]; exact hsorted.1 x hx) hsorted.2 (by simpa using huid) h1
    simpa using this

/-- Everything about the forest built from nodes with distinct identities. `order` is the processing order. -/
theorem forestOfNodes_spec (nodes : List Activity) (huid : (nodes.map Activity.uid).Nodup) :
    ∃ tops below : List Activity, (tops ++ below).Perm nodes ∧
      (∀ x ∈ tops, ∀ y ∈ nodes, y.size ≤ x.size) ∧
      below.Pairwise (fun a b => b.size ≤ a.size) ∧
      ∃ st : ForestState, PlaceInv tops below st ∧ forestOfNodes nodes = st.forest := by
  unfold forestOfNodes
  have hperm := List.perm_insertionSort (fun a b : Activity => b.size ≤ a.size) nodes
  have : Std.Total (fun a b : Activity => b.size ≤ a.size) := ⟨fun a b => by omega⟩
  have : IsTrans Activity (fun a b : Activity => b.size ≤ a.size) := ⟨fun a b c h1 h2 => by omega⟩
  have hsort := List.pairwise_insertionSort (fun a b : Activity => b.size ≤ a.size) nodes
  cases hs : nodes.insertionSort (fun a b : Activity => b.size ≤ a.size) with
  | nil =>
    rw [hs] at hperm
    have : nodes = [] := hperm.symm.eq_nil
    subst this
    exact ⟨[], [], by simp, by simp, by simp, ⟨[], 0, [[]]⟩,
      ⟨by simp [actsL], ⟨[], [], rfl, by simp, by simp, by simp⟩, by simp, by simp [roots], by simp,
        by simp [linksL]⟩, rfl⟩
  | cons a rest =>
    rw [hs] at hperm hsort
    rw [List.pairwise_cons] at hsort
    simp only
    set tw := rest.takeWhile (fun x => decide (x.size = a.size)) with htw
    set dw := rest.dropWhile (fun x => decide (x.size = a.size)) with hdw
    have hrest : tw ++ dw = rest := List.takeWhile_append_dropWhile
    have htops : ∀ x ∈ a :: tw, x.size = a.size := by
      intro x hx
      rcases List.mem_cons.1 hx with rfl | hx
      · rfl
      · have := List.mem_takeWhile_imp hx
        simpa using this
    have hall : ∀ y ∈ nodes, y.size ≤ a.size := by
      intro y hy
      rcases List.mem_cons.1 (hperm.mem_iff.2 hy) with rfl | h
      · exact le_refl _
      · exact hsort.1 y h
    have hpermall : (a :: tw ++ dw).Perm nodes := by
      rw [List.cons_append, hrest]; exact hperm
    have hpwd : dw.Pairwise (fun a b => b.size ≤ a.size) := by
      have := hsort.2
      rw [← hrest] at this
      exact (List.pairwise_append.1 this).2.1
    refine ⟨a :: tw, dw, hpermall, fun x hx y hy => by rw [htops x hx]; exact hall y hy, hpwd, ?_⟩
    have hinit : ∀ n, PlaceInv (a :: tw) [] ⟨(a :: tw).map (fun x => .node x []), n, [[]]⟩ := by
      intro n
      refine ⟨by simp only [actsL_leaves]; simp, ⟨[], [], rfl, by simp, by simp, by simp⟩, by simp, ?_, ?_, ?_⟩
      · intro x hx; simp only [roots_leaves] at hx; exact Or.inl hx
      · intro x hx; simp only [roots_leaves]; exact hx
      · intro x hx; simp only [linksL_leaves] at hx; simp at hx
    cases hd : dw with
    | nil => exact ⟨⟨(a :: tw).map (fun x => .node x []), 0, [[]]⟩, hinit 0, rfl⟩
    | cons b dw' =>
      refine ⟨_, ?_, rfl⟩
      rw [← hd]
      have hb : b.size ≤ a.size := hall b (hpermall.mem_iff.1 (by rw [hd]; simp))
      have := placeInv_fold (a :: tw) a.size htops dw [] ⟨(a :: tw).map (fun x => .node x []), b.size, [[]]⟩ hb
        (by simp) (by
          intro x hx
          rw [hd] at hx hpwd
          rcases List.mem_cons.1 hx with rfl | hx
          · exact le_refl _
          · exact (List.pairwise_cons.1 hpwd).1 x hx) hpwd
        (by
          rw [List.nil_append]
          exact (hpermall.map _).nodup_iff.2 huid) (hinit b.size)
      simpa using this

end Ficus
