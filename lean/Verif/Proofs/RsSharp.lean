import Verif.Spec.RsSharp
import Verif.Props.RsNfcNets
import Mathlib.Data.Prod.Lex
import Mathlib.Data.List.Lex
import Mathlib.Data.String.Basic

/-! Lemmas on the tuples of alpha sharp. -/

namespace Ficus.Rs.Sharp
open Spec Spec.Sharp Spec.Nfc Rs.Nfc

variable {E : Type} [HasName E]

theorem before_iff (x y : Sets) : before x y = true ↔ toLex x < toLex y := by
  unfold before
  simp only [Bool.or_eq_true, Bool.and_eq_true, decide_eq_true_eq, Prod.Lex.lt_iff]
  rfl

theorem setsInsert_mem (x y : Sets) (l : List Sets) : y ∈ setsInsert x l ↔ y = x ∨ y ∈ l := by
  induction l with
  | nil => simp [setsInsert]
  | cons z l ih =>
    unfold setsInsert
    split
    · rename_i h; subst h; simp
    · split
      · simp
      · simp only [List.mem_cons, ih]; tauto

theorem setsInsert_sorted (x : Sets) (l : List Sets) (h : l.Pairwise (fun a b => toLex a < toLex b)) :
    (setsInsert x l).Pairwise (fun a b => toLex a < toLex b) := by
  induction l with
  | nil => simp [setsInsert]
  | cons z l ih =>
    obtain ⟨h1, h2⟩ := List.pairwise_cons.mp h
    unfold setsInsert
    split
    · exact h
    · rename_i hne
      split
      · rename_i hb
        have hb := (before_iff x z).mp hb
        refine List.pairwise_cons.mpr ⟨fun a ha => ?_, h⟩
        rcases List.mem_cons.mp ha with rfl | ha
        · exact hb
        · exact lt_trans hb (h1 a ha)
      · rename_i hb
        refine List.pairwise_cons.mpr ⟨fun a ha => ?_, ih h2⟩
        rcases (setsInsert_mem x a l).mp ha with rfl | ha
        · rcases lt_trichotomy (toLex a) (toLex z) with h' | h' | h'
          · exact absurd ((before_iff a z).mpr h') hb
          · exact absurd (toLex.injective h') hne
          · exact h'
        · exact h1 a ha

theorem setsOf_spec (l : List Sets) : (setsOf l).Nodup ∧ ∀ x, x ∈ setsOf l ↔ x ∈ l := by
  suffices h : ∀ (l s : List Sets), s.Pairwise (fun a b => toLex a < toLex b) →
      (l.foldl (fun s x => setsInsert x s) s).Pairwise (fun a b => toLex a < toLex b) ∧
      ∀ x, x ∈ l.foldl (fun s x => setsInsert x s) s ↔ x ∈ s ∨ x ∈ l by
    obtain ⟨h1, h2⟩ := h l [] List.Pairwise.nil
    exact ⟨h1.imp (fun h e => by subst e; exact lt_irrefl _ h), fun x => (h2 x).trans (by simp)⟩
  intro l
  induction l with
  | nil => intro s h; exact ⟨h, by simp⟩
  | cons y l ih =>
    intro s h
    obtain ⟨h1, h2⟩ := ih (setsInsert y s) (setsInsert_sorted y s h)
    refine ⟨h1, fun x => ?_⟩
    rw [List.foldl_cons, h2, setsInsert_mem, List.mem_cons]
    tauto

theorem allPairs_iff (f : Sets → Sets → Bool) (l : List Sets) : allPairs f l = true ↔ l.Pairwise (fun a b => f a b = true) := by
  induction l with
  | nil => simp [allPairs]
  | cons x l ih => simp [allPairs, ih, List.pairwise_cons]

/-! ### Relations -/

/-- The relations are those of the log. -/
structure Tells (p : SharpRel) (log : List (List String)) : Prop where
  direct : ∀ a b, p.direct a b = true ↔ Directly log a b
  romb : ∀ a b, p.romb a b = true ↔ Triangle log a b ∧ Triangle log b a
  classes : ∀ c, c ∈ p.classes ↔ c ∈ log.flatten
  nodup : p.classes.Nodup

theorem relOf_tells (it : Iter) (log : List (List E)) (tri : List (String × String)) (ht : ∀ a b, (a, b) ∈ tri ↔ Triangle (namesOf log) a b) :
    Tells (relOf it log tri) (namesOf log) := by
  have h := fun a b => C171_provider it log none tri ht a b
  simp only [Option.getD_none, without_nil] at h
  refine ⟨fun a b => (h a b).1, fun a b => ?_, fun c => (h c c).2.2.2.1, (h "" "").2.2.2.2.1⟩
  simp only [relOf, Bool.and_eq_true, decide_eq_true_eq, ht]

variable {p : SharpRel} {log : List (List String)}

theorem causal_tells (T : Tells p log) (a b : String) : p.causal a b = true ↔ Leads log a b := by
  unfold SharpRel.causal Leads
  rw [Bool.and_eq_true, Bool.or_eq_true, Bool.not_eq_true', ← Bool.not_eq_true, T.direct, T.direct, T.romb]

theorem parallel_tells (T : Tells p log) (a b : String) : p.parallel a b = true ↔ Together log a b := by
  unfold SharpRel.parallel Together
  rw [Bool.and_eq_true, Bool.and_eq_true, Bool.not_eq_true', ← Bool.not_eq_true, T.direct, T.direct, T.romb, and_assoc]

theorem directly_mem {a b : String} (h : Directly log a b) : a ∈ log.flatten ∧ b ∈ log.flatten := by
  obtain ⟨t, ht, u, v, rfl⟩ := h
  exact ⟨List.mem_flatten.mpr ⟨_, ht, by simp⟩, List.mem_flatten.mpr ⟨_, ht, by simp⟩⟩

theorem advanced_tells (T : Tells p log) (a b : String) : p.advanced a b = true ↔ Advanced log a b := by
  unfold SharpRel.advanced Advanced
  simp only [Bool.and_eq_true, List.any_eq_true, Bool.not_eq_true', ← Bool.not_eq_true, causal_tells T, parallel_tells T, T.direct, T.classes]
  constructor
  · rintro ⟨h, x, _, y, _, ⟨⟨⟨h1, h2⟩, h3⟩, h4⟩, h5⟩
    exact ⟨h, x, y, h1, h2, h3, h4, h5⟩
  · rintro ⟨h, x, y, h1, h2, h3, h4, h5⟩
    exact ⟨h, x, (directly_mem h1.1).2, y, (directly_mem h2.1).1, ⟨⟨⟨h1, h2⟩, h3⟩, h4⟩, h5⟩

theorem redundant_tells (T : Tells p log) (a b : String) : p.redundant a b = true ↔ Redundant log a b := by
  unfold SharpRel.redundant Redundant
  simp only [Bool.and_eq_true, List.any_eq_true, decide_eq_true_eq, causal_tells T, advanced_tells T, T.classes]
  constructor
  · rintro ⟨c, _, d, _, ⟨⟨⟨h1, h2⟩, h3⟩, h4⟩, h5⟩
    exact ⟨c, d, h1, h2, h3, h4, h5⟩
  · rintro ⟨c, d, h1, h2, h3, h4, h5⟩
    exact ⟨c, (directly_mem h3.1).1, d, (directly_mem h3.1).2, ⟨⟨⟨h1, h2⟩, h3⟩, h4⟩, h5⟩

theorem valid_tells (T : Tells p log) (t : Tuple) : t.valid p = true ↔ Valid log t := by
  unfold Tuple.valid Valid
  simp only [Bool.and_eq_true, List.all_eq_true, allPairs_iff, anyParallel, List.any_eq_true, Bool.not_eq_true', ← Bool.not_eq_true,
    advanced_tells T, parallel_tells T, and_assoc]

theorem pairs_tells (T : Tells p log) : (advancedPairs p).Nodup ∧
    ∀ a b, (a, b) ∈ advancedPairs p ↔ Advanced log a b ∧ ¬ Redundant log a b := by
  constructor
  · unfold advancedPairs
    refine List.nodup_flatMap.mpr ⟨fun a _ => ?_, ?_⟩
    · refine T.nodup.filterMap ?_
      intro b b' c h1 h2
      simp only [Option.mem_def, Option.ite_none_right_eq_some, Option.some.injEq] at h1 h2
      have := h1.2.trans h2.2.symm
      exact (Prod.mk.inj this).2
    · refine T.nodup.imp (fun {a a'} hne => ?_)
      intro x h1 h2
      simp only [List.mem_filterMap, Option.ite_none_right_eq_some, Option.some.injEq] at h1 h2
      obtain ⟨_, _, _, rfl⟩ := h1
      obtain ⟨_, _, _, h2⟩ := h2
      exact hne (Prod.mk.inj h2).1.symm
  · intro a b
    unfold advancedPairs
    simp only [List.mem_flatMap, List.mem_filterMap, Option.ite_none_right_eq_some, Option.some.injEq, Prod.mk.injEq, Bool.and_eq_true,
      Bool.not_eq_true', ← Bool.not_eq_true, advanced_tells T, redundant_tells T]
    constructor
    · rintro ⟨_, _, _, _, h, rfl, rfl⟩
      exact h
    · intro h
      obtain ⟨h1, h2⟩ := directly_mem h.1.1.1
      exact ⟨a, (T.classes a).mpr h1, b, (T.classes b).mpr h2, h, rfl, rfl⟩

theorem tryNew_tells (T : Tells p log) (i o : String × String) (t : Tuple) :
    tryNew p i o = some t ↔ t = ⟨[([i.1], [i.2])], [([o.1], [o.2])]⟩ ∧ Advanced log i.1 o.2 ∧ ¬ Together log i.2 o.1 := by
  unfold tryNew
  simp only [Option.ite_none_right_eq_some, Option.some.injEq, valid_tells T]
  simp only [Valid, List.mem_singleton, forall_eq, List.pairwise_singleton, and_true]
  constructor
  · rintro ⟨h, rfl⟩; exact ⟨rfl, h⟩
  · rintro ⟨rfl, h⟩; exact ⟨h, rfl⟩

/-! ### Merging -/

theorem tryMerge_tells (T : Tells p log) {s t m : Tuple} (h : tryMerge p s t = some m) : Valid log m ∧ Union m s t := by
  unfold tryMerge at h
  simp only [Option.ite_none_right_eq_some, Option.some.injEq, valid_tells T] at h
  obtain ⟨h, rfl⟩ := h
  refine ⟨h, (setsOf_spec _).1, (setsOf_spec _).1, fun x => ?_, fun x => ?_⟩ <;>
  · rw [(setsOf_spec _).2, List.mem_append]

theorem together_symm {a b : String} (h : Together log a b) : Together log b a := ⟨h.2.1, h.1, fun h' => h.2.2 h'.symm⟩

theorem pairwise_of_mem {R : Sets → Sets → Prop} (hR : ∀ a b, R a b → R b a) {l m : List Sets} (hl : l.Nodup) (hm : m.Nodup)
    (h : ∀ x, x ∈ l ↔ x ∈ m) (hp : l.Pairwise R) : m.Pairwise R :=
  ((List.perm_ext_iff_of_nodup hl hm).mpr h).pairwise hp (fun h => hR _ _ h)

theorem tryMerge_none (T : Tells p log) {s t : Tuple} (h : tryMerge p s t = none) : ¬ ∃ m, Union m s t ∧ Valid log m := by
  rintro ⟨m, ⟨n1, n2, m1, m2⟩, v1, v2, v3⟩
  unfold tryMerge at h
  simp only [ite_eq_right_iff, reduceCtorEq, imp_false, valid_tells T] at h
  have e1 : ∀ x, x ∈ m.pin ↔ x ∈ setsOf (s.pin ++ t.pin) := fun x => by rw [m1, (setsOf_spec _).2, List.mem_append]
  have e2 : ∀ x, x ∈ m.pout ↔ x ∈ setsOf (s.pout ++ t.pout) := fun x => by rw [m2, (setsOf_spec _).2, List.mem_append]
  refine h ⟨fun i hi o ho => v1 i ((e1 i).mpr hi) o ((e2 o).mpr ho), ?_, ?_⟩
  · exact pairwise_of_mem (fun a b ⟨x, hx, y, hy, h⟩ => ⟨y, hy, x, hx, together_symm h⟩) n1 (setsOf_spec _).1 e1 v2
  · exact pairwise_of_mem (fun a b ⟨x, hx, y, hy, h⟩ => ⟨y, hy, x, hx, together_symm h⟩) n2 (setsOf_spec _).1 e2 v3

theorem insertBy_mem {α : Type} (same : α → α → Bool) (s : List α) (x y : α) (h : y ∈ insertBy same s x) : y ∈ s ∨ y = x := by
  unfold insertBy at h
  split at h
  · exact Or.inl h
  · simpa using h

theorem round_keeps (same : Tuple → Tuple → Bool) (merger : Tuple → Tuple → Option Tuple) (Q : Tuple → Prop)
    (hm : ∀ x y m, Q x → Q y → merger x y = some m → Q m) (hc : ∀ x, Q x → Q x.clone) (vec r : List Tuple) (hv : ∀ x ∈ vec, Q x)
    (h : sharpRound same merger vec = some r) : ∀ x ∈ r, Q x := by
  unfold sharpRound at h
  simp only at h
  split at h
  · cases h
  cases h
  have hnew : ∀ (l : List (Tuple × Nat × Nat)) (s : List Tuple), (∀ m ∈ l, Q m.1) → (∀ x ∈ s, Q x) →
      ∀ x ∈ l.foldl (fun s m => insertBy same s m.1) s, Q x := by
    intro l
    induction l with
    | nil => intro s _ h; exact h
    | cons m l ih =>
      intro s hl hs
      refine ih _ (fun m' h' => hl m' (List.mem_cons_of_mem _ h')) (fun x hx => ?_)
      rcases insertBy_mem _ _ _ _ hx with hx | rfl
      · exact hs x hx
      · exact hl m List.mem_cons_self
  have hkept : ∀ (idx : List Nat) (l : List (Tuple × Nat)) (s : List Tuple), (∀ m ∈ l, Q m.1) → (∀ x ∈ s, Q x) →
      ∀ x ∈ l.foldl (fun s (x : Tuple × Nat) => if x.2 ∈ idx then s else insertBy same s x.1.clone) s, Q x := by
    intro idx l
    induction l with
    | nil => intro s _ h; exact h
    | cons m l ih =>
      intro s hl hs
      refine ih _ (fun m' h' => hl m' (List.mem_cons_of_mem _ h')) (fun x hx => ?_)
      dsimp only at hx
      split at hx
      · exact hs x hx
      · rcases insertBy_mem _ _ _ _ hx with hx | rfl
        · exact hs x hx
        · exact hc _ (hl m List.mem_cons_self)
  have hz : ∀ m ∈ vec.zipIdx, Q m.1 := fun m h => hv _ (List.fst_mem_of_mem_zipIdx h)
  refine hkept _ _ _ hz (hnew _ _ (fun m hmm => ?_) (by simp))
  unfold roundMerges at hmm
  simp only [List.mem_flatMap, List.mem_filterMap, Option.ite_none_right_eq_some, Option.map_eq_some_iff] at hmm
  obtain ⟨x, hx, y, hy, _, m', hxy, rfl⟩ := hmm
  exact hm _ _ _ (hz x hx) (hz y hy) hxy

theorem round_none (same : Tuple → Tuple → Bool) (merger : Tuple → Tuple → Option Tuple) (vec : List Tuple)
    (h : sharpRound same merger vec = none) : ∀ x ∈ vec, ∀ y ∈ vec, x ≠ y → merger x y = none := by
  intro x hx y hy hne
  unfold sharpRound at h
  simp only at h
  split at h
  · rename_i he
    rw [List.isEmpty_iff] at he
    obtain ⟨i, hi⟩ := List.mem_iff_getElem?.mp hx
    obtain ⟨j, hj⟩ := List.mem_iff_getElem?.mp hy
    by_contra hm
    obtain ⟨m, hm⟩ := Option.ne_none_iff_exists'.mp hm
    have hij : i ≠ j := by
      rintro rfl
      rw [hi] at hj
      exact hne (Option.some.inj hj)
    have : (m, i, j) ∈ roundMerges merger vec := by
      unfold roundMerges
      simp only [List.mem_flatMap, List.mem_filterMap, Option.ite_none_right_eq_some, Option.map_eq_some_iff]
      exact ⟨(x, i), List.mem_zipIdx_iff_getElem?.mpr hi, (y, j), List.mem_zipIdx_iff_getElem?.mpr hj, hij, m, hm, rfl⟩
    rw [he] at this
    cases this
  · cases h

theorem sharpMaximize_keeps (it : Iter) (same : Tuple → Tuple → Bool) (merger : Tuple → Tuple → Option Tuple) (Q : Tuple → Prop)
    (hm : ∀ x y m, Q x → Q y → merger x y = some m → Q m) (hc : ∀ x, Q x → Q x.clone) (fuel round : Nat) (c r : List Tuple)
    (hv : ∀ x ∈ c, Q x) (h : sharpMaximize it same merger fuel round c = some r) :
    (∀ x ∈ r, Q x) ∧ ∀ x ∈ r, ∀ y ∈ r, x ≠ y → merger x y = none := by
  induction fuel generalizing round c with
  | zero => cases h
  | succ fuel ih =>
    unfold sharpMaximize at h
    have hperm := it.perm "current" round c
    split at h
    · rename_i e
      cases h
      refine ⟨hv, fun x hx y hy => round_none _ _ _ e x (hperm.mem_iff.mpr hx) y (hperm.mem_iff.mpr hy)⟩
    · rename_i new e
      exact ih _ _ (round_keeps _ _ Q hm hc _ _ (fun x hx => hv x (hperm.mem_iff.mp hx)) e) h

theorem insertBy_ne {α : Type} (same : α → α → Bool) (s : List α) (x : α) : insertBy same s x ≠ [] := by
  unfold insertBy
  split
  · rename_i h
    rintro rfl
    cases h
  · simp

theorem round_ne (same : Tuple → Tuple → Bool) (merger : Tuple → Tuple → Option Tuple) (vec r : List Tuple)
    (h : sharpRound same merger vec = some r) : r ≠ [] := by
  unfold sharpRound at h
  simp only at h
  split at h
  · cases h
  rename_i hne
  cases h
  have hnew : ∀ (l : List (Tuple × Nat × Nat)) (s : List Tuple), l ≠ [] ∨ s ≠ [] → l.foldl (fun s m => insertBy same s m.1) s ≠ [] := by
    intro l
    induction l with
    | nil => intro s h; simpa using h
    | cons m l ih => intro s _; exact ih _ (Or.inr (insertBy_ne _ _ _))
  have hkept : ∀ (idx : List Nat) (l : List (Tuple × Nat)) (s : List Tuple), s ≠ [] →
      l.foldl (fun s (x : Tuple × Nat) => if x.2 ∈ idx then s else insertBy same s x.1.clone) s ≠ [] := by
    intro idx l
    induction l with
    | nil => intro s h; exact h
    | cons m l ih =>
      intro s h
      refine ih _ ?_
      dsimp only
      split
      · exact h
      · exact insertBy_ne _ _ _
  refine hkept _ _ _ (hnew _ _ (Or.inl (fun e => ?_)))
  rw [e] at hne
  exact hne rfl

theorem sharpMaximize_ne (it : Iter) (same : Tuple → Tuple → Bool) (merger : Tuple → Tuple → Option Tuple) (fuel round : Nat)
    (c r : List Tuple) (hc : c ≠ []) (h : sharpMaximize it same merger fuel round c = some r) : r ≠ [] := by
  induction fuel generalizing round c with
  | zero => cases h
  | succ fuel ih =>
    unfold sharpMaximize at h
    split at h
    · cases h; exact hc
    · rename_i new e
      exact ih _ _ (round_ne _ _ _ _ e) h

theorem round_apart (it : Iter) (same : Tuple → Tuple → Bool) (merger : Tuple → Tuple → Option Tuple) (c : List Tuple) (hn : c.Nodup)
    (hc : ∀ x ∈ c, ∀ y ∈ c, x ≠ y → merger x y = none) : sharpRound same merger (it.order "current" 0 c) = none := by
  have hperm := it.perm "current" 0 c
  have hv := hperm.nodup_iff.mpr hn
  unfold sharpRound
  have : roundMerges merger (it.order "current" 0 c) = [] := by
    refine List.eq_nil_iff_forall_not_mem.mpr (fun m hm => ?_)
    unfold roundMerges at hm
    simp only [List.mem_flatMap, List.mem_filterMap, Option.ite_none_right_eq_some, Option.map_eq_some_iff] at hm
    obtain ⟨⟨x, i⟩, hx, ⟨y, j⟩, hy, hij, m', hxy, _⟩ := hm
    have hx := List.mem_zipIdx_iff_getElem?.mp hx
    have hy := List.mem_zipIdx_iff_getElem?.mp hy
    dsimp only at hx hy hij hxy
    have hne : x ≠ y := by
      rintro rfl
      obtain ⟨hi', _⟩ := List.getElem?_eq_some_iff.mp hx
      exact hij ((List.getElem?_inj hi' hv).mp (hx.trans hy.symm))
    rw [hc x (hperm.mem_iff.mp (List.mem_of_getElem? hx)) y (hperm.mem_iff.mp (List.mem_of_getElem? hy)) hne] at hxy
    cases hxy
  simp [this]

theorem sharpMaximize_same (it : Iter) (same : Tuple → Tuple → Bool) (merger : Tuple → Tuple → Option Tuple) (fuel : Nat)
    (c r : List Tuple) (hn : c.Nodup) (hc : ∀ x ∈ c, ∀ y ∈ c, x ≠ y → merger x y = none)
    (h : sharpMaximize it same merger fuel 0 c = some r) : r = c := by
  cases fuel with
  | zero => cases h
  | succ fuel =>
    have e := round_apart it same merger c hn hc
    unfold sharpMaximize at h
    rw [e] at h
    cases h
    rfl

theorem sharpMaximize_more (it : Iter) (same : Tuple → Tuple → Bool) (merger : Tuple → Tuple → Option Tuple) (fuel fuel' round : Nat)
    (c r : List Tuple) (h : sharpMaximize it same merger fuel round c = some r) (hf : fuel ≤ fuel') :
    sharpMaximize it same merger fuel' round c = some r := by
  induction fuel generalizing fuel' round c with
  | zero => cases h
  | succ fuel ih =>
    obtain ⟨f, rfl⟩ : ∃ f, fuel' = f + 1 := ⟨fuel' - 1, by omega⟩
    unfold sharpMaximize at h ⊢
    split at h
    · exact h
    · exact ih f _ _ h (by omega)

theorem discoverSharp_more (it : Iter) (hash : List String → Nat) (fuel fuel' : Nat) (log : List (List E)) (r : List Tuple)
    (h : discoverSharp it hash fuel log = some r) (hf : fuel ≤ fuel') : discoverSharp it hash fuel' log = some r := by
  unfold discoverSharp at h ⊢
  obtain ⟨s, e, h⟩ := Option.bind_eq_some_iff.mp h
  rw [e, Option.bind_some]
  exact sharpMaximize_more it _ _ _ _ _ _ _ h hf

theorem union_apart {log : List (List String)} (hno : ¬ ∃ a b, Together log a b) {m s t : Tuple} (hu : Union m s t) (hv : Valid log m)
    {i j o q : Sets} (hs : s = ⟨[i], [o]⟩) (ht : t = ⟨[j], [q]⟩) : s = t := by
  obtain ⟨_, _, u1, u2⟩ := hu
  obtain ⟨_, v1, v2⟩ := hv
  subst hs ht
  have e1 : i = j := by
    by_contra hne
    have hf : m.pin.Pairwise (fun _ _ => False) := v1.imp (fun ⟨a, _, b, _, h⟩ => hno ⟨a, b, h⟩)
    have : Std.Symm (fun _ _ : Sets => False) := ⟨fun _ _ h => h⟩
    exact hf.forall ((u1 i).mpr (by simp)) ((u1 j).mpr (by simp)) hne
  have e2 : o = q := by
    by_contra hne
    have hf : m.pout.Pairwise (fun _ _ => False) := v2.imp (fun ⟨a, _, b, _, h⟩ => hno ⟨a, b, h⟩)
    have : Std.Symm (fun _ _ : Sets => False) := ⟨fun _ _ h => h⟩
    exact hf.forall ((u2 o).mpr (by simp)) ((u2 q).mpr (by simp)) hne
  rw [e1, e2]

end Ficus.Rs.Sharp
