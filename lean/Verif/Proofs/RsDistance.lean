import Verif.Model.RsDistance
import Verif.Spec.RsDistance
import Mathlib.Data.List.Basic
import Mathlib.Tactic.Linarith

/-! Helpers for the distances of the backend. -/

namespace Ficus.Rs.Cl

variable {A : Type}

theorem Edits.refl : (a : List A) → Edits 0 a a
  | [] => .done
  | x :: a => .keep x (Edits.refl a)

theorem Edits.symm {n : Nat} {a b : List A} (h : Edits n a b) : Edits n b a := by
  induction h with
  | done => exact .done
  | keep x _ ih => exact .keep x ih
  | replace x y _ ih => exact .replace y x ih
  | delete x _ ih => exact .insert x ih
  | insert y _ ih => exact .delete y ih

theorem Edits.zero {a b : List A} (h : Edits 0 a b) : a = b := by
  generalize hn : 0 = n at h
  induction h with
  | done => rfl
  | keep x _ ih => rw [ih hn]
  | replace | delete | insert => omega

theorem Edits.append {n m : Nat} {a b c d : List A} (h : Edits n a b) (k : Edits m c d) : Edits (n + m) (a ++ c) (b ++ d) := by
  induction h with
  | done => simpa using k
  | keep x _ ih => exact .keep x ih
  | replace x y _ ih => rw [Nat.succ_add_eq_add_succ]; exact .replace x y ih
  | delete x _ ih => rw [Nat.succ_add_eq_add_succ]; exact .delete x ih
  | insert y _ ih => rw [Nat.succ_add_eq_add_succ]; exact .insert y ih

theorem Edits.reverse {n : Nat} {a b : List A} (h : Edits n a b) : Edits n a.reverse b.reverse := by
  induction h with
  | done => exact .done
  | keep x _ ih => simpa using ih.append (.keep x .done)
  | replace x y _ ih => simpa using ih.append (.replace x y .done)
  | delete x _ ih => simpa using ih.append (.delete x .done)
  | insert y _ ih => simpa using ih.append (.insert y .done)

theorem edits_reverse {n : Nat} {a b : List A} : Edits n a.reverse b.reverse ↔ Edits n a b :=
  ⟨fun h => by simpa using h.reverse, Edits.reverse⟩

theorem Edits.length_le {n : Nat} {a b : List A} (h : Edits n a b) : a.length ≤ b.length + n ∧ b.length ≤ a.length + n := by
  induction h with
  | done => simp
  | keep | replace | delete | insert => simp only [List.length_cons]; omega

theorem exists_edits : (a b : List A) → ∃ n, Edits n a b
  | [], [] => ⟨0, .done⟩
  | [], y :: b => let ⟨n, h⟩ := exists_edits [] b; ⟨n + 1, .insert y h⟩
  | x :: a, b => let ⟨n, h⟩ := exists_edits a b; ⟨n + 1, .delete x h⟩

/-- As `Edits`, but the deletion of the last entry is free if it is the first edit from the end. -/
inductive Free {A : Type} : Nat → List A → List A → Prop
  | done : Free 0 [] []
  | drop (x : A) : Free 0 [x] []
  | keep {n : Nat} {a b : List A} (x : A) : Free n a b → Free n (x :: a) (x :: b)
  | replace {n : Nat} {a b : List A} (x y : A) : Free n a b → Free (n + 1) (x :: a) (y :: b)
  | delete {n : Nat} {a b : List A} (x : A) : Free n a b → Free (n + 1) (x :: a) b
  | insert {n : Nat} {a b : List A} (y : A) : Free n a b → Free (n + 1) a (y :: b)

theorem Edits.free {n : Nat} {a b : List A} (h : Edits n a b) : Free n a b := by
  induction h with
  | done => exact .done
  | keep x _ ih => exact .keep x ih
  | replace x y _ ih => exact .replace x y ih
  | delete x _ ih => exact .delete x ih
  | insert y _ ih => exact .insert y ih

theorem Edits.free_append {n : Nat} {a b : List A} (x : A) (h : Edits n a b) : Free n (a ++ [x]) b := by
  induction h with
  | done => exact .drop x
  | keep x _ ih => exact .keep x ih
  | replace x y _ ih => exact .replace x y ih
  | delete x _ ih => exact .delete x ih
  | insert y _ ih => exact .insert y ih

theorem Free.edits {n : Nat} {a b : List A} (h : Free n a b) : Edits n a b ∨ Edits n a.dropLast b := by
  induction h with
  | done => exact .inl .done
  | drop x => exact .inr .done
  | @keep n a b x _ ih =>
    rcases ih with ih | ih
    · exact .inl (.keep x ih)
    · cases a with
      | nil => exact .inl (.keep x ih)
      | cons z a => exact .inr (.keep x ih)
  | @replace n a b x y _ ih =>
    rcases ih with ih | ih
    · exact .inl (.replace x y ih)
    · cases a with
      | nil => exact .inl (.replace x y ih)
      | cons z a => exact .inr (.replace x y ih)
  | @delete n a b x _ ih =>
    rcases ih with ih | ih
    · exact .inl (.delete x ih)
    · cases a with
      | nil => exact .inl (.delete x ih)
      | cons z a => exact .inr (.delete x ih)
  | insert y _ ih => exact ih.imp (.insert y) (.insert y)

theorem free_iff {n : Nat} {a b : List A} : Free n a.reverse b.reverse ↔ Edits n a b ∨ Edits n a.tail b := by
  constructor
  · intro h
    rcases h.edits with h | h
    · exact .inl (edits_reverse.1 h)
    · refine .inr (edits_reverse.1 ?_)
      rwa [List.dropLast_reverse] at h
  · rintro (h | h)
    · exact h.reverse.free
    · cases a with
      | nil => exact h.reverse.free
      | cons x a => simpa using h.reverse.free_append x

theorem Free.uncons_left {n : Nat} {a b : List A} {x : A} (h : Free n (x :: a) b) : ∃ m ≤ n + 1, Free m a b := by
  generalize ha : x :: a = a' at h
  induction h with
  | done => cases ha
  | drop z => cases ha; exact ⟨0, by omega, .done⟩
  | keep z h _ => cases ha; exact ⟨_, le_refl _, .insert _ h⟩
  | replace z y h _ => cases ha; exact ⟨_, by omega, .insert y h⟩
  | delete z h _ => cases ha; exact ⟨_, by omega, h⟩
  | insert y h ih =>
    obtain ⟨m, hm, k⟩ := ih ha
    exact ⟨m + 1, by omega, .insert y k⟩

theorem Free.uncons_right {n : Nat} {a b : List A} {y : A} (h : Free n a (y :: b)) : ∃ m ≤ n + 1, Free m a b := by
  generalize hb : y :: b = b' at h
  induction h with
  | done => cases hb
  | drop z => cases hb
  | keep z h _ => cases hb; exact ⟨_, le_refl _, .delete _ h⟩
  | replace x z h _ => cases hb; exact ⟨_, by omega, .delete x h⟩
  | delete z h ih =>
    obtain ⟨m, hm, k⟩ := ih hb
    exact ⟨m + 1, by omega, .delete z k⟩
  | insert z h _ => cases hb; exact ⟨_, by omega, h⟩

/-- The least number of such edits. -/
def Least (n : Nat) (a b : List A) : Prop := IsLeast {m | Free m a b} n

theorem least_cell [DecidableEq A] {x y : A} {a b : List A} {corner top left : Nat} (hc : Least corner a b)
    (ht : Least top (x :: a) b) (hl : Least left a (y :: b)) :
    Least (if x = y then corner else min (min top left) corner + 1) (x :: a) (y :: b) := by
  split
  · rename_i e
    subst e
    refine ⟨.keep x hc.1, fun m hm => ?_⟩
    simp only [Set.mem_ofPred_eq] at hm
    cases hm with
    | keep _ h => exact hc.2 h
    | replace _ _ h => exact (hc.2 h).trans (by omega)
    | delete _ h =>
      obtain ⟨k, hk, f⟩ := h.uncons_right
      exact (hc.2 f).trans hk
    | insert _ h =>
      obtain ⟨k, hk, f⟩ := h.uncons_left
      exact (hc.2 f).trans hk
  · rename_i e
    refine ⟨?_, fun m hm => ?_⟩
    · simp only [Set.mem_ofPred_eq]
      rcases le_total (min top left) corner with h | h
      · rw [min_eq_left h]
        rcases le_total top left with k | k
        · rw [min_eq_left k]; exact .insert y ht.1
        · rw [min_eq_right k]; exact .delete x hl.1
      · rw [min_eq_right h]; exact .replace x y hc.1
    · simp only [Set.mem_ofPred_eq] at hm
      cases hm with
      | keep _ h => exact absurd rfl e
      | replace _ _ h =>
        have := hc.2 h
        omega
      | delete _ h =>
        have := hl.2 h
        omega
      | insert _ h =>
        have := ht.2 h
        omega

/-- The row holds the least numbers for the prefixes of the first list from a prefix on; the lists are reversed. -/
def IsRow (b : List A) : List A → List A → List Nat → Prop
  | a, [], row => ∃ n rest, row = n :: rest ∧ Least n a b
  | a, x :: xs, row => ∃ n rest, row = n :: rest ∧ Least n a b ∧ IsRow b (x :: a) xs rest

theorem IsRow.head {b a xs : List A} {row : List Nat} (h : IsRow b a xs row) : ∃ n rest, row = n :: rest ∧ Least n a b := by
  cases xs with
  | nil => exact h
  | cons x xs => obtain ⟨n, rest, e, l, _⟩ := h; exact ⟨n, rest, e, l⟩

theorem cells_row [DecidableEq A] (y : A) : ∀ (xs a b : List A) (above : List Nat) (left : Nat), IsRow b a xs above →
    Least left a (y :: b) → IsRow (y :: b) a xs (left :: cells y xs above left)
  | [], a, b, above, left, _, hl => ⟨left, _, rfl, hl⟩
  | x :: xs, a, b, above, left, h, hl => by
    obtain ⟨corner, rest, rfl, hc, hr⟩ := h
    obtain ⟨top, rest', rfl, ht⟩ := hr.head
    refine ⟨left, _, rfl, hl, ?_⟩
    rw [cells]
    exact cells_row y xs (x :: a) b _ _ hr (least_cell hc ht hl)

theorem least_left (b : List A) : Least b.length [] b := by
  constructor
  · induction b with
    | nil => exact .done
    | cons y b ih => exact .insert y ih
  · intro m hm
    have : ∀ {n : Nat} {a c : List A}, Free n a c → a = [] → c.length ≤ n := by
      intro n a c h
      induction h with
      | done => simp
      | drop x => intro e; cases e
      | keep x _ _ => intro e; cases e
      | replace x y _ _ => intro e; cases e
      | delete x _ _ => intro e; cases e
      | insert y _ ih => intro e; simpa using ih e
    exact this hm rfl

theorem least_top (a : List A) : Least (a.length - 1) a [] := by
  constructor
  · simp only [Set.mem_ofPred_eq]
    induction a with
    | nil => exact .done
    | cons x a ih =>
      cases a with
      | nil => exact .drop x
      | cons z a => exact .delete x ih
  · intro m hm
    have : ∀ {n : Nat} {c d : List A}, Free n c d → d = [] → c.length - 1 ≤ n := by
      intro n c d h
      induction h with
      | done => simp
      | drop x => simp
      | keep x _ _ => intro e; cases e
      | replace x y _ _ => intro e; cases e
      | delete x _ ih => intro e; have := ih e; simp only [List.length_cons]; omega
      | insert y _ _ => intro e; cases e
    exact this hm rfl

theorem firstRow_aux : ∀ (xs a : List A) (k : Nat), a.length = k + 1 → ∀ extra : List Nat,
    IsRow [] a xs (List.range' k (xs.length + 1) ++ extra)
  | [], a, k, h, extra => by
    refine ⟨k, extra, by simp [List.range'], ?_⟩
    have := least_top a
    rwa [h] at this
  | x :: xs, a, k, h, extra => by
    refine ⟨k, List.range' (k + 1) (xs.length + 1) ++ extra, by simp [List.range'], ?_, ?_⟩
    · have := least_top a
      rwa [h] at this
    · exact firstRow_aux xs (x :: a) (k + 1) (by simp [h]) extra

theorem firstRow (xs : List A) : IsRow [] [] xs (0 :: List.range (xs.length + 1)) := by
  cases xs with
  | nil => exact ⟨0, _, rfl, least_left []⟩
  | cons x xs =>
    refine ⟨0, _, rfl, least_left [], ?_⟩
    have e : List.range ((x :: xs).length + 1) = List.range' 0 (xs.length + 1) ++ [xs.length + 1] := by
      rw [List.length_cons, List.range_succ, List.range_eq_range']
    rw [e]
    exact firstRow_aux xs [x] 0 rfl _

theorem IsRow.get {b : List A} : ∀ (xs a : List A) (row : List Nat), IsRow b a xs row → ∃ n, row[xs.length]? = some n ∧
    Least n (xs.reverse ++ a) b
  | [], a, row, h => by
    obtain ⟨n, rest, rfl, l⟩ := h
    exact ⟨n, by simp, by simpa using l⟩
  | x :: xs, a, row, h => by
    obtain ⟨m, rest, rfl, _, hr⟩ := h
    obtain ⟨n, e, l⟩ := IsRow.get xs (x :: a) rest hr
    exact ⟨n, by simpa using e, by simpa using l⟩

theorem matrix_last [DecidableEq A] (a : List A) : ∀ (ys b : List A) (above : List Nat), IsRow b [] a above →
    ∃ row, (matrixFrom a ys (b.length + 1) above)[ys.length]? = some row ∧ IsRow (ys.reverse ++ b) [] a row
  | [], b, above, h => ⟨above, by simp [matrixFrom], by simpa using h⟩
  | y :: ys, b, above, h => by
    obtain ⟨row, e, k⟩ := matrix_last a ys (y :: b) _ (cells_row y a [] b above (b.length + 1) h (least_left (y :: b)))
    refine ⟨row, ?_, by simpa using k⟩
    simpa [matrixFrom] using e

theorem editDistance_least [DecidableEq A] {a b : List A} (h : a.length = b.length) :
    ∃ n, editDistance a b = some n ∧ IsLeast {m | Edits m a b ∨ Edits m a.tail b} n := by
  obtain ⟨row, e, k⟩ := matrix_last a b [] _ (firstRow a)
  obtain ⟨n, e', l⟩ := k.get
  refine ⟨n, ?_, ?_⟩
  · rw [editDistance, h]
    rw [h] at e
    simp only [List.length_nil, Nat.zero_add] at e
    rw [e, ← h]
    exact e'
  · simp only [List.append_nil] at l
    refine ⟨free_iff.1 l.1, fun m hm => l.2 (free_iff.2 hm)⟩

end Ficus.Rs.Cl
