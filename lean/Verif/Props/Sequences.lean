import Verif.Model.Sequences
import Verif.Props.Hash
import Mathlib.Data.List.Basic
import Mathlib.Tactic.Common

/-! Property C101: traces and logs are used like lists. -/

namespace Ficus
variable {α : Type}

/-- The index `i` of a list of length `n` means the position `k`: counted from the start, or from the end. -/
def Means (n : Nat) (i : Int) (k : Nat) : Prop := k < n ∧ (i = k ∨ i = (k : Int) - n)

theorem listPosition_iff (n : Nat) (i : Int) (k : Nat) : listPosition n i = some k ↔ Means n i k := by
  unfold listPosition Means
  split
  · split
    · simp only [Option.some.injEq]; omega
    · simp only [reduceCtorEq, false_iff]; omega
  · split
    · simp only [Option.some.injEq]; omega
    · simp only [reduceCtorEq, false_iff]; omega

theorem listPosition_none (n : Nat) (i : Int) : listPosition n i = none ↔ ∀ k, ¬ Means n i k := by
  constructor
  · intro h k hk
    rw [← listPosition_iff, h] at hk
    cases hk
  · intro h
    cases hp : listPosition n i with
    | none => rfl
    | some k => exact absurd ((listPosition_iff n i k).1 hp) (h k)

/-- C101a: reading gives the item at the position that is meant; other indices raise. -/
theorem C101_get (items : List α) (i : Int) :
    (∀ k, Means items.length i k → ∃ x, items[k]? = some x ∧ seqGet items i = .ok x) ∧
    ((∀ k, ¬ Means items.length i k) → seqGet items i = .error .indexError) := by
  constructor
  · intro k hk
    have hx := List.getElem?_eq_getElem hk.1
    refine ⟨_, hx, ?_⟩
    simp only [seqGet, (listPosition_iff _ _ _).2 hk, hx]
  · intro h
    simp only [seqGet, (listPosition_none _ _).2 h]

example : seqGet ["a", "b", "c"] (-1) = .ok "c" ∧ seqGet ["a", "b", "c"] (-4) = .error .indexError := ⟨rfl, rfl⟩

/-- C101b: writing changes the item at the position that is meant, and nothing else; other indices raise. -/
theorem C101_set (items : List α) (i : Int) (x : α) :
    (∀ k, Means items.length i k → ∃ new, seqSet items i x = .ok new ∧ new.length = items.length ∧
      new[k]? = some x ∧ ∀ j, j ≠ k → new[j]? = items[j]?) ∧
    ((∀ k, ¬ Means items.length i k) → seqSet items i x = .error .indexError) := by
  constructor
  · intro k hk
    refine ⟨items.set k x, by simp only [seqSet, (listPosition_iff _ _ _).2 hk], List.length_set, ?_, ?_⟩
    · simp [hk.1]
    · intro j hj
      rw [List.getElem?_set_ne (Ne.symm hj)]
  · intro h
    simp only [seqSet, (listPosition_none _ _).2 h]

example : seqSet ["a", "b", "c"] (-2) "x" = .ok ["a", "x", "c"] := rfl

/-- C101c: deleting takes out the item at the position that is meant: those before stay, those behind move by one. -/
theorem C101_del (items : List α) (i : Int) :
    (∀ k, Means items.length i k → ∃ new, seqDel items i = .ok new ∧
      (∀ j, j < k → new[j]? = items[j]?) ∧ ∀ j, k ≤ j → new[j]? = items[j + 1]?) ∧
    ((∀ k, ¬ Means items.length i k) → seqDel items i = .error .indexError) := by
  constructor
  · intro k hk
    refine ⟨items.eraseIdx k, by simp only [seqDel, (listPosition_iff _ _ _).2 hk], ?_, ?_⟩
    · intro j hj; rw [List.getElem?_eraseIdx, if_pos hj]
    · intro j hj; rw [List.getElem?_eraseIdx, if_neg (by omega)]
  · intro h
    simp only [seqDel, (listPosition_none _ _).2 h]

example : seqDel ["a", "b", "c"] 1 = .ok ["a", "c"] := rfl

/-- C101d: inserting never raises. The item is put before the position that is meant; an index behind the end means the end,
one before the start means the start. Deleting it again gives back the sequence. -/
theorem C101_insert (items : List α) (x : α) (i : Int) :
    ∃ k, (Means items.length i k ∨ (items.length : Int) ≤ i ∧ k = items.length ∨ i < -(items.length : Int) ∧ k = 0) ∧
      (seqInsert items x i)[k]? = some x ∧ (∀ j, j < k → (seqInsert items x i)[j]? = items[j]?) ∧
      (∀ j, k ≤ j → (seqInsert items x i)[j + 1]? = items[j]?) ∧ seqDel (seqInsert items x i) k = .ok items := by
  have key : ∀ k, k ≤ items.length → (items.take k ++ x :: items.drop k)[k]? = some x ∧
      (∀ j, j < k → (items.take k ++ x :: items.drop k)[j]? = items[j]?) ∧
      (∀ j, k ≤ j → (items.take k ++ x :: items.drop k)[j + 1]? = items[j]?) ∧
      seqDel (items.take k ++ x :: items.drop k) k = .ok items := by
    intro k hk
    have hl : (items.take k).length = k := by simp [hk]
    refine ⟨by simp [hl], ?_, ?_, ?_⟩
    · intro j hj
      rw [List.getElem?_append_left (by omega), List.getElem?_take, if_pos hj]
    · intro j hj
      rw [List.getElem?_append_right (by omega), hl]
      have : j + 1 - k = (j - k) + 1 := by omega
      rw [this, List.getElem?_cons_succ, List.getElem?_drop]
      congr 1; omega
    · have hm : listPosition (items.take k ++ x :: items.drop k).length k = some k :=
        (listPosition_iff _ _ _).2 ⟨by simp; omega, Or.inl rfl⟩
      have he : (items.take k ++ x :: items.drop k).eraseIdx k = items := by
        rw [List.eraseIdx_append_of_length_le (by omega), hl, Nat.sub_self, List.eraseIdx_zero, List.tail_cons,
          List.take_append_drop]
      simp only [seqDel, hm, he]
  refine ⟨if i < 0 then (i + items.length).toNat else min i.toNat items.length, ?_, ?_⟩
  · unfold Means
    split <;> omega
  · exact key _ (by split <;> omega)

example : seqInsert ["a", "b"] "x" 0 = ["x", "a", "b"] ∧ seqInsert ["a", "b"] "x" (-1) = ["a", "x", "b"] ∧
    seqInsert ["a", "b"] "x" 7 = ["a", "b", "x"] ∧ seqInsert ["a", "b"] "x" (-7) = ["x", "a", "b"] := by decide

/-- C101e: appending puts the item at the end and keeps the others. -/
theorem C101_append (items : List α) (x : α) :
    (seqAppend items x).length = items.length + 1 ∧ seqGet (seqAppend items x) (-1) = .ok x ∧
      ∀ j, j < items.length → (seqAppend items x)[j]? = items[j]? := by
  refine ⟨by simp [seqAppend], ?_, fun j hj => by simp [seqAppend, List.getElem?_append, hj]⟩
  obtain ⟨y, h1, h2⟩ := (C101_get (seqAppend items x) (-1)).1 items.length ⟨by simp [seqAppend], by simp [seqAppend]⟩
  have : y = x := by simpa [seqAppend] using h1.symm
  rw [h2, this]

example : seqAppend ["a", "b"] "c" = ["a", "b", "c"] := rfl

theorem seqGet_nat (items : List α) (i : Nat) :
    seqGet items i = match items[i]? with | some x => .ok x | none => .error .indexError := by
  by_cases h : i < items.length
  · obtain ⟨x, h1, h2⟩ := (C101_get items i).1 i ⟨h, Or.inl rfl⟩
    rw [h2, h1]
  · rw [(C101_get items i).2 (fun k hk => by unfold Means at hk; omega), List.getElem?_eq_none (by omega)]

/-- C101f: iterating over a log gives all its traces in order. -/
theorem C101_iter (items : List α) : seqIter items = items := by
  have : ∀ (fuel i : Nat), items.length < fuel + i → seqIterLoop items fuel i = items.drop i := by
    intro fuel
    induction fuel with
    | zero => intro i h; rw [List.drop_eq_nil_of_le (by omega)]; rfl
    | succ fuel ih =>
      intro i h
      rw [seqIterLoop, seqGet_nat]
      by_cases hi : i < items.length
      · simp only [List.getElem?_eq_getElem hi]
        rw [ih (i + 1) (by omega), ← List.drop_eq_getElem_cons hi]
      · simp only [List.getElem?_eq_none (by omega : items.length ≤ i)]
        rw [List.drop_eq_nil_of_le (by omega)]
  exact this _ 0 (by omega)

/-- C101g: reversing gives all items in the opposite order and never raises. -/
theorem C101_reversed (items : List α) : seqReversed items = .ok items.reverse := by
  unfold seqReversed
  have : ∀ (is : List Nat), (∀ i ∈ is, i < items.length) →
      is.mapM (fun (i : Nat) => seqGet items i) = .ok (is.filterMap (fun i => items[i]?)) := by
    intro is
    induction is with
    | nil => intro _; rfl
    | cons i is ih =>
      intro h
      have hi := List.getElem?_eq_getElem (h i (by simp))
      rw [List.mapM_cons, seqGet_nat, hi, ih (fun j hj => h j (by simp [hj]))]
      simp [hi, bind, Except.bind, pure, Except.pure]
  rw [this _ (by simp), List.filterMap_reverse]
  have hmap : (List.range items.length).filterMap (fun i => items[i]?) = items := by
    have : ∀ l : List α, (List.range l.length).filterMap (fun i => l[i]?) = l := by
      intro l
      induction l with
      | nil => rfl
      | cons a l ih =>
        rw [List.length_cons, List.range_succ_eq_map, List.filterMap_cons, List.filterMap_map]
        simpa [Function.comp_def] using ih
    exact this items
  rw [hmap]

example : seqIter ["a", "b"] = ["a", "b"] ∧ seqReversed ["a", "b"] = .ok ["b", "a"] := by decide

/-- C101h: `index` gives the first position from `start` on and before `stop` whose item compares equal, and raises
`ValueError` if there is none. Negative bounds count from the end. -/
theorem C101_index (same : α → α → Bool) (items : List α) (v : α) (start : Int) (stop : Option Int) :
    let allowed (k : Nat) : Prop := (if start < 0 then start + items.length else start) ≤ k ∧
      ∀ s, stop = some s → (k : Int) < if s < 0 then s + items.length else s
    let found (k : Nat) : Prop := allowed k ∧ ∃ x, items[k]? = some x ∧ same x v = true
    (∀ k, seqIndex same items v start stop = .ok k ↔ found k ∧ ∀ j, j < k → ¬ found j) ∧
    ((∀ k, ¬ found k) → seqIndex same items v start stop = .error .valueError) := by
  intro allowed found
  set lo : Nat := if start < 0 then (items.length + start).toNat else start.toNat with hlo
  set hi : Option Int := stop.map (fun s => if s < 0 then s + items.length else s) with hhi
  have hall : ∀ k : Nat, allowed k ↔ lo ≤ k ∧ hi.all (fun s => decide ((k : Int) < s)) = true := by
    intro k
    have h1 : (if start < 0 then start + items.length else start) ≤ (k : Int) ↔ lo ≤ k := by
      rw [hlo]; split <;> omega
    have h2 : (∀ s, stop = some s → (k : Int) < if s < 0 then s + items.length else s) ↔
        hi.all (fun s => decide ((k : Int) < s)) = true := by
      rw [hhi]
      cases stop with
      | none => simp
      | some s => simp
    exact and_congr h1 h2
  have mono : ∀ i k : Nat, i ≤ k → hi.all (fun s => decide ((k : Int) < s)) = true →
      hi.all (fun s => decide ((i : Int) < s)) = true := by
    intro i k hik h
    cases hh : hi with
    | none => rfl
    | some s => rw [hh] at h; simp at h ⊢; omega
  have loop : ∀ (fuel i : Nat), items.length < fuel + i → lo ≤ i → (∀ j, j < i → ¬ found j) →
      (∀ k, seqIndexLoop same items v hi fuel i = .ok k ↔ found k ∧ ∀ j, j < k → ¬ found j) ∧
      ((∀ k, ¬ found k) → seqIndexLoop same items v hi fuel i = .error .valueError) := by
    intro fuel
    induction fuel with
    | zero =>
      intro i h _ hb
      refine ⟨fun k => ?_, fun _ => rfl⟩
      simp only [seqIndexLoop, reduceCtorEq, false_iff]
      rintro ⟨hf, _⟩
      obtain ⟨x, hx, _⟩ := hf.2
      have := (List.getElem?_eq_some_iff.1 hx).1
      exact hb k (by omega) hf
    | succ fuel ih =>
      intro i h hli hb
      rw [seqIndexLoop]
      by_cases hs : hi.all (fun s => decide ((i : Int) < s)) = true
      · rw [if_pos hs, seqGet_nat]
        cases hx : items[i]? with
        | none =>
          refine ⟨fun k => ?_, fun _ => rfl⟩
          simp only [reduceCtorEq, false_iff]
          rintro ⟨hf, _⟩
          obtain ⟨x, hxk, _⟩ := hf.2
          have h1 := (List.getElem?_eq_some_iff.1 hxk).1
          have h2 := List.getElem?_eq_none_iff.1 hx
          exact hb k (by omega) hf
        | some x =>
          by_cases he : same x v = true
          · have hfi : found i := ⟨(hall i).2 ⟨hli, hs⟩, x, hx, he⟩
            simp only [he, if_true]
            refine ⟨fun k => ?_, fun hn => absurd hfi (hn i)⟩
            constructor
            · intro hk
              obtain rfl := Except.ok.inj hk
              exact ⟨hfi, hb⟩
            · rintro ⟨hf, hm⟩
              rcases Nat.lt_trichotomy i k with hlt | rfl | hlt
              · exact absurd hfi (hm i hlt)
              · rfl
              · exact absurd hf (hb k hlt)
          · simp only [he]
            apply ih (i + 1) (by omega) (by omega)
            intro j hj
            rcases Nat.lt_succ_iff_lt_or_eq.1 hj with hj | rfl
            · exact hb j hj
            · rintro ⟨_, y, hy, hye⟩
              rw [hx] at hy
              obtain rfl := Option.some.inj hy
              exact he hye
      · rw [if_neg hs]
        refine ⟨fun k => ?_, fun _ => rfl⟩
        simp only [reduceCtorEq, false_iff]
        rintro ⟨hf, _⟩
        by_cases hki : k < i
        · exact hb k hki hf
        · exact hs (mono i k (by omega) ((hall k).1 hf.1).2)
  unfold seqIndex
  by_cases hfuel : lo ≤ items.length
  · exact loop _ lo (by omega) (le_refl _) (fun j hj hf => by have := ((hall j).1 hf.1).1; omega)
  · exact loop _ lo (by omega) (le_refl _) (fun j hj hf => by have := ((hall j).1 hf.1).1; omega)

example : seqIndex (fun a b => a == b) ["a", "b", "a", "c"] "a" 1 = .ok 2 ∧
    seqIndex (fun a b => a == b) ["a", "b", "a", "c"] "a" (-3) (some (-2)) = .error .valueError := by decide

/-- C101i: the ways of searching agree: a value is in a sequence exactly if it is counted, and exactly if `index` gives a
position. -/
theorem C101_searches_agree (same : α → α → Bool) (items : List α) (v : α) :
    (seqContains same items v = true ↔ ∃ x ∈ items, same x v = true) ∧
    (0 < seqCount same items v ↔ seqContains same items v = true) ∧
    seqCount same items v = (items.filter (fun x => same x v)).length ∧
    ((∃ k, seqIndex same items v = .ok k) ↔ seqContains same items v = true) := by
  have h1 : seqContains same items v = true ↔ ∃ x ∈ items, same x v = true := by
    induction items with
    | nil => simp [seqContains]
    | cons a l ih => by_cases h : same a v = true <;> simp [seqContains, h, ih]
  have h3 : seqCount same items v = (items.filter (fun x => same x v)).length := by
    clear h1
    unfold seqCount
    induction items with
    | nil => rfl
    | cons a l ih => by_cases h : same a v = true <;> simp [h, ih] ; omega
  refine ⟨h1, ?_, h3, ?_⟩
  · rw [h3, h1, List.length_pos_iff_exists_mem]
    simp [List.mem_filter]
  · rw [h1]
    obtain ⟨hk, hn⟩ := C101_index same items v 0 none
    constructor
    · rintro ⟨k, h⟩
      obtain ⟨⟨_, x, hx, he⟩, _⟩ := (hk k).1 h
      exact ⟨x, List.mem_of_getElem? hx, he⟩
    · rintro ⟨x, hx, he⟩
      cases h : seqIndex same items v with
      | ok k => exact ⟨k, rfl⟩
      | error e =>
        exfalso
        obtain ⟨j, hj⟩ := List.getElem?_of_mem hx
        have hfj : ∃ k : Nat, ((if (0 : Int) < 0 then (0 : Int) + items.length else 0) ≤ k ∧
            ∀ s, (none : Option Int) = some s → (k : Int) < if s < 0 then s + items.length else s) ∧
            ∃ x, items[k]? = some x ∧ same x v = true := ⟨j, by simp, x, hj, he⟩
        classical
        have hmin := Nat.find_spec hfj
        have hlt := fun m (hm : m < Nat.find hfj) => Nat.find_min hfj hm
        have := (hk (Nat.find hfj)).2 ⟨hmin, hlt⟩
        rw [h] at this
        cases this

example : seqContains (fun a b => a == b) ["a", "b"] "b" = true ∧ seqCount (fun a b => a == b) ["a", "b", "a"] "a" = 2 := by
  decide

/-- Events compare by the hash of their payload, so a search can give an event with another payload (see C03). -/
theorem C101_search_by_hash :
    ∃ (e f : Dict String String), e ≠ f ∧
      seqIndex (fun a b => dictHash id id a == dictHash id id b) [f] e = .ok 0 :=
  ⟨[("a", "bc")], [("ab", "c")], by decide, by decide +kernel⟩

end Ficus
