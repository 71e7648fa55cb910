import Verif.Model.Text
import Mathlib.Data.List.Basic
import Mathlib.Data.List.Infix

namespace Ficus

/-- Joining pieces with a separator, `sep.join(pieces)`. -/
def joinSep (sep : List Char) : List (List Char) → List Char
  | [] => []
  | [x] => x
  | x :: y :: r => x ++ sep ++ joinSep sep (y :: r)

theorem joinSep_eq_intercalate (sep : List Char) (l : List (List Char)) : joinSep sep l = List.intercalate sep l := by
  induction l with
  | nil => rfl
  | cons x l ih =>
    cases l with
    | nil => simp [joinSep, List.intercalate]
    | cons y r => simp only [joinSep, ih]; simp [List.intercalate]

theorem splitLoop_ne_nil (sep : List Char) (k : Nat) (cur s : List Char) : splitLoop sep k cur s ≠ [] := by
  induction s generalizing k cur with
  | nil => cases k <;> simp [splitLoop]
  | cons c cs ih =>
    cases k with
    | zero => simp only [splitLoop]; split
              · simp
              · exact ih _ _
    | succ k => simp only [splitLoop]; exact ih _ _

theorem splitLoop_skip (sep : List Char) (p s : List Char) (cur : List Char) :
    splitLoop sep p.length cur (p ++ s) = splitLoop sep 0 cur s := by
  induction p with
  | nil => rfl
  | cons a p ih => simp only [List.length_cons, List.cons_append, splitLoop]; exact ih

theorem joinSep_cons_of_ne {sep x : List Char} {l : List (List Char)} (h : l ≠ []) :
    joinSep sep (x :: l) = x ++ sep ++ joinSep sep l := by
  cases l with
  | nil => exact absurd rfl h
  | cons y r => rfl

/-- Joining the pieces of a split gives back the string. -/
theorem join_splitLoop (sep : List Char) (hsep : sep ≠ []) (n : Nat) (cur s : List Char) (hn : s.length ≤ n) :
    joinSep sep (splitLoop sep 0 cur s) = cur ++ s := by
  induction n generalizing cur s with
  | zero =>
    have : s = [] := List.length_eq_zero_iff.1 (by omega)
    subst this; simp [splitLoop, joinSep]
  | succ n ih =>
    cases s with
    | nil => simp [splitLoop, joinSep]
    | cons c cs =>
      simp only [splitLoop]
      by_cases hp : sep.isPrefixOf (c :: cs)
      · simp only [hp, if_true]
        obtain ⟨r, hr⟩ := List.isPrefixOf_iff_prefix.1 hp
        obtain ⟨a, sep', rfl⟩ := List.exists_cons_of_ne_nil hsep
        have hac : a = c ∧ sep' ++ r = cs := by simpa using hr
        rw [joinSep_cons_of_ne (splitLoop_ne_nil _ _ _ _)]
        have h1 : splitLoop (a :: sep') ((a :: sep').length - 1) [] cs = splitLoop (a :: sep') 0 [] r := by
          rw [← hac.2]; simpa using splitLoop_skip (a :: sep') sep' r []
        rw [h1, ih [] r (by rw [← hac.2] at hn; simp at hn; omega)]
        rw [← hac.1, ← hac.2]; simp
      · simp only [hp, if_false, Bool.false_eq_true]
        rw [ih _ _ (by simpa using hn)]; simp

/-- A piece followed by the separator is split off as a whole. -/
theorem splitLoop_piece (sep : List Char) (hsep : sep ≠ []) (x : List Char) (cur rest : List Char)
    (hx : ¬ sep <:+: (x ++ sep.dropLast)) :
    splitLoop sep 0 cur (x ++ sep ++ rest) = (cur ++ x) :: splitLoop sep 0 [] rest := by
  induction x generalizing cur with
  | nil =>
    obtain ⟨a, sep', rfl⟩ := List.exists_cons_of_ne_nil hsep
    simp only [List.nil_append, List.cons_append, splitLoop]
    have : (a :: sep').isPrefixOf (a :: (sep' ++ rest)) = true := by
      rw [List.isPrefixOf_iff_prefix]; exact ⟨rest, rfl⟩
    simp only [this, if_true, List.append_nil, List.length_cons, Nat.add_sub_cancel]
    rw [splitLoop_skip]
  | cons c x ih =>
    simp only [List.cons_append, splitLoop]
    have hnp : sep.isPrefixOf (c :: (x ++ sep ++ rest)) = false := by
      rw [Bool.eq_false_iff]
      intro hp
      obtain ⟨r, hr⟩ := List.isPrefixOf_iff_prefix.1 hp
      apply hx
      have hlen : sep.length ≤ (c :: x ++ sep.dropLast).length := by
        simp; omega
      have e1 : c :: (x ++ sep ++ rest) = (c :: x ++ sep.dropLast) ++ ([sep.getLast hsep] ++ rest) := by
        conv => lhs; rw [← List.dropLast_append_getLast hsep]
        simp
      have : sep <+: (c :: x ++ sep.dropLast) := by
        apply List.prefix_of_prefix_length_le _ (List.prefix_append _ ([sep.getLast hsep] ++ rest)) hlen
        rw [← e1, ← hr]; exact List.prefix_append _ _
      exact this.isInfix
    simp only [hnp, Bool.false_eq_true, if_false]
    rw [ih]
    · simp
    · intro h; exact hx (h.trans (List.suffix_cons c _).isInfix)

theorem splitLoop_last (sep : List Char) (x cur : List Char) (hx : ¬ sep <:+: x) (_hsep : sep ≠ []) :
    splitLoop sep 0 cur x = [cur ++ x] := by
  induction x generalizing cur with
  | nil => simp [splitLoop]
  | cons c x ih =>
    simp only [splitLoop]
    have hnp : sep.isPrefixOf (c :: x) = false := by
      rw [Bool.eq_false_iff]
      intro hp
      exact hx (List.isPrefixOf_iff_prefix.1 hp).isInfix
    simp only [hnp, Bool.false_eq_true, if_false]
    rw [ih]
    · simp
    · intro h; exact hx (h.trans (List.suffix_cons c _).isInfix)

/-- Splitting a join gives back the pieces. -/
theorem split_join (sep : List Char) (hsep : sep ≠ []) (l : List (List Char)) (hl : l ≠ [])
    (h : ∀ x ∈ l, ¬ sep <:+: (x ++ sep.dropLast)) : splitLoop sep 0 [] (joinSep sep l) = l := by
  induction l with
  | nil => exact absurd rfl hl
  | cons x l ih =>
    cases l with
    | nil =>
      have : ¬ sep <:+: x := fun hi => h x (by simp) (hi.trans (List.prefix_append _ _).isInfix)
      rw [joinSep, splitLoop_last _ _ _ this hsep]; rfl
    | cons y r =>
      rw [joinSep, splitLoop_piece _ hsep _ _ _ (h x (by simp)), ih (by simp) (fun z hz => h z (by simp [hz]))]; rfl

variable {E : Type} [HasName E]

theorem serializeEvents_eq (esep : List Char) (i : Nat) (result : List Char) (es : List E) :
    serializeEvents esep i result es =
      result ++ (if i > 0 ∧ es ≠ [] then esep else []) ++ joinSep esep (es.map (fun e => (name e).toList)) := by
  induction es generalizing i result with
  | nil => simp [serializeEvents, joinSep]
  | cons e es ih =>
    simp only [serializeEvents, ih]
    cases es with
    | nil => by_cases h : i > 0 <;> simp [h, joinSep]
    | cons f es => by_cases h : i > 0 <;> simp [h, joinSep]

theorem serializeTraces_eq (tsep esep : List Char) (n i : Nat) (result : List Char) (ts : List (List E))
    (hn : i + ts.length = n) :
    serializeTraces tsep esep n i result ts =
      result ++ joinSep tsep (ts.map (fun t => joinSep esep (t.map (fun e => (name e).toList)))) := by
  induction ts generalizing i result with
  | nil => simp [serializeTraces, joinSep]
  | cons t ts ih =>
    simp only [serializeTraces]
    rw [ih (i + 1) _ (by simp at hn; omega), serializeEvents_eq]
    cases ts with
    | nil => simp at hn; simp [joinSep, show ¬ i + 1 < n by omega]
    | cons u ts => simp at hn; simp [joinSep, show i + 1 < n by omega]

theorem serializeLog_eq (log : Log E) (tsep esep : List Char) :
    serializeLog log tsep esep =
      joinSep tsep (log.evs.map (fun t => joinSep esep (t.map (fun e => (name e).toList)))) := by
  unfold serializeLog
  rw [serializeTraces_eq _ _ _ _ _ _ (by simp)]; simp

theorem parseLog_ok (sep : List Char) (hsep : sep ≠ []) (ss : List (List Char)) :
    parseLogFromStrings sep ss =
      .ok (ss.map (fun s => { events := (splitLoop sep 0 [] s).map String.ofList })) := by
  induction ss with
  | nil => rfl
  | cons s ss ih =>
    simp only [parseLogFromStrings, parseTraceFromString, pySplit, hsep, if_false, ih]
    rfl

theorem serializeLogsLoop_eq (lsep tsep esep : List Char) (i : Nat) (result : List Char) (ls : List (Log E)) :
    serializeLogsLoop lsep tsep esep i result ls =
      result ++ (if i > 0 ∧ ls ≠ [] then lsep else []) ++ joinSep lsep (ls.map (fun l => serializeLog l tsep esep)) := by
  induction ls generalizing i result with
  | nil => simp [serializeLogsLoop, joinSep]
  | cons l ls ih =>
    simp only [serializeLogsLoop, ih]
    cases ls with
    | nil => by_cases h : i > 0 <;> simp [h, joinSep]
    | cons m ls => by_cases h : i > 0 <;> simp [h, joinSep]

end Ficus
