import Verif.Model.Console
import Verif.Spec.Console
import Verif.Proofs.Text
import Verif.Proofs.Nets
import Verif.Props.Info

namespace Ficus
open Spec
variable {E : Type} [HasName E]

/-- Pieces that do not contain the end mark are given back by their joined text. -/
theorem marked_inj {α : Type} (s : α) (ls ms : List (List α)) (hl : ∀ l ∈ ls, s ∉ l) (hm : ∀ l ∈ ms, s ∉ l)
    (h : ls.flatMap (fun l => l ++ [s]) = ms.flatMap (fun l => l ++ [s])) : ls = ms := by
  induction ls generalizing ms with
  | nil => cases ms with
    | nil => rfl
    | cons m ms => simp at h
  | cons l ls ih => cases ms with
    | nil => simp at h
    | cons m ms =>
      simp only [List.flatMap_cons, List.append_assoc, List.singleton_append] at h
      have key : ∀ (x y r r' : List α), s ∉ x → s ∉ y → x ++ s :: r = y ++ s :: r' → x = y ∧ r = r' := by
        intro x
        induction x with
        | nil =>
          intro y r r' _ hy h
          cases y with
          | nil => simpa using h
          | cons b y => simp only [List.nil_append, List.cons_append, List.cons.injEq] at h; simp [h.1] at hy
        | cons a x ihx =>
          intro y r r' hx hy h
          cases y with
          | nil => simp only [List.nil_append, List.cons_append, List.cons.injEq] at h; simp [h.1] at hx
          | cons b y =>
            simp only [List.cons_append, List.cons.injEq] at h
            have := ihx y r r' (by simp_all) (by simp_all) h.2
            exact ⟨by rw [h.1, this.1], this.2⟩
      obtain ⟨h1, h2⟩ := key _ _ _ _ (hl l (by simp)) (hm m (by simp)) h
      rw [h1, ih ms (fun x hx => hl x (by simp [hx])) (fun x hx => hm x (by simp [hx])) h2]

/-- A text of lines determines the lines. -/
theorem textOf_inj (ls ms : List String) (hl : ∀ l ∈ ls, OneLine l) (hm : ∀ l ∈ ms, OneLine l)
    (h : textOf ls = textOf ms) : ls = ms := by
  have h' := congrArg String.toList h
  simp only [textOf, String.toList_ofList] at h'
  have := marked_inj '\n' (ls.map String.toList) (ms.map String.toList)
    (by simpa [OneLine] using hl) (by simpa [OneLine] using hm) (by simpa [List.flatMap_map] using h')
  exact (List.map_injective_iff.2 (fun _ _ e => String.toList_inj.1 e)) this

theorem textOf_nil : textOf [] = "" := rfl

theorem textOf_append (ls ms : List String) : textOf (ls ++ ms) = textOf ls ++ textOf ms := by
  rw [← String.toList_inj]; simp [textOf]

theorem printText_eq (s : String) : printText s = textOf [s] := by
  rw [← String.toList_inj]; simp [textOf, printText]

theorem printFollowers_eq (d : Dict String Nat) :
    printFollowers d = textOf (d.map (fun f => f.1 ++ ": " ++ toString f.2)) := by
  induction d with
  | nil => rfl
  | cons x d ih => rw [printFollowers, ih, printText_eq, ← textOf_append]; rfl

theorem printFollowed_eq (selector : String → Bool) (d : Dict String (Dict String Nat)) :
    printFollowed selector d = textOf ((d.filter (fun b => selector b.1)).flatMap (fun b => followerLines b.1 b.2)) := by
  induction d with
  | nil => rfl
  | cons x d ih =>
    rw [printFollowed, ih]
    have hb : printText ("Followers of " ++ x.1 ++ ":") ++ printFollowers x.2 ++ printText "" =
        textOf (followerLines x.1 x.2) := by
      rw [printText_eq, printText_eq, printFollowers_eq, ← textOf_append, ← textOf_append, followerLines]
      rfl
    by_cases h : selector x.1
    · rw [if_pos h, hb, List.filter_cons_of_pos (by simpa using h), List.flatMap_cons, textOf_append]
    · rw [if_neg h, List.filter_cons_of_neg (by simpa using h), String.empty_append]

theorem followedEvents_WF (pairs : Dict (String × String) Nat) : (dfgOf pairs).followedEvents.WF := by
  unfold dfgOf
  have : ∀ (ks : List (String × String)) (g : Dfg), g.followedEvents.WF →
      (ks.foldl (dfgStep pairs) g).followedEvents.WF := by
    intro ks
    induction ks with
    | nil => intro g h; exact h
    | cons k ks ih =>
      intro g h
      apply ih
      obtain ⟨a, b⟩ := k
      cases hg : g.followedEvents.get? a with
      | none => simp only [dfgStep, hg]; exact Dict.WF_set h _ _
      | some m =>
        simp only [dfgStep, hg]
        by_cases hc : b ∈ m.keys
        · simp only [hc, not_true, if_false]; exact h
        · simp only [hc, not_false_iff, if_true]; exact Dict.WF_set h _ _
  exact this _ _ Dict.WF_nil

/-- The stored pairs of a log count what follows what. -/
theorem pairs_followCount (log : Log E) (a b : String) :
    (createLogInformation log).pairs.get? (a, b) = if followCount log a b = 0 then none else some (followCount log a b) := by
  rw [C09_pairs_exact_framed]
  have hk : ∀ t : List E, kept ((none : Option (List String)).getD []) t = t.map name := by
    intro t; simp [kept]
  simp only [hk]
  rfl

theorem counter_keys (l : List String) : (counter l).keys = l.eraseDups := by
  induction l using List.reverseRecOn with
  | nil => rfl
  | append_singleton l k ih =>
    rw [counter_append_singleton, increaseInIntMap, Dict.keys_set, ih, List.eraseDups_append]
    by_cases h : k ∈ l <;> simp [h, List.removeAll, List.eraseDups_cons]

theorem infoCount_keys (log : Log E) : (createLogInformation log).eventsCount.keys = namesInOrder log := by
  rw [createLogInformation_eq]
  simp only [counter_keys, namesInOrder, keptNames_eq]
  congr 1
  rw [List.map_flatten]
  congr 1
  apply List.map_congr_left
  intro t _; simp [kept]

theorem joinTexts_eq (sep : List Char) (l : List (List Char)) : joinTexts sep l = joinSep sep l := by
  induction l with
  | nil => rfl
  | cons x l ih => cases l with
    | nil => rfl
    | cons y l => rw [joinTexts, joinSep, ih]

theorem natText_oneLine (n : Nat) : '\n' ∉ (toString n : String).toList := fun h =>
  absurd (natText_isDigit n '\n' h) (by decide)

/-- A name and a count are given back by their line. -/
theorem followerLine_inj {a b : String} {m n : Nat}
    (h : a ++ ": " ++ toString m = b ++ ": " ++ toString n) : a = b ∧ m = n := by
  have h' := congrArg (fun s => s.toList.reverse) h
  simp only [String.toList_append, List.reverse_append, List.append_assoc] at h'
  have hd : ∀ k : Nat, ' ' ∉ ((toString k : String).toList).reverse := fun k hk =>
    absurd (natText_isDigit k ' ' (List.mem_reverse.1 hk)) (by decide)
  have hs : (": " : String).toList.reverse = [' ', ':'] := by decide
  rw [hs] at h'
  have key : ∀ (x y r r' : List Char), ' ' ∉ x → ' ' ∉ y → x ++ ' ' :: r = y ++ ' ' :: r' → x = y ∧ r = r' := by
    intro x
    induction x with
    | nil =>
      intro y r r' _ hy h
      cases y with
      | nil => simpa using h
      | cons b y => simp only [List.nil_append, List.cons_append, List.cons.injEq] at h; simp [← h.1] at hy
    | cons a x ihx =>
      intro y r r' hx hy h
      cases y with
      | nil => simp only [List.nil_append, List.cons_append, List.cons.injEq] at h; simp [h.1] at hx
      | cons b y =>
        simp only [List.cons_append, List.cons.injEq] at h
        have := ihx y r r' (by simp_all) (by simp_all) h.2
        exact ⟨by rw [h.1, this.1], this.2⟩
  obtain ⟨h1, h2⟩ := key _ _ _ _ (hd m) (hd n) (by simpa using h')
  refine ⟨?_, natText_injective (String.toList_inj.1 (List.reverse_injective h1))⟩
  simp only [List.cons.injEq, true_and] at h2
  exact String.toList_inj.1 (List.reverse_injective h2)

theorem followerLine_ne (a : String) (n : Nat) : a ++ ": " ++ toString n ≠ "" := by
  intro h
  have := congrArg String.toList h
  simp at this

theorem followerLines_inj (bs cs : List (String × List (String × Nat)))
    (h : bs.flatMap (fun b => followerLines b.1 b.2) = cs.flatMap (fun b => followerLines b.1 b.2)) : bs = cs := by
  let block (b : String × List (String × Nat)) : List String :=
    ("Followers of " ++ b.1 ++ ":") :: b.2.map (fun f => f.1 ++ ": " ++ toString f.2)
  have hb : ∀ b : String × List (String × Nat), followerLines b.1 b.2 = block b ++ [""] := fun _ => rfl
  have hne : ∀ b, "" ∉ block b := by
    intro b hm
    rcases List.mem_cons.1 hm with h | h
    · have := congrArg String.toList h
      simp at this
    · obtain ⟨f, _, hf⟩ := List.mem_map.1 h
      exact followerLine_ne _ _ hf
  have := marked_inj "" (bs.map block) (cs.map block) (by
      intro l hl; obtain ⟨b, _, rfl⟩ := List.mem_map.1 hl; exact hne b)
    (by intro l hl; obtain ⟨b, _, rfl⟩ := List.mem_map.1 hl; exact hne b) (by simpa only [List.flatMap_map, hb] using h)
  refine List.map_injective_iff.2 ?_ this
  rintro ⟨a, fs⟩ ⟨b, gs⟩ e
  simp only [block, List.cons.injEq] at e
  have e1 : a = b := by
    have := congrArg String.toList e.1
    simp only [String.toList_append, List.append_assoc, List.append_cancel_left_eq] at this
    exact String.toList_inj.1 (List.append_cancel_right this)
  have e2 : fs = gs := by
    refine List.map_injective_iff.2 ?_ e.2
    rintro ⟨x, m⟩ ⟨y, n⟩ hxy
    obtain ⟨h1, h2⟩ := followerLine_inj hxy
    exact Prod.ext h1 h2
  rw [e1, e2]

end Ficus
