import Verif.Proofs.RsTandem
import Verif.Proofs.Dict
import Verif.Spec.RsActivities

/-! Lemmas for the repeat sets of the backend. -/

namespace Ficus.Rs
open Spec

theorem sorted_eq_ascending (w : List Nat) : w.dedup.insertionSort (fun a b => a ≤ b) = ascending w := by
  unfold ascending
  have hp := List.perm_insertionSort (fun a b : Nat => a ≤ b) w.dedup
  have hs := List.pairwise_insertionSort (fun a b : Nat => a ≤ b) w.dedup
  have hn : (w.dedup.insertionSort (fun a b => a ≤ b)).Nodup := hp.nodup_iff.2 w.nodup_dedup
  refine List.Perm.eq_of_pairwise (le := fun a b : Nat => a ≤ b) (fun a b _ _ h1 h2 => Nat.le_antisymm h1 h2) hs
    (Finset.pairwise_sort _ _) ?_
  refine (List.perm_ext_iff_of_nodup hn (Finset.sort_nodup _ _)).2 ?_
  intro x
  rw [hp.mem_iff]
  simp

theorem mem_ascending (w : List Nat) (x : Nat) : x ∈ ascending w ↔ x ∈ w := by simp [ascending]

theorem ascending_eq_iff (u v : List Nat) : ascending u = ascending v ↔ SameSet u v := by
  constructor
  · intro h x
    rw [← mem_ascending u, ← mem_ascending v, h]
  · intro h
    have : u.toFinset = v.toFinset := by ext x; simpa using h x
    unfold ascending; rw [this]

section
variable {C K : Type} [DecidableEq K]

theorem unseen_keys (key : C → K) (seen : List K) (cs : List C) :
    ((unseen key seen cs).map key).Nodup ∧ ∀ c ∈ unseen key seen cs, key c ∉ seen := by
  induction cs generalizing seen with
  | nil => simp [unseen]
  | cons c cs ih =>
    unfold unseen
    by_cases h : key c ∈ seen
    · rw [if_pos h]; exact ih seen
    · rw [if_neg h]
      obtain ⟨h1, h2⟩ := ih (key c :: seen)
      refine ⟨?_, ?_⟩
      · rw [List.map_cons, List.nodup_cons]
        refine ⟨?_, h1⟩
        intro hm
        obtain ⟨d, hd, he⟩ := List.mem_map.1 hm
        exact h2 d hd (by rw [he]; simp)
      · intro d hd
        rcases List.mem_cons.1 hd with rfl | hd
        · exact h
        · exact fun hc => h2 d hd (by simp [hc])

theorem mem_unseen (key : C → K) (seen : List K) (cs : List C) (c : C) :
    c ∈ unseen key seen cs ↔ key c ∉ seen ∧ ∃ k : Nat, cs[k]? = some c ∧ ∀ j < k, ∀ d, cs[j]? = some d → key d ≠ key c := by
  induction cs generalizing seen with
  | nil => simp [unseen]
  | cons x cs ih =>
    unfold unseen
    have hshift : (∃ k : Nat, (x :: cs)[k]? = some c ∧ ∀ j < k, ∀ d, (x :: cs)[j]? = some d → key d ≠ key c) ↔
        x = c ∨ (key x ≠ key c ∧ ∃ k : Nat, cs[k]? = some c ∧ ∀ j < k, ∀ d, cs[j]? = some d → key d ≠ key c) := by
      constructor
      · rintro ⟨k, h1, h2⟩
        cases k with
        | zero => left; simpa using h1
        | succ k =>
          right
          exact ⟨h2 0 (by omega) x rfl, k, by simpa using h1, fun j hj d hd => h2 (j + 1) (by omega) d (by simpa using hd)⟩
      · rintro (rfl | ⟨h0, k, h1, h2⟩)
        · exact ⟨0, rfl, fun j hj => by omega⟩
        · refine ⟨k + 1, by simpa using h1, ?_⟩
          intro j hj d hd
          cases j with
          | zero => cases hd; exact h0
          | succ j => exact h2 j (by omega) d (by simpa using hd)
    rw [hshift]
    by_cases h : key x ∈ seen
    · rw [if_pos h, ih]
      constructor
      · rintro ⟨h1, h2⟩
        exact ⟨h1, Or.inr ⟨fun he => h1 (he ▸ h), h2⟩⟩
      · rintro ⟨h1, rfl | ⟨_, h2⟩⟩
        · exact absurd h h1
        · exact ⟨h1, h2⟩
    · rw [if_neg h, List.mem_cons, ih]
      constructor
      · rintro (rfl | ⟨h1, h2⟩)
        · exact ⟨h, Or.inl rfl⟩
        · simp only [List.mem_cons, not_or] at h1
          exact ⟨h1.2, Or.inr ⟨fun he => h1.1 he.symm, h2⟩⟩
      · rintro ⟨h1, rfl | ⟨h0, h2⟩⟩
        · exact Or.inl rfl
        · exact Or.inr ⟨by simp only [List.mem_cons, not_or]; exact ⟨fun he => h0 he.symm, h1⟩, h2⟩
end

/-- The step of the loops for a repeat set. -/
def setStep (key : RepeatSet → Option Nat) (d : Dict Nat RepeatSet) (r : RepeatSet) : Option (Dict Nat RepeatSet) := do
  let h ← key r
  return if d.contains h then d else d.set h r

theorem setFold_none (key : RepeatSet → Option Nat) (rs : List RepeatSet) (d : Dict Nat RepeatSet) :
    rs.foldlM (setStep key) d = none ↔ ∃ r ∈ rs, key r = none := by
  induction rs generalizing d with
  | nil => simp
  | cons r rs ih =>
    rw [List.foldlM_cons]
    cases h : key r with
    | none =>
      have : setStep key d r = none := by unfold setStep; rw [h]; rfl
      rw [this]
      simp only [Option.bind_eq_bind, Option.bind_none, true_iff]
      exact ⟨r, by simp, h⟩
    | some x =>
      have : setStep key d r = some (if d.contains x then d else d.set x r) := by unfold setStep; rw [h]; rfl
      rw [this]
      refine (ih _).trans ?_
      simp [h]

theorem set_new {K V : Type} [DecidableEq K] (d : Dict K V) (k : K) (v : V) (h : k ∉ Dict.keys d) :
    Dict.set d k v = d ++ [(k, v)] := by
  induction d with
  | nil => rfl
  | cons p d ih =>
    obtain ⟨k', v'⟩ := p
    simp only [Dict.keys, List.map_cons, List.mem_cons, not_or] at h
    rw [Dict.set, if_neg (fun e => h.1 e.symm), ih h.2]
    rfl

theorem setFold_some (key : RepeatSet → Nat) (rs : List RepeatSet) (d : Dict Nat RepeatSet) :
    rs.foldlM (setStep (fun r => some (key r))) d =
      some (d ++ (unseen key (Dict.keys d) rs).map (fun r => (key r, r))) := by
  have hcong : ∀ (rs : List RepeatSet) (s s' : List Nat), (∀ x, x ∈ s ↔ x ∈ s') → unseen key s rs = unseen key s' rs := by
    intro rs
    induction rs with
    | nil => intro s s' _; rfl
    | cons r rs ih =>
      intro s s' h
      unfold unseen
      by_cases hk : key r ∈ s
      · rw [if_pos hk, if_pos ((h _).1 hk), ih s s' h]
      · rw [if_neg hk, if_neg (fun hc => hk ((h _).2 hc)), ih _ (key r :: s') (by simp [h])]
  induction rs generalizing d with
  | nil => simp [unseen]
  | cons r rs ih =>
    rw [List.foldlM_cons]
    have : setStep (fun r => some (key r)) d r = some (if d.contains (key r) then d else d.set (key r) r) := rfl
    rw [this]
    refine (ih _).trans ?_
    have hu : unseen key (Dict.keys d) (r :: rs) = if key r ∈ Dict.keys d then unseen key (Dict.keys d) rs
        else r :: unseen key (key r :: Dict.keys d) rs := rfl
    rw [hu]
    by_cases h : key r ∈ Dict.keys d
    · rw [if_pos ((Dict.contains_iff d _).2 h), if_pos h]
    · rw [if_neg (fun hc => h ((Dict.contains_iff d _).1 hc)), if_neg h, set_new _ _ _ h]
      rw [hcong rs (Dict.keys (d ++ [(key r, r)])) (key r :: Dict.keys d) (by intro x; simp [Dict.keys]; tauto)]
      simp

/-- The hash of a repeat set, if it is defined. -/
def keyAt (wordHash : List Nat → Option Nat) (log : List (List Nat)) (r : RepeatSet) : Option Nat := do
  let t ← log[r.traceIndex]?
  wordHash (← classVector t ⟨r.firstPos, r.length⟩)

theorem keyAt_eq (wordHash : List Nat → Option Nat) (log : List (List Nat)) (r : RepeatSet) (h : InsideLog log r) :
    keyAt wordHash log r = wordHash (ascending (wordAt log r)) := by
  obtain ⟨t, ht, hb⟩ := h
  unfold keyAt classVector wordAt
  rw [ht]
  simp only [Option.bind_eq_bind, Option.bind_some, if_pos hb, Option.getD_some]
  rw [sorted_eq_ascending]; rfl

theorem keyAt_none (wordHash : List Nat → Option Nat) (log : List (List Nat)) (r : RepeatSet) :
    keyAt wordHash log r = none ↔ ¬ InsideLog log r ∨ wordHash (ascending (wordAt log r)) = none := by
  by_cases h : InsideLog log r
  · rw [keyAt_eq _ _ _ h]; simp [h]
  · simp only [h, not_false_eq_true, true_or, iff_true]
    unfold keyAt classVector
    cases ht : log[r.traceIndex]? with
    | none => rfl
    | some t =>
      simp only [Option.bind_eq_bind, Option.bind_some]
      rw [if_neg (fun hb => h ⟨t, ht, hb⟩)]; rfl

/-- The patterns of the traces that exist. -/
theorem repeatSetMap_eq (wordHash : List Nat → Option Nat) (log : List (List Nat)) (patterns : List (List SubArray))
    (full : List (List Nat)) (k : Nat) (hf : full.drop k = log) (d : Dict Nat RepeatSet) :
    repeatSetMap wordHash (log.zip patterns) k d =
      (((patterns.take log.length).zipIdx k).flatMap (fun p => p.1.map (fun s => (⟨s.firstPos, s.length, p.2⟩ : RepeatSet)))).foldlM
        (setStep (keyAt wordHash full)) d := by
  induction log generalizing patterns k d with
  | nil => simp [repeatSetMap]
  | cons t log ih =>
    cases patterns with
    | nil => simp [repeatSetMap]
    | cons ps patterns =>
      have hk : full[k]? = some t := by
        have := congrArg (fun l => l[0]?) hf
        simpa using this
      have hf' : full.drop (k + 1) = log := by rw [← List.tail_drop, hf]; rfl
      simp only [List.zip_cons_cons, repeatSetMap, List.length_cons, List.take_succ_cons, List.zipIdx_cons, List.flatMap_cons,
        List.foldlM_append]
      have hstep : ∀ d, ps.foldlM (addRepeatSet wordHash t k) d =
          (ps.map (fun s => (⟨s.firstPos, s.length, k⟩ : RepeatSet))).foldlM (setStep (keyAt wordHash full)) d := by
        intro d
        rw [List.foldlM_map]
        congr 1
        funext d p
        unfold addRepeatSet setStep keyAt
        simp only [hk, Option.bind_eq_bind, Option.bind_some]
        cases classVector t ⟨p.firstPos, p.length⟩ <;> rfl
      rw [hstep]
      congr 1
      funext d'
      exact ih patterns (k + 1) hf' d'

theorem comesFirst_total (a b : RepeatSet) : comesFirst a b ∨ comesFirst b a := by
  unfold comesFirst
  split <;> split <;> (try split) <;> (try split) <;> omega

theorem comesFirst_trans (a b c : RepeatSet) (h1 : comesFirst a b) (h2 : comesFirst b c) : comesFirst a c := by
  unfold comesFirst at *
  split at h1 <;> split at h2 <;> split <;> (try split at h1) <;> (try split at h2) <;> (try split) <;> omega

theorem placedBefore_of (a b : RepeatSet) (h : comesFirst a b) (hne : a ≠ b) : PlacedBefore a b := by
  obtain ⟨a1, a2, a3⟩ := a
  obtain ⟨b1, b2, b3⟩ := b
  simp only [ne_eq, RepeatSet.mk.injEq, not_and] at hne
  unfold comesFirst at h
  unfold PlacedBefore
  simp only at *
  split at h
  · rename_i h3
    split at h
    · right; exact ⟨h3, by left; omega⟩
    · rename_i h4
      right
      refine ⟨h3, Or.inr ⟨by omega, ?_⟩⟩
      have := hne (by omega)
      by_contra hc
      exact this (by omega) h3
  · left; omega

theorem placedBefore_asymm (a b : RepeatSet) (h1 : PlacedBefore a b) (h2 : PlacedBefore b a) : False := by
  unfold PlacedBefore at *; omega

theorem sortedBy_unique (l m : List RepeatSet) (hl : l.Pairwise PlacedBefore) (hm : m.Pairwise PlacedBefore)
    (h : ∀ x, x ∈ l ↔ x ∈ m) : l = m := by
  have hne : ∀ a b : RepeatSet, PlacedBefore a b → a ≠ b := by
    rintro a b h rfl; exact placedBefore_asymm a a h h
  refine List.Perm.eq_of_pairwise (le := PlacedBefore) (fun a b _ _ h1 h2 => (placedBefore_asymm a b h1 h2).elim) hl hm ?_
  exact (List.perm_ext_iff_of_nodup (hl.imp (fun h => hne _ _ h)) (hm.imp (fun h => hne _ _ h))).2 h

/-- The result of `build_repeat_sets` for any hash. -/
theorem buildRepeatSets_some (it : Iter) (wordHash : List Nat → Option Nat) (log : List (List Nat))
    (patterns : List (List SubArray)) (h : ∀ r ∈ indexedSubArrays (patterns.take log.length), keyAt wordHash log r ≠ none) :
    ∃ r, buildRepeatSets it wordHash log patterns = some r ∧ r.Pairwise PlacedBefore ∧
      ∀ x, x ∈ r ↔ x ∈ unseen (fun r => (keyAt wordHash log r).getD 0) [] (indexedSubArrays (patterns.take log.length)) := by
  let key : RepeatSet → Nat := fun r => (keyAt wordHash log r).getD 0
  have hmap := repeatSetMap_eq wordHash log patterns log 0 rfl []
  have hcong : ∀ (rs : List RepeatSet) (d : Dict Nat RepeatSet), (∀ r ∈ rs, keyAt wordHash log r ≠ none) →
      rs.foldlM (setStep (keyAt wordHash log)) d = rs.foldlM (setStep (fun r => some (key r))) d := by
    intro rs
    induction rs with
    | nil => intro d _; rfl
    | cons r rs ih =>
      intro d hr
      rw [List.foldlM_cons, List.foldlM_cons]
      have : setStep (keyAt wordHash log) d r = setStep (fun r => some (key r)) d r := by
        unfold setStep
        cases hk : keyAt wordHash log r with
        | none => exact absurd hk (hr r (by simp))
        | some x => simp [key, hk]
      rw [this]
      congr 1
      funext d'
      exact ih d' (fun r hr' => hr r (by simp [hr']))
  have hmap' : repeatSetMap wordHash (log.zip patterns) 0 [] =
      some ((unseen key [] (indexedSubArrays (patterns.take log.length))).map (fun r => (key r, r))) := by
    rw [hmap]
    refine (hcong _ _ h).trans ?_
    rw [setFold_some]
    rfl
  unfold buildRepeatSets
  rw [hmap']
  simp only [Option.bind_eq_bind, Option.bind_some, Option.pure_def, Option.some.injEq, exists_eq_left', List.map_map]
  have hid : (Prod.snd ∘ fun r : RepeatSet => (key r, r)) = id := rfl
  rw [hid, List.map_id]
  set u := unseen key [] (indexedSubArrays (patterns.take log.length)) with hu
  have hn : u.Nodup := List.Nodup.of_map _ (unseen_keys key [] _).1
  have hp : ((it.order "repeat_sets.rs:58" 0 u).insertionSort comesFirst).Perm u :=
    (List.perm_insertionSort _ _).trans (it.perm _ _ _)
  refine ⟨?_, fun x => hp.mem_iff⟩
  have : Std.Total comesFirst := ⟨comesFirst_total⟩
  have : IsTrans RepeatSet comesFirst := ⟨comesFirst_trans⟩
  have hs := List.pairwise_insertionSort comesFirst (it.order "repeat_sets.rs:58" 0 u)
  have hn' : ((it.order "repeat_sets.rs:58" 0 u).insertionSort comesFirst).Nodup := hp.nodup_iff.2 hn
  exact (hs.and hn').imp (fun h => placedBefore_of _ _ h.1 h.2)

theorem buildRepeatSets_none (it : Iter) (wordHash : List Nat → Option Nat) (log : List (List Nat))
    (patterns : List (List SubArray)) : buildRepeatSets it wordHash log patterns = none ↔
      ∃ r ∈ indexedSubArrays (patterns.take log.length), keyAt wordHash log r = none := by
  constructor
  · intro h
    by_contra hc
    push Not at hc
    obtain ⟨r, hr, _⟩ := buildRepeatSets_some it wordHash log patterns hc
    rw [hr] at h; cases h
  · intro h
    unfold buildRepeatSets
    have : repeatSetMap wordHash (log.zip patterns) 0 [] = none :=
      (repeatSetMap_eq wordHash log patterns log 0 rfl []).trans ((setFold_none _ _ _).2 h)
    rw [this]
    rfl

end Ficus.Rs
