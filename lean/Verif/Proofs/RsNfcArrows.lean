import Verif.Spec.RsNfcArrows
import Verif.Proofs.RsInfo

/-! Proofs about the relation between distant classes of Alpha++ NFC. -/

namespace Ficus.Rs.Nfc
open Spec.Nfc

variable {p : Provider} {extra : List (String × String)}

theorem causal_iff (a b : String) : p.causal extra a b = true ↔ Causes p (fun a b => (a, b) ∈ extra) a b := by
  unfold Provider.causal Causes
  simp only [Bool.or_eq_true, Bool.and_eq_true, decide_eq_true_eq, Bool.not_eq_true', or_assoc]

theorem near_iff (a b : String) : (p.leftTriangle extra a b || p.rightTriangle extra a b) = true ↔
    Alternatives p (fun a b => (a, b) ∈ extra) a b := by
  unfold Provider.leftTriangle Provider.rightTriangle Alternatives
  cases h : p.unrelated a b <;> simp [causal_iff]

theorem suitable_iff (first : String) (between : List String) : p.suitable extra first between = true ↔
    (∃ c ∈ between, p.known c = true) ∧ ∀ c ∈ between, p.known c = true → ¬ Alternatives p (fun a b => (a, b) ∈ extra) c first := by
  unfold Provider.suitable
  simp only [Bool.and_eq_true, List.all_eq_true, List.mem_filter, decide_eq_true_eq, List.length_pos_iff_exists_mem, Bool.not_eq_true',
    ← Bool.not_eq_true, near_iff]
  constructor
  · rintro ⟨h1, h2⟩; exact ⟨h2, fun c h3 h4 => h1 c ⟨h3, h4⟩⟩
  · rintro ⟨h1, h2⟩; exact ⟨fun c h => h2 c h.1 h.2, h1⟩

theorem scan_iff (a b : String) (hab : a ≠ b) (ns : List String) (last : Option (List String))
    (hl : ∀ l, last = some l → a ∉ l ∧ b ∉ l) : p.scan extra a b last ns = true ↔
      (∃ l mid after, last = some l ∧ ns = mid ++ b :: after ∧ a ∉ mid ∧ b ∉ mid ∧ p.suitable extra a (l ++ mid) = true) ∨
      ∃ before mid after, ns = before ++ a :: mid ++ b :: after ∧ a ∉ mid ∧ b ∉ mid ∧ p.suitable extra a mid = true := by
  induction ns generalizing last with
  | nil =>
    simp [Provider.scan]
  | cons n ns ih =>
    rw [Provider.scan.eq_def]
    dsimp only
    split
    · rename_i hn
      subst hn
      rw [ih (some []) (by simp)]
      constructor
      · rintro (⟨l, mid, after, e, rfl, h1, h2, h3⟩ | ⟨before, mid, after, rfl, h1, h2, h3⟩)
        · cases e
          exact Or.inr ⟨[], mid, after, rfl, h1, h2, by simpa using h3⟩
        · exact Or.inr ⟨n :: before, mid, after, by simp, h1, h2, h3⟩
      · rintro (⟨l, mid, after, e, h0, h1, h2, h3⟩ | ⟨before, mid, after, h0, h1, h2, h3⟩)
        · exfalso
          cases mid with
          | nil => exact hab (List.cons.inj h0).1
          | cons m mid => exact h1 (by rw [(List.cons.inj h0).1]; simp)
        · cases before with
          | nil =>
            exact Or.inl ⟨[], mid, after, rfl, (List.cons.inj h0).2, h1, h2, by simpa using h3⟩
          | cons m before =>
            exact Or.inr ⟨before, mid, after, (List.cons.inj h0).2, h1, h2, h3⟩
    · rename_i hn
      split
      · rename_i hb
        subst hb
        have hskip : (∃ before mid after, n :: ns = before ++ a :: mid ++ n :: after ∧ a ∉ mid ∧ n ∉ mid ∧ p.suitable extra a mid = true) ↔
            ∃ before mid after, ns = before ++ a :: mid ++ n :: after ∧ a ∉ mid ∧ n ∉ mid ∧ p.suitable extra a mid = true := by
          constructor
          · rintro ⟨before, mid, after, h0, h1, h2, h3⟩
            cases before with
            | nil => exact absurd (List.cons.inj h0).1 hn
            | cons m before => exact ⟨before, mid, after, (List.cons.inj h0).2, h1, h2, h3⟩
          · rintro ⟨before, mid, after, rfl, h1, h2, h3⟩
            exact ⟨n :: before, mid, after, by simp, h1, h2, h3⟩
        have hnone : p.scan extra a n none ns = true ↔
            ∃ before mid after, n :: ns = before ++ a :: mid ++ n :: after ∧ a ∉ mid ∧ n ∉ mid ∧ p.suitable extra a mid = true := by
          rw [ih none (by simp), hskip]
          simp
        have hhead : ∀ l, (∃ l' mid after, some l = some l' ∧ n :: ns = mid ++ n :: after ∧ a ∉ mid ∧ n ∉ mid ∧
            p.suitable extra a (l' ++ mid) = true) ↔ p.suitable extra a l = true := by
          intro l
          constructor
          · rintro ⟨l', mid, after, e, h0, _, h2, h3⟩
            cases e
            cases mid with
            | nil => simpa using h3
            | cons m mid => exact absurd (by rw [(List.cons.inj h0).1]; simp) h2
          · intro h
            exact ⟨l, [], ns, rfl, rfl, by simp, by simp, by simpa using h⟩
        cases last with
        | none =>
          simp only
          rw [hnone]
          simp
        | some l =>
          simp only
          rw [hhead l]
          split
          · rename_i hs
            simp [hs]
          · rename_i hs
            rw [hnone]
            simp [hs]
      · rename_i hb
        have hl' : ∀ l, last.map (· ++ [n]) = some l → a ∉ l ∧ b ∉ l := by
          intro l h
          obtain ⟨k, hk, rfl⟩ := Option.map_eq_some_iff.mp h
          obtain ⟨h1, h2⟩ := hl k hk
          simp only [List.mem_append, List.mem_singleton, not_or]
          exact ⟨⟨h1, fun e => hn e.symm⟩, h2, fun e => hb e.symm⟩
        rw [ih _ hl']
        constructor
        · rintro (⟨l, mid, after, e, rfl, h1, h2, h3⟩ | ⟨before, mid, after, rfl, h1, h2, h3⟩)
          · obtain ⟨k, hk, rfl⟩ := Option.map_eq_some_iff.mp e
            refine Or.inl ⟨k, n :: mid, after, hk, rfl, ?_, ?_, by simpa using h3⟩
            · simp only [List.mem_cons, not_or]; exact ⟨fun e => hn e.symm, h1⟩
            · simp only [List.mem_cons, not_or]; exact ⟨fun e => hb e.symm, h2⟩
          · exact Or.inr ⟨n :: before, mid, after, by simp, h1, h2, h3⟩
        · rintro (⟨l, mid, after, e, h0, h1, h2, h3⟩ | ⟨before, mid, after, h0, h1, h2, h3⟩)
          · cases mid with
            | nil => exact absurd (List.cons.inj h0).1 hb
            | cons m mid =>
              obtain ⟨e1, e2⟩ := List.cons.inj h0
              subst e1
              refine Or.inl ⟨l ++ [n], mid, after, by rw [e]; rfl, e2, fun h => h1 (by simp [h]), fun h => h2 (by simp [h]), by simpa using h3⟩
          · cases before with
            | nil => exact absurd (List.cons.inj h0).1 hn
            | cons m before => exact Or.inr ⟨before, mid, after, (List.cons.inj h0).2, h1, h2, h3⟩

theorem scan_self (a : String) (ns : List String) (last : Option (List String)) : p.scan extra a a last ns = false := by
  induction ns generalizing last with
  | nil => simp [Provider.scan]
  | cons n ns ih =>
    rw [Provider.scan.eq_def]
    dsimp only
    split
    · exact ih _
    · rename_i h
      exact ih _

theorem calculateDouble_iff (a b : String) : p.calculateDouble extra a b = true ↔ Distant p (fun a b => (a, b) ∈ extra) a b := by
  unfold Provider.calculateDouble Distant
  by_cases hd : p.direct a b = true
  · simp [hd]
  · rw [if_neg hd]
    simp only [List.any_eq_true]
    by_cases hab : a = b
    · subst hab
      simp [scan_self]
    · simp only [scan_iff a b hab _ none (by simp), suitable_iff]
      simp only [Bool.not_eq_true] at hd
      simp [hd, hab]

/-! ### The cache -/

theorem tryGet_put (cache : RelCache) (a b c d : String) (v : Bool) : (cache.put a b v).tryGet c d =
    if c = a ∧ d = b then some ((cache.tryGet a b).getD v) else cache.tryGet c d := by
  unfold RelCache.put RelCache.tryGet
  by_cases hc : c = a
  · subst hc
    cases hg : Dict.get? cache c with
    | none =>
      simp only [Dict.contains, hg, Option.isSome_none, Bool.false_eq_true, if_false, Dict.get?_set_self]
      by_cases hd : d = b
      · subst hd; simp [Dict.get?, Dict.set]
      · have : ¬ b = d := fun e => hd e.symm
        simp [Dict.get?, Dict.set, hd, this]
    | some map =>
      simp only [Dict.contains, hg, Option.isSome_some, if_true]
      cases hm : Dict.get? map b with
      | none =>
        simp only [Option.isSome_none, Bool.false_eq_true, if_false, Dict.get?_set_self]
        by_cases hd : d = b
        · subst hd; simp
        · simp [hd, Dict.get?_set_ne _ _ (fun e => hd e.symm)]
      | some w =>
        simp only [Option.isSome_some, if_true, hg]
        by_cases hd : d = b
        · subst hd; simp [hm]
        · simp [hd]
  · have hc' : a ≠ c := fun e => hc e.symm
    simp only [hc, false_and, if_false]
    cases hg : Dict.get? cache a with
    | none =>
      simp [Dict.contains, hg, Dict.get?_set_ne _ _ hc', Dict.get?]
    | some map =>
      simp only [Dict.contains, hg, Option.isSome_some, if_true]
      cases hm : Dict.get? map b with
      | none => simp [Dict.get?_set_ne _ _ hc']
      | some w => simp

theorem foldl_extra (calls : List ProviderCall) (s : ProviderState) (x : String × String) :
    x ∈ (calls.foldl p.step s).extra ↔ x ∈ s.extra ∨ Added calls x.1 x.2 := by
  unfold Added
  induction calls generalizing s with
  | nil => simp
  | cons c cs ih =>
    rw [List.foldl_cons, ih]
    cases c with
    | double a b => simp [Provider.step, Provider.double]
    | add a b =>
      simp only [Provider.step, List.mem_cons, ProviderCall.add.injEq]
      split
      · rename_i h
        constructor
        · rintro (h1 | h1)
          · exact Or.inl h1
          · exact Or.inr (Or.inr h1)
        · rintro (h1 | ⟨e1, e2⟩ | h1)
          · exact Or.inl h1
          · left; rw [show x = (a, b) from Prod.ext e1 e2]; exact h
          · exact Or.inr h1
      · simp only [List.mem_append, List.mem_singleton, Prod.ext_iff, or_assoc]

theorem tryGet_step (s : ProviderState) (c : ProviderCall) (a b : String) : (p.step s c).cache.tryGet a b =
    if c = .double a b then some ((s.cache.tryGet a b).getD (p.calculateDouble s.extra a b)) else s.cache.tryGet a b := by
  cases c with
  | add x y => simp [Provider.step]
  | double x y =>
    simp only [Provider.step, Provider.double, tryGet_put, ProviderCall.double.injEq]
    by_cases h : a = x ∧ b = y
    · obtain ⟨rfl, rfl⟩ := h
      cases hg : s.cache.tryGet a b <;> simp
    · have h' : ¬ (x = a ∧ y = b) := fun e => h ⟨e.1.symm, e.2.symm⟩
      rw [if_neg h, if_neg h']

theorem tryGet_never (calls : List ProviderCall) (s : ProviderState) (a b : String) (h : ProviderCall.double a b ∉ calls) :
    (calls.foldl p.step s).cache.tryGet a b = s.cache.tryGet a b := by
  induction calls generalizing s with
  | nil => rfl
  | cons c cs ih =>
    simp only [List.mem_cons, not_or] at h
    rw [List.foldl_cons, ih _ h.2, tryGet_step, if_neg (fun e => h.1 e.symm)]

theorem tryGet_kept (calls : List ProviderCall) (s : ProviderState) (a b : String) (v : Bool) (h : s.cache.tryGet a b = some v) :
    (calls.foldl p.step s).cache.tryGet a b = some v := by
  induction calls generalizing s with
  | nil => exact h
  | cons c cs ih =>
    rw [List.foldl_cons]
    apply ih
    rw [tryGet_step, h]
    simp

theorem distant_congr {f g : String → String → Prop} (h : ∀ a b, f a b ↔ g a b) (a b : String) : Distant p f a b ↔ Distant p g a b := by
  have : f = g := by funext a b; exact propext (h a b)
  rw [this]

theorem calculate_after (calls : List ProviderCall) (a b : String) :
    p.calculateDouble (calls.foldl p.step .new).extra a b = true ↔ Distant p (Added calls) a b := by
  rw [calculateDouble_iff]
  apply distant_congr
  intro x y
  rw [foldl_extra]
  simp [ProviderState.new]

end Ficus.Rs.Nfc
