import Verif.Spec.RsNfcStages
import Verif.Props.RsNfcRules

/-! Proofs about the searches for implicit dependencies in the discovery of Alpha++ NFC. -/

namespace Ficus.Rs.Nfc
open Spec.Nfc

variable {p : Provider} {far : String → String → Bool} {extra : List (String × String)} {α β : Type}

/-- What is in a cache: nothing, or the truth. -/
def CacheOK (truth : Option (String → String → Prop)) (c : RelCache) : Prop :=
  match truth with
  | none => ∀ a b, c.tryGet a b = none
  | some P => ∀ a b v, c.tryGet a b = some v → (v = true ↔ P a b)

/-- The state of the provider in a stage. -/
structure Good (p : Provider) (far : String → String → Bool) (extra : List (String × String)) (T : Rule → Option (String → String → Prop))
    (s : AllState) : Prop where
  knows : Knows p far extra s
  caches : ∀ r, CacheOK (T r) (s.caches r)

/-- A method stays in the stage, and its value is as said. -/
def Says (p : Provider) (far : String → String → Bool) (extra : List (String × String)) (T : Rule → Option (String → String → Prop))
    (f : Ask α) (P : α → Prop) : Prop := ∀ s v s', Good p far extra T s → f s = some (v, s') → Good p far extra T s' ∧ P v

variable {T : Rule → Option (String → String → Prop)} {net : NetView}

theorem says_asks {f : Ask α} {v : α} (h : Asks p far extra f v) : Says p far extra T f (· = v) := by
  intro s w s' hs e
  obtain ⟨s1, e1, h1, c1⟩ := h s hs.knows
  rw [e] at e1
  cases e1
  exact ⟨⟨h1, fun r => by rw [c1]; exact hs.caches r⟩, rfl⟩

theorem Says.imp {f : Ask α} {P Q : α → Prop} (h : Says p far extra T f P) (hi : ∀ v, P v → Q v) : Says p far extra T f Q := by
  intro s v s' hs e
  obtain ⟨h1, h2⟩ := h s v s' hs e
  exact ⟨h1, hi v h2⟩

theorem says_pure {v : α} {P : α → Prop} (h : P v) : Says p far extra T (askPure v) P := (says_asks (asks_pure v)).imp (fun _ e => e ▸ h)

theorem bind_some {f : Ask α} {g : α → Ask β} {s s' : AllState} {w : β} (e : askBind f g s = some (w, s')) :
    ∃ v s1, f s = some (v, s1) ∧ g v s1 = some (w, s') := by
  unfold askBind at e
  split at e
  · cases e
  · rename_i v s1 h
    exact ⟨v, s1, h, e⟩

theorem says_bind {f : Ask α} {g : α → Ask β} {P : α → Prop} {Q : β → Prop} (hf : Says p far extra T f P)
    (hg : ∀ v, P v → Says p far extra T (g v) Q) : Says p far extra T (askBind f g) Q := by
  intro s w s' hs e
  obtain ⟨v, s1, e1, e2⟩ := bind_some e
  obtain ⟨h1, h2⟩ := hf s v s1 hs e1
  exact hg v h2 s1 w s' h1 e2

theorem says_or {f g : Ask Bool} {P Q : Prop} (hf : Says p far extra T f (fun v => v = true ↔ P))
    (hg : Says p far extra T g (fun v => v = true ↔ Q)) : Says p far extra T (askIf f (askPure true) g) (fun v => v = true ↔ P ∨ Q) := by
  refine says_bind hf (fun v hv => ?_)
  cases v
  · have hn : ¬ P := fun h => by simpa using hv.mpr h
    simpa [hn] using hg
  · exact says_pure (by simp [hv.mp rfl])

theorem says_and {f g : Ask Bool} {P Q : Prop} (hf : Says p far extra T f (fun v => v = true ↔ P))
    (hg : Says p far extra T g (fun v => v = true ↔ Q)) : Says p far extra T (askIf f g (askPure false)) (fun v => v = true ↔ P ∧ Q) := by
  refine says_bind hf (fun v hv => ?_)
  cases v
  · have hn : ¬ P := fun h => by simpa using hv.mpr h
    exact says_pure (by simp [hn])
  · simpa [hv.mp rfl] using hg

theorem says_rule (r : Rule) (hT : T r = some (Implicit p net (fun a b => far a b = true) (fun a b => (a, b) ∈ extra) r)) (a b : String) :
    Says p far extra T (r.ask p net a b)
      (fun v => v = true ↔ Implicit p net (fun a b => far a b = true) (fun a b => (a, b) ∈ extra) r a b) := by
  intro s v s' hs e
  obtain ⟨h1, h2, h3⟩ := ask_spec hs.knows e
  have hc := hs.caches r
  rw [hT] at hc
  have hv : v = true ↔ Implicit p net (fun a b => far a b = true) (fun a b => (a, b) ∈ extra) r a b := by
    rw [h2]
    cases hg : (s.caches r).tryGet a b with
    | none => simp
    | some w =>
      rw [← hc a b w hg]
      simp
  refine ⟨⟨h1, fun q => ?_⟩, hv⟩
  have hq := hs.caches q
  by_cases he : q = r
  · subst he
    rw [hT]
    intro c d w hw
    rw [h3] at hw
    split at hw
    · rename_i hcd
      obtain ⟨_, rfl, rfl⟩ := hcd
      cases hw
      exact hv
    · exact hc c d w hw
  · unfold CacheOK at hq ⊢
    cases hTq : T q with
    | none =>
      rw [hTq] at hq
      intro c d
      rw [h3, if_neg (fun h => he h.1)]
      exact hq c d
    | some P =>
      rw [hTq] at hq
      intro c d w hw
      rw [h3, if_neg (fun h => he h.1)] at hw
      exact hq c d w hw

theorem says_collect {f : String → String → Ask Bool} {R : String → String → Prop} (l : List (String × String))
    (hf : ∀ a b, (a, b) ∈ l → Says p far extra T (f a b) (fun v => v = true ↔ R a b)) :
    Says p far extra T (collect f l) (fun r => ∀ a b, (a, b) ∈ r ↔ (a, b) ∈ l ∧ R a b) := by
  induction l with
  | nil => exact says_pure (by simp)
  | cons x l ih =>
    obtain ⟨c, d⟩ := x
    refine says_bind (hf c d (by simp)) (fun v hv => says_bind (ih (fun a b h => hf a b (by simp [h]))) (fun rest hr => says_pure ?_))
    intro a b
    cases v
    · have hn : ¬ R c d := fun h => by simpa using hv.mpr h
      simp only [Bool.false_eq_true, if_false, hr, List.mem_cons, Prod.mk.injEq]
      constructor
      · exact fun h => ⟨Or.inr h.1, h.2⟩
      · rintro ⟨⟨rfl, rfl⟩ | h, h'⟩
        · exact absurd h' hn
        · exact ⟨h, h'⟩
    · have hy := hv.mp rfl
      simp only [if_true, List.mem_cons, hr, Prod.mk.injEq]
      constructor
      · rintro (⟨rfl, rfl⟩ | h)
        · exact ⟨Or.inl ⟨rfl, rfl⟩, hy⟩
        · exact ⟨Or.inr h.1, h.2⟩
      · rintro ⟨h | h, h'⟩
        · exact Or.inl h
        · exact Or.inr ⟨h, h'⟩

theorem says_anyOfAll {f : α → Ask Bool} {Q : α → Prop} (l : List α) (h : ∀ x ∈ l, Says p far extra T (f x) (fun v => v = true ↔ Q x)) :
    Says p far extra T (askAnyOfAll f l) (fun v => v = true ↔ ∃ x ∈ l, Q x) := by
  induction l with
  | nil => exact says_pure (by simp)
  | cons x l ih =>
    refine says_bind (h x (by simp)) (fun v hv => says_bind (ih (fun y hy => h y (by simp [hy]))) (fun rest hr => says_pure ?_))
    simp only [Bool.or_eq_true, hv, hr, List.mem_cons, exists_eq_or_imp]

theorem mem_classPairs (it : Iter) (n : Nat) (classes : List String) (a b : String) :
    (a, b) ∈ classPairs it n classes ↔ a ∈ classes ∧ b ∈ classes := by
  unfold classPairs
  simp only [List.mem_flatMap, List.mem_map, Prod.mk.injEq, (it.perm _ _ _).mem_iff]
  constructor
  · rintro ⟨x, hx, y, hy, rfl, rfl⟩; exact ⟨hx, hy⟩
  · rintro ⟨h1, h2⟩; exact ⟨a, h1, b, h2, rfl, rfl⟩

/-! ### Adding relations -/

theorem foldl_add_extra (rels : List (String × String)) (b : ProviderState) (x : String × String) :
    x ∈ (rels.foldl (fun b r => p.step b (.add r.1 r.2)) b).extra ↔ x ∈ b.extra ∨ x ∈ rels := by
  induction rels generalizing b with
  | nil => simp
  | cons r rels ih =>
    rw [List.foldl_cons, ih]
    have : x ∈ (p.step b (.add r.1 r.2)).extra ↔ x ∈ b.extra ∨ x = r := by
      unfold Provider.step
      dsimp only
      split
      · rename_i h
        constructor
        · exact Or.inl
        · rintro (h' | rfl)
          · exact h'
          · exact h
      · simp
    rw [this, List.mem_cons, or_assoc]

theorem foldl_add_cache (rels : List (String × String)) (b : ProviderState) :
    (rels.foldl (fun b r => p.step b (.add r.1 r.2)) b).cache = b.cache := by
  induction rels generalizing b with
  | nil => rfl
  | cons r rels ih => rw [List.foldl_cons, ih]; rfl

/-- After some relations were added there is a new stage, in which some answers about distant classes are the old ones. -/
theorem addAll_good {s s' : AllState} {rels : List (String × String)} (hs : Good p far extra T s) (e : addAll p rels s = some ((), s')) :
    ∃ far' extra', Good p far' extra' T s' ∧ (∀ x, x ∈ extra' ↔ x ∈ extra ∨ x ∈ rels) ∧
      ∀ x y, far' x y = far x y ∨ (far' x y = true ↔ Distant p (fun a b => (a, b) ∈ extra') x y) := by
  unfold addAll at e
  cases e
  refine ⟨_, _, ⟨knows_self _, hs.caches⟩, fun x => by rw [foldl_add_extra, hs.knows.extra], fun x y => ?_⟩
  rw [double_val]
  dsimp only
  rw [foldl_add_cache, ← hs.knows.far x y, double_val]
  cases s.base.cache.tryGet x y with
  | some v => exact Or.inl rfl
  | none => exact Or.inr (calculateDouble_iff _ _)

theorem says_doubles (l : List (String × String)) : Says p far extra T (askDoubles p l) (fun _ => True) := by
  induction l with
  | nil => exact says_pure trivial
  | cons x l ih => exact says_bind (says_asks (asks_double _ _)) (fun _ _ => ih)

/-! ### The second kind -/

/-- `Implicit` for the two directions. -/
theorem says_w2 (h1 : T .w21 = some (Implicit p net (fun a b => far a b = true) (fun a b => (a, b) ∈ extra) .w21))
    (h2 : T .w22 = some (Implicit p net (fun a b => far a b = true) (fun a b => (a, b) ∈ extra) .w22)) (a b : String) :
    Says p far extra T (askW2 p net a b)
      (fun v => v = true ↔ Implicit2 p net (fun a b => far a b = true) (fun a b => (a, b) ∈ extra) a b) :=
  says_or (says_rule .w21 h1 a b) (says_rule .w22 h2 a b)

theorem says_concave (a b : String) : Says p far extra T (askConcave p a b)
    (fun v => v = true ↔ Causes p (fun a b => (a, b) ∈ extra) a b ∨ far a b = true) :=
  (says_asks (asks_concave a b)).imp (fun v e => by rw [e, Bool.or_eq_true, causal_iff])

theorem says_rule1 (h1 : T .w21 = some (Implicit p net (fun a b => far a b = true) (fun a b => (a, b) ∈ extra) .w21))
    (h2 : T .w22 = some (Implicit p net (fun a b => far a b = true) (fun a b => (a, b) ∈ extra) .w22)) (classes : List String)
    (hc : ∀ x, x ∈ classes ↔ x ∈ p.classes) (l : List (String × String)) :
    Says p far extra T (askRule1 p net classes l)
      (fun r => ∀ a b, (a, b) ∈ r ↔ (a, b) ∈ l ∧ ¬ Explained p net (fun a b => far a b = true) (fun a b => (a, b) ∈ extra) a b) := by
  induction l with
  | nil => exact says_pure (by simp)
  | cons x l ih =>
    obtain ⟨c, d⟩ := x
    have hb : Says p far extra T (askAnyOfAll (askBetween p net c d) classes)
        (fun v => v = true ↔ Explained p net (fun a b => far a b = true) (fun a b => (a, b) ∈ extra) c d) :=
      (says_anyOfAll classes (fun b _ => says_or (says_and (says_w2 h1 h2 c b) (says_concave b d))
        (says_and (says_w2 h1 h2 b d) (says_concave c b)))).imp (fun v e => by rw [e]; unfold Explained; simp only [hc])
    refine says_bind hb (fun v hv => says_bind ih (fun rest hr => says_pure ?_))
    intro a b
    cases v
    · have hn : ¬ Explained p net (fun a b => far a b = true) (fun a b => (a, b) ∈ extra) c d := fun h => by simpa using hv.mpr h
      simp only [Bool.false_eq_true, if_false, List.mem_cons, hr, Prod.mk.injEq]
      constructor
      · rintro (⟨rfl, rfl⟩ | h)
        · exact ⟨Or.inl ⟨rfl, rfl⟩, hn⟩
        · exact ⟨Or.inr h.1, h.2⟩
      · rintro ⟨h | h, h'⟩
        · exact Or.inl h
        · exact Or.inr ⟨h, h'⟩
    · have hy := hv.mp rfl
      simp only [if_true, hr, List.mem_cons, Prod.mk.injEq]
      constructor
      · exact fun h => ⟨Or.inr h.1, h.2⟩
      · rintro ⟨⟨rfl, rfl⟩ | h, h'⟩
        · exact absurd hy h'
        · exact ⟨h, h'⟩

/-! ### No panics -/

/-- A method that always answers. -/
def Total (f : Ask α) : Prop := ∀ s, ∃ v s', f s = some (v, s')

theorem total_pure (v : α) : Total (askPure v) := fun s => ⟨v, s, rfl⟩

theorem total_bind {f : Ask α} {g : α → Ask β} (hf : Total f) (hg : ∀ v, Total (g v)) : Total (askBind f g) := by
  intro s
  obtain ⟨v, s1, e1⟩ := hf s
  obtain ⟨w, s2, e2⟩ := hg v s1
  exact ⟨w, s2, by simp only [askBind, e1, e2]⟩

theorem total_if {c : Ask Bool} {t e : Ask α} (hc : Total c) (ht : Total t) (he : Total e) : Total (askIf c t e) :=
  total_bind hc (fun v => by cases v <;> simpa)

theorem total_double (a b : String) : Total (askDouble p a b) := fun _ => ⟨_, _, rfl⟩

theorem total_rule (r : Rule) (net : NetView) (a b : String)
    (h : r = .w3 → (net.find a).isSome ∧ (net.find b).isSome ∧ ∀ c ∈ p.classes, (net.find c).isSome) : Total (r.ask p net a b) :=
  fun s => C167_answers p s r net a b h

theorem total_w2 (net : NetView) (a b : String) : Total (askW2 p net a b) :=
  total_if (total_rule _ _ _ _ (fun h => by cases h)) (total_pure _) (total_rule _ _ _ _ (fun h => by cases h))

theorem total_concave (a b : String) : Total (askConcave p a b) := total_if (fun _ => ⟨_, _, rfl⟩) (total_pure _) (total_double a b)

theorem total_collect {f : String → String → Ask Bool} (l : List (String × String)) (h : ∀ a b, (a, b) ∈ l → Total (f a b)) :
    Total (collect f l) := by
  induction l with
  | nil => exact total_pure _
  | cons x l ih =>
    exact total_bind (h x.1 x.2 (by simp)) (fun _ => total_bind (ih (fun a b hm => h a b (by simp [hm]))) (fun _ => total_pure _))

theorem total_anyOfAll {f : α → Ask Bool} (l : List α) (h : ∀ x, Total (f x)) : Total (askAnyOfAll f l) := by
  induction l with
  | nil => exact total_pure _
  | cons x l ih => exact total_bind (h x) (fun _ => total_bind ih (fun _ => total_pure _))

theorem total_rule1 (net : NetView) (classes : List String) (l : List (String × String)) : Total (askRule1 p net classes l) := by
  induction l with
  | nil => exact total_pure _
  | cons x l ih =>
    refine total_bind (total_anyOfAll _ (fun b => ?_)) (fun _ => total_bind ih (fun _ => total_pure _))
    exact total_if (total_if (total_w2 _ _ _) (total_concave _ _) (total_pure _)) (total_pure _)
      (total_if (total_w2 _ _ _) (total_concave _ _) (total_pure _))

theorem total_doubles (l : List (String × String)) : Total (askDoubles p l) := by
  induction l with
  | nil => exact total_pure _
  | cons x l ih => exact total_bind (total_double _ _) (fun _ => ih)

end Ficus.Rs.Nfc
