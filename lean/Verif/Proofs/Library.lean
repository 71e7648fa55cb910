import Verif.Spec.Library
import Verif.Props.Pipeline
import Verif.Proofs.Dict

/-! Every part of the local pipelines obeys its line of the table, and pipelines of them obey the combination of the
lines. -/

namespace Ficus
namespace Library
open Library.Spec Ficus.Spec
variable {V S A B : Type}

/-! ### Reasoning about computations -/

/-- Postconditions for the normal and the exceptional end. -/
def wp (m : Py V S A) (w : World V S) (Q : A → World V S → Prop) (E : PyErr → World V S → Prop) : Prop :=
  match m w with
  | (.ok a, w') => Q a w'
  | (.error e, w') => E e w'

theorem wp_bind (m : Py V S A) (f : A → Py V S B) (w : World V S) (Q : B → World V S → Prop)
    (E : PyErr → World V S → Prop) : wp (Py.bind m f) w Q E ↔ wp m w (fun a w' => wp (f a) w' Q E) E := by
  unfold wp Py.bind
  cases m w with
  | mk res w' => cases res <;> rfl

theorem wp_ret (a : A) (w : World V S) (Q : A → World V S → Prop) (E : PyErr → World V S → Prop) :
    wp (Py.ret a) w Q E ↔ Q a w := Iff.rfl

theorem wp_mono {m : Py V S A} {w : World V S} {Q Q' : A → World V S → Prop} {E E' : PyErr → World V S → Prop}
    (h : wp m w Q E) (hQ : ∀ a w', Q a w' → Q' a w') (hE : ∀ e w', E e w' → E' e w') : wp m w Q' E' := by
  unfold wp at *
  cases hx : m w with
  | mk res w' =>
    rw [hx] at h
    cases res with
    | ok a => exact hQ a w' h
    | error e => exact hE e w' h

theorem wp_hasValue (r : Nat) (k : String) (w : World V S) (Q : Bool → World V S → Prop) (E : PyErr → World V S → Prop) :
    wp (hasValue r k) w Q E ↔ Q ((w.ctx r).contains k) w := Iff.rfl

theorem wp_getOrThrow {r : Nat} {k : String} {w : World V S} {Q : V → World V S → Prop} {E : PyErr → World V S → Prop}
    (hQ : ∀ a, vals w r k = some a → Q a w) (hE : vals w r k = none → E .valueError w) : wp (getOrThrow r k) w Q E := by
  unfold wp getOrThrow
  cases h : (w.ctx r).get? k with
  | none => exact hE h
  | some a => exact hQ a h

theorem wp_values {r : Nat} : ∀ {ks : List String} {w : World V S} {Q : List V → World V S → Prop}
    {E : PyErr → World V S → Prop}, ((∀ k ∈ ks, (vals w r k).isSome) → ∀ as, Q as w) →
    ((∃ k ∈ ks, vals w r k = none) → E .valueError w) → wp (values (some r) ks) w Q E
  | [], w, Q, E, hQ, _ => hQ (fun k hk => by simp at hk) []
  | k :: ks, w, Q, E, hQ, hE => by
    unfold values
    rw [wp_bind]
    unfold value
    refine wp_getOrThrow (fun a ha => ?_) (fun h => hE ⟨k, by simp, h⟩)
    rw [wp_bind]
    refine wp_values (fun h as => ?_) (fun ⟨k', hk', h⟩ => hE ⟨k', by simp [hk'], h⟩)
    rw [wp_ret]
    refine hQ (fun k' hk' => ?_) _
    rcases List.mem_cons.1 hk' with h' | h'
    · rw [h', ha]; rfl
    · exact h k' h'

theorem wp_run {x : Ext V S} {f : String} {as : List V} {w : World V S} {Q : V → World V S → Prop}
    {E : PyErr → World V S → Prop} (hQ : ∀ a w', w'.ctxs = w.ctxs → Q a w')
    (hE : ∀ e w', w'.ctxs = w.ctxs → ¬ TotalExt x → E e w') : wp (x.run f as) w Q E := by
  unfold wp Ext.run
  cases h : (x.call f as (w.used, w.rest)).1 with
  | ok a => exact hQ a _ rfl
  | error e =>
    refine hE e _ rfl (fun ht => ?_)
    obtain ⟨a, ha⟩ := ht f as (w.used, w.rest)
    rw [h] at ha
    simp at ha

theorem vals_eq_of_ctxs {w w' : World V S} (h : w'.ctxs = w.ctxs) (r : Nat) : vals w' r = vals w r := by
  unfold vals World.ctx
  rw [h]

theorem vals_of_keeps {P : Nat → Prop} {w w' : World V S} (h : Keeps P w w') {q : Nat} (hq : q < w.ctxs.length)
    (hp : ¬ P q) : vals w' q = vals w q := by
  unfold vals World.ctx
  rw [h.2 q hq hp]

theorem keeps_of_ctxs {w w' : World V S} (P : Nat → Prop) (h : w'.ctxs = w.ctxs) : Keeps P w w' :=
  ⟨Nat.le_of_eq (by rw [h]), fun q _ _ => by rw [h]⟩

theorem _root_.Ficus.Spec.Keeps.weaken {P : Nat → Prop} {w w' : World V S} (h : Keeps (fun _ => False) w w') :
    Keeps P w w' := ⟨h.1, fun q hq _ => h.2 q hq (by simp)⟩

/-- What putting a value does to a world. -/
structure Puts (r : Nat) (k : String) (a : V) (w w' : World V S) : Prop where
  length : w'.ctxs.length = w.ctxs.length
  keeps : Keeps (fun q => q = r) w w'
  own : ∀ k', vals w' r k' = if k' = k then some a else vals w r k'

theorem puts_withValue {r : Nat} {k : String} {a : V} {w : World V S} (hr : r < w.ctxs.length) :
    Puts r k a w (withValue r k a w).2 := by
  refine ⟨by simp [withValue, length_setCtx], ⟨by simp [withValue, length_setCtx], ?_⟩, ?_⟩
  · intro q _ hq
    simp [withValue, World.setCtx, Ne.symm hq]
  · intro k'
    unfold vals
    rw [withValue_ctx w r r k a hr]
    simp only [if_true]
    rw [Dict.get?_set]
    by_cases h : k' = k
    · simp [h]
    · simp [h, Ne.symm h]

theorem wp_put {r : Nat} {k : String} {a : V} {w : World V S} {Q : Input → World V S → Prop}
    {E : PyErr → World V S → Prop} (hr : r < w.ctxs.length) (hQ : ∀ w', Puts r k a w w' → Q (some r) w') :
    wp (put (some r) k a) w Q E := hQ _ (puts_withValue hr)

/-- What creating a context does to a world. -/
structure Creates (c : Values V) (q : Nat) (w w' : World V S) : Prop where
  ref : q = w.ctxs.length
  length : w'.ctxs.length = w.ctxs.length + 1
  keeps : Keeps (fun _ => False) w w'
  own : vals w' q = c

theorem wp_fresh {w : World V S} {Q : Input → World V S → Prop} {E : PyErr → World V S → Prop}
    (hQ : ∀ q w', Creates (fun _ => none) q w w' → Q (some q) w') : wp fresh w Q E := by
  refine hQ w.ctxs.length _ ⟨rfl, by simp, ⟨by simp, ?_⟩, ?_⟩
  · intro q hq _
    simp only
    rw [List.getElem?_append_left hq]
  · funext k
    simp [vals, World.ctx]

theorem wp_copyInput {r : Nat} {w : World V S} {Q : Input → World V S → Prop} {E : PyErr → World V S → Prop}
    (hQ : ∀ q w', Creates (vals w r) q w w' → Q (some q) w') : wp (copyInput (some r)) w Q E := by
  refine hQ w.ctxs.length _ ⟨rfl, by simp, ⟨by simp, ?_⟩, ?_⟩
  · intro q hq _
    simp only
    rw [List.getElem?_append_left hq]
  · funext k
    simp [vals, World.ctx]

/-! ### Obeying a specification -/

/-- The end of a run on the context `r`, with result `v` and final world `w'`. -/
def Returned (D : Values V → Ends V → Prop) (r : Nat) (w : World V S) (v : Input) (w' : World V S) : Prop :=
  Keeps (fun q => q = r) w w' ∧
  ((v = some r ∧ D (vals w r) (.returns (vals w' r) none)) ∨
    ∃ q, v = some q ∧ w.ctxs.length ≤ q ∧ q < w'.ctxs.length ∧
      D (vals w r) (.returns (vals w' r) (some (vals w' q))))

/-- An exceptional end. -/
def Raised (tot : Prop) (D : Values V → Ends V → Prop) (r : Nat) (w : World V S) (e : PyErr) (w' : World V S) : Prop :=
  Keeps (fun q => q = r) w w' ∧ (tot → e = .valueError ∧ D (vals w r) (.stops (vals w' r)))

/-- All runs on contexts end as `D` says, and change no other context that existed before. -/
def Obeys (f : Input → Py V S Input) (tot : Prop) (D : Values V → Ends V → Prop) : Prop :=
  ∀ r w, r < w.ctxs.length → wp (f (some r)) w (Returned D r w) (Raised tot D r w)

theorem Obeys.mono {f : Input → Py V S Input} {tot tot' : Prop} {D D' : Values V → Ends V → Prop} (h : Obeys f tot D)
    (hD : ∀ c e, D c e → D' c e) (ht : tot' → tot) : Obeys f tot' D' := by
  intro r w hr
  refine wp_mono (h r w hr) ?_ ?_
  · rintro v w' ⟨hk, h⟩
    refine ⟨hk, ?_⟩
    rcases h with ⟨h1, h2⟩ | ⟨q, h1, h2, h3, h4⟩
    · exact Or.inl ⟨h1, hD _ _ h2⟩
    · exact Or.inr ⟨q, h1, h2, h3, hD _ _ h4⟩
  · rintro e w' ⟨hk, h⟩
    exact ⟨hk, fun t => ⟨(h (ht t)).1, hD _ _ (h (ht t)).2⟩⟩

/-- One after another. -/
theorem obeys_bind {f g : Input → Py V S Input} {tot : Prop} {D D' : Values V → Ends V → Prop} (hf : Obeys f tot D)
    (hg : Obeys g tot D') : Obeys (fun v => Py.bind (f v) g) tot (Then D D') := by
  intro r w hr
  rw [wp_bind]
  refine wp_mono (hf r w hr) ?_ ?_
  · rintro v w1 ⟨hk, h⟩
    rcases h with ⟨rfl, h⟩ | ⟨q, rfl, hq1, hq2, h⟩
    · refine wp_mono (hg r w1 (Nat.lt_of_lt_of_le hr hk.1)) ?_ ?_
      · rintro v w2 ⟨hk2, h2⟩
        refine ⟨hk.trans hk2 (fun _ _ h => h), ?_⟩
        rcases h2 with ⟨rfl, h2⟩ | ⟨q, rfl, hq1, hq2, h2⟩
        · exact Or.inl ⟨rfl, Or.inr (Or.inl ⟨_, h, h2⟩)⟩
        · exact Or.inr ⟨q, rfl, Nat.le_trans hk.1 hq1, hq2, Or.inr (Or.inl ⟨_, h, h2⟩)⟩
      · rintro e w2 ⟨hk2, h2⟩
        exact ⟨hk.trans hk2 (fun _ _ h => h), fun t => ⟨(h2 t).1, Or.inr (Or.inl ⟨_, h, (h2 t).2⟩)⟩⟩
    · have hne : r ≠ q := fun h => by omega
      refine wp_mono (hg q w1 hq2) ?_ ?_
      · rintro v w2 ⟨hk2, h2⟩
        have hown : vals w2 r = vals w1 r := vals_of_keeps hk2 (Nat.lt_of_lt_of_le hr hk.1) hne
        refine ⟨hk.trans hk2 (fun q' hq' h => by omega), ?_⟩
        rcases h2 with ⟨rfl, h2⟩ | ⟨q', rfl, hq1', hq2', h2⟩
        · exact Or.inr ⟨q, rfl, hq1, Nat.lt_of_lt_of_le hq2 hk2.1,
            Or.inr (Or.inr ⟨_, _, _, h, h2, by rw [hown]; rfl⟩)⟩
        · exact Or.inr ⟨q', rfl, Nat.le_trans hk.1 hq1', hq2',
            Or.inr (Or.inr ⟨_, _, _, h, h2, by rw [hown]; rfl⟩)⟩
      · rintro e w2 ⟨hk2, h2⟩
        have hown : vals w2 r = vals w1 r := vals_of_keeps hk2 (Nat.lt_of_lt_of_le hr hk.1) hne
        exact ⟨hk.trans hk2 (fun q' hq' h => by omega), fun t => ⟨(h2 t).1,
          Or.inr (Or.inr ⟨_, _, _, h, (h2 t).2, by rw [hown]; rfl⟩)⟩⟩
  · rintro e w1 ⟨hk, h⟩
    exact ⟨hk, fun t => ⟨(h t).1, Or.inl ⟨_, (h t).2, rfl⟩⟩⟩

/-- Resetting the colours does not matter. -/
theorem obeys_reset {f : Input → Py V S Input} {tot : Prop} {D : Values V → Ends V → Prop} (hf : Obeys f tot D) :
    Obeys (fun v => Py.bind resetColors (fun _ => f v)) tot D := by
  intro r w hr
  exact hf r { w with used := [] } hr

theorem obeys_ret {tot : Prop} : Obeys (fun v => (Py.ret v : Py V S Input)) tot (fun c e => e = .returns c none) :=
  fun _ w _ => ⟨Keeps.refl _ w, Or.inl ⟨rfl, rfl⟩⟩

/-! ### The shapes of parts -/

theorem obeys_show (x : Ext V S) (f : String) (keys : List String) :
    Obeys (show' x f keys) (TotalExt x) (Row.mk keys .shows []).Allows := by
  intro r w hr
  unfold show'
  rw [wp_bind]
  refine wp_values (fun h as => ?_) (fun h => ?_)
  · rw [wp_bind]
    refine wp_run (fun a w' hw => ?_) (fun e w' hw ht => ⟨keeps_of_ctxs _ hw, fun t => absurd t ht⟩)
    exact ⟨keeps_of_ctxs _ hw, Or.inl ⟨rfl, h, vals_eq_of_ctxs hw r⟩⟩
  · exact ⟨Keeps.refl _ w, fun _ => ⟨rfl, h, fun _ _ => rfl, fun k hk => by simp at hk⟩⟩

theorem Puts.changed {r : Nat} {k : String} {a : V} {w w' : World V S} (h : Puts r k a w w') :
    Changed [k] (vals w r) (vals w' r) := by
  refine ⟨fun k' hk => ?_, fun k' hk => ?_⟩
  · rw [h.own, if_neg (by simpa using hk)]
  · rw [h.own, if_pos (by simpa using hk)]; rfl

theorem obeys_compute (x : Ext V S) (f : String) (keys : List String) (key : String) :
    Obeys (compute x f keys key) (TotalExt x) (Row.mk keys (.puts [key]) []).Allows := by
  intro r w hr
  unfold compute
  rw [wp_bind]
  refine wp_values (fun h as => ?_) (fun h => ?_)
  · rw [wp_bind]
    refine wp_run (fun a w' hw => ?_) (fun e w' hw ht => ⟨keeps_of_ctxs _ hw, fun t => absurd t ht⟩)
    refine wp_put (by rw [hw]; exact hr) (fun w2 hp => ?_)
    refine ⟨(keeps_of_ctxs _ hw).trans hp.keeps (fun _ _ h => h), Or.inl ⟨rfl, h, ?_⟩⟩
    have := hp.changed
    rwa [vals_eq_of_ctxs hw r] at this
  · exact ⟨Keeps.refl _ w, fun _ => ⟨rfl, h, fun _ _ => rfl, fun k hk => by simp at hk⟩⟩

theorem obeys_showColors (x : Ext V S) (f : String) (keys : List String) :
    Obeys (showColors x f keys) (TotalExt x) (Row.mk keys .colours []).Allows := by
  intro r w hr
  unfold showColors
  rw [wp_bind]
  refine wp_values (fun h as => ?_) (fun h => ?_)
  · rw [wp_bind]
    unfold colors
    simp only
    rw [wp_bind, wp_hasValue, wp_bind]
    by_cases hc : (w.ctx r).contains "cached_colors" = true
    · rw [if_pos hc]
      show wp _ w _ _
      have hs : (vals w r "cached_colors").isSome := hc
      refine wp_getOrThrow (fun a _ => ?_) (fun h0 => by rw [h0] at hs; simp at hs)
      rw [wp_bind]
      refine wp_run (fun b w' hw => ?_) (fun e w' hw ht => ⟨keeps_of_ctxs _ hw, fun t => absurd t ht⟩)
      refine ⟨keeps_of_ctxs _ hw, Or.inl ⟨rfl, h, ?_⟩⟩
      rw [vals_eq_of_ctxs hw r]
      refine ⟨⟨fun _ _ => rfl, fun k hk => ?_⟩, fun a ha => ha⟩
      rw [List.mem_singleton.1 hk]; exact hs
    · rw [if_neg hc, wp_bind]
      have hn : vals w r "cached_colors" = none := by
        have : ¬ (vals w r "cached_colors").isSome := hc
        simpa using this
      refine wp_run (fun d w1 hw1 => ?_) (fun e w' hw ht => ⟨keeps_of_ctxs _ hw, fun t => absurd t ht⟩)
      have hp := puts_withValue (k := "cached_colors") (a := d) (w := w1) (by rw [hw1]; exact hr)
      refine wp_getOrThrow (fun a _ => ?_) (fun h0 => by
        have h1 := hp.own "cached_colors"
        rw [if_pos rfl] at h1
        exact absurd (h1.symm.trans h0) (by simp))
      rw [wp_bind]
      refine wp_run (fun b w' hw => ?_) (fun e w' hw ht => ⟨?_, fun t => absurd t ht⟩)
      · refine ⟨((keeps_of_ctxs _ hw1).trans hp.keeps (fun _ _ h => h)).trans (keeps_of_ctxs (fun q => q = r) hw)
          (fun _ _ h => h), Or.inl ⟨rfl, h, ?_⟩⟩
        rw [vals_eq_of_ctxs hw r]
        have := hp.changed
        rw [vals_eq_of_ctxs hw1 r] at this
        exact ⟨this, fun a ha => by rw [hn] at ha; simp at ha⟩
      · exact ((keeps_of_ctxs _ hw1).trans hp.keeps (fun _ _ h => h)).trans (keeps_of_ctxs (fun q => q = r) hw)
          (fun _ _ h => h)
  · exact ⟨Keeps.refl _ w, fun _ => ⟨rfl, h, fun _ _ => rfl, fun k hk => by simp at hk⟩⟩

theorem obeys_renew (x : Ext V S) (f : String) :
    Obeys (renew x f) (TotalExt x) (Row.mk ["log"] (.resets ["log"]) []).Allows := by
  intro r w hr
  unfold renew
  rw [wp_bind]
  refine wp_fresh (fun q w1 h1 => ?_)
  have hv1 : vals w1 r = vals w r := vals_of_keeps h1.keeps hr (by simp)
  have hk1 : Keeps (fun q => q = r) w w1 := h1.keeps.weaken
  rw [wp_bind]
  unfold value
  refine wp_getOrThrow (fun l hl => ?_) (fun hl => ⟨hk1, fun _ => ⟨rfl, ⟨"log", by simp, hv1 ▸ hl⟩, ?_⟩⟩)
  · rw [wp_bind]
    refine wp_run (fun a w2 h2 => ?_) (fun e w2 h2 ht => ⟨hk1.trans (keeps_of_ctxs (fun q => q = r) h2) (fun _ _ h => h),
      fun t => absurd t ht⟩)
    have hq : q < w2.ctxs.length := by rw [h2, h1.length, h1.ref]; omega
    refine wp_put hq (fun w3 h3 => ?_)
    have hne : ¬ r = q := by rw [h1.ref]; omega
    have hv3 : vals w3 r = vals w r := by
      rw [vals_of_keeps h3.keeps (by rw [h2, h1.length]; omega) hne, vals_eq_of_ctxs h2, hv1]
    refine ⟨(hk1.trans (keeps_of_ctxs (fun q => q = r) h2) (fun _ _ h => h)).trans h3.keeps
      (fun q' hq' h => by rw [h, h1.ref] at hq'; omega), Or.inr ⟨q, rfl, Nat.le_of_eq h1.ref.symm, ?_, ?_, hv3, ?_⟩⟩
    · rw [h3.length]; exact hq
    · intro k hk
      rw [List.mem_singleton.1 hk, ← hv1, hl]; rfl
    · intro k
      rw [h3.own, vals_eq_of_ctxs h2, h1.own]
      by_cases hk : k = "log" <;> simp [hk]
  · rw [hv1]; exact ⟨fun _ _ => rfl, fun k hk => by simp at hk⟩

theorem obeys_preprocessNames (x : Ext V S) :
    Obeys (preprocessNames x) (TotalExt x) (Row.mk ["log"] (.resets ["log"]) []).Allows := by
  intro r w hr
  unfold preprocessNames
  rw [wp_bind]
  unfold value
  refine wp_getOrThrow (fun l hl => ?_) (fun hl => ⟨Keeps.refl _ w, fun _ => ⟨rfl, ⟨"log", by simp, hl⟩, fun _ _ => rfl,
    fun k hk => by simp at hk⟩⟩)
  rw [wp_bind]
  refine wp_run (fun a w1 h1 => ?_) (fun e w1 h1 ht => ⟨keeps_of_ctxs _ h1, fun t => absurd t ht⟩)
  rw [wp_bind]
  refine wp_fresh (fun q w2 h2 => ?_)
  have hq : q < w2.ctxs.length := by rw [h2.length, h2.ref]; omega
  refine wp_put hq (fun w3 h3 => ?_)
  have hne : ¬ r = q := by rw [h2.ref, h1]; omega
  have hv3 : vals w3 r = vals w r := by
    rw [vals_of_keeps h3.keeps (by rw [h2.length, h1]; omega) hne,
      vals_of_keeps h2.keeps (by rw [h1]; omega) (by simp), vals_eq_of_ctxs h1]
  refine ⟨((keeps_of_ctxs (fun q => q = r) h1).trans h2.keeps (fun _ _ h => h.elim)).trans h3.keeps
    (fun q' hq' h => by rw [h, h2.ref, h1] at hq'; omega), Or.inr ⟨q, rfl, Nat.le_of_eq (by rw [h2.ref, h1]), ?_, ?_, hv3, ?_⟩⟩
  · rw [h3.length]; exact hq
  · intro k hk
    rw [List.mem_singleton.1 hk, hl]; rfl
  · intro k
    rw [h3.own, h2.own]
    by_cases hk : k = "log" <;> simp [hk]

theorem obeys_fresh {tot : Prop} : Obeys (fun _ => (fresh : Py V S Input)) tot (Row.mk [] (.resets []) []).Allows := by
  intro r w hr
  refine wp_fresh (fun q w1 h1 => ?_)
  refine ⟨h1.keeps.weaken, Or.inr ⟨q, rfl, Nat.le_of_eq h1.ref.symm, by rw [h1.length, h1.ref]; omega, fun k hk => by simp at hk,
    vals_of_keeps h1.keeps hr (by simp), fun k => by rw [h1.own]; simp⟩⟩

theorem Changed.refl (c : Values V) : Changed [] c c := ⟨fun _ _ => rfl, fun k hk => by simp at hk⟩

theorem Changed.trans {ks ks' : List String} {c c' c'' : Values V} (h : Changed ks c c') (h' : Changed ks' c' c'') :
    Changed (ks ++ ks') c c'' := by
  refine ⟨fun k hk => ?_, fun k hk => ?_⟩
  · rw [List.mem_append, not_or] at hk
    rw [h'.1 k hk.2, h.1 k hk.1]
  · by_cases hk' : k ∈ ks'
    · exact h'.2 k hk'
    · rw [h'.1 k hk']
      exact h.2 k ((List.mem_append.1 hk).resolve_right hk')

theorem Changed.congr {ks ks' : List String} {c c' : Values V} (h : Changed ks c c') (hks : ∀ k, k ∈ ks ↔ k ∈ ks') :
    Changed ks' c c' := ⟨fun k hk => h.1 k (fun h' => hk ((hks k).1 h')), fun k hk => h.2 k ((hks k).2 hk)⟩

/-- The state in the middle of a part that works on one context: what has been put so far. -/
structure Mid (r : Nat) (ks : List String) (w w' : World V S) : Prop where
  keeps : Keeps (fun q => q = r) w w'
  changed : Changed ks (vals w r) (vals w' r)

theorem Mid.refl (r : Nat) (w : World V S) : Mid r [] w w := ⟨Keeps.refl _ w, Changed.refl _⟩

theorem Mid.lt {r : Nat} {ks : List String} {w w' : World V S} (h : Mid r ks w w') (hr : r < w.ctxs.length) :
    r < w'.ctxs.length := Nat.lt_of_lt_of_le hr h.keeps.1

theorem Mid.run {r : Nat} {ks : List String} {w w' w'' : World V S} (h : Mid r ks w w') (hw : w''.ctxs = w'.ctxs) :
    Mid r ks w w'' := ⟨h.keeps.trans (keeps_of_ctxs (fun q => q = r) hw) (fun _ _ h => h),
      by rw [vals_eq_of_ctxs hw]; exact h.changed⟩

theorem Mid.put {r : Nat} {ks : List String} {k : String} {a : V} {w w' w'' : World V S} (h : Mid r ks w w')
    (hp : Puts r k a w' w'') : Mid r (ks ++ [k]) w w'' :=
  ⟨h.keeps.trans hp.keeps (fun _ _ h => h), Changed.trans h.changed hp.changed⟩

theorem Mid.get {r : Nat} {ks : List String} {w w' : World V S} (h : Mid r ks w w') {k : String} (hk : k ∉ ks) :
    vals w' r k = vals w r k := h.changed.1 k hk

theorem obeys_clear (x : Ext V S) : Obeys (clear x) (TotalExt x) (row .clear).Allows := by
  intro r w hr
  unfold clear
  have m0 := Mid.refl r w
  rw [wp_bind]
  refine wp_run (fun a w1 h1 => ?_) (fun e w1 h1 ht => ⟨(m0.run h1).keeps, fun t => absurd t ht⟩)
  have m1 := m0.run h1
  rw [wp_bind]
  refine wp_put (m1.lt hr) (fun w2 h2 => ?_)
  have m2 := m1.put h2
  rw [wp_bind]
  unfold value
  refine wp_getOrThrow (fun l hl => ?_) (fun hl => ⟨m2.keeps, fun _ => ⟨rfl, ⟨"log", by simp [row],
    by rw [← m2.get (by decide)]; exact hl⟩, m2.changed⟩⟩)
  have hlog : vals w r "log" = some l := by rw [← m2.get (by decide)]; exact hl
  rw [wp_bind]
  refine wp_run (fun a w3 h3 => ?_) (fun e w3 h3 ht => ⟨(m2.run h3).keeps, fun t => absurd t ht⟩)
  have m3 := m2.run h3
  rw [wp_bind]
  refine wp_put (m3.lt hr) (fun w4 h4 => ?_)
  have m4 := m3.put h4
  rw [wp_bind]
  refine wp_run (fun a w5 h5 => ?_) (fun e w5 h5 ht => ⟨(m4.run h5).keeps, fun t => absurd t ht⟩)
  have m5 := m4.run h5
  rw [wp_bind]
  refine wp_put (m5.lt hr) (fun w6 h6 => ?_)
  have m6 := m5.put h6
  rw [wp_bind]
  refine wp_getOrThrow (fun l' _ => ?_) (fun hl => ?_)
  · rw [wp_bind]
    refine wp_run (fun a w7 h7 => ?_) (fun e w7 h7 ht => ⟨(m6.run h7).keeps, fun t => absurd t ht⟩)
    have m7 := m6.run h7
    refine wp_put (m7.lt hr) (fun w8 h8 => ?_)
    have m8 := m7.put h8
    refine ⟨m8.keeps, Or.inl ⟨rfl, fun k hk => ?_, m8.changed⟩⟩
    have : k = "log" := by simpa [row] using hk
    rw [this, hlog]; rfl
  · rw [m6.get (by decide), hlog] at hl
    simp at hl

/-! ### Putting rows together -/

theorem Row.shows_puts {ks : List String} {c : Values V} {e : Ends V} (h : (Row.mk ks .shows []).Allows c e) :
    (Row.mk ks (.puts []) []).Allows c e := by
  cases e with
  | stops own => exact h
  | returns own out =>
    cases out with
    | none =>
      obtain ⟨h1, h2⟩ := h
      refine ⟨h1, ?_⟩
      have h2 : own = c := h2
      rw [h2]
      exact Changed.refl c
    | some o => exact h.2.2.elim

theorem Row.puts_shows {ks : List String} {c : Values V} {e : Ends V} (h : (Row.mk ks (.puts []) []).Allows c e) :
    (Row.mk ks .shows []).Allows c e := by
  cases e with
  | stops own => exact h
  | returns own out =>
    cases out with
    | none =>
      obtain ⟨h1, h2⟩ := h
      exact ⟨h1, funext (fun k => h2.1 k (by simp))⟩
    | some o => exact h.2.2.elim

/-- Two parts that work on the same context, where the second needs only what is there after the first. -/
theorem Row.then_puts {n1 n2 k1 k2 : List String} (hn : ∀ k ∈ n2, k ∈ n1 ∨ k ∈ k1) {c : Values V} {e : Ends V}
    (h : Then (Row.mk n1 (.puts k1) []).Allows (Row.mk n2 (.puts k2) []).Allows c e) :
    (Row.mk n1 (.puts (k1 ++ k2)) []).Allows c e := by
  rcases h with ⟨own, h, rfl⟩ | ⟨own, ⟨h1, h2⟩, h3⟩ | ⟨own, out, e', h, _⟩
  · exact h
  · have h2 : Changed k1 c own := h2
    have hp : ∀ k ∈ n2, (own k).isSome := by
      intro k hk
      by_cases hk1 : k ∈ k1
      · exact h2.2 k hk1
      · rw [h2.1 k hk1]
        exact h1 k ((hn k hk).resolve_right hk1)
    cases e with
    | stops o =>
      obtain ⟨⟨k, hk, h⟩, _⟩ := h3
      have := hp k hk
      rw [h] at this
      simp at this
    | returns o out =>
      cases out with
      | none => exact ⟨h1, Changed.trans h2 h3.2⟩
      | some _ => exact h3.2.2.elim
  · exact h.2.2.elim

theorem Row.congr_puts {n n' k k' : List String} (hn : ∀ x, x ∈ n ↔ x ∈ n') (hk : ∀ x, x ∈ k ↔ x ∈ k') {c : Values V}
    {e : Ends V} (h : (Row.mk n (.puts k) []).Allows c e) : (Row.mk n' (.puts k') []).Allows c e := by
  cases e with
  | stops own =>
    obtain ⟨⟨x, hx, h⟩, h'⟩ := h
    exact ⟨⟨x, (hn x).1 hx, h⟩, h'⟩
  | returns own out =>
    cases out with
    | none => exact ⟨fun x hx => h.1 x ((hn x).2 hx), Changed.congr h.2 hk⟩
    | some _ => exact h.2.2.elim

/-! ### Temporary inputs -/

/-- The runs of a merger: `r` is the initial context, `q` the temporary one. -/
def ObeysMerge (m : Input → Input → Py V S Input) (tot : Prop) (M : Values V → Values V → Ends V → Prop) : Prop :=
  ∀ r q w, r < w.ctxs.length → q < w.ctxs.length → r ≠ q →
    wp (m (some r) (some q)) w (Returned (fun c => M c (vals w q)) r w) (Raised tot (fun c => M c (vals w q)) r w)

/-- What `WithTempInput` does, given what the transformer, the pipeline and the merger do. -/
def Temp (T P : Values V → Ends V → Prop) (M : Values V → Values V → Ends V → Prop) (c : Values V) (e : Ends V) : Prop :=
  (∃ own, T c (.stops own) ∧ e = .stops own) ∨
  (∃ own out o', T c (.returns own (some out)) ∧ P out (.stops o') ∧ e = .stops own) ∨
  (∃ own out o', T c (.returns own (some out)) ∧ P out (.returns o' none) ∧ M own o' e) ∨
  (∃ own out o' o'', T c (.returns own (some out)) ∧ P out (.returns o' (some o'')) ∧ M own o'' e)

theorem obeys_withTemp {t : Input → Py V S Input} {m : Input → Input → Py V S Input} {ps : List (Part V S)} {tot : Prop}
    {T P : Values V → Ends V → Prop} {M : Values V → Values V → Ends V → Prop} (ht : Obeys t tot T)
    (hT : ∀ c own, ¬ T c (.returns own none)) (hp : Obeys (execParts ps) tot P) (hm : ObeysMerge m tot M) :
    Obeys (Part.withTemp t m ps).exec tot (Temp T P M) := by
  intro r w hr
  unfold Part.exec
  rw [wp_bind]
  refine wp_mono (ht r w hr) ?_ ?_
  · rintro v w1 ⟨hk1, h1⟩
    rcases h1 with ⟨_, h1⟩ | ⟨q, rfl, hq1, hq2, h1⟩
    · exact absurd h1 (hT _ _)
    rw [wp_bind]
    show wp (Py.bind (execParts ps (some q)) _) { w1 with used := [] } _ _
    rw [wp_bind]
    have hr1 : r < w1.ctxs.length := Nat.lt_of_lt_of_le hr hk1.1
    have hrq : r ≠ q := fun h => by omega
    refine wp_mono (hp q { w1 with used := [] } hq2) ?_ ?_
    · rintro v w2 ⟨hk2, h2⟩
      have hk2' : Keeps (fun x => x = q) w1 w2 := hk2
      have hr2 : r < w2.ctxs.length := Nat.lt_of_lt_of_le hr1 hk2'.1
      have hown2 : vals w2 r = vals w1 r := vals_of_keeps hk2' hr1 hrq
      have key : ∀ q', q' < w2.ctxs.length → r ≠ q' → (∀ e, M (vals w1 r) (vals w2 q') e → Temp T P M (vals w r) e) →
          wp (m (some r) (some q')) w2 (Returned (Temp T P M) r w) (Raised tot (Temp T P M) r w) := by
        intro q' hq' hne hM
        refine wp_mono (hm r q' w2 hr2 hq' hne) ?_ ?_
        · rintro v w3 ⟨hk3, h3⟩
          refine ⟨(hk1.trans hk2' (fun x hx h => by omega)).trans hk3 (fun _ _ h => h), ?_⟩
          rw [hown2] at h3
          rcases h3 with ⟨rfl, h3⟩ | ⟨p, rfl, hp1, hp2, h3⟩
          · exact Or.inl ⟨rfl, hM _ h3⟩
          · exact Or.inr ⟨p, rfl, Nat.le_trans (Nat.le_trans hk1.1 hk2'.1) hp1, hp2, hM _ h3⟩
        · rintro e w3 ⟨hk3, h3⟩
          refine ⟨(hk1.trans hk2' (fun x hx h => by omega)).trans hk3 (fun _ _ h => h), fun t => ⟨(h3 t).1, ?_⟩⟩
          have := (h3 t).2
          rw [hown2] at this
          exact hM _ this
      rcases h2 with ⟨rfl, h2⟩ | ⟨q', rfl, hq1', hq2', h2⟩
      · exact key q (Nat.lt_of_lt_of_le hq2 hk2'.1) hrq (fun e he => Or.inr (Or.inr (Or.inl ⟨_, _, _, h1, h2, he⟩)))
      · have hq1'' : w1.ctxs.length ≤ q' := hq1'
        exact key q' hq2' (fun h => by omega) (fun e he => Or.inr (Or.inr (Or.inr ⟨_, _, _, _, h1, h2, he⟩)))
    · rintro e w2 ⟨hk2, h2⟩
      have hk2' : Keeps (fun x => x = q) w1 w2 := hk2
      have hown2 : vals w2 r = vals w1 r := vals_of_keeps hk2' hr1 hrq
      refine ⟨hk1.trans hk2' (fun x hx h => by omega), fun t => ⟨(h2 t).1, ?_⟩⟩
      rw [hown2]
      exact Or.inr (Or.inl ⟨_, _, _, h1, (h2 t).2, rfl⟩)
  · rintro e w1 ⟨hk, h⟩
    exact ⟨hk, fun t => ⟨(h t).1, Or.inl ⟨_, (h t).2, rfl⟩⟩⟩

theorem obeys_nil {tot : Prop} : Obeys (execParts ([] : List (Part V S))) tot (fun c e => e = .returns c none) := obeys_ret

theorem obeys_cons {p : Part V S} {ps : List (Part V S)} {tot : Prop} {D D' : Values V → Ends V → Prop}
    (h : Obeys p.exec tot D) (h' : Obeys (execParts ps) tot D') : Obeys (execParts (p :: ps)) tot (Then D D') := by
  have := obeys_bind h h'
  exact this

theorem Then.nil {D : Values V → Ends V → Prop} {c : Values V} {e : Ends V}
    (h : Then D (fun c e => e = .returns c none) c e) : D c e := by
  rcases h with ⟨own, h, rfl⟩ | ⟨own, h, rfl⟩ | ⟨own, out, e', h, rfl, rfl⟩ <;> exact h

theorem Then.mono {D D' F F' : Values V → Ends V → Prop} (hD : ∀ c e, D c e → D' c e) (hF : ∀ c e, F c e → F' c e)
    {c : Values V} {e : Ends V} (h : Then D F c e) : Then D' F' c e := by
  rcases h with ⟨own, h, rfl⟩ | ⟨own, h, h'⟩ | ⟨own, out, e', h, h', rfl⟩
  · exact Or.inl ⟨own, hD _ _ h, rfl⟩
  · exact Or.inr (Or.inl ⟨own, hD _ _ h, hF _ _ h'⟩)
  · exact Or.inr (Or.inr ⟨own, out, e', hD _ _ h, hF _ _ h', rfl⟩)

theorem obeys_single {p : Part V S} {tot : Prop} {D : Values V → Ends V → Prop} (h : Obeys p.exec tot D) :
    Obeys (execParts [p]) tot D := (obeys_cons h obeys_nil).mono (fun _ _ => Then.nil) (fun h => h)

theorem obeys_cons_puts {p : Part V S} {ps : List (Part V S)} {tot : Prop} {n1 n2 k1 k2 : List String}
    (h : Obeys p.exec tot (Row.mk n1 (.puts k1) []).Allows) (h' : Obeys (execParts ps) tot (Row.mk n2 (.puts k2) []).Allows)
    (hn : ∀ k ∈ n2, k ∈ n1 ∨ k ∈ k1) : Obeys (execParts (p :: ps)) tot (Row.mk n1 (.puts (k1 ++ k2)) []).Allows :=
  (obeys_cons h h').mono (fun _ _ => Row.then_puts hn) (fun h => h)

/-- A nested pipeline that is always run. -/
theorem obeys_nested {ps : List (Part V S)} {tot : Prop} {D : Values V → Ends V → Prop} (h : Obeys (execParts ps) tot D) :
    Obeys (Part.cond (fun _ => Py.ret true) ps).exec tot D := by
  intro r w hr
  exact h r { w with used := [] } hr

/-! ### Discovery of activities -/

/-- The transformer of `DiscoverActivitiesFromPatterns`: a copy, with another log if traces are merged. -/
def PatternsInput (merged : Bool) (c : Values V) : Ends V → Prop
  | .stops own => merged = true ∧ c "log" = none ∧ own = c
  | .returns _ none => False
  | .returns own (some out) => own = c ∧ (∀ k, k ≠ "log" → out k = c k) ∧ ((out "log").isSome ↔ (c "log").isSome)

theorem obeys_patternsInput (x : Ext V S) (merged : Bool) :
    Obeys (patternsInput x merged) (TotalExt x) (PatternsInput merged) := by
  intro r w hr
  unfold patternsInput
  rw [wp_bind]
  refine wp_copyInput (fun q w1 h1 => ?_)
  have hv1 : vals w1 r = vals w r := vals_of_keeps h1.keeps hr (by simp)
  have hk1 : Keeps (fun q => q = r) w w1 := h1.keeps.weaken
  have hq1 : q < w1.ctxs.length := by rw [h1.length, h1.ref]; omega
  have hle : w.ctxs.length ≤ q := Nat.le_of_eq h1.ref.symm
  cases merged with
  | false =>
    simp only [Bool.false_eq_true, if_false]
    exact ⟨hk1, Or.inr ⟨q, rfl, hle, hq1, hv1, fun k _ => by rw [h1.own], by rw [h1.own]⟩⟩
  | true =>
    simp only [if_true]
    rw [wp_bind]
    unfold value
    refine wp_getOrThrow (fun l hl => ?_) (fun hl => ⟨hk1, fun _ => ⟨rfl, rfl, hv1 ▸ hl, hv1⟩⟩)
    rw [wp_bind]
    refine wp_run (fun a w2 h2 => ?_) (fun e w2 h2 ht => ⟨hk1.trans (keeps_of_ctxs (fun q => q = r) h2) (fun _ _ h => h),
      fun t => absurd t ht⟩)
    refine wp_put (by rw [h2]; exact hq1) (fun w3 h3 => ?_)
    have hne : ¬ r = q := by omega
    refine ⟨(hk1.trans (keeps_of_ctxs (fun q => q = r) h2) (fun _ _ h => h)).trans h3.keeps
      (fun q' hq' h => by omega), Or.inr ⟨q, rfl, hle, ?_, ?_, ?_, ?_⟩⟩
    · rw [h3.length, h2]; exact hq1
    · rw [vals_of_keeps h3.keeps (by rw [h2, h1.length]; omega) hne, vals_eq_of_ctxs h2, hv1]
    · intro k hk
      rw [h3.own, if_neg hk, vals_eq_of_ctxs h2, h1.own]
    · rw [h3.own, if_pos rfl, ← hv1, hl]
      simp

/-- The merger of `DiscoverActivitiesFromPatterns`. -/
def PatternsOutput (c t : Values V) : Ends V → Prop
  | .stops own => (t "activities" = none ∨ t "patterns" = none) ∧ own = c
  | .returns _ none => False
  | .returns own (some out) => own = c ∧ Changed ["activities", "patterns"] c out

theorem obeys_patternsOutput {tot : Prop} : ObeysMerge (patternsOutput : Input → Input → Py V S Input) tot PatternsOutput := by
  intro r p w hr hp hrp
  unfold patternsOutput
  rw [wp_bind]
  refine wp_copyInput (fun q w1 h1 => ?_)
  have hv1 : vals w1 r = vals w r := vals_of_keeps h1.keeps hr (by simp)
  have hvp1 : vals w1 p = vals w p := vals_of_keeps h1.keeps hp (by simp)
  have hk1 : Keeps (fun q => q = r) w w1 := h1.keeps.weaken
  have hq1 : q < w1.ctxs.length := by rw [h1.length, h1.ref]; omega
  have hle : w.ctxs.length ≤ q := Nat.le_of_eq h1.ref.symm
  rw [wp_bind]
  unfold value
  refine wp_getOrThrow (fun a ha => ?_) (fun hl => ⟨hk1, fun _ => ⟨rfl, Or.inl (hvp1 ▸ hl), hv1⟩⟩)
  rw [wp_bind]
  refine wp_put hq1 (fun w2 h2 => ?_)
  have hk2 : Keeps (fun q => q = r) w w2 := hk1.trans h2.keeps (fun q' hq' h => by omega)
  have hr1 : r < w1.ctxs.length := Nat.lt_of_lt_of_le hr hk1.1
  have hv2 : vals w2 r = vals w r := by rw [vals_of_keeps h2.keeps hr1 (by omega), hv1]
  have hvp2 : vals w2 p = vals w p := by
    rw [vals_of_keeps h2.keeps (Nat.lt_of_lt_of_le hp hk1.1) (by omega), hvp1]
  rw [wp_bind]
  refine wp_getOrThrow (fun b hb => ?_) (fun hl => ⟨hk2, fun _ => ⟨rfl, Or.inr (hvp2 ▸ hl), hv2⟩⟩)
  refine wp_put (by rw [h2.length]; exact hq1) (fun w3 h3 => ?_)
  refine ⟨hk2.trans h3.keeps (fun q' hq' h => by omega), Or.inr ⟨q, rfl, hle, by rw [h3.length, h2.length]; exact hq1, ?_, ?_⟩⟩
  · rw [vals_of_keeps h3.keeps (Nat.lt_of_lt_of_le hr hk2.1) (by omega), hv2]
  · have := Changed.trans h2.changed h3.changed
    rw [h1.own] at this
    exact this

theorem obeys_tandemArrays (x : Ext V S) : Obeys (tandemArrays x) (TotalExt x) (Row.mk ["log"] (.puts ["patterns"]) []).Allows :=
  obeys_compute x _ _ _

theorem obeys_repeats (x : Ext V S) : Obeys (repeats x) (TotalExt x) (Row.mk ["log"] (.puts ["patterns"]) []).Allows :=
  obeys_compute x _ _ _

/-- The pipeline inside `DiscoverActivitiesFromPatterns`. -/
theorem obeys_patternsPipeline (x : Ext V S) {source : Input → Py V S Input}
    (hs : Obeys source (TotalExt x) (Row.mk ["log"] (.puts ["patterns"]) []).Allows) :
    Obeys (execParts [.prim source, .prim (repeatSets x), .prim (activities x), .prim (printFound x)]) (TotalExt x)
      (Row.mk ["log"] (.puts ["patterns", "repeat_sets", "activities"]) []).Allows := by
  have h1 : Obeys (Part.prim source).exec (TotalExt x) (Row.mk ["log"] (.puts ["patterns"]) []).Allows := by
    intro r w hr; exact hs r w hr
  have h2 : Obeys (Part.prim (repeatSets x)).exec (TotalExt x)
      (Row.mk ["log", "patterns"] (.puts ["repeat_sets"]) []).Allows := by
    intro r w hr; exact obeys_compute x _ _ _ r w hr
  have h3 : Obeys (Part.prim (activities x)).exec (TotalExt x)
      (Row.mk ["log", "repeat_sets"] (.puts ["activities"]) []).Allows := by
    intro r w hr; exact obeys_compute x _ _ _ r w hr
  have h4 : Obeys (Part.prim (printFound x)).exec (TotalExt x) (Row.mk ["activities"] (.puts []) []).Allows := by
    intro r w hr; exact (obeys_show x "print" ["activities"]).mono (fun _ _ => Row.shows_puts) (fun h => h) r w hr
  exact obeys_cons_puts h1 (obeys_cons_puts h2 (obeys_cons_puts h3 (obeys_single h4) (by simp)) (by simp)) (by simp)

/-- `DiscoverActivitiesFromPatterns` obeys its line of the table. -/
theorem obeys_fromPatterns (x : Ext V S) (merged : Bool) {source : Input → Py V S Input}
    (hs : Obeys source (TotalExt x) (Row.mk ["log"] (.puts ["patterns"]) []).Allows) :
    Obeys (fromPatterns x merged source).exec (TotalExt x)
      (Row.mk ["log"] (.derives ["activities", "patterns"]) []).Allows := by
  refine (obeys_withTemp (obeys_patternsInput x merged) (fun _ _ h => h) (obeys_patternsPipeline x hs)
    obeys_patternsOutput).mono ?_ (fun h => h)
  intro c e h
  rcases h with ⟨own, ⟨_, h, h'⟩, rfl⟩ | ⟨own, out, o', ⟨h1, h2, h3⟩, ⟨⟨k, hk, h4⟩, _⟩, rfl⟩ |
    ⟨own, out, o', ⟨h1, h2, h3⟩, ⟨h4, h5⟩, h6⟩ | ⟨own, out, o', o'', _, h, _⟩
  · exact ⟨⟨"log", by simp, h⟩, by rw [h']; exact Changed.refl c⟩
  · have hk : k = "log" := by simpa using hk
    rw [hk] at h4
    refine ⟨⟨"log", by simp, ?_⟩, by rw [h1]; exact Changed.refl c⟩
    rw [h4] at h3
    simpa using h3
  · have hl : (c "log").isSome := h3.1 (h4 "log" (by simp))
    have h5 : Changed ["patterns", "repeat_sets", "activities"] out o' := h5
    have hn : ∀ k ∈ ["log"], (c k).isSome := fun k hk => by rw [List.mem_singleton.1 hk]; exact hl
    have ha := h5.2 "activities" (by simp)
    have hp := h5.2 "patterns" (by simp)
    subst h1
    cases e with
    | stops own' =>
      obtain ⟨h | h, _⟩ := h6
      · rw [h] at ha; simp at ha
      · rw [h] at hp; simp at hp
    | returns own' out' =>
      cases out' with
      | none => exact h6.elim
      | some o => exact ⟨hn, h6.1, h6.2⟩
  · exact h.2.2.elim

/-- A new context, on which the next part works. -/
theorem Row.derives_then {n1 n2 k1 k2 : List String} (hn : ∀ k ∈ n2, k ∈ n1 ∨ k ∈ k1) {c : Values V} {e : Ends V}
    (h : Then (Row.mk n1 (.derives k1) []).Allows (Row.mk n2 (.puts k2) []).Allows c e) :
    (Row.mk n1 (.derives (k1 ++ k2)) []).Allows c e := by
  rcases h with ⟨own, h, rfl⟩ | ⟨own, ⟨h1, h2⟩, h3⟩ | ⟨own, out, e', ⟨h1, h2, h3⟩, h4, rfl⟩
  · exact h
  · exact h2.elim
  · have h3 : Changed k1 c out := h3
    have hp : ∀ k ∈ n2, (out k).isSome := by
      intro k hk
      by_cases hk1 : k ∈ k1
      · exact h3.2 k hk1
      · rw [h3.1 k hk1]
        exact h1 k ((hn k hk).resolve_right hk1)
    cases e' with
    | stops o =>
      obtain ⟨⟨k, hk, h⟩, _⟩ := h4
      have := hp k hk
      rw [h] at this
      simp at this
    | returns o out =>
      cases out with
      | none => exact ⟨h1, h2, Changed.trans h3 h4.2⟩
      | some _ => exact h4.2.2.elim

theorem obeys_printActivities (x : Ext V S) (b : Bool) :
    Obeys (Part.prim (printActivities x b)).exec (TotalExt x) (row (.printActivities b)).Allows := by
  intro r w hr
  unfold Part.exec printActivities
  cases b with
  | true => exact obeys_show x "print" ["activities"] r w hr
  | false => exact ⟨Keeps.refl _ w, Or.inl ⟨rfl, fun k hk => by simp [row] at hk, rfl⟩⟩

theorem obeys_printActivities_puts (x : Ext V S) (b : Bool) :
    Obeys (Part.prim (printActivities x b)).exec (TotalExt x)
      (Row.mk (if b then ["activities"] else []) (.puts []) []).Allows := by
  refine (obeys_printActivities x b).mono (fun c e h => ?_) (fun h => h)
  cases b <;> exact Row.shows_puts h

/-- `DiscoverActivitiesFromTandemArrays` and `DiscoverActivitiesInstancesFromRepeats` obey their line. -/
theorem obeys_discover (x : Ext V S) (merged debug : Bool) {source : Input → Py V S Input}
    (hs : Obeys source (TotalExt x) (Row.mk ["log"] (.puts ["patterns"]) []).Allows) :
    Obeys (discover x merged debug source).exec (TotalExt x)
      (Row.mk ["log"] (.derives ["activities", "patterns", "traces_activities"]) []).Allows := by
  have h3 : Obeys (Part.prim (inTraces x)).exec (TotalExt x)
      (Row.mk ["log", "activities"] (.puts ["traces_activities"]) []).Allows := by
    intro r w hr; exact obeys_compute x _ _ _ r w hr
  have h23 : Obeys (execParts [Part.prim (printActivities x debug), Part.prim (inTraces x)]) (TotalExt x)
      (Row.mk ["log", "activities"] (.puts ["traces_activities"]) []).Allows := by
    refine (obeys_cons (obeys_printActivities_puts x debug) (obeys_single h3)).mono ?_ (fun h => h)
    intro c e h
    cases debug with
    | true =>
      rcases h with ⟨own, ⟨⟨k, hk, h⟩, h'⟩, rfl⟩ | ⟨own, ⟨_, h2⟩, h3⟩ | ⟨own, out, e', h, _⟩
      · exact ⟨⟨k, by rw [List.mem_singleton.1 hk]; simp, h⟩, h'⟩
      · have : own = c := funext (fun k => (show Changed [] c own from h2).1 k (by simp))
        rw [this] at h3; exact h3
      · exact h.2.2.elim
    | false =>
      rcases h with ⟨own, ⟨⟨k, hk, h⟩, h'⟩, rfl⟩ | ⟨own, ⟨_, h2⟩, h3⟩ | ⟨own, out, e', h, _⟩
      · simp at hk
      · have : own = c := funext (fun k => (show Changed [] c own from h2).1 k (by simp))
        rw [this] at h3; exact h3
      · exact h.2.2.elim
  unfold discover
  refine obeys_nested ((obeys_cons (obeys_fromPatterns x merged hs) h23).mono ?_ (fun h => h))
  intro c e h
  exact Row.derives_then (by simp) h

/-! ### Activities of several levels -/

theorem wp_has {r : Nat} {k : String} {w : World V S} {Q : Bool → World V S → Prop} {E : PyErr → World V S → Prop}
    (h : Q ((w.ctx r).contains k) w) : wp (has (some r) k) w Q E := h

theorem contains_iff (w : World V S) (r : Nat) (k : String) : (w.ctx r).contains k = (vals w r k).isSome := rfl

/-- The transformer of `AdjustWithActivitiesFromUnattachedEvents`. -/
def AdjustInput (c : Values V) : Ends V → Prop
  | .stops own => (c "log" = none ∨ c "traces_activities" = none) ∧ own = c
  | .returns _ none => False
  | .returns own (some out) => (c "log").isSome ∧ own = c ∧ ∀ k, (out k).isSome ↔ k ∈ ["log"]

theorem obeys_adjustInput (x : Ext V S) (unattached : Bool) :
    Obeys (adjustInput x unattached) (TotalExt x) AdjustInput := by
  intro r w hr
  unfold adjustInput
  rw [wp_bind]
  refine wp_has ?_
  rw [wp_bind]
  have fin : ∀ (l : V) (w1 : World V S), w1.ctxs = w.ctxs → (vals w r "log").isSome →
      wp (Py.bind fresh (fun n => put n "log" l)) w1 (Returned AdjustInput r w) (Raised (TotalExt x) AdjustInput r w) := by
    intro l w1 h1 hl
    rw [wp_bind]
    refine wp_fresh (fun q w2 h2 => ?_)
    have hq : q < w2.ctxs.length := by rw [h2.length, h2.ref]; omega
    refine wp_put hq (fun w3 h3 => ?_)
    have hne : ¬ r = q := by rw [h2.ref, h1]; omega
    have hv3 : vals w3 r = vals w r := by
      rw [vals_of_keeps h3.keeps (by rw [h2.length, h1]; omega) hne,
        vals_of_keeps h2.keeps (by rw [h1]; omega) (by simp), vals_eq_of_ctxs h1]
    refine ⟨((keeps_of_ctxs (fun q => q = r) h1).trans h2.keeps (fun _ _ h => h.elim)).trans h3.keeps
      (fun q' hq' h => by rw [h, h2.ref, h1] at hq'; omega),
      Or.inr ⟨q, rfl, Nat.le_of_eq (by rw [h2.ref, h1]), ?_, hl, hv3, ?_⟩⟩
    · rw [h3.length]; exact hq
    · intro k
      rw [h3.own, h2.own]
      by_cases hk : k = "log" <;> simp [hk]
  cases unattached with
  | true =>
    simp only [if_true]
    rw [contains_iff]
    cases hb : (vals w r "traces_activities").isSome with
    | true =>
      simp only [if_true]
      rw [wp_bind]
      refine wp_values (fun h as => ?_) (fun ⟨k, hk, h⟩ => ⟨Keeps.refl _ w, fun _ => ⟨rfl, ?_, rfl⟩⟩)
      · refine wp_run (fun a w1 h1 => ?_) (fun e w1 h1 ht => ⟨keeps_of_ctxs _ h1, fun t => absurd t ht⟩)
        exact fin a w1 h1 (h "log" (by simp))
      · rcases List.mem_cons.1 hk with h' | h'
        · left; rwa [h'] at h
        · right; rwa [List.mem_singleton.1 h'] at h
    | false =>
      refine ⟨Keeps.refl _ w, fun _ => ⟨rfl, Or.inr ?_, rfl⟩⟩
      cases h : vals w r "traces_activities" with
      | none => rfl
      | some _ => rw [h] at hb; simp at hb
  | false =>
    simp only [Bool.false_eq_true, if_false]
    unfold value
    exact wp_getOrThrow (fun l hl => fin l w rfl (by rw [hl]; rfl)) (fun hl => ⟨Keeps.refl _ w, fun _ => ⟨rfl,
      Or.inl hl, rfl⟩⟩)

/-- The merger of `AdjustWithActivitiesFromUnattachedEvents`. -/
def AdjustOutput (c t : Values V) : Ends V → Prop
  | .stops own => t "activities" = none ∧ own = c
  | .returns own none => Changed ["activities"] c own
  | .returns _ (some _) => False

theorem obeys_adjustOutput (x : Ext V S) : ObeysMerge (adjustOutput x) (TotalExt x) AdjustOutput := by
  intro r p w hr hp hrp
  unfold adjustOutput
  rw [wp_bind]
  refine wp_has ?_
  rw [contains_iff, wp_bind]
  have fin : ∀ (old : V) (w1 : World V S), w1.ctxs = w.ctxs →
      wp (Py.bind (value (some p) "activities") (fun new => Py.bind (x.run "extend" [old, new])
        (fun _ => put (some r) "activities" old))) w1 (Returned (fun c => AdjustOutput c (vals w p)) r w)
        (Raised (TotalExt x) (fun c => AdjustOutput c (vals w p)) r w) := by
    intro old w1 h1
    rw [wp_bind]
    unfold value
    refine wp_getOrThrow (fun a ha => ?_) (fun hl => ⟨keeps_of_ctxs _ h1, fun _ => ⟨rfl, ?_, vals_eq_of_ctxs h1 r⟩⟩)
    · rw [wp_bind]
      refine wp_run (fun b w2 h2 => ?_) (fun e w2 h2 ht => ⟨keeps_of_ctxs _ (h2.trans h1), fun t => absurd t ht⟩)
      refine wp_put (by rw [h2, h1]; exact hr) (fun w3 h3 => ?_)
      refine ⟨(keeps_of_ctxs (fun q => q = r) (h2.trans h1)).trans h3.keeps (fun _ _ h => h), Or.inl ⟨rfl, ?_⟩⟩
      have := h3.changed
      rwa [vals_eq_of_ctxs (h2.trans h1) r] at this
    · rw [← vals_eq_of_ctxs h1]; exact hl
  cases hb : (vals w r "activities").isSome with
  | true =>
    simp only [if_true]
    refine wp_getOrThrow (fun a _ => fin a w rfl) (fun h => ?_)
    rw [h] at hb
    simp at hb
  | false =>
    simp only [Bool.false_eq_true, if_false]
    exact wp_run (fun a w1 h1 => fin a w1 h1) (fun e w1 h1 ht => ⟨keeps_of_ctxs _ h1, fun t => absurd t ht⟩)

/-- The first statement of `AdjustWithActivitiesFromUnattachedEvents.execute`. -/
def AdjustStart (c : Values V) : Ends V → Prop
  | .stops own => c "log" = none ∧ own = c
  | .returns own none => (own "traces_activities").isSome ∧ (∀ k, k ≠ "traces_activities" → own k = c k) ∧
      (c "log" = none → own = c)
  | .returns _ (some _) => False

theorem obeys_adjustStart (x : Ext V S) : Obeys (adjustStart x) (TotalExt x) AdjustStart := by
  intro r w hr
  unfold adjustStart
  rw [wp_bind]
  refine wp_has ?_
  rw [contains_iff]
  cases hb : (vals w r "traces_activities").isSome with
  | true =>
    simp only [if_true]
    exact ⟨Keeps.refl _ w, Or.inl ⟨rfl, hb, fun _ _ => rfl, fun _ => rfl⟩⟩
  | false =>
    simp only [Bool.false_eq_true, if_false]
    rw [wp_bind]
    unfold value
    refine wp_getOrThrow (fun l hl => ?_) (fun hl => ⟨Keeps.refl _ w, fun _ => ⟨rfl, hl, rfl⟩⟩)
    rw [wp_bind]
    refine wp_run (fun a w1 h1 => ?_) (fun e w1 h1 ht => ⟨keeps_of_ctxs _ h1, fun t => absurd t ht⟩)
    refine wp_put (by rw [h1]; exact hr) (fun w2 h2 => ?_)
    refine ⟨(keeps_of_ctxs (fun q => q = r) h1).trans h2.keeps (fun _ _ h => h), Or.inl ⟨rfl, ?_, ?_, ?_⟩⟩
    · rw [h2.own]; simp
    · intro k hk
      rw [h2.own, if_neg hk, vals_eq_of_ctxs h1]
    · intro h
      rw [hl] at h
      simp at h

/-- The new activities of `AdjustWithActivitiesFromUnattachedEvents`. -/
def AdjustActivities (c : Values V) : Ends V → Prop
  | .stops own => (c "log" = none ∨ c "traces_activities" = none) ∧ own = c
  | .returns own none => (c "log").isSome ∧ Changed ["activities"] c own
  | .returns _ (some _) => False

theorem obeys_adjustActivities (x : Ext V S) (unattached merged : Bool) :
    Obeys (Part.withTemp (adjustInput x unattached) (adjustOutput x) [fromPatterns x merged (repeats x)]).exec (TotalExt x)
      AdjustActivities := by
  refine (obeys_withTemp (obeys_adjustInput x unattached) (fun _ _ h => h)
    (obeys_single (obeys_fromPatterns x merged (obeys_repeats x))) (obeys_adjustOutput x)).mono ?_ (fun h => h)
  intro c e h
  rcases h with ⟨own, h, rfl⟩ | ⟨own, out, o', ⟨h1, h2, h3⟩, ⟨⟨k, hk, h4⟩, _⟩, rfl⟩ | ⟨own, out, o', _, h, _⟩ |
    ⟨own, out, o', o'', ⟨h1, h2, h3⟩, ⟨_, _, h4⟩, h5⟩
  · exact h
  · have := (h3 k).2 hk
    rw [h4] at this
    simp at this
  · exact h.2.elim
  · have h4 : Changed ["activities", "patterns"] out o'' := h4
    have ha := h4.2 "activities" (by simp)
    subst h2
    cases e with
    | stops own' => rw [h5.1] at ha; simp at ha
    | returns own' o =>
      cases o with
      | none => exact ⟨h1, h5⟩
      | some _ => exact h5.elim

theorem obeys_inUnattached (x : Ext V S) : Obeys (inUnattached x) (TotalExt x) (row .inUnattached).Allows :=
  obeys_compute x _ _ _

/-- `AdjustWithActivitiesFromUnattachedEvents` obeys its line. -/
theorem obeys_adjust (x : Ext V S) (unattached merged : Bool) :
    Obeys (execParts (adjust x unattached merged)) (TotalExt x) (row (.adjust unattached merged)).Allows := by
  have h2 : Obeys (Part.prim (inUnattached x)).exec (TotalExt x) (row .inUnattached).Allows := by
    intro r w hr; exact obeys_inUnattached x r w hr
  have h1 : Obeys (Part.prim (adjustStart x)).exec (TotalExt x) AdjustStart := by
    intro r w hr; exact obeys_adjustStart x r w hr
  refine (obeys_cons h1 (obeys_single (obeys_nested (obeys_cons (obeys_adjustActivities x unattached merged)
    (obeys_single h2))))).mono ?_ (fun h => h)
  intro c e h
  rcases h with ⟨own, ⟨h, rfl⟩, rfl⟩ | ⟨own, ⟨h1, h2, h3⟩, h4⟩ | ⟨own, out, e', h, _⟩
  · exact ⟨⟨"log", by simp [row], h⟩, Changed.refl _⟩
  · have hl : own "log" = c "log" := h2 "log" (by decide)
    rcases h4 with ⟨own', ⟨h5, rfl⟩, rfl⟩ | ⟨own', ⟨h5, h6⟩, h7⟩ | ⟨own', out, e', h, _⟩
    · have h5 : c "log" = none := by
        rw [← hl]
        rcases h5 with h | h
        · exact h
        · rw [h] at h1; simp at h1
      rw [h3 h5]
      exact ⟨⟨"log", by simp [row], h5⟩, Changed.refl _⟩
    · have hn : ∀ k ∈ ["log", "activities", "traces_activities"], (own' k).isSome := by
        intro k hk
        by_cases hk' : k ∈ ["activities"]
        · exact h6.2 k hk'
        · rw [h6.1 k hk']
          simp only [List.mem_cons, List.not_mem_nil, or_false] at hk hk'
          rcases hk with rfl | rfl | rfl
          · exact h5
          · exact absurd rfl hk'
          · exact h1
      cases e with
      | stops o =>
        obtain ⟨⟨k, hk, h⟩, _⟩ := h7
        have := hn k hk
        rw [h] at this
        simp at this
      | returns o out =>
        cases out with
        | some _ => exact h7.2.2.elim
        | none =>
          have h8 : Changed ["traces_activities"] own' o := h7.2
          refine ⟨fun k hk => ?_, ?_⟩
          · rw [List.mem_singleton.1 hk, ← hl]; exact h5
          · have h9 : Changed ["traces_activities"] c own :=
              ⟨fun k hk => h2 k (by simpa using hk), fun k hk => by rw [List.mem_singleton.1 hk]; exact h1⟩
            exact Changed.congr (Changed.trans h9 (Changed.trans h6 h8)) (fun k => by simp only [List.mem_append, List.mem_cons, List.not_mem_nil, or_false]; tauto)
    · exact h.elim
  · exact h.elim

/-- `DiscoverActivitiesForSeveralLevels` obeys its line. -/
theorem obeys_severalLevels (unattached merged : Bool) : ∀ (xs : List (Ext V S)),
    Obeys (execParts (severalLevels unattached merged xs)) (∀ x ∈ xs, TotalExt x) (levelsRow xs.length).Allows
  | [] => by
    refine obeys_nil.mono (fun c e h => ?_) (fun h => h)
    rw [h]
    exact ⟨fun k hk => by simp [levelsRow] at hk, rfl⟩
  | x :: xs => by
    have ih := obeys_severalLevels unattached merged xs
    unfold severalLevels
    have h1 := (obeys_adjust x unattached merged).mono (fun _ _ h => h)
      (fun (h : ∀ y ∈ x :: xs, TotalExt y) => h x (by simp))
    have h2 := ih.mono (fun _ _ h => h) (fun (h : ∀ y ∈ x :: xs, TotalExt y) y hy => h y (by simp [hy]))
    have h12 := obeys_bind h1 h2
    intro r w hr
    rw [execParts_append]
    refine (h12.mono ?_ (fun h => h)) r w hr
    intro c e h
    cases xs with
    | nil =>
      have := Then.mono (F' := (Row.mk [] (.puts []) []).Allows) (fun _ _ h => h) (fun _ _ h => Row.shows_puts h) h
      exact Row.congr_puts (by simp) (by simp) (Row.then_puts (by simp) this)
    | cons y ys => exact Row.congr_puts (by simp) (fun k => by simp; tauto) (Row.then_puts (by simp) h)

/-! ### Parts that run pipelines -/

/-- A pipeline that runs on a copy of the context. -/
theorem wp_onCopy {p : List (Part V S)} {tot : Prop} {D : Values V → Ends V → Prop} (hp : Obeys (execParts p) tot D)
    {r : Nat} {w : World V S} {k : Input → Py V S A} {Q : A → World V S → Prop}
    {E : PyErr → World V S → Prop}
    (hQ : ∀ q w', Keeps (fun _ => False) w w' → w.ctxs.length ≤ q → q < w'.ctxs.length →
      (∃ own out, D (vals w r) (.returns own out) ∧ vals w' q = out.getD own) → wp (k (some q)) w' Q E)
    (hE : ∀ e w', Keeps (fun _ => False) w w' → (tot → e = .valueError ∧ ∃ own, D (vals w r) (.stops own)) → E e w') :
    wp (Py.bind (copyInput (some r)) (fun c => Py.bind resetColors (fun _ => Py.bind (execParts p c) k))) w Q E := by
  rw [wp_bind]
  refine wp_copyInput (fun q w1 h1 => ?_)
  rw [wp_bind]
  show wp (Py.bind (execParts p (some q)) _) { w1 with used := [] } _ _
  rw [wp_bind]
  have hq : q < w1.ctxs.length := by rw [h1.length, h1.ref]; omega
  have hkeep : ∀ w2, Keeps (fun q' => q' = q) w1 w2 → Keeps (fun _ => False) w w2 := by
    intro w2 h2
    refine ⟨Nat.le_trans h1.keeps.1 h2.1, fun q' hq' _ => ?_⟩
    rw [h2.2 q' (Nat.lt_of_lt_of_le hq' h1.keeps.1) (fun h => by rw [h, h1.ref] at hq'; omega)]
    exact h1.keeps.2 q' hq' (by simp)
  have hown : vals { w1 with used := [] } q = vals w r := h1.own
  refine wp_mono (hp q { w1 with used := [] } hq) ?_ ?_
  · rintro v w2 ⟨hk, h2⟩
    have hk2 : Keeps (fun q' => q' = q) w1 w2 := hk
    rw [hown] at h2
    rcases h2 with ⟨rfl, h2⟩ | ⟨q', rfl, hq1, hq2, h2⟩
    · exact hQ q w2 (hkeep w2 hk2) (Nat.le_of_eq h1.ref.symm) (Nat.lt_of_lt_of_le hq hk2.1) ⟨_, _, h2, rfl⟩
    · exact hQ q' w2 (hkeep w2 hk2) (Nat.le_trans h1.keeps.1 hq1) hq2 ⟨_, _, h2, rfl⟩
  · rintro e w2 ⟨hk, h2⟩
    rw [hown] at h2
    exact hE e w2 (hkeep w2 hk) (fun t => ⟨(h2 t).1, _, (h2 t).2⟩)

/-- What `WithInputCopy` does. -/
def OnCopy (D : Values V → Ends V → Prop) (c : Values V) (e : Ends V) : Prop :=
  (∃ own, D c (.stops own) ∧ e = .stops c) ∨ (∃ own out, D c (.returns own out) ∧ e = .returns c none)

theorem obeys_withCopy {p : List (Part V S)} {tot : Prop} {D : Values V → Ends V → Prop} (hp : Obeys (execParts p) tot D) :
    Obeys (Part.withCopy p).exec tot (OnCopy D) := by
  intro r w hr
  unfold Part.exec
  refine wp_onCopy hp (fun q w' hk _ _ ⟨own, out, h, _⟩ => ?_) (fun e w' hk h => ?_)
  · exact ⟨hk.weaken, Or.inl ⟨rfl, Or.inr ⟨own, out, h, by rw [vals_of_keeps hk hr (by simp)]⟩⟩⟩
  · refine ⟨hk.weaken, fun t => ⟨(h t).1, ?_⟩⟩
    obtain ⟨own, ho⟩ := (h t).2
    exact Or.inl ⟨own, ho, by rw [vals_of_keeps hk hr (by simp)]⟩

theorem obeys_activityGraph (x : Ext V S) (level : List V) :
    Obeys (activityGraph x level) (TotalExt x) (Row.mk ["activities"] (.puts ["graph"]) []).Allows := by
  intro r w hr
  unfold activityGraph
  rw [wp_bind]
  refine wp_values (fun h as => ?_) (fun h => ⟨Keeps.refl _ w, fun _ => ⟨rfl, h, Changed.refl _⟩⟩)
  rw [wp_bind]
  refine wp_run (fun a w1 h1 => ?_) (fun e w1 h1 ht => ⟨keeps_of_ctxs _ h1, fun t => absurd t ht⟩)
  refine wp_put (by rw [h1]; exact hr) (fun w2 h2 => ?_)
  refine ⟨(keeps_of_ctxs (fun q => q = r) h1).trans h2.keeps (fun _ _ h => h), Or.inl ⟨rfl, h, ?_⟩⟩
  have := h2.changed
  rwa [vals_eq_of_ctxs h1 r] at this

/-- A part whose code calls a function before anything else. -/
theorem obeys_afterCall (x : Ext V S) (f : String) {g : Input → Py V S Input} {D : Values V → Ends V → Prop}
    (hg : Obeys g (TotalExt x) D) : Obeys (fun v => Py.bind (x.run f []) (fun _ => g v)) (TotalExt x) D := by
  intro r w hr
  rw [wp_bind]
  refine wp_run (fun a w1 h1 => ?_) (fun e w1 h1 ht => ⟨keeps_of_ctxs _ h1, fun t => absurd t ht⟩)
  refine wp_mono (hg r w1 (by rw [h1]; exact hr)) ?_ ?_
  · rintro v w2 ⟨hk, h⟩
    rw [vals_eq_of_ctxs h1, h1] at h
    exact ⟨(keeps_of_ctxs _ h1).trans hk (fun _ _ h => h), h⟩
  · rintro e w2 ⟨hk, h⟩
    rw [vals_eq_of_ctxs h1] at h
    exact ⟨(keeps_of_ctxs _ h1).trans hk (fun _ _ h => h), h⟩

theorem obeys_drawClassTree (x : Ext V S) :
    Obeys (Part.withCopy [.prim (classGraph x), .prim (drawGraph x)]).exec (TotalExt x) (row .drawClassTree).Allows := by
  have hg : Obeys (Part.prim (classGraph x)).exec (TotalExt x) (Row.mk ["event_class_tree"] (.puts ["graph"]) []).Allows := by
    intro r w hr; exact obeys_compute x _ _ _ r w hr
  have hd : Obeys (Part.prim (drawGraph x)).exec (TotalExt x) (Row.mk ["graph"] .shows []).Allows := by
    intro r w hr; exact obeys_show x _ _ r w hr
  refine (obeys_withCopy (obeys_cons_puts hg (obeys_single (hd.mono (fun _ _ => Row.shows_puts) (fun h => h)))
    (by simp))).mono ?_ (fun h => h)
  rintro c e (⟨own, ⟨h, _⟩, rfl⟩ | ⟨own, out, h, rfl⟩)
  · exact ⟨h, Changed.refl c⟩
  · cases out with
    | none => exact ⟨h.1, rfl⟩
    | some _ => exact ⟨h.1, rfl⟩

/-- A loop over copies of the context. -/
theorem obeys_graphsOfLevels (x : Ext V S) : ∀ (ls : List (V × V)) (r : Nat) (w : World V S), r < w.ctxs.length →
    (vals w r "activities").isSome →
    wp (graphsOfLevels x (some r) ls) w (fun v w' => v = some r ∧ Keeps (fun _ => False) w w')
      (fun _ w' => Keeps (fun _ => False) w w' ∧ ¬ TotalExt x)
  | [], r, w, hr, ha => ⟨rfl, Keeps.refl _ w⟩
  | l :: ls, r, w, hr, ha => by
    unfold graphsOfLevels
    rw [wp_bind]
    refine wp_run (fun a w1 h1 => ?_) (fun e w1 h1 ht => ⟨keeps_of_ctxs _ h1, ht⟩)
    rw [wp_bind]
    unfold Part.exec
    have hg : Obeys (Part.prim (activityGraph x [l.1])).exec (TotalExt x) (Row.mk ["activities"] (.puts ["graph"]) []).Allows := by
      intro r w hr; exact obeys_activityGraph x [l.1] r w hr
    have hd : Obeys (Part.prim (drawGraph x)).exec (TotalExt x) (Row.mk ["graph"] .shows []).Allows := by
      intro r w hr; exact obeys_show x _ _ r w hr
    refine wp_onCopy (obeys_cons_puts hg (obeys_single (hd.mono (fun _ _ => Row.shows_puts) (fun h => h))) (by simp))
      (fun q w2 hk _ _ _ => ?_) (fun e w2 hk h => ⟨(keeps_of_ctxs _ h1).trans hk (fun _ _ h => h), fun ht => ?_⟩)
    · have hk' : Keeps (fun _ => False) w w2 := (keeps_of_ctxs _ h1).trans hk (fun _ _ h => h)
      have hr2 : r < w2.ctxs.length := Nat.lt_of_lt_of_le hr hk'.1
      show wp (graphsOfLevels x (some r) ls) w2 _ _
      refine wp_mono (obeys_graphsOfLevels x ls r w2 hr2 (by rw [vals_of_keeps hk' hr (by simp)]; exact ha)) ?_ ?_
      · rintro v w3 ⟨h, h3⟩
        exact ⟨h, hk'.trans h3 (fun _ _ h => h)⟩
      · rintro e w3 ⟨h3, h⟩
        exact ⟨hk'.trans h3 (fun _ _ h => h), h⟩
    · obtain ⟨_, own, ⟨k, hk, h'⟩, _⟩ := h ht
      rw [List.mem_singleton.1 hk, vals_eq_of_ctxs h1] at h'
      rw [h'] at ha
      simp at ha

theorem obeys_levelGraphs (x : Ext V S) : Obeys (levelGraphs x) (TotalExt x) (row .levelGraphs).Allows := by
  intro r w hr
  unfold levelGraphs
  rw [wp_bind]
  unfold value
  refine wp_getOrThrow (fun a ha => ?_) (fun h => ⟨Keeps.refl _ w, fun _ => ⟨rfl, ⟨"activities", by simp [row], h⟩, Changed.refl _⟩⟩)
  rw [wp_bind]
  refine wp_run (fun b w1 h1 => ?_) (fun e w1 h1 ht => ⟨keeps_of_ctxs _ h1, fun t => absurd t ht⟩)
  have hr1 : r < w1.ctxs.length := by rw [h1]; exact hr
  have ha' : (vals w r "activities").isSome := by rw [ha]; rfl
  refine wp_mono (m := graphsOfLevels x (some r) _)
    (obeys_graphsOfLevels x (x.pairs b (w1.used, w1.rest)) r w1 hr1 (by rw [vals_eq_of_ctxs h1]; exact ha')) ?_ ?_
  · rintro v w2 ⟨rfl, hk⟩
    have hk' : Keeps (fun _ => False) w w2 := (keeps_of_ctxs _ h1).trans hk (fun _ _ h => h)
    refine ⟨hk'.weaken, Or.inl ⟨rfl, fun k hk => ?_, vals_of_keeps hk' hr (by simp)⟩⟩
    rw [List.mem_singleton.1 hk]; exact ha'
  · rintro e w2 ⟨hk, ht⟩
    exact ⟨((keeps_of_ctxs (fun _ => False) h1).trans hk (fun _ _ h => h)).weaken, fun t => absurd t ht⟩

/-- Every class of parts obeys its line of the table. -/
theorem obeys_one (x : Ext V S) (c : Cls) : Obeys (c.part x).exec (TotalExt x) (row c).Allows := by
  have prim : ∀ {f : Input → Py V S Input} {D}, Obeys f (TotalExt x) D → Obeys (Part.prim f).exec (TotalExt x) D :=
    fun h r w hr => h r w hr
  cases c with
  | emptyStart => exact prim obeys_fresh
  | posEntropyDirect => exact prim (obeys_renew x _)
  | posEntropyIndirect => exact prim (obeys_renew x _)
  | dfgEntropyDirect => exact prim (obeys_renew x _)
  | dfgEntropyIndirect => exact prim (obeys_renew x _)
  | removeByName => exact prim (obeys_renew x _)
  | removeByNames => exact prim (obeys_renew x _)
  | preprocessNames => exact prim (obeys_preprocessNames x)
  | diversityDiagram => exact prim (obeys_afterCall x _ (obeys_showColors x _ _))
  | eventsPlacement => exact prim (obeys_showColors x _ _)
  | placementOfEvents => exact prim (obeys_showColors x _ _)
  | activitiesDiagram => exact prim (obeys_showColors x _ _)
  | drawPatterns => exact prim (obeys_showColors x _ _)
  | activityGraph => exact prim (obeys_activityGraph x [])
  | levelGraphs => exact prim (obeys_levelGraphs x)
  | drawClassTree => exact obeys_drawClassTree x
  | printActivities b => exact obeys_printActivities x b
  | clear => exact prim (obeys_clear x)
  | fromPatterns m t =>
    refine obeys_fromPatterns x m ?_
    cases t
    · exact obeys_repeats x
    · exact obeys_tandemArrays x
  | discoverTandem d => exact obeys_discover x false d (obeys_tandemArrays x)
  | discoverRepeats m d => exact obeys_discover x m d (obeys_repeats x)
  | adjust u m => exact prim (obeys_adjust x u m)
  | filterByCount | filterByVariants | petriInductive | petriAlpha | petriAlphaPlus | petriHeuristic | serializeGraph
  | classTree | classGraph | removeByPredicate | substituteUnderlying | tandemArrays | addAllPatterns | repeatSets
  | activities | inTraces | logFromActivities | repeats | inUnattached | logsForActivities | logsWithPromote =>
    exact prim (obeys_compute x _ _ _)
  | drawDirectTillEnd | drawIndirectTillEnd | tracesHistogram | entropyHistogram | posEntropyHistogram | saveEventNames
  | printInfo | printDfg | drawPetriNet | drawGraph | preprocessEvents | applyExtractor | removeLifecycle | addArtificial
  | saveXes | printUnattached | percentage | drawActivitiesGraph | printNamesToHashes | singlePlacement | printFound
  | saveNames | printUnderlying | saveInstances | writeIndices => exact prim (obeys_show x _ _)
  | tagEvents =>
    exact prim ((obeys_show x _ _).mono (fun _ _ h => Row.puts_shows
      (Row.congr_puts (fun k => by simp [or_comm]) (fun _ => Iff.rfl) (Row.shows_puts h))) (fun h => h))

/-! ### Pipelines of the user -/

theorem obeys_when {c : Dict String V → List String × S → Except PyErr Bool} {p : List (Part V S)} {tot : Prop}
    {D : Values V → Ends V → Prop} (hp : Obeys (execParts p) tot D) :
    Obeys (Part.cond (condition c) p).exec ((∀ d s, ∃ b, c d s = .ok b) ∧ tot) (fun v e => e = .returns v none ∨ D v e) := by
  intro r w hr
  have hD := (hp.mono (D' := fun v e => e = .returns v none ∨ D v e) (fun v e h => Or.inr h)
    (fun (t : (∀ d s, ∃ b, c d s = .ok b) ∧ tot) => t.2)) r { w with used := [] } hr
  unfold Part.exec condition
  rw [wp_bind]
  unfold wp
  simp only
  cases hc : c (w.ctx r) (w.used, w.rest) with
  | error e =>
    refine ⟨Keeps.refl _ w, fun t => ?_⟩
    obtain ⟨b, hb⟩ := t.1 (w.ctx r) (w.used, w.rest)
    rw [hc] at hb
    simp at hb
  | ok b =>
    cases b with
    | false => exact ⟨Keeps.refl _ w, Or.inl ⟨rfl, Or.inl rfl⟩⟩
    | true => exact hD

theorem obeys_beforeAndAfter (x : Ext V S) {p : List (Part V S)} {tot : Prop} {D : Values V → Ends V → Prop}
    (hp : Obeys (execParts p) tot D) : Obeys (beforeAndAfter x p) (TotalExt x ∧ tot)
      (Then (row .printInfo).Allows (Then D (row .printInfo).Allows)) := by
  have h1 := (obeys_show x "print_info" ["log"]).mono (fun _ _ h => h) (fun (t : TotalExt x ∧ tot) => t.1)
  have h2 := (obeys_reset hp).mono (fun _ _ h => h) (fun (t : TotalExt x ∧ tot) => t.2)
  exact obeys_bind h1 (obeys_bind h2 h1)

theorem obeys_eachOf {p : List (Part V S)} {tot : Prop} {D : Values V → Ends V → Prop} (hp : Obeys (execParts p) tot D) :
    ∀ (ls : List (V × V)) (w : World V S), wp (eachOf p ls) w (fun _ w' => Keeps (fun _ => False) w w')
      (fun e w' => Keeps (fun _ => False) w w' ∧ (tot → e = .valueError ∧
        ∃ start own, Exactly ["log", "activity_name_key"] start ∧ D start (.stops own)))
  | [], w => Keeps.refl _ w
  | (name, log) :: rest, w => by
    unfold eachOf
    rw [wp_bind]
    refine wp_fresh (fun q w1 h1 => ?_)
    have hq : q < w1.ctxs.length := by rw [h1.length, h1.ref]; omega
    rw [wp_bind]
    refine wp_put hq (fun w2 h2 => ?_)
    have hq2 : q < w2.ctxs.length := by rw [h2.length]; exact hq
    rw [wp_bind]
    refine wp_put hq2 (fun w3 h3 => ?_)
    have hq3 : q < w3.ctxs.length := by rw [h3.length]; exact hq2
    rw [wp_bind]
    have h13 : Keeps (fun q' => q' = q) w1 w3 := h2.keeps.trans h3.keeps (fun _ _ h => h)
    have hex : Exactly ["log", "activity_name_key"] (vals w3 q) := by
      intro k
      rw [h3.own, h2.own, h1.own]
      by_cases hk : k = "activity_name_key"
      · simp [hk]
      · by_cases hk' : k = "log" <;> simp [hk, hk']
    have hkeep : ∀ w4, Keeps (fun q' => q' = q) w3 w4 → Keeps (fun _ => False) w w4 := by
      intro w4 h4
      have h14 := h13.trans h4 (fun _ _ h => h)
      refine ⟨Nat.le_trans h1.keeps.1 h14.1, fun q' hq' _ => ?_⟩
      rw [h14.2 q' (Nat.lt_of_lt_of_le hq' h1.keeps.1) (fun h => by rw [h, h1.ref] at hq'; omega)]
      exact h1.keeps.2 q' hq' (by simp)
    refine wp_mono (obeys_reset hp q w3 hq3) ?_ ?_
    · rintro v w4 ⟨hk, _⟩
      refine wp_mono (obeys_eachOf hp rest w4) ?_ ?_
      · intro _ w5 h5
        exact (hkeep w4 hk).trans h5 (fun _ _ h => h)
      · rintro e w5 ⟨h5, h⟩
        exact ⟨(hkeep w4 hk).trans h5 (fun _ _ h => h), h⟩
    · rintro e w4 ⟨hk, h⟩
      exact ⟨hkeep w4 hk, fun t => ⟨(h t).1, _, _, hex, (h t).2⟩⟩

theorem obeys_eachLog (x : Ext V S) {p : List (Part V S)} {tot : Prop} {D : Values V → Ends V → Prop}
    (hp : Obeys (execParts p) tot D) : Obeys (eachLog x p) tot (fun c e =>
      (c "activities_logs" = none ∧ e = .stops c) ∨
      ((c "activities_logs").isSome ∧
        (e = .returns c none ∨
          ∃ start own, Exactly ["log", "activity_name_key"] start ∧ D start (.stops own) ∧ e = .stops c))) := by
  intro r w hr
  unfold eachLog
  rw [wp_bind]
  unfold value
  refine wp_getOrThrow (fun a ha => ?_) (fun h => ⟨Keeps.refl _ w, fun _ => ⟨rfl, Or.inl ⟨h, rfl⟩⟩⟩)
  show wp (Py.bind (eachOf p (x.pairs a (w.used, w.rest))) _) w _ _
  rw [wp_bind]
  have ha' : (vals w r "activities_logs").isSome := by rw [ha]; rfl
  refine wp_mono (obeys_eachOf hp _ w) ?_ ?_
  · intro _ w1 hk
    refine ⟨hk.weaken, Or.inl ⟨rfl, Or.inr ⟨ha', Or.inl ?_⟩⟩⟩
    rw [vals_of_keeps hk hr (by simp)]
  · rintro e w1 ⟨hk, h⟩
    refine ⟨hk.weaken, fun t => ⟨(h t).1, Or.inr ⟨ha', Or.inr ?_⟩⟩⟩
    obtain ⟨_, start, own, h1, h2⟩ := h t
    exact ⟨start, own, h1, h2, by rw [vals_of_keeps hk hr (by simp)]⟩

theorem exec_parallel_single (p : List (Part V S)) (ps : List (List (Part V S))) (v last : Input) :
    execParallel (p :: ps) v last =
      Py.bind (copyInput v) (fun c => Py.bind resetColors (fun _ => Py.bind (execParts p c) (fun r => execParallel ps v r))) := by
  rw [execParallel]

mutual
/-- Every part of the user obeys `Does`. -/
theorem obeys_part : ∀ (p : LPart V S), Obeys p.part.exec (TotalPart p) (Does p)
  | .one c x => by
    unfold LPart.part
    exact (obeys_one x c).mono (fun _ _ h => by unfold Does; exact h) (fun t => by unfold TotalPart at t; exact t)
  | .severalLevels u m xs => by
    unfold LPart.part
    intro r w hr
    exact ((obeys_severalLevels u m xs).mono (fun _ _ h => by unfold Does; exact h)
      (fun t => by unfold TotalPart at t; exact t)) r w hr
  | .parallel p ps => by
    unfold LPart.part
    intro r w hr
    unfold Part.exec
    exact ((obeys_parallel ps (obeys_parts p) none).mono (fun _ _ h => by unfold Does; exact h)
      (fun t => by unfold TotalPart at t; exact t)) r w hr
  | .withCopy p => by
    unfold LPart.part
    exact (obeys_withCopy (obeys_parts p)).mono (fun _ _ h => by unfold Does; exact h) (fun t => by unfold TotalPart at t; exact t)
  | .when c p => by
    unfold LPart.part
    exact (obeys_when (obeys_parts p)).mono (fun _ _ h => by unfold Does; exact h) (fun t => by unfold TotalPart at t; exact t)
  | .beforeAndAfter x p => by
    unfold LPart.part
    intro r w hr
    exact ((obeys_beforeAndAfter x (obeys_parts p)).mono (fun _ _ h => by unfold Does; exact h)
      (fun t => by unfold TotalPart at t; exact t)) r w hr
  | .eachLog x p => by
    unfold LPart.part
    intro r w hr
    exact ((obeys_eachLog x (obeys_parts p)).mono (fun _ _ h => by unfold Does; exact h)
      (fun t => by unfold TotalPart at t; exact t)) r w hr
/-- Every pipeline of the user obeys `DoesL`. -/
theorem obeys_parts : ∀ (ps : List (LPart V S)), Obeys (execParts (parts ps)) (TotalL ps) (DoesL ps)
  | [] => by
    unfold parts
    exact obeys_nil.mono (fun _ _ h => by unfold DoesL; exact h) (fun h => h)
  | p :: ps => by
    unfold parts
    exact (obeys_cons ((obeys_part p).mono (fun _ _ h => h) (fun (t : TotalPart p ∧ TotalL ps) => t.1))
      ((obeys_parts ps).mono (fun _ _ h => h) (fun t => t.2))).mono (fun _ _ h => by unfold DoesL; exact h)
      (fun t => by unfold TotalL at t; exact t)
/-- Every list of pipelines obeys `DoesParallel`. -/
theorem obeys_parallel : ∀ (qs : List (List (LPart V S))) {p : List (Part V S)} {tot : Prop} {D : Values V → Ends V → Prop},
    Obeys (execParts p) tot D → ∀ last : Input,
    Obeys (fun v => execParallel (p :: partsLL qs) v last) (tot ∧ TotalLL qs) (DoesParallel D qs)
  | [], p, tot, D, hp, last => by
    intro r w hr
    simp only [exec_parallel_single]
    refine wp_onCopy hp (fun q w1 hk hq1 hq2 ⟨own, out, h, hv⟩ => ?_) (fun e w1 hk h => ⟨hk.weaken, fun t => ?_⟩)
    · unfold partsLL execParallel
      refine ⟨hk.weaken, Or.inr ⟨q, rfl, hq1, hq2, ?_⟩⟩
      unfold DoesParallel
      refine ⟨_, h, ?_⟩
      rw [vals_of_keeps hk hr (by simp), hv]
      cases out <;> rfl
    · unfold DoesParallel
      obtain ⟨h1, own, h2⟩ := h t.1
      exact ⟨h1, _, h2, by rw [vals_of_keeps hk hr (by simp)]; rfl⟩
  | q :: qs, p, tot, D, hp, last => by
    intro r w hr
    simp only [exec_parallel_single]
    refine wp_onCopy hp (fun n w1 hk hq1 hq2 ⟨own, out, h, hv⟩ => ?_) (fun e w1 hk h => ⟨hk.weaken, fun t => ?_⟩)
    · unfold partsLL
      have hr1 : r < w1.ctxs.length := Nat.lt_of_lt_of_le hr hk.1
      refine wp_mono (obeys_parallel qs (obeys_parts q) (some n) r w1 hr1) ?_ ?_
      · rintro v w2 ⟨hk2, h2⟩
        rw [vals_of_keeps hk hr (by simp)] at h2
        refine ⟨hk.weaken.trans hk2 (fun _ _ h => h), ?_⟩
        rcases h2 with ⟨rfl, h2⟩ | ⟨q', rfl, hq1', hq2', h2⟩
        · refine Or.inl ⟨rfl, ?_⟩
          unfold DoesParallel
          exact Or.inr ⟨⟨own, out, h⟩, h2⟩
        · refine Or.inr ⟨q', rfl, Nat.le_trans hk.1 hq1', hq2', ?_⟩
          unfold DoesParallel
          exact Or.inr ⟨⟨own, out, h⟩, h2⟩
      · rintro e w2 ⟨hk2, h2⟩
        rw [vals_of_keeps hk hr (by simp)] at h2
        refine ⟨hk.weaken.trans hk2 (fun _ _ h => h), fun t => ?_⟩
        obtain ⟨h3, h4⟩ := h2 (by have := t.2; unfold TotalLL at this; exact this)
        refine ⟨h3, ?_⟩
        unfold DoesParallel
        exact Or.inr ⟨⟨own, out, h⟩, h4⟩
    · unfold DoesParallel
      obtain ⟨h1, own, h2⟩ := h t.1
      exact ⟨h1, Or.inl ⟨own, h2, by rw [vals_of_keeps hk hr (by simp)]⟩⟩
end

end Library
end Ficus
