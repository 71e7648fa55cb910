import Verif.Spec.RsBxes
import Verif.Proofs.Dict
import Verif.Proofs.RsXesRound

/-! Proofs for BXES files in the backend. -/

namespace Ficus.Rs.Bx
open Spec.Bx
open RsXes (Extension Classifier sortByFirst)

variable {F U : Type}

/-! ### Steps that can fail -/

theorem bindOk {E A B : Type} {x : Except E A} {f : A → Except E B} {b : B} : (x >>= f) = .ok b ↔ ∃ a, x = .ok a ∧ f a = .ok b := by
  cases x with
  | error e => simp [bind, Except.bind]
  | ok a => simp [bind, Except.bind]

theorem pureOk {E A : Type} {a b : A} : (pure a : Except E A) = .ok b ↔ a = b := by simp [pure, Except.pure]

theorem mapOk {E A B : Type} {x : Except E A} {f : A → B} {b : B} : x.map f = .ok b ↔ ∃ a, x = .ok a ∧ f a = b := by
  cases x with
  | error e => simp [Except.map]
  | ok a => simp [Except.map]

theorem mapMOk {E A B : Type} (f : A → Except E B) (l : List A) (r : List B) :
    l.mapM f = .ok r ↔ List.Forall₂ (fun a b => f a = .ok b) l r := by
  induction l generalizing r with
  | nil =>
    rw [List.mapM_nil, pureOk]
    constructor
    · rintro rfl; exact .nil
    · intro h; cases h; rfl
  | cons a l ih =>
    rw [List.mapM_cons, bindOk]
    constructor
    · rintro ⟨b, hb, h⟩
      obtain ⟨r', hr, h⟩ := bindOk.1 h
      rw [pureOk] at h
      subst h
      exact .cons hb ((ih r').1 hr)
    · intro h
      cases h with
      | cons hb hr => exact ⟨_, hb, bindOk.2 ⟨_, (ih _).2 hr, pureOk.2 rfl⟩⟩

theorem mapM_exists {E A B : Type} (f : A → Except E B) (l : List A) :
    (∃ r, l.mapM f = .ok r) ↔ ∀ a ∈ l, ∃ b, f a = .ok b := by
  induction l with
  | nil => simp [pureOk]
  | cons a l ih =>
    simp only [List.mapM_cons, bindOk, pureOk, List.mem_cons, forall_eq_or_imp]
    constructor
    · rintro ⟨r, b, hb, r', hr, _⟩
      exact ⟨⟨b, hb⟩, ih.1 ⟨r', hr⟩⟩
    · rintro ⟨⟨b, hb⟩, h⟩
      obtain ⟨r', hr⟩ := ih.2 h
      exact ⟨b :: r', b, hb, r', hr, rfl⟩

/-! ### Values -/

theorem brafIn_idx (b : BBraf) (l : Braf) : brafIn b = l ↔ b.ctorIdx = l.ctorIdx := by
  cases b <;> cases l <;> decide

theorem standardIn_idx (b : BStandard) (l : Standard) : standardIn b = l ↔ b.ctorIdx = l.ctorIdx := by
  cases b <;> cases l <;> decide

theorem brafIn_out (l : Braf) : brafIn (brafOut l) = l := by cases l <;> rfl

theorem standardIn_out (l : Standard) : standardIn (standardOut l) = l := by cases l <;> rfl

theorem valueIn_ok (v : BValue F U) (w : Value F U) : valueIn v = .ok w ↔ Means v w := by
  constructor
  · intro h
    cases v <;> simp only [valueIn, Except.ok.injEq, reduceCtorEq] at h <;> subst h <;> first
      | exact .braf _ _ ((brafIn_idx _ _).1 rfl)
      | exact .standard _ _ ((standardIn_idx _ _).1 rfl)
      | constructor
  · intro h
    cases h with
    | braf b l h => rw [← (brafIn_idx b l).2 h]; rfl
    | standard b l h => rw [← (standardIn_idx b l).2 h]; rfl
    | _ => rfl

theorem valueIn_supported (v : BValue F U) : (∃ w, valueIn v = .ok w) ↔ Supported v := by
  cases v <;> simp [valueIn, Supported]

theorem stringIn_ok (v : BValue F U) (s : String) : stringIn v = .ok s ↔ v = .str s := by
  cases v <;> simp [stringIn]

theorem stringIn_text (v : BValue F U) : (∃ s, stringIn v = .ok s) ↔ IsText v := by
  simp only [stringIn_ok, IsText]

theorem same_iff [DecidableEq U] (x : Ext F) (a b : Value F U) : a.same x b = true ↔ SameValue x a b := by
  cases a <;> cases b <;> simp [Value.same, SameValue]

/-! ### Reading -/

theorem mapIn_append (vs : List (BValue F U × BValue F U)) (kv : BValue F U × BValue F U) (d : Dict String (Value F U)) :
    mapIn (vs ++ [kv]) = .ok d ↔ ∃ d' key w, mapIn vs = .ok d' ∧ kv.1 = .str key ∧ Means kv.2 w ∧ d = d'.set key w := by
  unfold mapIn
  rw [List.foldlM_append, bindOk]
  constructor
  · rintro ⟨d', hd, h⟩
    rw [List.foldlM_cons, bindOk] at h
    obtain ⟨d'', h, h2⟩ := h
    obtain ⟨key, hk, h⟩ := bindOk.1 h
    obtain ⟨w, hw, h⟩ := bindOk.1 h
    rw [pureOk] at h
    rw [List.foldlM_nil, pureOk] at h2
    subst h
    exact ⟨d', key, w, hd, (stringIn_ok _ _).1 hk, (valueIn_ok _ _).1 hw, h2.symm⟩
  · rintro ⟨d', key, w, hd, hk, hw, rfl⟩
    refine ⟨d', hd, ?_⟩
    rw [List.foldlM_cons, bindOk]
    exact ⟨_, bindOk.2 ⟨key, (stringIn_ok _ _).2 hk, bindOk.2 ⟨w, (valueIn_ok _ _).2 hw, pureOk.2 rfl⟩⟩, by rw [List.foldlM_nil, pureOk]⟩

theorem lastPair_append (vs : List (BValue F U × BValue F U)) (kv : BValue F U × BValue F U) (key : String) (v : BValue F U) :
    LastPair (vs ++ [kv]) key v ↔ kv = (.str key, v) ∨ kv.1 ≠ .str key ∧ LastPair vs key v := by
  constructor
  · rintro ⟨before, after, he, ha⟩
    rcases List.eq_nil_or_concat after with rfl | ⟨after', u, rfl⟩
    · left
      have h := List.append_inj' he rfl
      simpa using h.2
    · right
      rw [List.concat_eq_append] at he ha
      rw [← List.cons_append, ← List.append_assoc] at he
      have h := List.append_inj' he rfl
      have hu : kv = u := by simpa using h.2
      subst hu
      exact ⟨ha kv (by simp), before, after', h.1, fun w hw => ha w (by simp [hw])⟩
  · rintro (rfl | ⟨hk, before, after, rfl, ha⟩)
    · exact ⟨vs, [], rfl, by simp⟩
    · refine ⟨before, after ++ [kv], by simp, ?_⟩
      intro u hu
      rcases List.mem_append.1 hu with hu | hu
      · exact ha u hu
      · rw [List.mem_singleton.1 hu]; exact hk

theorem mapIn_ok (vs : List (BValue F U × BValue F U)) (d : Dict String (Value F U)) (h : mapIn vs = .ok d) : Dict.WF d ∧ MapOf vs d := by
  induction vs using List.reverseRecOn generalizing d with
  | nil =>
    have : d = [] := by
      have h' : (.ok [] : Except Failure (Dict String (Value F U))) = .ok d := h
      exact (Except.ok.inj h').symm
    subst this
    refine ⟨Dict.WF_nil, fun key w => ⟨fun h => (by cases h), ?_⟩⟩
    rintro ⟨v, ⟨before, after, he, _⟩, _⟩
    simp at he
  | append_singleton vs kv ih =>
    obtain ⟨d', key, w, hd, hk, hw, rfl⟩ := (mapIn_append _ _ _).1 h
    obtain ⟨hwf, hm⟩ := ih d' hd
    refine ⟨Dict.WF_set hwf _ _, ?_⟩
    intro key' w'
    rw [Dict.get?_set]
    by_cases he : key = key'
    · subst he
      rw [if_pos rfl]
      constructor
      · intro h
        refine ⟨kv.2, (lastPair_append _ _ _ _).2 (Or.inl (by rw [← hk])), ?_⟩
        rw [← Option.some.inj h]; exact hw
      · rintro ⟨v, hl, hv⟩
        rcases (lastPair_append _ _ _ _).1 hl with rfl | ⟨h, _⟩
        · have := (valueIn_ok _ _).2 hv
          rw [(valueIn_ok _ _).2 hw] at this
          rw [Except.ok.inj this]
        · exact absurd hk h
    · rw [if_neg he, hm key' w']
      have hne : kv.1 ≠ .str key' := by rw [hk]; intro h; exact he (BValue.str.inj h)
      constructor
      · rintro ⟨v, hl, hv⟩
        exact ⟨v, (lastPair_append _ _ _ _).2 (Or.inr ⟨hne, hl⟩), hv⟩
      · rintro ⟨v, hl, hv⟩
        rcases (lastPair_append _ _ _ _).1 hl with rfl | ⟨_, h⟩
        · exact absurd rfl hne
        · exact ⟨v, h, hv⟩

theorem mapIn_exists (vs : List (BValue F U × BValue F U)) : (∃ d, mapIn vs = .ok d) ↔ PairsReadable vs := by
  induction vs using List.reverseRecOn with
  | nil => exact ⟨fun _ kv h => by simp at h, fun _ => ⟨[], rfl⟩⟩
  | append_singleton vs kv ih =>
    constructor
    · rintro ⟨d, h⟩ u hu
      obtain ⟨d', key, w, hd, hk, hw, rfl⟩ := (mapIn_append _ _ _).1 h
      rcases List.mem_append.1 hu with hu | hu
      · exact ih.1 ⟨d', hd⟩ u hu
      · rw [List.mem_singleton.1 hu]
        exact ⟨⟨key, hk⟩, (valueIn_supported _).1 ⟨w, (valueIn_ok _ _).2 hw⟩⟩
    · intro h
      obtain ⟨d', hd⟩ := ih.2 fun u hu => h u (by simp [hu])
      obtain ⟨⟨key, hk⟩, hs⟩ := h kv (by simp)
      obtain ⟨w, hw⟩ := (valueIn_supported _).2 hs
      exact ⟨_, (mapIn_append _ _ _).2 ⟨d', key, w, hd, hk, (valueIn_ok _ _).1 hw, rfl⟩⟩

theorem globalsIn_append (gs : List (BGlobal F U)) (g : BGlobal F U) (d : Dict String (Dict String (Value F U))) :
    globalsIn (gs ++ [g]) = .ok d ↔ ∃ d' m, globalsIn gs = .ok d' ∧ mapIn g.globals = .ok m ∧ d = d'.set (scopeOf g.kind) m := by
  have ht : g.kind.text = scopeOf g.kind := by cases g.kind <;> rfl
  unfold globalsIn
  rw [List.foldlM_append, bindOk]
  constructor
  · rintro ⟨d', hd, h⟩
    rw [List.foldlM_cons, bindOk] at h
    obtain ⟨d'', h, h2⟩ := h
    obtain ⟨m, hm, h⟩ := bindOk.1 h
    rw [pureOk] at h
    rw [List.foldlM_nil, pureOk] at h2
    subst h
    rw [ht] at h2
    exact ⟨d', m, hd, hm, h2.symm⟩
  · rintro ⟨d', m, hd, hm, rfl⟩
    refine ⟨d', hd, ?_⟩
    rw [List.foldlM_cons, bindOk]
    exact ⟨_, bindOk.2 ⟨m, hm, pureOk.2 rfl⟩, by rw [List.foldlM_nil, pureOk, ht]⟩

theorem globalsIn_ok (gs : List (BGlobal F U)) (d : Dict String (Dict String (Value F U))) (h : globalsIn gs = .ok d) :
    (∀ scope m, d.get? scope = some m →
      ∃ before g after, gs = before ++ g :: after ∧ scopeOf g.kind = scope ∧ (∀ h ∈ after, scopeOf h.kind ≠ scope) ∧ MapOf g.globals m)
    ∧ ∀ g ∈ gs, ∃ m, d.get? (scopeOf g.kind) = some m := by
  induction gs using List.reverseRecOn generalizing d with
  | nil =>
    have : d = [] := by
      have h' : (.ok [] : Except Failure (Dict String (Dict String (Value F U)))) = .ok d := h
      exact (Except.ok.inj h').symm
    subst this
    exact ⟨fun scope m h => (by cases h), fun g hg => (by simp at hg)⟩
  | append_singleton gs g ih =>
    obtain ⟨d', m, hd, hm, rfl⟩ := (globalsIn_append _ _ _).1 h
    obtain ⟨h1, h2⟩ := ih d' hd
    constructor
    · intro scope m' hg
      rw [Dict.get?_set] at hg
      by_cases he : scopeOf g.kind = scope
      · rw [if_pos he] at hg
        rw [← Option.some.inj hg]
        exact ⟨gs, g, [], rfl, he, by simp, (mapIn_ok _ _ hm).2⟩
      · rw [if_neg he] at hg
        obtain ⟨before, g', after, rfl, hs, ha, hmo⟩ := h1 scope m' hg
        refine ⟨before, g', after ++ [g], by simp, hs, ?_, hmo⟩
        intro h hh
        rcases List.mem_append.1 hh with hh | hh
        · exact ha h hh
        · rw [List.mem_singleton.1 hh]; exact he
    · intro g' hg'
      rw [Dict.get?_set]
      split
      · exact ⟨m, rfl⟩
      · rename_i hne
        rcases List.mem_append.1 hg' with hg' | hg'
        · exact h2 g' hg'
        · rw [List.mem_singleton.1 hg'] at hne; exact absurd rfl hne

theorem globalsIn_exists (gs : List (BGlobal F U)) : (∃ d, globalsIn gs = .ok d) ↔ ∀ g ∈ gs, PairsReadable g.globals := by
  induction gs using List.reverseRecOn with
  | nil => exact ⟨fun _ g h => by simp at h, fun _ => ⟨[], rfl⟩⟩
  | append_singleton gs g ih =>
    constructor
    · rintro ⟨d, h⟩ u hu
      obtain ⟨d', m, hd, hm, rfl⟩ := (globalsIn_append _ _ _).1 h
      rcases List.mem_append.1 hu with hu | hu
      · exact ih.1 ⟨d', hd⟩ u hu
      · rw [List.mem_singleton.1 hu]
        exact (mapIn_exists _).1 ⟨m, hm⟩
    · intro h
      obtain ⟨d', hd⟩ := ih.2 fun u hu => h u (by simp [hu])
      obtain ⟨m, hm⟩ := (mapIn_exists _).2 (h g (by simp))
      exact ⟨_, (globalsIn_append _ _ _).2 ⟨d', m, hd, hm, rfl⟩⟩

theorem eventIn_ok (b : BEvent F U) (e : Event F U) (h : eventIn b = .ok e) : EventRead b e := by
  unfold eventIn at h
  obtain ⟨name, hn, h⟩ := bindOk.1 h
  obtain ⟨p, hp, h⟩ := bindOk.1 h
  rw [pureOk] at h
  subst h
  refine ⟨(stringIn_ok _ _).1 hn, rfl, ?_⟩
  show Option.Rel MapOf b.attributes p
  cases ha : b.attributes with
  | none =>
    rw [ha] at hp
    rw [← Except.ok.inj hp]
    exact .none
  | some vs =>
    rw [ha] at hp
    obtain ⟨m, hm, rfl⟩ := mapOk.1 hp
    exact .some (mapIn_ok _ _ hm).2

theorem eventIn_exists (b : BEvent F U) : (∃ e, eventIn b = .ok e) ↔ IsText b.name ∧ ∀ vs, b.attributes = some vs → PairsReadable vs := by
  unfold eventIn
  constructor
  · rintro ⟨e, h⟩
    obtain ⟨name, hn, h⟩ := bindOk.1 h
    obtain ⟨p, hp, h⟩ := bindOk.1 h
    refine ⟨(stringIn_text _).1 ⟨name, hn⟩, ?_⟩
    intro vs hvs
    rw [hvs] at hp
    obtain ⟨m, hm, _⟩ := mapOk.1 hp
    exact (mapIn_exists _).1 ⟨m, hm⟩
  · rintro ⟨hn, ha⟩
    obtain ⟨name, hn⟩ := (stringIn_text _).2 hn
    have : ∃ p, payloadIn b.attributes = .ok p := by
      cases hb : b.attributes with
      | none => exact ⟨none, rfl⟩
      | some vs =>
        obtain ⟨m, hm⟩ := (mapIn_exists _).2 (ha vs hb)
        exact ⟨some m, mapOk.2 ⟨m, hm, rfl⟩⟩
    obtain ⟨p, hp⟩ := this
    exact ⟨_, bindOk.2 ⟨name, hn, bindOk.2 ⟨p, hp, pureOk.2 rfl⟩⟩⟩

theorem vectorIn_ok {A B : Type} (f : A → Except Failure B) (given : Option (List A)) (r : List B) :
    vectorIn f given = .ok r ↔ List.Forall₂ (fun a b => f a = .ok b) (given.getD []) r := by
  cases given with
  | some l => exact mapMOk f l r
  | none =>
    simp only [vectorIn, Option.getD_none, Except.ok.injEq]
    constructor
    · rintro rfl; exact .nil
    · intro h; cases h; rfl

theorem vectorIn_exists {A B : Type} (f : A → Except Failure B) (given : Option (List A)) :
    (∃ r, vectorIn f given = .ok r) ↔ ∀ l, given = some l → ∀ a ∈ l, ∃ b, f a = .ok b := by
  cases given with
  | some l =>
    refine Iff.trans (mapM_exists f l) ⟨fun h l' hl => ?_, fun h => h l rfl⟩
    rw [← Option.some.inj hl]; exact h
  | none => exact ⟨fun _ l h => (by cases h), fun _ => ⟨[], rfl⟩⟩

theorem classifierIn_ok (c : BClassifier F U) (c' : Classifier) :
    classifierIn c = .ok c' ↔ c.name = .str c'.name ∧ c.keys = c'.keys.map .str := by
  have hk : ∀ (l : List (BValue F U)) (r : List String), List.Forall₂ (fun a b => stringIn a = .ok b) l r ↔ l = r.map .str := by
    intro l
    induction l with
    | nil =>
      intro r
      constructor
      · intro h; cases h; rfl
      · intro h; cases r with
        | nil => exact .nil
        | cons a r => simp at h
    | cons v l ih =>
      intro r
      constructor
      · intro h
        cases h with
        | cons h1 h2 => rw [(stringIn_ok _ _).1 h1, (ih _).1 h2]; rfl
      · intro h
        cases r with
        | nil => simp at h
        | cons a r =>
          rw [List.map_cons, List.cons.injEq] at h
          exact .cons ((stringIn_ok _ _).2 h.1) ((ih r).2 h.2)
  unfold classifierIn
  constructor
  · intro h
    obtain ⟨name, hn, h⟩ := bindOk.1 h
    obtain ⟨keys, hks, h⟩ := bindOk.1 h
    rw [pureOk] at h
    subst h
    exact ⟨(stringIn_ok _ _).1 hn, (hk _ _).1 ((mapMOk _ _ _).1 hks)⟩
  · rintro ⟨hn, hks⟩
    exact bindOk.2 ⟨_, (stringIn_ok _ _).2 hn, bindOk.2 ⟨_, (mapMOk _ _ _).2 ((hk _ _).2 hks), pureOk.2 rfl⟩⟩

theorem classifierIn_exists (c : BClassifier F U) : (∃ c', classifierIn c = .ok c') ↔ IsText c.name ∧ ∀ k ∈ c.keys, IsText k := by
  simp only [classifierIn_ok]
  constructor
  · rintro ⟨c', hn, hk⟩
    refine ⟨⟨_, hn⟩, ?_⟩
    intro k h
    rw [hk] at h
    obtain ⟨s, _, rfl⟩ := List.mem_map.1 h
    exact ⟨s, rfl⟩
  · rintro ⟨⟨s, hs⟩, hk⟩
    have : ∀ l : List (BValue F U), (∀ k ∈ l, IsText k) → ∃ r : List String, l = r.map .str := by
      intro l
      induction l with
      | nil => intro _; exact ⟨[], rfl⟩
      | cons v l ih =>
        intro h
        obtain ⟨r, hr⟩ := ih fun k hk => h k (by simp [hk])
        obtain ⟨a, ha⟩ := h v (by simp)
        exact ⟨a :: r, by rw [hr, ha]; rfl⟩
    obtain ⟨r, hr⟩ := this _ hk
    exact ⟨⟨s, r⟩, hs, hr⟩

theorem extensionIn_ok (e : BExtension F U) (e' : Extension) :
    extensionIn e = .ok e' ↔ e.name = .str e'.name ∧ e.pre = .str e'.pre ∧ e.uri = .str e'.uri := by
  unfold extensionIn
  constructor
  · intro h
    obtain ⟨name, hn, h⟩ := bindOk.1 h
    obtain ⟨uri, hu, h⟩ := bindOk.1 h
    obtain ⟨pre, hp, h⟩ := bindOk.1 h
    rw [pureOk] at h
    subst h
    exact ⟨(stringIn_ok _ _).1 hn, (stringIn_ok _ _).1 hp, (stringIn_ok _ _).1 hu⟩
  · rintro ⟨hn, hp, hu⟩
    exact bindOk.2 ⟨_, (stringIn_ok _ _).2 hn, bindOk.2 ⟨_, (stringIn_ok _ _).2 hu, bindOk.2 ⟨_, (stringIn_ok _ _).2 hp, pureOk.2 rfl⟩⟩⟩

theorem extensionIn_exists (e : BExtension F U) : (∃ e', extensionIn e = .ok e') ↔ IsText e.name ∧ IsText e.uri ∧ IsText e.pre := by
  simp only [extensionIn_ok]
  constructor
  · rintro ⟨e', hn, hp, hu⟩
    exact ⟨⟨_, hn⟩, ⟨_, hu⟩, ⟨_, hp⟩⟩
  · rintro ⟨⟨n, hn⟩, ⟨u, hu⟩, ⟨p, hp⟩⟩
    exact ⟨⟨n, p, u⟩, hn, hp, hu⟩

theorem propertyIn_ok (p : BValue F U × BValue F U) (q : String × Value F U) :
    propertyIn p = .ok q ↔ p.1 = .str q.1 ∧ Means p.2 q.2 := by
  unfold propertyIn
  constructor
  · intro h
    obtain ⟨name, hn, h⟩ := bindOk.1 h
    obtain ⟨v, hv, h⟩ := bindOk.1 h
    rw [pureOk] at h
    subst h
    exact ⟨(stringIn_ok _ _).1 hn, (valueIn_ok _ _).1 hv⟩
  · rintro ⟨hn, hv⟩
    exact bindOk.2 ⟨_, (stringIn_ok _ _).2 hn, bindOk.2 ⟨_, (valueIn_ok _ _).2 hv, pureOk.2 rfl⟩⟩

theorem propertyIn_exists (p : BValue F U × BValue F U) : (∃ q, propertyIn p = .ok q) ↔ IsText p.1 ∧ Supported p.2 := by
  simp only [propertyIn_ok]
  constructor
  · rintro ⟨q, hn, hv⟩
    exact ⟨⟨_, hn⟩, (valueIn_supported _).1 ⟨_, (valueIn_ok _ _).2 hv⟩⟩
  · rintro ⟨⟨n, hn⟩, hs⟩
    obtain ⟨w, hw⟩ := (valueIn_supported _).2 hs
    exact ⟨(n, w), hn, (valueIn_ok _ _).1 hw⟩

theorem readLog_ok (b : BLog F U) (l : Log F U) : readLog b = .ok l ↔
    vectorIn classifierIn b.classifiers = .ok l.classifiers ∧ vectorIn propertyIn b.properties = .ok l.properties
    ∧ vectorIn extensionIn b.extensions = .ok l.extensions ∧ globalsIn (b.globals.getD []) = .ok l.globals
    ∧ (b.variants.mapM fun v => v.events.mapM eventIn) = .ok l.traces := by
  unfold readLog
  constructor
  · intro h
    obtain ⟨cs, h1, h⟩ := bindOk.1 h
    obtain ⟨ps, h2, h⟩ := bindOk.1 h
    obtain ⟨es, h3, h⟩ := bindOk.1 h
    obtain ⟨gs, h4, h⟩ := bindOk.1 h
    obtain ⟨ts, h5, h⟩ := bindOk.1 h
    rw [pureOk] at h
    subst h
    exact ⟨h1, h2, h3, h4, h5⟩
  · rintro ⟨h1, h2, h3, h4, h5⟩
    exact bindOk.2 ⟨_, h1, bindOk.2 ⟨_, h2, bindOk.2 ⟨_, h3, bindOk.2 ⟨_, h4, bindOk.2 ⟨_, h5, pureOk.2 rfl⟩⟩⟩⟩⟩

theorem readLog_read (b : BLog F U) (l : Log F U) (h : readLog b = .ok l) : LogRead b l := by
  obtain ⟨h1, h2, h3, h4, h5⟩ := (readLog_ok b l).1 h
  refine ⟨?_, ?_, ?_, (globalsIn_ok _ _ h4).1, (globalsIn_ok _ _ h4).2, ?_⟩
  · exact ((vectorIn_ok _ _ _).1 h1).imp fun c c' h => (classifierIn_ok c c').1 h
  · exact ((vectorIn_ok _ _ _).1 h2).imp fun c c' h => (propertyIn_ok c c').1 h
  · exact ((vectorIn_ok _ _ _).1 h3).imp fun c c' h => (extensionIn_ok c c').1 h
  · refine ((mapMOk _ _ _).1 h5).imp ?_
    intro v t ht
    exact ((mapMOk _ _ _).1 ht).imp fun e e' he => eventIn_ok e e' he

theorem readLog_exists (b : BLog F U) : (∃ l, readLog b = .ok l) ↔ Readable b := by
  constructor
  · rintro ⟨l, h⟩
    obtain ⟨h1, h2, h3, h4, h5⟩ := (readLog_ok b l).1 h
    refine ⟨?_, ?_, ?_, ?_, ?_⟩
    · intro cs hcs c hc
      exact (classifierIn_exists c).1 ((vectorIn_exists _ _).1 ⟨_, h1⟩ cs hcs c hc)
    · intro ps hps p hp
      exact (propertyIn_exists p).1 ((vectorIn_exists _ _).1 ⟨_, h2⟩ ps hps p hp)
    · intro es hes e he
      exact (extensionIn_exists e).1 ((vectorIn_exists _ _).1 ⟨_, h3⟩ es hes e he)
    · intro gs hgs
      rw [hgs] at h4
      exact (globalsIn_exists _).1 ⟨_, h4⟩
    · intro v hv e he
      obtain ⟨t, ht⟩ := (mapM_exists _ _).1 ⟨_, h5⟩ v hv
      exact (eventIn_exists e).1 ((mapM_exists _ _).1 ⟨t, ht⟩ e he)
  · intro h
    obtain ⟨cs, h1⟩ := (vectorIn_exists classifierIn b.classifiers).2 fun l hl c hc => (classifierIn_exists c).2 (h.classifiers l hl c hc)
    obtain ⟨ps, h2⟩ := (vectorIn_exists propertyIn b.properties).2 fun l hl c hc => (propertyIn_exists c).2 (h.properties l hl c hc)
    obtain ⟨es, h3⟩ := (vectorIn_exists extensionIn b.extensions).2 fun l hl c hc => (extensionIn_exists c).2 (h.extensions l hl c hc)
    have h4 : ∃ gs, globalsIn (b.globals.getD []) = .ok gs := by
      refine (globalsIn_exists _).2 ?_
      cases hg : b.globals with
      | none => simp
      | some gs => exact h.globals gs hg
    obtain ⟨gs, h4⟩ := h4
    obtain ⟨ts, h5⟩ := (mapM_exists (fun v : BVariant F U => v.events.mapM eventIn) b.variants).2 fun v hv =>
      (mapM_exists _ _).2 fun e he => (eventIn_exists e).2 (h.events v hv e he)
    exact ⟨⟨ts, gs, es, cs, ps⟩, (readLog_ok _ _).2 ⟨h1, h2, h3, h4, h5⟩⟩

/-! ### Writing -/

theorem nanos_ok (x : Ext F) (d n : Int) : nanos x d = .ok n ↔ x.fits d = true ∧ d = n := by
  unfold nanos
  by_cases h : x.fits d = true <;> simp [h]

theorem valueOut_exists (x : Ext F) (v : Value F U) : (∃ b, valueOut x v = .ok b) ↔ ValueFits x v := by
  cases v with
  | date d =>
    simp only [valueOut, mapOk, nanos_ok, ValueFits, Value.date.injEq, forall_eq']
    exact ⟨fun ⟨_, _, ⟨h, _⟩, _⟩ => h, fun h => ⟨_, d, ⟨h, rfl⟩, rfl⟩⟩
  | lifecycle l => cases l <;> simp [valueOut, ValueFits]
  | _ => simp [valueOut, ValueFits]

/-- What is written stands for what comes back. -/
theorem valueOut_means (x : Ext F) (v : Value F U) (b : BValue F U) (h : valueOut x v = .ok b) : Means b (comesBack v) := by
  rw [← valueIn_ok]
  cases v with
  | date d =>
    obtain ⟨n, hn, rfl⟩ := mapOk.1 h
    rw [← ((nanos_ok _ _ _).1 hn).2]
    rfl
  | lifecycle l =>
    cases l with
    | braf l => rw [← Except.ok.inj h]; show Except.ok _ = _; rw [brafIn_out]; rfl
    | standard l => rw [← Except.ok.inj h]; show Except.ok _ = _; rw [standardIn_out]; rfl
  | _ => rw [← Except.ok.inj h]; rfl

theorem means_unique {b : BValue F U} {v w : Value F U} (hv : Means b v) (hw : Means b w) : v = w := by
  have h := (valueIn_ok _ _).2 hv
  rw [(valueIn_ok _ _).2 hw] at h
  exact (Except.ok.inj h).symm

theorem pairOut_ok (x : Ext F) (kv : String × Value F U) (p : BValue F U × BValue F U) (h : pairOut x kv = .ok p) :
    p.1 = .str kv.1 ∧ Means p.2 (comesBack kv.2) := by
  obtain ⟨b, hb, rfl⟩ := mapOk.1 h
  exact ⟨rfl, valueOut_means x _ _ hb⟩

theorem pairOut_exists (x : Ext F) (kv : String × Value F U) : (∃ p, pairOut x kv = .ok p) ↔ ValueFits x kv.2 := by
  rw [← valueOut_exists]
  constructor
  · rintro ⟨p, h⟩
    obtain ⟨b, hb, _⟩ := mapOk.1 h
    exact ⟨b, hb⟩
  · rintro ⟨b, hb⟩
    exact ⟨_, mapOk.2 ⟨b, hb, rfl⟩⟩

theorem f2_right {A B : Type} {R : A → B → Prop} {l : List A} {r : List B} (h : List.Forall₂ R l r) : ∀ b ∈ r, ∃ a ∈ l, R a b := by
  induction h with
  | nil => simp
  | cons h1 _ ih =>
    intro b hb
    rcases List.mem_cons.1 hb with rfl | hb
    · exact ⟨_, List.mem_cons_self, h1⟩
    · obtain ⟨a, ha, h⟩ := ih b hb
      exact ⟨a, List.mem_cons_of_mem _ ha, h⟩

theorem f2_left {A B : Type} {R : A → B → Prop} {l : List A} {r : List B} (h : List.Forall₂ R l r) : ∀ a ∈ l, ∃ b ∈ r, R a b := by
  induction h with
  | nil => simp
  | cons h1 _ ih =>
    intro b hb
    rcases List.mem_cons.1 hb with rfl | hb
    · exact ⟨_, List.mem_cons_self, h1⟩
    · obtain ⟨a, ha, h⟩ := ih b hb
      exact ⟨a, List.mem_cons_of_mem _ ha, h⟩

/-- Pairs with different keys that were written: reading them gives the same map, but for what comes back of values. -/
theorem pairs_back (x : Ext F) (d : List (String × Value F U)) (hd : Dict.WF d) (ps : List (BValue F U × BValue F U))
    (h : d.mapM (pairOut x) = .ok ps) :
    PairsReadable ps ∧ ∀ m, MapOf ps m → ∀ key w, m.get? key = some w ↔ ∃ v, Dict.get? d key = some v ∧ w = comesBack v := by
  have hf : List.Forall₂ (fun kv (p : BValue F U × BValue F U) => p.1 = .str kv.1 ∧ Means p.2 (comesBack kv.2)) d ps :=
    ((mapMOk _ _ _).1 h).imp fun kv p h => pairOut_ok x kv p h
  clear h
  constructor
  · intro p hp
    obtain ⟨kv, _, h1, h2⟩ := f2_right hf p hp
    exact ⟨⟨_, h1⟩, (valueIn_supported _).1 ⟨_, (valueIn_ok _ _).2 h2⟩⟩
  · intro m hm key w
    rw [hm key w]
    clear hm
    induction hf with
    | nil =>
      constructor
      · rintro ⟨v, ⟨before, after, he, _⟩, _⟩
        simp at he
      · rintro ⟨v, hv, _⟩
        cases hv
    | @cons kv p d ps h1 h2 ih =>
      obtain ⟨k, v⟩ := kv
      obtain ⟨hk, hd⟩ := RsXes.wf_cons hd
      have hps : ∀ u ∈ ps, u.1 = .str key → key ∈ Dict.keys d := by
        intro u hu he
        obtain ⟨kv, hkv, h, _⟩ := f2_right h2 u hu
        rw [h] at he
        rw [← BValue.str.inj he]
        exact List.mem_map.2 ⟨kv, hkv, rfl⟩
      rw [Dict.get?_cons]
      have hcons : ∀ b, LastPair (p :: ps) key b ↔ LastPair ps key b ∨ (p = (.str key, b) ∧ ∀ u ∈ ps, u.1 ≠ .str key) := by
        intro b
        constructor
        · rintro ⟨before, after, he, ha⟩
          cases before with
          | nil =>
            rw [List.nil_append, List.cons.injEq] at he
            rw [he.2]
            exact Or.inr ⟨he.1, ha⟩
          | cons q before =>
            rw [List.cons_append, List.cons.injEq] at he
            exact Or.inl ⟨before, after, he.2, ha⟩
        · rintro (⟨before, after, rfl, ha⟩ | ⟨rfl, ha⟩)
          · exact ⟨p :: before, after, rfl, ha⟩
          · exact ⟨[], ps, rfl, ha⟩
      by_cases he : k = key
      · subst he
        simp only [if_true]
        have hno : ∀ u ∈ ps, u.1 ≠ .str k := fun u hu h => hk (hps u hu h)
        constructor
        · rintro ⟨b, hb, hw⟩
          rcases (hcons b).1 hb with ⟨before, after, rfl, _⟩ | ⟨rfl, _⟩
          · exact absurd rfl (hno (.str k, b) (by simp))
          · exact ⟨v, rfl, means_unique hw h1.2⟩
        · rintro ⟨v', hv, rfl⟩
          rw [← Option.some.inj hv]
          exact ⟨p.2, (hcons p.2).2 (Or.inr ⟨by rw [← h1.1], hno⟩), h1.2⟩
      · rw [if_neg he, ← ih hd]
        constructor
        · rintro ⟨b, hb, hw⟩
          rcases (hcons b).1 hb with hb | ⟨rfl, _⟩
          · exact ⟨b, hb, hw⟩
          · exact absurd (BValue.str.inj h1.1).symm he
        · rintro ⟨b, hb, hw⟩
          exact ⟨b, (hcons b).2 (Or.inl hb), hw⟩

theorem isNotDefault_iff [DecidableEq U] (x : Ext F) (l : Log F U) (kv : String × Value F U) :
    isNotDefault x l kv = true ↔ ¬ IsDefault x l kv.1 kv.2 := by
  unfold isNotDefault IsDefault
  cases hg : l.globals.get? "event" with
  | none => simp
  | some defaults =>
    cases hd : defaults.get? kv.1 with
    | none => simp [hd]
    | some d => simp [hd, ← same_iff]

theorem ordered_wf (e : Event F U) (h : ∀ p, e.payload = some p → Dict.WF p) : Dict.WF e.ordered := by
  unfold Event.ordered
  cases hp : e.payload with
  | none => exact Dict.WF_nil
  | some p => exact RsXes.sortByFirst_wf p (h p hp)

theorem ordered_get (e : Event F U) (h : ∀ p, e.payload = some p → Dict.WF p) (key : String) :
    Dict.get? e.ordered key = valueOfKey e key := by
  unfold Event.ordered valueOfKey
  cases hp : e.payload with
  | none => rfl
  | some p => exact RsXes.sortByFirst_get p (h p hp) key

theorem filter_wf {V : Type} (d : List (String × V)) (p : String × V → Bool) (h : Dict.WF d) : Dict.WF (d.filter p) :=
  List.Nodup.sublist (List.Sublist.map _ List.filter_sublist) h

theorem filter_get {V : Type} (d : List (String × V)) (p : String × V → Bool) (h : Dict.WF d) (key : String) (v : V) :
    Dict.get? (d.filter p) key = some v ↔ Dict.get? d key = some v ∧ p (key, v) = true := by
  rw [Dict.get?_eq_some_iff (filter_wf d p h), Dict.get?_eq_some_iff h, List.mem_filter]

theorem eventOut_ok [DecidableEq U] (x : Ext F) (l : Log F U) (e : Event F U) (b : BEvent F U) : eventOut x l e = .ok b ↔
    ∃ ps, x.fits e.date = true ∧ (e.ordered.filter (isNotDefault x l)).mapM (pairOut x) = .ok ps ∧ b = ⟨.str e.name, e.date, some ps⟩ := by
  unfold eventOut
  constructor
  · intro h
    obtain ⟨n, hn, h⟩ := bindOk.1 h
    obtain ⟨ps, hp, h⟩ := bindOk.1 h
    rw [pureOk] at h
    obtain ⟨h1, rfl⟩ := (nanos_ok _ _ _).1 hn
    exact ⟨ps, h1, hp, h.symm⟩
  · rintro ⟨ps, h1, h2, rfl⟩
    exact bindOk.2 ⟨_, (nanos_ok _ _ _).2 ⟨h1, rfl⟩, bindOk.2 ⟨ps, h2, pureOk.2 rfl⟩⟩

theorem event_back [DecidableEq U] (x : Ext F) (l : Log F U) (e : Event F U) (hw : ∀ p, e.payload = some p → Dict.WF p)
    (b : BEvent F U) (h : eventOut x l e = .ok b) :
    (IsText b.name ∧ ∀ vs, b.attributes = some vs → PairsReadable vs) ∧ ∀ e', EventRead b e' → EventBack x l e e' := by
  obtain ⟨ps, _, hps, rfl⟩ := (eventOut_ok x l e b).1 h
  obtain ⟨h1, h2⟩ := pairs_back x _ (filter_wf _ _ (ordered_wf e hw)) ps hps
  refine ⟨⟨⟨_, rfl⟩, ?_⟩, ?_⟩
  · intro vs hvs
    rw [← Option.some.inj hvs]; exact h1
  · rintro ⟨name, date, payload⟩ ⟨hn, hd, hp⟩
    cases hp with
    | @some _ m hm =>
      refine ⟨(BValue.str.inj hn).symm, hd, ⟨m, rfl⟩, ?_⟩
      intro key w
      show Dict.get? m key = some w ↔ _
      rw [h2 m hm key w]
      simp only [filter_get _ _ (ordered_wf e hw), ordered_get e hw, isNotDefault_iff, and_assoc]

theorem eventOut_exists [DecidableEq U] (x : Ext F) (l : Log F U) (e : Event F U) (hw : ∀ p, e.payload = some p → Dict.WF p) :
    (∃ b, eventOut x l e = .ok b) ↔
    x.fits e.date = true ∧ ∀ key v, valueOfKey e key = some v → ¬ IsDefault x l key v → ValueFits x v := by
  simp only [eventOut_ok x l e]
  have : (∃ ps, (e.ordered.filter (isNotDefault x l)).mapM (pairOut x) = .ok ps) ↔
      ∀ key v, valueOfKey e key = some v → ¬ IsDefault x l key v → ValueFits x v := by
    rw [mapM_exists]
    constructor
    · intro h key v hv hd
      have hm : (key, v) ∈ e.ordered.filter (isNotDefault x l) := by
        rw [List.mem_filter, ← Dict.get?_eq_some_iff (ordered_wf e hw), ordered_get e hw]
        exact ⟨hv, (isNotDefault_iff _ _ _).2 hd⟩
      exact (pairOut_exists x _).1 (h _ hm)
    · rintro h ⟨key, v⟩ hm
      rw [List.mem_filter, ← Dict.get?_eq_some_iff (ordered_wf e hw), ordered_get e hw] at hm
      exact (pairOut_exists x _).2 (h key v hm.1 ((isNotDefault_iff _ _ _).1 hm.2))
  rw [← this]
  constructor
  · rintro ⟨b, ps, h1, h2, _⟩
    exact ⟨h1, ps, h2⟩
  · rintro ⟨h1, ps, h2⟩
    exact ⟨_, ps, h1, h2, rfl⟩

theorem parseKind_ok (s : String) (k : Kind) : parseKind s = .ok k ↔ s = scopeOf k := by
  unfold parseKind
  by_cases h1 : s = "event"
  · subst h1; cases k <;> decide
  by_cases h2 : s = "trace"
  · subst h2; cases k <;> decide
  by_cases h3 : s = "log"
  · subst h3; cases k <;> decide
  simp only [h1, h2, h3, if_false, reduceCtorEq, false_iff]
  cases k <;> simpa [scopeOf]

theorem parseKind_exists (s : String) : (∃ k, parseKind s = .ok k) ↔ KnownScope s := by
  simp only [parseKind_ok, KnownScope]
  constructor
  · rintro ⟨k, rfl⟩
    cases k <;> simp [scopeOf]
  · rintro (rfl | rfl | rfl)
    · exact ⟨.event, rfl⟩
    · exact ⟨.trace, rfl⟩
    · exact ⟨.log, rfl⟩

theorem globalsOut_ok (x : Ext F) (l : Log F U) (gs : List (BGlobal F U)) : globalsOut x l = .ok gs ↔
    List.Forall₂ (fun g (b : BGlobal F U) => g.1 = scopeOf b.kind ∧ g.2.mapM (pairOut x) = .ok b.globals) (orderedGlobals l) gs := by
  unfold globalsOut
  rw [mapMOk]
  have : ∀ (g : String × List (String × Value F U)) (b : BGlobal F U), ((do
      let kind ← parseKind g.1
      let values ← g.2.mapM (pairOut x)
      return ⟨kind, values⟩ : Except Failure (BGlobal F U)) = .ok b) ↔ g.1 = scopeOf b.kind ∧ g.2.mapM (pairOut x) = .ok b.globals := by
    intro g b
    constructor
    · intro h
      obtain ⟨k, hk, h⟩ := bindOk.1 h
      obtain ⟨vs, hv, h⟩ := bindOk.1 h
      rw [pureOk] at h
      subst h
      exact ⟨(parseKind_ok _ _).1 hk, hv⟩
    · rintro ⟨h1, h2⟩
      exact bindOk.2 ⟨_, (parseKind_ok _ _).2 h1, bindOk.2 ⟨_, h2, pureOk.2 rfl⟩⟩
  simp only [this]

theorem orderedGlobals_mem (l : Log F U) (g : String × List (String × Value F U)) :
    g ∈ orderedGlobals l ↔ ∃ m, (g.1, m) ∈ l.globals ∧ g.2 = sortByFirst m := by
  unfold orderedGlobals
  rw [(RsXes.sortByFirst_perm _).mem_iff, List.mem_map]
  constructor
  · rintro ⟨⟨s, m⟩, h, rfl⟩
    exact ⟨m, h, rfl⟩
  · rintro ⟨m, h, h2⟩
    exact ⟨(g.1, m), h, by rw [← h2]⟩

theorem writeLog_ok [DecidableEq U] (x : Ext F) (l : Log F U) (b : BLog F U) : writeLog x l = .ok b ↔
    ∃ gs ps vs, globalsOut x l = .ok gs ∧ propertiesOut x l = .ok ps ∧ tracesOut x l = .ok vs
      ∧ b = ⟨1, some (classifiersOut l), some (extensionsOut l), some gs, some ps, vs⟩ := by
  unfold writeLog
  constructor
  · intro h
    obtain ⟨gs, h1, h⟩ := bindOk.1 h
    obtain ⟨ps, h2, h⟩ := bindOk.1 h
    obtain ⟨vs, h3, h⟩ := bindOk.1 h
    rw [pureOk] at h
    exact ⟨gs, ps, vs, h1, h2, h3, h.symm⟩
  · rintro ⟨gs, ps, vs, h1, h2, h3, rfl⟩
    exact bindOk.2 ⟨_, h1, bindOk.2 ⟨_, h2, bindOk.2 ⟨_, h3, pureOk.2 rfl⟩⟩⟩

theorem tracesOut_ok [DecidableEq U] (x : Ext F) (l : Log F U) (vs : List (BVariant F U)) : tracesOut x l = .ok vs ↔
    List.Forall₂ (fun t (v : BVariant F U) => v.tracesCount = 1 ∧ v.metadata = [] ∧
      List.Forall₂ (fun e b => eventOut x l e = .ok b) t v.events) l.traces vs := by
  unfold tracesOut
  rw [mapMOk]
  have : ∀ (t : List (Event F U)) (v : BVariant F U), ((do
      let events ← t.mapM (eventOut x l)
      return ⟨1, [], events⟩ : Except Failure (BVariant F U)) = .ok v) ↔ v.tracesCount = 1 ∧ v.metadata = [] ∧
      List.Forall₂ (fun e b => eventOut x l e = .ok b) t v.events := by
    intro t v
    constructor
    · intro h
      obtain ⟨es, he, h⟩ := bindOk.1 h
      rw [pureOk] at h
      subst h
      exact ⟨rfl, rfl, (mapMOk _ _ _).1 he⟩
    · rintro ⟨h1, h2, h3⟩
      refine bindOk.2 ⟨_, (mapMOk _ _ _).2 h3, pureOk.2 ?_⟩
      obtain ⟨c, m, es⟩ := v
      simp only at h1 h2 ⊢
      rw [h1, h2]
  simp only [this]

theorem writeLog_exists [DecidableEq U] (x : Ext F) (l : Log F U) (hl : LogKeys l) : (∃ b, writeLog x l = .ok b) ↔ Writable x l := by
  have hg : (∃ gs, globalsOut x l = .ok gs) ↔ ∀ g ∈ l.globals, KnownScope g.1 ∧ ∀ kv ∈ g.2, ValueFits x kv.2 := by
    unfold globalsOut
    rw [mapM_exists]
    constructor
    · rintro h ⟨s, m⟩ hm
      obtain ⟨b, hb⟩ := h (s, sortByFirst m) ((orderedGlobals_mem _ _).2 ⟨m, hm, rfl⟩)
      obtain ⟨k, hk, hb⟩ := bindOk.1 hb
      obtain ⟨vs, hv, _⟩ := bindOk.1 hb
      refine ⟨(parseKind_exists _).1 ⟨k, hk⟩, ?_⟩
      intro kv hkv
      exact (pairOut_exists x kv).1 ((mapM_exists _ _).1 ⟨vs, hv⟩ kv ((RsXes.sortByFirst_perm m).mem_iff.2 hkv))
    · rintro h ⟨s, m'⟩ ho
      obtain ⟨m, hm, hs⟩ := (orderedGlobals_mem _ _).1 ho
      simp only at hm hs
      subst hs
      obtain ⟨h1, h2⟩ := h _ hm
      obtain ⟨k, hk⟩ := (parseKind_exists _).2 h1
      obtain ⟨vs, hv⟩ := (mapM_exists (pairOut x) (sortByFirst m)).2 fun kv hkv =>
        (pairOut_exists x kv).2 (h2 kv ((RsXes.sortByFirst_perm m).mem_iff.1 hkv))
      exact ⟨_, bindOk.2 ⟨k, hk, bindOk.2 ⟨vs, hv, pureOk.2 rfl⟩⟩⟩
  have hp : (∃ ps, propertiesOut x l = .ok ps) ↔ ∀ p ∈ l.properties, ValueFits x p.2 := by
    unfold propertiesOut
    simp only [mapM_exists, pairOut_exists]
  have ht : (∃ vs, tracesOut x l = .ok vs) ↔ ∀ t ∈ l.traces, ∀ e ∈ t,
      x.fits e.date = true ∧ ∀ key v, valueOfKey e key = some v → ¬ IsDefault x l key v → ValueFits x v := by
    unfold tracesOut
    rw [mapM_exists]
    constructor
    · intro h t hm e he
      obtain ⟨v, hv⟩ := h t hm
      obtain ⟨es, hes, _⟩ := bindOk.1 hv
      exact (eventOut_exists x l e (hl.2.2 t hm e he)).1 ((mapM_exists _ _).1 ⟨es, hes⟩ e he)
    · intro h t hm
      obtain ⟨es, hes⟩ := (mapM_exists (eventOut x l) t).2 fun e he => (eventOut_exists x l e (hl.2.2 t hm e he)).2 (h t hm e he)
      exact ⟨_, bindOk.2 ⟨es, hes, pureOk.2 rfl⟩⟩
  constructor
  · rintro ⟨b, h⟩
    obtain ⟨gs, ps, vs, h1, h2, h3, _⟩ := (writeLog_ok _ _ _).1 h
    exact ⟨fun g hm => (hg.1 ⟨gs, h1⟩ g hm).1, fun g hm => (hg.1 ⟨gs, h1⟩ g hm).2, hp.1 ⟨ps, h2⟩,
      fun t hm e he => (ht.1 ⟨vs, h3⟩ t hm e he).1, fun t hm e he => (ht.1 ⟨vs, h3⟩ t hm e he).2⟩
  · rintro ⟨h1, h2, h3, h4, h5⟩
    obtain ⟨gs, hg⟩ := hg.2 fun g hm => ⟨h1 g hm, h2 g hm⟩
    obtain ⟨ps, hp⟩ := hp.2 h3
    obtain ⟨vs, ht⟩ := ht.2 fun t hm e he => ⟨h4 t hm e he, h5 t hm e he⟩
    exact ⟨_, (writeLog_ok _ _ _).2 ⟨gs, ps, vs, hg, hp, ht, rfl⟩⟩

theorem forall₂_map_left_eq {A B C : Type} {R : A → B → Prop} (f : C → A) {l : List C} {r : List B}
    (h : List.Forall₂ R (l.map f) r) : List.Forall₂ (fun c b => R (f c) b) l r := List.forall₂_map_left_iff.1 h

theorem forall₂_eq {A : Type} {l r : List A} (h : List.Forall₂ (fun a b => b = a) l r) : r = l := by
  induction h with
  | nil => rfl
  | cons h _ ih => rw [h, ih]

theorem forall₂_comp {A B C : Type} {R : A → B → Prop} {S : B → C → Prop} {T : A → C → Prop} {l : List A} {m : List B} {r : List C}
    (h1 : List.Forall₂ R l m) (h2 : List.Forall₂ S m r) (h : ∀ a ∈ l, ∀ b c, R a b → S b c → T a c) : List.Forall₂ T l r := by
  induction h1 generalizing r with
  | nil => cases h2; exact .nil
  | cons ha _ ih =>
    cases h2 with
    | cons hb hr => exact .cons (h _ (by simp) _ _ ha hb) (ih hr fun a hm => h a (by simp [hm]))

theorem globals_back (x : Ext F) (l l' : Log F U) (hl : LogKeys l) (gs : List (BGlobal F U)) (h : globalsOut x l = .ok gs)
    (hread : ∀ scope m, l'.globals.get? scope = some m →
      ∃ before g after, gs = before ++ g :: after ∧ scopeOf g.kind = scope ∧ (∀ h ∈ after, scopeOf h.kind ≠ scope) ∧ MapOf g.globals m)
    (hscope : ∀ g ∈ gs, ∃ m, l'.globals.get? (scopeOf g.kind) = some m) :
    (∀ scope, (∃ m, l'.globals.get? scope = some m) ↔ ∃ m, l.globals.get? scope = some m)
    ∧ ∀ scope key w, (∃ m, l'.globals.get? scope = some m ∧ m.get? key = some w) ↔
      ∃ m v, l.globals.get? scope = some m ∧ m.get? key = some v ∧ w = comesBack v := by
  have hf := (globalsOut_ok x l gs).1 h
  have hin : ∀ scope m, l'.globals.get? scope = some m → ∃ m0, l.globals.get? scope = some m0
      ∧ ∀ key w, m.get? key = some w ↔ ∃ v, m0.get? key = some v ∧ w = comesBack v := by
    intro scope m hm
    obtain ⟨before, g, after, he, hs, _, hmo⟩ := hread scope m hm
    obtain ⟨⟨s, d⟩, ho, h1, h2⟩ := f2_right hf g (by rw [he]; simp)
    obtain ⟨m0, hm0, hd⟩ := (orderedGlobals_mem _ _).1 ho
    simp only at h1 h2 hm0 hd
    subst hd
    rw [h1, hs] at hm0
    have hwf : Dict.WF m0 := hl.2.1 _ hm0
    refine ⟨m0, Dict.get?_of_mem hl.1 hm0, ?_⟩
    intro key w
    rw [(pairs_back x _ (RsXes.sortByFirst_wf m0 hwf) _ h2).2 m hmo key w]
    simp only [RsXes.sortByFirst_get m0 hwf]
  have hout : ∀ scope m0, l.globals.get? scope = some m0 → ∃ m, l'.globals.get? scope = some m := by
    intro scope m0 hm0
    obtain ⟨g, hg, h1, _⟩ := f2_left hf (scope, sortByFirst m0) ((orderedGlobals_mem _ _).2 ⟨m0, Dict.mem_of_get? hm0, rfl⟩)
    have h1 : scope = scopeOf g.kind := h1
    rw [h1]
    exact hscope g hg
  constructor
  · intro scope
    constructor
    · rintro ⟨m, hm⟩
      obtain ⟨m0, h0, _⟩ := hin scope m hm
      exact ⟨m0, h0⟩
    · rintro ⟨m0, h0⟩
      exact hout scope m0 h0
  · intro scope key w
    constructor
    · rintro ⟨m, hm, hw⟩
      obtain ⟨m0, h0, hk⟩ := hin scope m hm
      obtain ⟨v, hv, hw⟩ := (hk key w).1 hw
      exact ⟨m0, v, h0, hv, hw⟩
    · rintro ⟨m0, v, h0, hv, hw⟩
      obtain ⟨m, hm⟩ := hout scope m0 h0
      obtain ⟨m0', h0', hk⟩ := hin scope m hm
      rw [h0] at h0'
      rw [← Option.some.inj h0'] at hk
      exact ⟨m, hm, (hk key w).2 ⟨v, hv, hw⟩⟩

theorem write_read [DecidableEq U] (x : Ext F) (l : Log F U) (hl : LogKeys l) (b : BLog F U) (h : writeLog x l = .ok b) :
    ∃ l', readLog b = .ok l' ∧ LogBack x l l' := by
  obtain ⟨gs, ps, vs, hg, hp, ht, rfl⟩ := (writeLog_ok _ _ _).1 h
  have hgf := (globalsOut_ok x l gs).1 hg
  have hpf := (mapMOk _ _ _).1 hp
  have htf := (tracesOut_ok x l vs).1 ht
  have hr : Readable (⟨1, some (classifiersOut l), some (extensionsOut l), some gs, some ps, vs⟩ : BLog F U) := by
    refine ⟨?_, ?_, ?_, ?_, ?_⟩
    · intro cs hcs c hc
      rw [← Option.some.inj hcs] at hc
      obtain ⟨c0, _, rfl⟩ := List.mem_map.1 hc
      refine ⟨⟨_, rfl⟩, ?_⟩
      intro k hk
      obtain ⟨s, _, rfl⟩ := List.mem_map.1 hk
      exact ⟨s, rfl⟩
    · intro ps' hps p hm
      rw [← Option.some.inj hps] at hm
      obtain ⟨kv, _, h⟩ := f2_right hpf p hm
      obtain ⟨h1, h2⟩ := pairOut_ok x kv p h
      exact ⟨⟨_, h1⟩, (valueIn_supported _).1 ⟨_, (valueIn_ok _ _).2 h2⟩⟩
    · intro es hes e he
      rw [← Option.some.inj hes] at he
      obtain ⟨e0, _, rfl⟩ := List.mem_map.1 he
      exact ⟨⟨_, rfl⟩, ⟨_, rfl⟩, ⟨_, rfl⟩⟩
    · intro gs' hgs g hm
      rw [← Option.some.inj hgs] at hm
      obtain ⟨⟨s, d⟩, ho, _, h2⟩ := f2_right hgf g hm
      obtain ⟨m0, hm0, hd⟩ := (orderedGlobals_mem _ _).1 ho
      simp only at h2 hm0 hd
      subst hd
      exact (pairs_back x _ (RsXes.sortByFirst_wf m0 (hl.2.1 _ hm0)) _ h2).1
    · intro v hv e he
      obtain ⟨t, hm, _, _, hes⟩ := f2_right htf v hv
      obtain ⟨e0, he0, h⟩ := f2_right hes e he
      exact (event_back x l e0 (hl.2.2 t hm e0 he0) e h).1
  obtain ⟨l', hl'⟩ := (readLog_exists _).2 hr
  have hread := readLog_read _ _ hl'
  obtain ⟨hs, hgl⟩ := globals_back x l l' hl gs hg hread.globals hread.scopes
  refine ⟨l', hl', ⟨?_, ?_, ?_, hs, hgl, ?_⟩⟩
  · have := forall₂_map_left_eq _ (show List.Forall₂ _ (classifiersOut l) _ from hread.classifiers)
    refine forall₂_eq (this.imp ?_)
    rintro ⟨n, ks⟩ ⟨n', ks'⟩ ⟨h1, h2⟩
    have hinj : Function.Injective (BValue.str : String → BValue F U) := fun a b h => BValue.str.inj h
    have h2 : ks = ks' := List.map_injective_iff.2 hinj h2
    rw [h2, show n = n' from BValue.str.inj h1]
  · have := forall₂_map_left_eq _ (show List.Forall₂ _ (extensionsOut l) _ from hread.extensions)
    refine forall₂_eq (this.imp ?_)
    rintro ⟨n, p, u⟩ ⟨n', p', u'⟩ ⟨h1, h2, h3⟩
    rw [show n = n' from BValue.str.inj h1, show p = p' from BValue.str.inj h2, show u = u' from BValue.str.inj h3]
  · refine forall₂_eq (List.forall₂_map_left_iff.2 ?_)
    refine forall₂_comp hpf hread.properties ?_
    rintro ⟨n, v⟩ _ p ⟨n', v'⟩ h1 ⟨h2, h3⟩
    obtain ⟨h4, h5⟩ := pairOut_ok x _ p h1
    rw [h4] at h2
    rw [← show n = n' from BValue.str.inj h2, show v' = comesBack v from means_unique h3 h5]
  · refine forall₂_comp htf hread.traces ?_
    rintro t hm v t' ⟨_, _, h1⟩ h2
    refine forall₂_comp h1 h2 ?_
    intro e he b e' h1 h2
    exact (event_back x l e (hl.2.2 t hm e he) b h1).2 e' h2

theorem forall₂_iff {A B : Type} {R S : A → B → Prop} {P : A → Prop} {l : List A} {r : List B} (h : List.Forall₂ R l r)
    (hi : ∀ a ∈ l, ∀ b, R a b → (S a b ↔ P a)) : List.Forall₂ S l r ↔ ∀ a ∈ l, P a := by
  induction h with
  | nil => simp
  | cons h1 _ ih =>
    rw [List.forall₂_cons, List.forall_mem_cons, hi _ (by simp) _ h1, ih fun a hm => hi a (by simp [hm])]

theorem event_same_iff (x : Ext F) (l : Log F U) (e e' : Event F U) (h : EventBack x l e e') :
    (∀ key, valueOfKey e' key = valueOfKey e key) ↔
    ∀ key v, valueOfKey e key = some v → ¬ IsDefault x l key v ∧ ∀ n, v ≠ .timestamp n := by
  constructor
  · intro hs key v hv
    have h1 := hs key
    rw [hv] at h1
    obtain ⟨v', hv', hd, hb⟩ := (h.attributes key v).1 h1
    rw [hv] at hv'
    rw [← Option.some.inj hv'] at hd hb
    refine ⟨hd, ?_⟩
    rintro n rfl
    cases hb
  · intro hs key
    cases hv : valueOfKey e key with
    | none =>
      cases hv' : valueOfKey e' key with
      | none => rfl
      | some w =>
        obtain ⟨v, h1, _⟩ := (h.attributes key w).1 hv'
        rw [hv] at h1
        cases h1
    | some v =>
      obtain ⟨hd, ht⟩ := hs key v hv
      refine (h.attributes key v).2 ⟨v, hv, hd, ?_⟩
      cases v with
      | timestamp n => exact absurd rfl (ht n)
      | _ => rfl

/-! ### Which failure -/

theorem bindErr {E A B : Type} {e : E} {x : Except E A} {f : A → Except E B} (hx : x ≠ .error e) (hf : ∀ a, f a ≠ .error e) :
    (x >>= f) ≠ .error e := by
  cases x with
  | error e' => simpa [bind, Except.bind] using hx
  | ok a => exact hf a

theorem mapErr {E A B : Type} {e : E} {x : Except E A} {f : A → B} (hx : x ≠ .error e) : x.map f ≠ .error e := by
  cases x with
  | error e' => simpa [Except.map] using hx
  | ok a => simp [Except.map]

theorem mapMErr {E A B : Type} {e : E} (f : A → Except E B) (l : List A) (h : ∀ a ∈ l, f a ≠ .error e) : l.mapM f ≠ .error e := by
  induction l with
  | nil => simp [pure, Except.pure]
  | cons a l ih =>
    rw [List.mapM_cons]
    exact bindErr (h a (by simp)) fun b => bindErr (ih fun a hm => h a (by simp [hm])) fun r => by simp [pure, Except.pure]

theorem foldlMErr {E A B : Type} {e : E} (f : B → A → Except E B) (l : List A) (h : ∀ a ∈ l, ∀ b, f b a ≠ .error e) (b : B) :
    l.foldlM f b ≠ .error e := by
  induction l generalizing b with
  | nil => simp [pure, Except.pure]
  | cons a l ih =>
    rw [List.foldlM_cons]
    exact bindErr (h a (by simp) b) fun b' => ih (fun a hm => h a (by simp [hm])) b'

theorem pureErr {E A : Type} {e : E} (a : A) : (pure a : Except E A) ≠ .error e := by simp [pure, Except.pure]

theorem readLog_err (e : Failure) (b : BLog F U)
    (hc : ∀ cs, b.classifiers = some cs → ∀ c ∈ cs, classifierIn c ≠ .error e)
    (hp : ∀ ps, b.properties = some ps → ∀ p ∈ ps, stringIn p.1 ≠ .error e ∧ valueIn p.2 ≠ .error e)
    (hx : ∀ es, b.extensions = some es → ∀ c ∈ es, extensionIn c ≠ .error e)
    (hg : ∀ gs, b.globals = some gs → ∀ g ∈ gs, ∀ p ∈ g.globals, stringIn p.1 ≠ .error e ∧ valueIn p.2 ≠ .error e)
    (he : ∀ v ∈ b.variants, ∀ ev ∈ v.events, stringIn ev.name ≠ .error e
      ∧ ∀ vs, ev.attributes = some vs → ∀ p ∈ vs, stringIn p.1 ≠ .error e ∧ valueIn p.2 ≠ .error e) :
    readLog b ≠ .error e := by
  have hvec : ∀ {A B : Type} (f : A → Except Failure B) (given : Option (List A)), (∀ l, given = some l → ∀ a ∈ l, f a ≠ .error e) →
      vectorIn f given ≠ .error e := by
    intro A B f given h
    cases given with
    | none => simp [vectorIn]
    | some l => exact mapMErr f l (h l rfl)
  have hmap : ∀ vs : List (BValue F U × BValue F U), (∀ p ∈ vs, stringIn p.1 ≠ .error e ∧ valueIn p.2 ≠ .error e) →
      mapIn vs ≠ .error e := by
    intro vs h
    exact foldlMErr _ _ (fun p hm d => bindErr (h p hm).1 fun _ => bindErr (h p hm).2 fun _ => pureErr _) _
  unfold readLog
  refine bindErr (hvec _ _ hc) fun _ => bindErr (hvec _ _ fun ps hps p hm => ?_) fun _ => bindErr (hvec _ _ hx) fun _ =>
    bindErr ?_ fun _ => bindErr ?_ fun _ => pureErr _
  · exact bindErr (hp ps hps p hm).1 fun _ => bindErr (hp ps hps p hm).2 fun _ => pureErr _
  · refine foldlMErr _ _ (fun g hm d => bindErr (hmap _ ?_) fun _ => pureErr _) _
    cases hb : b.globals with
    | none => rw [hb] at hm; simp at hm
    | some gs => rw [hb] at hm; exact hg gs hb g hm
  · refine mapMErr _ _ fun v hv => mapMErr _ _ fun ev hev => ?_
    refine bindErr (he v hv ev hev).1 fun _ => bindErr ?_ fun _ => pureErr _
    cases ha : ev.attributes with
    | none => simp [payloadIn]
    | some vs => exact mapErr (hmap vs ((he v hv ev hev).2 vs ha))

theorem stringIn_no_panic (v : BValue F U) : stringIn v ≠ .error .panicked := by cases v <;> simp [stringIn]

theorem stringIn_no_conversion (v : BValue F U) (h : IsText v) : stringIn v ≠ .error .conversion := by
  obtain ⟨s, rfl⟩ := h
  simp [stringIn]

theorem valueIn_no_conversion (v : BValue F U) : valueIn v ≠ .error .conversion := by cases v <;> simp [valueIn]

theorem valueIn_no_panic (v : BValue F U) (h : Supported v) : valueIn v ≠ .error .panicked := by
  obtain ⟨w, hw⟩ := (valueIn_supported v).2 h
  rw [hw]; simp

theorem pairOut_no_panic (x : Ext F) (kv : String × Value F U) (h : ValueFits x kv.2) : pairOut x kv ≠ .error .panicked := by
  obtain ⟨p, hp⟩ := (pairOut_exists x kv).2 h
  rw [hp]; simp

theorem parseKind_no_panic (s : String) : parseKind s ≠ .error .panicked := by
  unfold parseKind
  split
  · simp
  · split
    · simp
    · split <;> simp

theorem writeLog_other_scope [DecidableEq U] (x : Ext F) (l : Log F U)
    (hs : ∃ g ∈ l.globals, ¬ KnownScope g.1) (hf : ∀ g ∈ l.globals, ∀ kv ∈ g.2, ValueFits x kv.2) :
    writeLog x l = .error .conversion := by
  have hg : globalsOut x l ≠ .error .panicked := by
    refine mapMErr _ _ ?_
    rintro ⟨s, d⟩ ho
    obtain ⟨m, hm, hd⟩ := (orderedGlobals_mem _ _).1 ho
    simp only at hm hd
    subst hd
    exact bindErr (parseKind_no_panic _) fun _ => bindErr (mapMErr _ _ fun kv hkv =>
      pairOut_no_panic x kv (hf (s, m) hm kv ((RsXes.sortByFirst_perm m).mem_iff.1 hkv))) fun _ => pureErr _
  cases h : globalsOut x l with
  | error e =>
    cases e with
    | panicked => exact absurd h hg
    | conversion => unfold writeLog; rw [h]; rfl
  | ok gs =>
    obtain ⟨⟨s, m⟩, hm, hk⟩ := hs
    obtain ⟨b, _, h1, _⟩ := f2_left ((globalsOut_ok x l gs).1 h) (s, sortByFirst m) ((orderedGlobals_mem _ _).2 ⟨m, hm, rfl⟩)
    exact absurd ((parseKind_exists s).1 ⟨b.kind, (parseKind_ok _ _).2 h1⟩) hk

theorem writeLog_panic [DecidableEq U] (x : Ext F) (l : Log F U) (hs : ∀ g ∈ l.globals, KnownScope g.1) :
    writeLog x l ≠ .error .conversion := by
  have hv : ∀ kv : String × Value F U, pairOut x kv ≠ .error .conversion := by
    intro kv
    refine mapErr ?_
    cases kv.2 with
    | date d =>
      refine mapErr ?_
      unfold nanos
      split <;> simp
    | lifecycle l => cases l <;> simp [valueOut]
    | _ => simp [valueOut]
  have hn : ∀ d, nanos x d ≠ .error .conversion := by
    intro d
    unfold nanos
    split <;> simp
  unfold writeLog
  refine bindErr (mapMErr _ _ ?_) fun _ => bindErr (mapMErr _ _ fun p _ => hv p) fun _ => bindErr (mapMErr _ _ fun t _ =>
    bindErr (mapMErr _ _ fun e _ => bindErr (hn _) fun _ => bindErr (mapMErr _ _ fun p _ => hv p) fun _ => pureErr _) fun _ => pureErr _)
      fun _ => pureErr _
  rintro ⟨s, d⟩ hm
  obtain ⟨m, hm, _⟩ := (orderedGlobals_mem _ _).1 hm
  refine bindErr ?_ fun _ => bindErr (mapMErr _ _ fun p _ => hv p) fun _ => pureErr _
  obtain ⟨k, hk⟩ := (parseKind_exists s).2 (hs _ hm)
  show parseKind s ≠ _
  rw [hk]; simp

end Ficus.Rs.Bx
