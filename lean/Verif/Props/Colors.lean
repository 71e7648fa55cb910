import Verif.Spec.Colors
import Verif.Proofs.Dict
import Mathlib.Data.Finset.Card
import Mathlib.Data.Finset.Prod
import Mathlib.Data.List.Nodup

/-! Properties C44 and C45: unique colours and cached colours. -/

namespace Ficus
open Spec

/-! ### Hexadecimal names -/

theorem hexDigits_small {n : Nat} (h : n < 16) : hexDigits n = [hexDigit n] := by
  rw [hexDigits, if_pos h]

theorem hex2_byte {n : Nat} (h : n < 256) : hex2 n = [hexDigit (n / 16), hexDigit (n % 16)] := by
  by_cases hs : n < 16
  · unfold hex2
    rw [hexDigits_small hs]
    simp only [List.length_cons, List.length_nil, Nat.div_eq_of_lt hs, Nat.mod_eq_of_lt hs]
    rfl
  · unfold hex2
    have : hexDigits n = [hexDigit (n / 16), hexDigit (n % 16)] := by
      rw [hexDigits, if_neg hs, hexDigits_small (by omega)]
      rfl
    rw [this]
    rfl

theorem hexDigit_inj {a b : Nat} (ha : a < 16) (hb : b < 16) (h : hexDigit a = hexDigit b) : a = b := by
  have : ∀ a b : Fin 16, hexDigit a = hexDigit b → a = b := by decide
  have := this ⟨a, ha⟩ ⟨b, hb⟩ h
  exact Fin.mk.inj this

theorem hex2_inj {a b : Nat} (ha : a < 256) (hb : b < 256) (h : hex2 a = hex2 b) : a = b := by
  rw [hex2_byte ha, hex2_byte hb] at h
  simp only [List.cons.injEq, and_true] at h
  have h1 := hexDigit_inj (by omega) (by omega) h.1
  have h2 := hexDigit_inj (by omega) (by omega) h.2
  omega

/-- C44a: different byte triples have different hexadecimal names, all of seven characters. -/
theorem C44_hex_injective (c d : Rgb) (hc : IsByteColor c) (hd : IsByteColor d) :
    (toHex c = toHex d → c = d) ∧ (toHex c).length = 7 := by
  obtain ⟨r, g, b⟩ := c
  obtain ⟨r', g', b'⟩ := d
  obtain ⟨h1, h2, h3⟩ := hc
  obtain ⟨h1', h2', h3'⟩ := hd
  simp only at h1 h2 h3 h1' h2' h3'
  refine ⟨?_, ?_⟩
  · intro h
    have h := String.ofList_injective h
    simp only [List.cons.injEq, true_and] at h
    have hl : ∀ n, n < 256 → (hex2 n).length = 2 := fun n hn => by rw [hex2_byte hn]; rfl
    obtain ⟨h, e3⟩ := List.append_inj' h (by rw [hl _ h3, hl _ h3'])
    obtain ⟨e1, e2⟩ := List.append_inj h (by rw [hl _ h1, hl _ h1'])
    rw [hex2_inj h1 h1' e1, hex2_inj h2 h2' e2, hex2_inj h3 h3' e3]
  · unfold toHex
    simp only
    rw [hex2_byte h1, hex2_byte h2, hex2_byte h3, String.length_ofList]
    rfl

/-- C44b, the bound is needed: beyond bytes names collide. -/
theorem C44_hex_collision_beyond_bytes : toHex (0x111, 0x11, 0x11) = toHex (0x11, 0x111, 0x11) ∧
    ((0x111, 0x11, 0x11) : Rgb) ≠ (0x11, 0x111, 0x11) := by
  have h1 : hexDigits 0x111 = ['1', '1', '1'] := by
    rw [hexDigits, if_neg (by omega), hexDigits, if_neg (by omega), hexDigits, if_pos (by omega)]
    decide
  refine ⟨?_, by decide⟩
  unfold toHex
  simp only
  rw [hex2_byte (n := 0x11) (by omega)]
  unfold hex2
  rw [h1]
  decide

/-! ### The provider -/

theorem drawUnused_done {used : List UsedItem} {draws ds : List Rgb} {c : String}
    (h : drawUnused used draws = .done (c, ds)) :
    UsedItem.text c ∉ used ∧ ∃ pre d, draws = pre ++ d :: ds ∧ c = toHex d ∧ ∀ x ∈ pre, UsedItem.text (toHex x) ∈ used := by
  induction draws with
  | nil => simp [drawUnused] at h
  | cons d draws ih =>
    unfold drawUnused at h
    by_cases hd : UsedItem.text (toHex d) ∈ used
    · rw [if_pos hd] at h
      obtain ⟨h1, pre, x, h2, h3, h4⟩ := ih h
      refine ⟨h1, d :: pre, x, by rw [h2]; rfl, h3, ?_⟩
      intro y hy
      rcases List.mem_cons.1 hy with rfl | hy
      · exact hd
      · exact h4 y hy
    · rw [if_neg hd] at h
      cases h
      exact ⟨hd, [], d, rfl, rfl, fun x hx => by simp at hx⟩

theorem drawUnused_running {used : List UsedItem} {draws : List Rgb} :
    drawUnused used draws = .running ↔ ∀ x ∈ draws, UsedItem.text (toHex x) ∈ used := by
  induction draws with
  | nil => simp [drawUnused]
  | cons d draws ih =>
    unfold drawUnused
    by_cases hd : UsedItem.text (toHex d) ∈ used
    · rw [if_pos hd, ih]
      simp [hd]
    · rw [if_neg hd]
      simp [hd]

theorem drawUnused_ne_overflow {used : List UsedItem} {draws : List Rgb} : drawUnused used draws ≠ .overflow := by
  induction draws with
  | nil => simp [drawUnused]
  | cons d draws ih =>
    unfold drawUnused
    split
    · exact ih
    · simp

theorem nextColor_done {used used' : List UsedItem} {draws ds : List Rgb} {c : String}
    (h : nextColor used draws = .done (c, used', ds)) :
    UsedItem.text c ∉ used ∧ used' = used ++ [.text c] ∧ used.length ≠ 256 ^ 3 ∧ drawUnused used draws = .done (c, ds) := by
  unfold nextColor at h
  split at h
  · simp at h
  · rename_i hl
    cases hd : drawUnused used draws with
    | done r =>
      obtain ⟨c', ds'⟩ := r
      rw [hd] at h
      simp only [Draw.done.injEq, Prod.mk.injEq] at h
      obtain ⟨rfl, rfl, rfl⟩ := h
      exact ⟨(drawUnused_done hd).1, rfl, hl, rfl⟩
    | overflow => rw [hd] at h; simp at h
    | running => rw [hd] at h; simp at h

/-- C44c: a call gives the first drawn colour that is not marked as used and marks it; it stays in its loop as long as
all draws are used colours; otherwise it raises OverflowError, exactly if 256^3 items are marked. -/
theorem C44_next (used : List UsedItem) (draws : List Rgb) :
    (nextColor used draws = .overflow ↔ used.length = 256 ^ 3) ∧
    (nextColor used draws = .running ↔ used.length ≠ 256 ^ 3 ∧ ∀ x ∈ draws, UsedItem.text (toHex x) ∈ used) ∧
    (∀ pre d ds, draws = pre ++ d :: ds → (∀ x ∈ pre, UsedItem.text (toHex x) ∈ used) →
      UsedItem.text (toHex d) ∉ used → used.length ≠ 256 ^ 3 →
      nextColor used draws = .done (toHex d, used ++ [.text (toHex d)], ds)) := by
  refine ⟨?_, ?_, ?_⟩
  · constructor
    · intro h
      by_contra hl
      unfold nextColor at h
      rw [if_neg hl] at h
      cases hd : drawUnused used draws with
      | done r => rw [hd] at h; simp at h
      | overflow => exact drawUnused_ne_overflow hd
      | running => rw [hd] at h; simp at h
    · intro h
      unfold nextColor
      rw [if_pos h]
  · rw [← drawUnused_running]
    unfold nextColor
    by_cases hl : used.length = 256 ^ 3
    · rw [if_pos hl]; simp [hl]
    · rw [if_neg hl]
      cases hd : drawUnused used draws with
      | done r => simp
      | overflow => simp
      | running => simpa using hl
  · intro pre d ds hdraws hpre hd hl
    subst hdraws
    have : drawUnused used (pre ++ d :: ds) = .done (toHex d, ds) := by
      induction pre with
      | nil => rw [List.nil_append, drawUnused, if_neg hd]
      | cons x pre ih =>
        rw [List.cons_append, drawUnused, if_pos (hpre x (by simp))]
        exact ih (fun y hy => hpre y (by simp [hy]))
    unfold nextColor
    rw [if_neg hl, this]

theorem uncached_done {p q : Palette} {c : String} (h : p.uncached = .done (c, q)) :
    ∃ used ds, nextColor p.used p.draws = .done (c, used, ds) ∧ q = { p with used := used, draws := ds } := by
  unfold Palette.uncached at h
  cases hn : nextColor p.used p.draws with
  | done r =>
    obtain ⟨c', used, ds⟩ := r
    rw [hn] at h
    simp only [Draw.done.injEq, Prod.mk.injEq] at h
    exact ⟨used, ds, by rw [h.1], h.2.symm⟩
  | overflow => rw [hn] at h; simp at h
  | running => rw [hn] at h; simp at h

theorem colorOf_done {p q : Palette} {n c : String} (h0 : p.cached.get? n = none) (h : p.colorOf n = .done (c, q)) :
    ∃ used ds, nextColor p.used p.draws = .done (c, used, ds) ∧
      q = { used := used, cached := p.cached.set n c, draws := ds } := by
  unfold Palette.colorOf at h
  rw [h0] at h
  cases hn : nextColor p.used p.draws with
  | done r =>
    obtain ⟨c', used, ds⟩ := r
    rw [hn] at h
    simp only [Draw.done.injEq, Prod.mk.injEq] at h
    exact ⟨used, ds, by rw [h.1], by rw [← h.1]; exact h.2.symm⟩
  | overflow => rw [hn] at h; simp at h
  | running => rw [hn] at h; simp at h

theorem colorOf_cached {p q : Palette} {n c c' : String} (h0 : p.cached.get? n = some c)
    (h : p.colorOf n = .done (c', q)) : c' = c ∧ q = p := by
  unfold Palette.colorOf at h
  rw [h0] at h
  simp only [Draw.done.injEq, Prod.mk.injEq] at h
  exact ⟨h.1.symm, h.2.symm⟩

theorem mem_markUsed (used : List UsedItem) (i j : UsedItem) : j ∈ markUsed used i ↔ j ∈ used ∨ j = i := by
  unfold markUsed
  by_cases h : i ∈ used
  · rw [if_pos h]
    constructor
    · exact Or.inl
    · rintro (h' | rfl)
      · exact h'
      · exact h
  · rw [if_neg h]; simp

/-- C44d: the colours issued between two resets are pairwise distinct and different from all colours that were marked at
the start. -/
theorem C44_issued_distinct (p r : Palette) (ops : List ColorOp) (cs : List String) (h : Issued p ops cs r) :
    cs.Nodup ∧ (∀ c ∈ cs, UsedItem.text c ∉ p.used) ∧ (∀ c ∈ cs, UsedItem.text c ∈ r.used) ∧
      ∀ i ∈ p.used, i ∈ r.used := by
  have step : ∀ {p q r : Palette} {cs : List String} {c : String} {used ds} (_ : nextColor p.used p.draws = .done (c, used, ds))
      (_ : q.used = used)
      (_ : cs.Nodup ∧ (∀ c ∈ cs, UsedItem.text c ∉ q.used) ∧ (∀ c ∈ cs, UsedItem.text c ∈ r.used) ∧
        ∀ i ∈ q.used, i ∈ r.used),
      (c :: cs).Nodup ∧ (∀ x ∈ c :: cs, UsedItem.text x ∉ p.used) ∧ (∀ x ∈ c :: cs, UsedItem.text x ∈ r.used) ∧
        ∀ i ∈ p.used, i ∈ r.used := by
    intro p q r cs c used ds hn hq ih
    obtain ⟨h1, h2, _, _⟩ := nextColor_done hn
    obtain ⟨i1, i2, i3, i4⟩ := ih
    rw [hq, h2] at i2 i4
    refine ⟨List.nodup_cons.2 ⟨fun hm => i2 c hm (by simp), i1⟩, ?_, ?_, fun i hi => i4 i (by simp [hi])⟩
    · intro x hx
      rcases List.mem_cons.1 hx with rfl | hx
      · exact h1
      · exact fun hm => i2 x hx (by simp [hm])
    · intro x hx
      rcases List.mem_cons.1 hx with rfl | hx
      · exact i4 _ (by simp)
      · exact i3 x hx
  induction h with
  | nil p => simp
  | unnamed h t ih =>
    obtain ⟨used, ds, hn, rfl⟩ := uncached_done h
    exact step hn rfl ih
  | cachedName h t ih => exact ih
  | newName h0 h t ih =>
    obtain ⟨used, ds, hn, rfl⟩ := colorOf_done h0 h
    exact step hn rfl ih
  | markBlack t ih =>
    obtain ⟨i1, i2, i3, i4⟩ := ih
    exact ⟨i1, fun c hc hm => i2 c hc ((mem_markUsed _ _ _).2 (Or.inl hm)), i3,
      fun i hi => i4 i ((mem_markUsed _ _ _).2 (Or.inl hi))⟩

/-! ### OverflowError -/

/-- All byte colours. -/
def byteColors : Finset Rgb := Finset.range 256 ×ˢ Finset.range 256 ×ˢ Finset.range 256

theorem mem_byteColors (c : Rgb) : c ∈ byteColors ↔ IsByteColor c := by
  simp [byteColors, IsByteColor]

theorem card_byteColors : byteColors.card = 256 ^ 3 := by
  rw [byteColors, Finset.card_product, Finset.card_product, Finset.card_range]
  decide

attribute [irreducible] byteColors

/-- All texts of byte colours. -/
def byteItems : Finset UsedItem := byteColors.image (fun c => UsedItem.text (toHex c))

theorem card_byteItems : byteItems.card = 256 ^ 3 := by
  unfold byteItems
  rw [Finset.card_image_of_injOn, card_byteColors]
  intro c hc d hd h
  exact (C44_hex_injective c d ((mem_byteColors c).1 (Finset.mem_coe.1 hc))
    ((mem_byteColors d).1 (Finset.mem_coe.1 hd))).1 (UsedItem.text.inj h)

theorem mem_byteItems (i : UsedItem) : i ∈ byteItems ↔ ∃ c, IsByteColor c ∧ i = .text (toHex c) := by
  unfold byteItems
  simp only [Finset.mem_image, mem_byteColors]
  exact ⟨fun ⟨c, h1, h2⟩ => ⟨c, h1, h2.symm⟩, fun ⟨c, h1, h2⟩ => ⟨c, h1, h2.symm⟩⟩

attribute [irreducible] byteItems

/-- The marks are without repetition and are texts of byte colours, and the draws to come are bytes. -/
def GoodMarks (p : Palette) : Prop := p.used.Nodup ∧ (∀ i ∈ p.used, i ∈ byteItems) ∧ ∀ d ∈ p.draws, IsByteColor d

theorem goodMarks_next {p : Palette} {c : String} {used : List UsedItem} {ds : List Rgb} (hp : GoodMarks p)
    (hn : nextColor p.used p.draws = .done (c, used, ds)) (cached : Dict String String) :
    GoodMarks { used := used, cached := cached, draws := ds } := by
  obtain ⟨h1, h2, _, h4⟩ := nextColor_done hn
  obtain ⟨g1, g2, g3⟩ := hp
  obtain ⟨_, pre, d, hd, hc, _⟩ := drawUnused_done h4
  rw [hd] at g3
  subst h2
  refine ⟨?_, ?_, ?_⟩
  · rw [List.nodup_append]
    refine ⟨g1, by simp, ?_⟩
    intro a ha b hb
    simp only [List.mem_singleton] at hb
    subst hb
    rintro rfl
    exact h1 ha
  · intro i hi
    simp only [List.mem_append, List.mem_singleton] at hi
    rcases hi with hi | rfl
    · exact g2 i hi
    · exact (mem_byteItems _).2 ⟨d, g3 d (by simp), by rw [hc]⟩
  · intro x hx
    exact g3 x (by simp [hx])

theorem goodMarks_run {p q : Palette} {ops : List ColorOp} (h : ColorRun p ops q) (hb : .markBlack ∉ ops)
    (hp : GoodMarks p) : GoodMarks q := by
  induction h with
  | nil p => exact hp
  | @cons p q r op ops c h t ih =>
    apply ih (fun hm => hb (by simp [hm]))
    cases op with
    | reset =>
      simp only [colorStep, Draw.done.injEq, Prod.mk.injEq] at h
      rw [← h.2]
      exact ⟨List.nodup_nil, fun i hi => by simp [Palette.reset] at hi, hp.2.2⟩
    | markBlack => exact absurd (by simp) hb
    | unnamed =>
      simp only [colorStep] at h
      cases hu : p.uncached with
      | done r =>
        obtain ⟨c', q'⟩ := r
        rw [hu] at h
        simp only [Draw.done.injEq, Prod.mk.injEq] at h
        obtain ⟨used, ds, hn, hq⟩ := uncached_done hu
        rw [← h.2, hq]
        exact goodMarks_next hp hn _
      | overflow => rw [hu] at h; simp at h
      | running => rw [hu] at h; simp at h
    | named n =>
      simp only [colorStep] at h
      cases hu : p.colorOf n with
      | done r =>
        obtain ⟨c', q'⟩ := r
        rw [hu] at h
        simp only [Draw.done.injEq, Prod.mk.injEq] at h
        cases hc : p.cached.get? n with
        | some x =>
          obtain ⟨_, hq⟩ := colorOf_cached hc hu
          rw [← h.2, hq]
          exact hp
        | none =>
          obtain ⟨used, ds, hn, hq⟩ := colorOf_done hc hu
          rw [← h.2, hq]
          exact goodMarks_next hp hn _
      | overflow => rw [hu] at h; simp at h
      | running => rw [hu] at h; simp at h

theorem goodMarks_full {p : Palette} (hp : GoodMarks p) :
    p.used.length = 256 ^ 3 ↔ ∀ c, IsByteColor c → UsedItem.text (toHex c) ∈ p.used := by
  obtain ⟨h1, h2, _⟩ := hp
  have hcard : p.used.toFinset.card = p.used.length := List.toFinset_card_of_nodup h1
  have hsub : p.used.toFinset ⊆ byteItems := fun i hi => h2 i (List.mem_toFinset.1 hi)
  constructor
  · intro hl c hc
    have : p.used.toFinset = byteItems := Finset.eq_of_subset_of_card_le hsub (by rw [card_byteItems, hcard, hl])
    rw [← List.mem_toFinset, this]
    exact (mem_byteItems _).2 ⟨c, hc, rfl⟩
  · intro h
    have : byteItems ⊆ p.used.toFinset := by
      intro i hi
      obtain ⟨c, hc, rfl⟩ := (mem_byteItems i).1 hi
      exact List.mem_toFinset.2 (h c hc)
    rw [← hcard, Finset.Subset.antisymm hsub this, card_byteItems]

/-- C44e: after any history of requests and resets, starting with no colour used, for random bytes, a request raises
OverflowError exactly if all 256^3 colours are used. (The history must not contain `draw_placements_of_events`, see
C44f.) -/
theorem C44_overflow_iff_exhausted (cached : Dict String String) (draws : List Rgb) (hd : ∀ d ∈ draws, IsByteColor d)
    (ops : List ColorOp) (hb : .markBlack ∉ ops) (p : Palette)
    (h : ColorRun { used := [], cached := cached, draws := draws } ops p) (more : List Rgb) :
    nextColor p.used more = .overflow ↔ ∀ c, IsByteColor c → UsedItem.text (toHex c) ∈ p.used := by
  rw [(C44_next p.used more).1]
  exact goodMarks_full (goodMarks_run h hb ⟨List.nodup_nil, fun i hi => by simp at hi, hd⟩)

theorem run_all_draws (draws : List Rgb) (used : List UsedItem) (cached : Dict String String)
    (hnd : (draws.map toHex).Nodup) (hdis : ∀ d ∈ draws, UsedItem.text (toHex d) ∉ used)
    (hlen : used.length + draws.length ≤ 256 ^ 3) :
    ColorRun { used := used, cached := cached, draws := draws } (List.replicate draws.length .unnamed)
      { used := used ++ draws.map (fun d => .text (toHex d)), cached := cached, draws := [] } := by
  induction draws generalizing used with
  | nil => simpa using ColorRun.nil _
  | cons d draws ih =>
    rw [List.length_cons, List.replicate_succ]
    rw [List.length_cons] at hlen
    have hn : nextColor used (d :: draws) = .done (toHex d, used ++ [.text (toHex d)], draws) :=
      (C44_next used (d :: draws)).2.2 [] d draws rfl (by simp) (hdis d (by simp)) (by omega)
    rw [List.map_cons, List.nodup_cons] at hnd
    refine ColorRun.cons (q := { used := used ++ [.text (toHex d)], cached := cached, draws := draws }) (some (toHex d)) ?_ ?_
    · simp only [colorStep, Palette.uncached, hn]
    · have := ih (used ++ [.text (toHex d)]) hnd.2 (by
        intro x hx hm
        simp only [List.mem_append, List.mem_singleton, UsedItem.text.injEq] at hm
        rcases hm with hm | hm
        · exact hdis x (by simp [hx]) hm
        · exact hnd.1 (List.mem_map.2 ⟨x, hx, hm⟩)) (by simp; omega)
      simpa using this

/-- C44f, disagreement: `draw_placements_of_events` marks the triple (0, 0, 0) instead of its text. So for every byte
colour there is a history after which this colour is not used, and yet the next request raises OverflowError. -/
theorem C44_overflow_too_early (c : Rgb) (hc : IsByteColor c) :
    ∃ (draws : List Rgb) (n : Nat) (p : Palette), (∀ d ∈ draws, IsByteColor d) ∧
      ColorRun { used := [], cached := [], draws := draws } (.markBlack :: List.replicate n .unnamed) p ∧
      UsedItem.text (toHex c) ∉ p.used ∧ ∀ more, nextColor p.used more = .overflow := by
  have hmem : ∀ d ∈ (byteColors.erase c).toList, IsByteColor d ∧ d ≠ c := by
    intro d hd
    rw [Finset.mem_toList, Finset.mem_erase, mem_byteColors] at hd
    exact ⟨hd.2, hd.1⟩
  have hlen : (byteColors.erase c).toList.length = 256 ^ 3 - 1 := by
    rw [Finset.length_toList, Finset.card_erase_of_mem ((mem_byteColors c).2 hc), card_byteColors]
  have hpos : 1 ≤ 256 ^ 3 := by decide
  refine ⟨(byteColors.erase c).toList, (byteColors.erase c).toList.length, _, fun d hd => (hmem d hd).1,
    ColorRun.cons none rfl (run_all_draws (byteColors.erase c).toList [.triple (0, 0, 0)] [] ?_ ?_ ?_), ?_, ?_⟩
  · refine (List.nodup_map_iff_inj_on (Finset.nodup_toList _)).2 ?_
    intro x hx y hy h
    exact (C44_hex_injective x y (hmem x hx).1 (hmem y hy).1).1 h
  · intro d _ h
    simp at h
  · rw [hlen]; simp only [List.length_cons, List.length_nil]; omega
  · intro h
    simp only [List.cons_append, List.nil_append, List.mem_cons, List.mem_map, reduceCtorEq, UsedItem.text.injEq,
      false_or] at h
    obtain ⟨d, hd, h⟩ := h
    exact (hmem d hd).2 ((C44_hex_injective d c (hmem d hd).1 hc).1 h)
  · intro more
    rw [(C44_next _ more).1]
    simp only [List.length_append, List.length_map, hlen, List.length_cons, List.length_nil]
    omega

/-! ### C45 -/

/-- C45a (partial: between resets): after any history, in a following history without resets different names that get
their colour in it get different colours; the colours of names cached before are not changed. -/
theorem C45_injective_between_resets_partial (p q : Palette) (ops : List ColorOp) (hr : .reset ∉ ops)
    (h : ColorRun p ops q) :
    (∀ n c, p.cached.get? n = some c → q.cached.get? n = some c) ∧
    ∀ a b c, a ≠ b → p.cached.get? a = none → p.cached.get? b = none →
      q.cached.get? a = some c → q.cached.get? b ≠ some c := by
  have key : ∀ {p q : Palette} {ops : List ColorOp}, ColorRun p ops q → .reset ∉ ops →
      (∀ n c, p.cached.get? n = some c → q.cached.get? n = some c) ∧
      (∀ a c, p.cached.get? a = none → q.cached.get? a = some c → UsedItem.text c ∉ p.used) ∧
      (∀ i ∈ p.used, i ∈ q.used) ∧
      ∀ a b c, a ≠ b → p.cached.get? a = none → p.cached.get? b = none →
        q.cached.get? a = some c → q.cached.get? b ≠ some c := by
    intro p q ops h
    induction h with
    | nil p => exact fun _ => ⟨fun _ _ h => h, fun a c h h' => by rw [h] at h'; simp at h', fun _ h => h,
        fun a b c _ h _ h' => by rw [h] at h'; simp at h'⟩
    | @cons p m r op ops c h t ih =>
      intro hr
      obtain ⟨i1, i2, i3, i4⟩ := ih (fun hm => hr (by simp [hm]))
      -- a step that keeps the cache and does not lose marks
      have keep : m.cached = p.cached → (∀ i ∈ p.used, i ∈ m.used) →
          (∀ n c, p.cached.get? n = some c → r.cached.get? n = some c) ∧
          (∀ a c, p.cached.get? a = none → r.cached.get? a = some c → UsedItem.text c ∉ p.used) ∧
          (∀ i ∈ p.used, i ∈ r.used) ∧
          ∀ a b c, a ≠ b → p.cached.get? a = none → p.cached.get? b = none →
            r.cached.get? a = some c → r.cached.get? b ≠ some c := by
        intro hc hu
        rw [hc] at i1 i2 i4
        exact ⟨i1, fun a c ha hc hm => i2 a c ha hc (hu _ hm), fun i hi => i3 i (hu i hi), i4⟩
      cases op with
      | reset => exact absurd (by simp) hr
      | markBlack =>
        simp only [colorStep, Draw.done.injEq, Prod.mk.injEq] at h
        rw [← h.2] at keep
        exact keep rfl (fun i hi => (mem_markUsed _ _ _).2 (Or.inl hi))
      | unnamed =>
        simp only [colorStep] at h
        cases hu : p.uncached with
        | done x =>
          obtain ⟨c', q'⟩ := x
          rw [hu] at h
          simp only [Draw.done.injEq, Prod.mk.injEq] at h
          obtain ⟨used, ds, hn, hq⟩ := uncached_done hu
          rw [← h.2, hq] at keep
          exact keep rfl (fun i hi => by rw [(nextColor_done hn).2.1]; simp [hi])
        | overflow => rw [hu] at h; simp at h
        | running => rw [hu] at h; simp at h
      | named n =>
        simp only [colorStep] at h
        cases hu : p.colorOf n with
        | done x =>
          obtain ⟨c', q'⟩ := x
          rw [hu] at h
          simp only [Draw.done.injEq, Prod.mk.injEq] at h
          cases hcn : p.cached.get? n with
          | some x =>
            obtain ⟨_, hq⟩ := colorOf_cached hcn hu
            rw [← h.2, hq] at keep
            exact keep rfl (fun i hi => hi)
          | none =>
            obtain ⟨used, ds, hn, hq⟩ := colorOf_done hcn hu
            obtain ⟨n1, n2, _, _⟩ := nextColor_done hn
            have hm : m = { used := used, cached := p.cached.set n c', draws := ds } := by rw [← h.2, hq]
            subst hm
            simp only at i1 i2 i3
            have hnew : r.cached.get? n = some c' := i1 n c' (Dict.get?_set_self _ _ _)
            have hne : ∀ a, a ≠ n → (p.cached.set n c').get? a = p.cached.get? a :=
              fun a ha => Dict.get?_set_ne _ _ (Ne.symm ha)
            have hother : ∀ a x, a ≠ n → p.cached.get? a = none → r.cached.get? a = some x → UsedItem.text x ∉ used :=
              fun a x ha h0 hx => i2 a x (by rw [hne a ha]; exact h0) hx
            refine ⟨?_, ?_, fun i hi => i3 i (by rw [n2]; simp [hi]), ?_⟩
            · intro a x ha
              by_cases han : a = n
              · rw [han, hcn] at ha; simp at ha
              · exact i1 a x (by rw [hne a han]; exact ha)
            · intro a x h0 hx
              by_cases han : a = n
              · rw [han, hnew] at hx; cases hx; exact n1
              · intro hm
                exact hother a x han h0 hx (by rw [n2]; simp [hm])
            · intro a b x hab ha hb hxa hxb
              have hc' : UsedItem.text c' ∈ used := by rw [n2]; simp
              by_cases han : a = n
              · rw [han, hnew] at hxa; cases hxa
                exact hother b _ (fun h => hab (by rw [han, h])) hb hxb hc'
              · by_cases hbn : b = n
                · rw [hbn, hnew] at hxb; cases hxb
                  exact hother a _ han ha hxa hc'
                · exact i4 a b x hab (by rw [hne a han]; exact ha) (by rw [hne b hbn]; exact hb) hxa hxb
        | overflow => rw [hu] at h; simp at h
        | running => rw [hu] at h; simp at h
  obtain ⟨h1, _, _, h4⟩ := key h hr
  exact ⟨h1, h4⟩

/-- C45b: if the cached colours are marked as used at the start, the whole cache stays injective without resets. -/
theorem C45_cache_stays_injective_partial (p q : Palette) (ops : List ColorOp) (hr : .reset ∉ ops) (h : ColorRun p ops q)
    (hc : ∀ n c, p.cached.get? n = some c → UsedItem.text c ∈ p.used)
    (hi : ∀ a b c, a ≠ b → p.cached.get? a = some c → p.cached.get? b ≠ some c) :
    ∀ a b c, a ≠ b → q.cached.get? a = some c → q.cached.get? b ≠ some c := by
  induction h with
  | nil p => exact hi
  | @cons p m r op ops c h t ih =>
    apply ih (fun hm => hr (by simp [hm]))
    all_goals
      cases op with
      | reset => exact absurd (by simp) hr
      | markBlack =>
        simp only [colorStep, Draw.done.injEq, Prod.mk.injEq] at h
        rw [← h.2]
        first
          | exact hi
          | exact fun n c hn => (mem_markUsed _ _ _).2 (Or.inl (hc n c hn))
      | unnamed =>
        simp only [colorStep] at h
        cases hu : p.uncached with
        | done x =>
          obtain ⟨c', q'⟩ := x
          rw [hu] at h
          simp only [Draw.done.injEq, Prod.mk.injEq] at h
          obtain ⟨used, ds, hn, hq⟩ := uncached_done hu
          rw [← h.2, hq]
          first
            | exact hi
            | exact fun n c hnc => by rw [(nextColor_done hn).2.1]; simp [hc n c hnc]
        | overflow => rw [hu] at h; simp at h
        | running => rw [hu] at h; simp at h
      | named n =>
        simp only [colorStep] at h
        cases hu : p.colorOf n with
        | done x =>
          obtain ⟨c', q'⟩ := x
          rw [hu] at h
          simp only [Draw.done.injEq, Prod.mk.injEq] at h
          cases hcn : p.cached.get? n with
          | some x =>
            obtain ⟨_, hq⟩ := colorOf_cached hcn hu
            rw [← h.2, hq]
            first | exact hi | exact hc
          | none =>
            obtain ⟨used, ds, hn, hq⟩ := colorOf_done hcn hu
            obtain ⟨n1, n2, _, _⟩ := nextColor_done hn
            rw [← h.2, hq]
            simp only
            first
              | (intro a x ha
                 rw [Dict.get?_set] at ha
                 rw [n2]
                 by_cases han : n = a
                 · rw [if_pos han] at ha; cases ha; simp
                 · rw [if_neg han] at ha; simp [hc a x ha])
              | (intro a b x hab ha hb
                 rw [Dict.get?_set] at ha hb
                 by_cases han : n = a
                 · rw [if_pos han] at ha; cases ha
                   rw [if_neg (fun h => hab (by rw [← han, h]))] at hb
                   exact n1 (hc b _ hb)
                 · rw [if_neg han] at ha
                   by_cases hbn : n = b
                   · rw [if_pos hbn] at hb; cases hb
                     exact n1 (hc a _ ha)
                   · rw [if_neg hbn] at hb
                     exact hi a b x hab ha hb)
        | overflow => rw [hu] at h; simp at h
        | running => rw [hu] at h; simp at h

/-- C45c, disagreement: the cache survives a reset, so after a reset another name can get a colour that is cached
already: for all names and all colours there are draws for which this happens. Every execution of a nested pipeline resets
(pipelines.py:23). -/
theorem C45_reset_allows_duplicates (a b : String) (hab : a ≠ b) (d : Rgb) (rest : List Rgb) :
    ∃ q, ColorRun { used := [], cached := [], draws := d :: d :: rest } [.named a, .reset, .named b] q ∧
      q.cached.get? a = some (toHex d) ∧ q.cached.get? b = some (toHex d) := by
  have hn : ∀ ds, nextColor [] (d :: ds) = .done (toHex d, [.text (toHex d)], ds) := fun ds =>
    (C44_next [] (d :: ds)).2.2 [] d ds rfl (by simp) (by simp) (by simp)
  refine ⟨{ used := [.text (toHex d)], cached := [(a, toHex d), (b, toHex d)], draws := rest }, ?_, ?_, ?_⟩
  · refine ColorRun.cons (some (toHex d)) (q := { used := [.text (toHex d)], cached := [(a, toHex d)], draws := d :: rest })
      ?_ (ColorRun.cons none rfl (ColorRun.cons (some (toHex d)) ?_ (ColorRun.nil _)))
    · simp only [colorStep, Palette.colorOf, Dict.get?_nil, hn]; rfl
    · have : Dict.get? [(a, toHex d)] b = none := by rw [Dict.get?_cons, if_neg hab]; rfl
      simp only [colorStep, Palette.colorOf, Palette.reset, this, hn]
      have hset : Dict.set [(a, toHex d)] b (toHex d) = [(a, toHex d), (b, toHex d)] := by
        simp [Dict.set, hab]
      rw [hset]
  · rw [Dict.get?_cons, if_pos rfl]
  · rw [Dict.get?_cons, if_neg hab, Dict.get?_cons, if_pos rfl]

/-- C45d, disagreement: the colour of undefined activities is not reserved, also not after `draw_placements_of_events`
has marked the triple: every name can get it. -/
theorem C45_undefined_colour_not_reserved (n : String) (rest : List Rgb) :
    ∃ q, ColorRun { used := [], cached := [], draws := (0, 0, 0) :: rest } [.markBlack, .named n] q ∧
      q.cached.get? n = some undefinedColor := by
  have hn : nextColor [.triple (0, 0, 0)] ((0, 0, 0) :: rest) =
      .done (undefinedColor, [.triple (0, 0, 0), .text undefinedColor], rest) :=
    (C44_next [.triple (0, 0, 0)] ((0, 0, 0) :: rest)).2.2 [] (0, 0, 0) rest rfl (by simp) (by simp) (by simp)
  refine ⟨{ used := [.triple (0, 0, 0), .text undefinedColor], cached := [(n, undefinedColor)], draws := rest }, ?_, ?_⟩
  · refine ColorRun.cons none rfl (ColorRun.cons (some undefinedColor) ?_ (ColorRun.nil _))
    have hmark : (Palette.markBlack { used := [], cached := [], draws := (0, 0, 0) :: rest }) =
      { used := [.triple (0, 0, 0)], cached := [], draws := (0, 0, 0) :: rest } := rfl
    rw [hmark]
    simp only [colorStep, Palette.colorOf, Dict.get?_nil, hn]
    rfl
  · rw [Dict.get?_cons, if_pos rfl]

/-! ### Concrete cases -/

theorem toHex_example : toHex (1, 171, 255) = "#01ABFF" := by
  unfold toHex; simp only; rw [hex2_byte (by omega), hex2_byte (by omega), hex2_byte (by omega)]; decide

/-- Three requests, one of them for a cached name, with a repeated draw: two different colours are issued. -/
example : ∃ q, Issued { used := [], cached := [], draws := [(1, 171, 255), (1, 171, 255), (0, 0, 1)] }
    [.named "a", .markBlack, .named "a", .unnamed] [toHex (1, 171, 255), toHex (0, 0, 1)] q := by
  have hne : toHex (0, 0, 1) ≠ toHex (1, 171, 255) := fun h => by
    have := (C44_hex_injective (0, 0, 1) (1, 171, 255) (by unfold IsByteColor; simp) (by unfold IsByteColor; simp)).1 h
    simp at this
  refine ⟨_, Issued.newName rfl (q := ⟨[.text (toHex (1, 171, 255))], [("a", toHex (1, 171, 255))],
      [(1, 171, 255), (0, 0, 1)]⟩) ?_ (Issued.markBlack (Issued.cachedName (c := toHex (1, 171, 255)) rfl
        (Issued.unnamed (q := ⟨[.text (toHex (1, 171, 255)), .triple (0, 0, 0), .text (toHex (0, 0, 1))],
          [("a", toHex (1, 171, 255))], []⟩) ?_ (Issued.nil _))))⟩
  · have := (C44_next [] [(1, 171, 255), (1, 171, 255), (0, 0, 1)]).2.2 [] (1, 171, 255) [(1, 171, 255), (0, 0, 1)] rfl
      (by simp) (by simp) (by simp)
    simp only [Palette.colorOf, Dict.get?_nil, this]
    rfl
  · have hm : Palette.markBlack ⟨[.text (toHex (1, 171, 255))], [("a", toHex (1, 171, 255))],
        [(1, 171, 255), (0, 0, 1)]⟩ = ⟨[.text (toHex (1, 171, 255)), .triple (0, 0, 0)],
          [("a", toHex (1, 171, 255))], [(1, 171, 255), (0, 0, 1)]⟩ := by
      simp [Palette.markBlack, markUsed]
    have := (C44_next [.text (toHex (1, 171, 255)), .triple (0, 0, 0)] [(1, 171, 255), (0, 0, 1)]).2.2 [(1, 171, 255)]
      (0, 0, 1) [] rfl (by simp) (by simp [hne]) (by simp)
    rw [hm]
    simp only [Palette.uncached, this]
    rfl

end Ficus
