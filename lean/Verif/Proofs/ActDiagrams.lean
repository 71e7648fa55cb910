import Verif.Proofs.Segments
import Verif.Props.Diagrams

/-! The diagrams of activities as rows of pieces. -/

namespace Ficus
open Spec

/-- The colour of a name, or of a gap. -/
def shownColor (q : Palette) (name : String) : String := (q.cached.get? name).getD "#000000"

/-- A step of the drawing of activities. -/
def GStep (p q : Palette) : Prop :=
  Keeps p q ∧ q.cached.get? undefinedActivity = p.cached.get? undefinedActivity

theorem GStep.refl (p : Palette) : GStep p p := ⟨Keeps.refl p, rfl⟩
theorem GStep.trans {p q r : Palette} (h1 : GStep p q) (h2 : GStep q r) : GStep p r :=
  ⟨h1.1.trans h2.1, h2.2.trans h1.2⟩

/-- The colour of the name does not change any more. -/
def Stable (q : Palette) (name : String) : Prop := name = undefinedActivity ∨ ∃ c, q.cached.get? name = some c

theorem Stable.step {p q : Palette} {n : String} (h : GStep p q) (hn : Stable p n) :
    Stable q n ∧ shownColor q n = shownColor p n := by
  rcases hn with rfl | ⟨c, hc⟩
  · exact ⟨Or.inl rfl, by unfold shownColor; rw [h.2]⟩
  · have := h.1 n c hc
    exact ⟨Or.inr ⟨c, this⟩, by unfold shownColor; rw [hc, this]⟩

theorem undefinedColor_eq : undefinedColor = "#000000" := by decide +kernel

theorem gapColor_eq (q : Palette) : gapColor q = shownColor q undefinedActivity := by
  unfold gapColor shownColor
  rw [undefinedColor_eq]

theorem gapColor_step {p q : Palette} (h : GStep p q) : gapColor q = gapColor p := by
  unfold gapColor
  rw [h.2]

theorem subTraceColor_done {p q : Palette} {n c : String} (h : subTraceColor p n = .done (c, q)) :
    GStep p q ∧ c = shownColor q n ∧ Stable q n ∧ (Separate p → Separate q) := by
  unfold subTraceColor at h
  cases hc : p.cached.get? n with
  | some d =>
    rw [hc] at h
    simp only [Draw.done.injEq, Prod.mk.injEq] at h
    obtain ⟨rfl, rfl⟩ := h
    exact ⟨GStep.refl _, by unfold shownColor; rw [hc]; rfl, Or.inr ⟨_, hc⟩, id⟩
  | none =>
    rw [hc] at h
    simp only at h
    split at h
    · rename_i hu
      simp only [Draw.done.injEq, Prod.mk.injEq] at h
      obtain ⟨rfl, rfl⟩ := h
      exact ⟨GStep.refl _, by unfold shownColor; rw [hc, undefinedColor_eq]; rfl, Or.inl hu, id⟩
    · rename_i hu
      obtain ⟨k1, k2, k3, k4⟩ := colorOf_step h
      exact ⟨⟨k1, k3 _ (fun e => hu e.symm)⟩, by unfold shownColor; rw [k2]; rfl, Or.inr ⟨_, k2⟩, k4⟩

/-- The first sub trace with the same hash. -/
def firstLike (all : List SubTrace) (h : Int) : Option SubTrace := all.find? (fun e => e.hash = h)

/-- The colour of a sub trace: that of the name of the first sub trace with the same hash. -/
def firstColor (q : Palette) (all : List SubTrace) (d : SubTrace) : String :=
  ((firstLike all d.hash).map (fun e => shownColor q e.name)).getD ""

/-- The colours of the state are those of the sub traces drawn so far. -/
def Met (pre : List SubTrace) (st : ActsState) : Prop :=
  (∀ h, st.colors.get? h = (firstLike pre h).map (fun e => shownColor st.palette e.name)) ∧
  ∀ h e, firstLike pre h = some e → Stable st.palette e.name

theorem Met.keep {pre : List SubTrace} {st st' : ActsState} (h : Met pre st) (hc : st'.colors = st.colors)
    (hs : st'.palette = st.palette) : Met pre st' := by
  unfold Met
  rw [hc, hs]
  exact h

theorem hashColor_done {pre : List SubTrace} {st st' : ActsState} {d : SubTrace} {c : String} (hm : Met pre st)
    (h : hashColor st d = .done (c, st')) :
    Met (pre ++ [d]) st' ∧ GStep st.palette st'.palette ∧ st'.picture = st.picture ∧
      (Separate st.palette → Separate st'.palette) ∧
      ∀ q post, GStep st'.palette q → firstColor q (pre ++ d :: post) d = c := by
  unfold hashColor at h
  cases hc : st.colors.get? d.hash with
  | some c' =>
    rw [hc] at h
    simp only [Draw.done.injEq, Prod.mk.injEq] at h
    obtain ⟨rfl, rfl⟩ := h
    rw [hm.1 d.hash, Option.map_eq_some_iff] at hc
    obtain ⟨e, he, hec⟩ := hc
    have same : ∀ h, firstLike (pre ++ [d]) h = firstLike pre h := by
      intro h
      unfold firstLike at he ⊢
      rw [List.find?_append]
      cases hp : List.find? (fun e => decide (e.hash = h)) pre with
      | some x => rfl
      | none =>
        simp only [Option.none_or]
        have : d.hash ≠ h := by rintro rfl; rw [hp] at he; cases he
        simp [this]
    refine ⟨⟨fun h => by rw [same]; exact hm.1 h, fun h e => by rw [same]; exact hm.2 h e⟩, GStep.refl _, rfl, id, ?_⟩
    intro q post hq
    unfold firstColor
    have : firstLike (pre ++ d :: post) d.hash = some e := by
      unfold firstLike at he ⊢
      rw [List.find?_append, he]
      rfl
    rw [this]
    have := (Stable.step hq (hm.2 _ _ he)).2
    simp only [Option.map_some, Option.getD_some]
    rw [this, hec]
  | none =>
    rw [hc] at h
    cases hsc : subTraceColor st.palette d.name with
    | overflow => rw [hsc] at h; simp at h
    | running => rw [hsc] at h; simp at h
    | done r =>
      obtain ⟨c1, q1⟩ := r
      rw [hsc] at h
      simp only [Draw.done.injEq, Prod.mk.injEq] at h
      obtain ⟨rfl, rfl⟩ := h
      obtain ⟨k1, k2, k3, k4⟩ := subTraceColor_done hsc
      have hnone : firstLike pre d.hash = none := by
        rw [hm.1 d.hash] at hc
        cases hf : firstLike pre d.hash with
        | none => rfl
        | some e => rw [hf] at hc; cases hc
      have split : ∀ h, firstLike (pre ++ [d]) h = if d.hash = h then some d else firstLike pre h := by
        intro h
        by_cases e : d.hash = h
        · subst e
          rw [if_pos rfl]
          unfold firstLike at hnone ⊢
          rw [List.find?_append, hnone]
          simp
        · rw [if_neg e]
          unfold firstLike
          rw [List.find?_append]
          simp [e]
      refine ⟨⟨?_, ?_⟩, k1, rfl, k4, ?_⟩
      · intro h
        rw [split]
        show (st.colors.set d.hash c1).get? h = _
        rw [Dict.get?_set]
        by_cases e : d.hash = h
        · rw [if_pos e, if_pos e, k2]; rfl
        · rw [if_neg e, if_neg e, hm.1 h]
          cases hf : firstLike pre h with
          | none => rfl
          | some x =>
            simp only [Option.map_some, Option.some.injEq]
            exact ((Stable.step k1 (hm.2 h x hf)).2).symm
      · intro h x hx
        rw [split] at hx
        by_cases e : d.hash = h
        · rw [if_pos e] at hx
          rw [← Option.some.inj hx]
          exact k3
        · rw [if_neg e] at hx
          exact (Stable.step k1 (hm.2 h x hx)).1
      · intro q post hq
        have : firstLike (pre ++ d :: post) d.hash = some d := by
          unfold firstLike at hnone ⊢
          rw [List.find?_append, hnone]
          simp
        unfold firstColor
        rw [this]
        simp only [Option.map_some, Option.getD_some]
        rw [(Stable.step hq k3).2, k2]

theorem addAll_cons (p : Picture) (a : Rect Nat × Option String) (l : List (Rect Nat × Option String)) :
    p.addAll (a :: l) = (p.addCell a).addAll l := rfl

theorem cellRow_append (x y h : Nat) (a b : List Piece) :
    cellRow x y h (a ++ b) = cellRow x y h a ++ cellRow (x + (a.map (·.width)).sum) y h b := by
  induction a generalizing x with
  | nil => simp [cellRow]
  | cons c a ih => simp [cellRow, ih, Nat.add_assoc]

theorem actsRow_done {short : Bool} {ws hs y n : Nat} {ds : List SubTrace} {x last : Nat} {pre : List SubTrace}
    {st st' : ActsState} (hm : Met pre st) (h : actsRow short ws hs y n ds x last st = .done st') :
    Met (pre ++ ds) st' ∧ GStep st.palette st'.palette ∧ (Separate st.palette → Separate st'.palette) ∧
      ∀ q post, GStep st'.palette q → st'.picture = st.picture.addAll (cellRow x y hs
        (rowCells short ws n (firstColor q (pre ++ ds ++ post)) (gapColor q) ds last)) := by
  induction ds generalizing x last pre st with
  | nil =>
    simp only [actsRow, Draw.done.injEq] at h
    subst h
    refine ⟨?_, ?_, ?_, ?_⟩
    · rw [List.append_nil]
      split
      · exact hm.keep rfl rfl
      · exact hm
    · split <;> exact GStep.refl _
    · split <;> exact id
    · intro q post hq
      unfold rowCells
      split
      · rename_i hlt
        rw [if_pos hlt] at hq
        rw [gapColor_step hq]
        rfl
      · rfl
  | cons d ds ih =>
    rw [actsRow] at h
    simp only at h
    generalize hst1 : (if decide (last < d.start) = true then { st with picture := (st.picture.add
      { x := x, y := y, w := partWidth short ws (d.start - last), h := hs, color := gapColor st.palette } undefinedActivity) }
      else st) = st1 at h
    have hm1 : Met pre st1 := by
      rw [← hst1]
      split
      · exact hm.keep rfl rfl
      · exact hm
    have hp1 : st1.palette = st.palette := by rw [← hst1]; split <;> rfl
    cases hc : hashColor st1 d with
    | overflow => rw [hc] at h; simp at h
    | running => rw [hc] at h; simp at h
    | done r =>
      obtain ⟨c, st2⟩ := r
      rw [hc] at h
      simp only at h
      obtain ⟨k1, k2, k3, k4, k5⟩ := hashColor_done hm1 hc
      rw [hp1] at k2 k4
      generalize hx1 : (if decide (last < d.start) = true then x + partWidth short ws (d.start - last) else x) = x1 at h
      obtain ⟨i1, i2, i3, i4⟩ := ih (pre := pre ++ [d])
        (st := ⟨st2.picture.add ⟨x1, y, partWidth short ws d.length, hs, c⟩ d.name, st2.colors, st2.palette⟩)
        (k1.keep rfl rfl) h
      refine ⟨by simpa using i1, k2.trans i2, fun hs => i3 (k4 hs), ?_⟩
      intro q post hq
      have e := i4 q post hq
      have ec := k5 q (ds ++ post) (i2.trans hq)
      rw [e]
      simp only [List.append_assoc, List.cons_append, List.nil_append] at ec ⊢
      rw [rowCells, cellRow_append, addAll_append, cellRow, addAll_cons]
      simp only [ec]
      have hpic : st2.picture = st1.picture := k3
      have hgap : gapColor q = gapColor st.palette := gapColor_step (k2.trans (i2.trans hq))
      rw [hpic, ← hst1, ← hx1]
      by_cases hlt : last < d.start
      · simp only [hlt, decide_true, if_true]
        simp only [List.map_cons, List.map_nil, List.sum_cons, List.sum_nil, Nat.add_zero]
        rw [hgap]
        rfl
      · simp only [hlt, decide_false, if_false, Bool.false_eq_true]
        simp only [List.map_nil, List.sum_nil, Nat.add_zero]
        rfl

theorem actsTrace_done {short : Bool} {ws hs y n : Nat} {ds : List SubTrace} {pre : List SubTrace}
    {st st' : ActsState} (hm : Met pre st) (h : actsTrace short ws hs y n ds st = .done st') :
    Met (pre ++ ds) st' ∧ GStep st.palette st'.palette ∧ (Separate st.palette → Separate st'.palette) ∧
      ∀ q post, GStep st'.palette q → st'.picture = st.picture.addAll (cellRow 0 y hs
        (traceCells short ws n (firstColor q (pre ++ ds ++ post)) (gapColor q) ds)) := by
  unfold actsTrace at h
  split at h
  · rename_i h0
    simp only [Draw.done.injEq] at h
    subst h
    have e : ds = [] := by simpa using h0
    subst e
    refine ⟨by rw [List.append_nil]; exact hm.keep rfl rfl, GStep.refl _, id, ?_⟩
    intro q post hq
    rw [gapColor_step hq]
    rfl
  · rename_i h0
    obtain ⟨h1, h2, h3, h4⟩ := actsRow_done hm h
    refine ⟨h1, h2, h3, ?_⟩
    intro q post hq
    rw [h4 q post hq]
    unfold traceCells
    rw [if_neg h0]

/-- The rows that are drawn. -/
def allCells (short : Bool) (ws : Nat) (col : SubTrace → String) (gap : String) (rows : List (List SubTrace × Nat)) :
    List (List Piece) :=
  rows.map (fun r => traceCells short ws r.2 col gap r.1)

theorem actsRows_done {short : Bool} {ws hs : Nat} {rows : List (List SubTrace × Nat)} {y : Nat} {pre : List SubTrace}
    {st st' : ActsState} (hm : Met pre st) (h : actsRows short ws hs rows y st = .done st') :
    GStep st.palette st'.palette ∧ (Separate st.palette → Separate st'.palette) ∧
      Met (pre ++ rows.flatMap (·.1)) st' ∧
      ∀ q post, GStep st'.palette q → st'.picture = st.picture.addAll (cellRows y hs
        (allCells short ws (firstColor q (pre ++ rows.flatMap (·.1) ++ post)) (gapColor q) rows)) := by
  induction rows generalizing y pre st with
  | nil =>
    simp only [actsRows, Draw.done.injEq] at h
    subst h
    exact ⟨GStep.refl _, id, by simpa using hm, fun _ _ _ => rfl⟩
  | cons r rows ih =>
    obtain ⟨ds, n⟩ := r
    rw [actsRows] at h
    cases hc : actsTrace short ws hs y n ds st with
    | overflow => rw [hc] at h; simp at h
    | running => rw [hc] at h; simp at h
    | done st1 =>
      rw [hc] at h
      obtain ⟨k1, k2, k3, k4⟩ := actsTrace_done hm hc
      obtain ⟨i1, i2, i3, i4⟩ := ih k1 h
      refine ⟨k2.trans i1, fun h => i2 (k3 h), by simpa using i3, ?_⟩
      intro q post hq
      have e1 := i4 q post hq
      have e2 := k4 q (rows.flatMap (·.1) ++ post) (i1.trans hq)
      rw [e1, e2]
      simp only [allCells, List.map_cons, cellRows, addAll_append, List.flatMap_cons, Nat.add_zero, List.append_assoc]

/-- What is seen in the full diagram at a position of a trace. -/
theorem row_positions {rects : List (Rect Nat)} {hs ws n k : Nat} {cells : List (List Piece)} {col : SubTrace → String}
    {gap : String} {ds : List SubTrace} (hshow : Shows rects hs cells)
    (hk : cells[k]? = some (traceCells false ws n col gap ds)) (hw : WellPlaced n (ds.map subSpanOf)) (px py : Nat)
    (h1 : k * hs ≤ py) (h2 : py < (k + 1) * hs) :
    (∀ d ∈ ds, d.start * ws ≤ px → px < (d.start + d.length) * ws → colorAt rects px py = some (col d)) ∧
    ((∀ d ∈ ds, ¬ (d.start * ws ≤ px ∧ px < (d.start + d.length) * ws)) → px < n * ws →
      colorAt rects px py = some gap) ∧
    (n * ws ≤ px → colorAt rects px py = none) := by
  cases hds : ds with
  | nil =>
    subst hds
    have hk' : cells[k]? = some [⟨ws * n, gap, some undefinedActivity⟩] := hk
    refine ⟨by simp, ?_, ?_⟩
    · intro _ hp
      rw [hshow]
      exact ⟨k, _, 0, _, hk', rfl, rfl, Nat.zero_le _, by rw [Nat.mul_comm]; simpa [leftOf] using hp, h1, h2⟩
    · intro hp
      cases hc : colorAt rects px py with
      | none => rfl
      | some c =>
        rw [hshow] at hc
        obtain ⟨k', row, j, cell, a1, a2, _, a4, a5, a6, a7⟩ := hc
        have : k' = k := by
          have b1 : k < k' + 1 := by by_contra hh; have := Nat.mul_le_mul_right hs (show k' + 1 ≤ k by omega); omega
          have b2 : k' < k + 1 := by by_contra hh; have := Nat.mul_le_mul_right hs (show k + 1 ≤ k' by omega); omega
          omega
        subst this
        rw [hk'] at a1
        have a1 := Option.some.inj a1
        subst a1
        cases j with
        | zero =>
          simp only [List.getElem?_cons_zero, Option.some.injEq] at a2
          subst a2
          simp only [leftOf, List.take_zero, List.map_nil, List.sum_nil, Nat.zero_add] at a5
          rw [Nat.mul_comm] at a5
          omega
        | succ j => simp at a2
  | cons d0 ds0 =>
    have hrow : traceCells false ws n col gap ds = (segsFrom n 0 ds).map (segCell false ws n col gap true) := by
      unfold traceCells
      rw [if_neg (by rw [hds]; simp)]
      exact rowCells_segs false ws n col gap ds 0 hw
    rw [hrow] at hk
    rw [← hds]
    have hseg := segments n ds hw
    have hleft : ∀ (j : Nat) (s : TracePart), (segsFrom n 0 ds)[j]? = some s →
        leftOf ((segsFrom n 0 ds).map (segCell false ws n col gap true)) j = ws * s.start := by
      intro j s hs'
      have := leftOf_segsFrom ws n col gap true ds 0 (Nat.zero_le _) hw (fun _ _ => Nat.zero_le _) j s hs'
      simpa using this
    have hit : ∀ s ∈ segsFrom n 0 ds, ws * s.start ≤ px → px < ws * (s.start + s.length) →
        colorAt rects px py = some (segCell false ws n col gap true s).color := by
      intro s hs' b1 b2
      obtain ⟨j, hj⟩ := List.mem_iff_getElem?.1 hs'
      rw [hshow]
      refine ⟨k, _, j, segCell false ws n col gap true s, hk, by rw [List.getElem?_map, hj]; rfl, rfl, ?_, ?_, h1, h2⟩
      · rw [hleft j s hj]; exact b1
      · rw [hleft j s hj]
        simp only [segCell, Bool.false_eq_true, if_false, ← Nat.mul_add]
        exact b2
    refine ⟨?_, ?_, ?_⟩
    · intro d hd b1 b2
      have hd' : d ∈ (segsFrom n 0 ds).filterMap (·.sub) := by rw [hseg.subs]; exact hd
      obtain ⟨s, hs', hsd⟩ := List.mem_filterMap.1 hd'
      obtain ⟨e1, e2⟩ := hseg.places s hs' d hsd
      rw [hit s hs' (by rw [e1, Nat.mul_comm]; exact b1) (by rw [e1, e2, Nat.mul_comm]; exact b2)]
      simp only [segCell, hsd]
    · intro hn hp
      have hws : 0 < ws := by
        rcases Nat.eq_zero_or_pos ws with h | h
        · rw [h, Nat.mul_zero] at hp; omega
        · exact h
      have hi : px / ws ∈ List.range n := by
        rw [List.mem_range]
        exact (Nat.div_lt_iff_lt_mul hws).2 hp
      rw [← hseg.tiles, List.mem_flatMap] at hi
      obtain ⟨s, hs', hi⟩ := hi
      rw [List.mem_range'_1] at hi
      have b1 : ws * s.start ≤ px := by
        rw [Nat.mul_comm]
        exact (Nat.le_div_iff_mul_le hws).1 hi.1
      have b2 : px < ws * (s.start + s.length) := by
        rw [Nat.mul_comm]
        exact (Nat.div_lt_iff_lt_mul hws).1 hi.2
      rw [hit s hs' b1 b2]
      cases hsub : s.sub with
      | none => simp only [segCell, hsub]
      | some d =>
        exfalso
        have hd' : d ∈ (segsFrom n 0 ds).filterMap (·.sub) := List.mem_filterMap.2 ⟨s, hs', hsub⟩
        rw [hseg.subs] at hd'
        obtain ⟨e1, e2⟩ := hseg.places s hs' d hsub
        exact hn d hd' ⟨by rw [← e1, Nat.mul_comm]; exact b1, by rw [← e1, ← e2, Nat.mul_comm]; exact b2⟩
    · intro hp
      cases hc : colorAt rects px py with
      | none => rfl
      | some c =>
        exfalso
        rw [hshow] at hc
        obtain ⟨k', row, j, cell, a1, a2, _, a4, a5, a6, a7⟩ := hc
        have : k' = k := by
          have b1 : k < k' + 1 := by by_contra hh; have := Nat.mul_le_mul_right hs (show k' + 1 ≤ k by omega); omega
          have b2 : k' < k + 1 := by by_contra hh; have := Nat.mul_le_mul_right hs (show k + 1 ≤ k' by omega); omega
          omega
        subst this
        rw [hk] at a1
        have a1 := Option.some.inj a1
        subst a1
        rw [List.getElem?_map, Option.map_eq_some_iff] at a2
        obtain ⟨s, hs', rfl⟩ := a2
        rw [hleft j s hs'] at a5 a4
        simp only [segCell, Bool.false_eq_true, if_false, ← Nat.mul_add] at a5
        have hmem := List.mem_of_getElem? hs'
        have hpos : 0 < s.length := by
          rcases Nat.eq_zero_or_pos s.length with h | h
          · rw [h, Nat.add_zero] at a5; omega
          · exact h
        have hlast : s.start + s.length - 1 ∈ List.range n := by
          rw [← hseg.tiles, List.mem_flatMap]
          exact ⟨s, hmem, by rw [List.mem_range'_1]; omega⟩
        rw [List.mem_range] at hlast
        have : ws * (s.start + s.length) ≤ ws * n := Nat.mul_le_mul_left _ (by omega)
        rw [Nat.mul_comm ws n] at this
        omega

end Ficus
