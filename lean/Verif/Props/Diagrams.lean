import Verif.Proofs.Cells
import Verif.Props.Colors
import Mathlib.Tactic.Cases

/-! Properties C71 (the diagram of a log of colours) and C72 (diagrams of the events of a log). -/

namespace Ficus
open Spec

/-! ### Logs of colours -/

/-- The piece of a coloured rectangle: as wide as its number of events, and with the first fifty characters of its name
in the legend. -/
def colorCell (ws : Nat) (c : CRect) : Piece :=
  { width := ws * c.length, color := toHex c.color, label := some (String.ofList (c.name.toList.take 50)) }

theorem legendName_eq (s : String) : legendName s = String.ofList (s.toList.take 50) := by
  unfold legendName
  split
  · rfl
  · rw [List.take_of_length_le (by omega), String.ofList_toList]

theorem colorsRow_eq (ws hs y : Nat) (t : List CRect) (x : Nat) (p : Picture) :
    colorsRow ws hs y t x p = p.addAll (cellRow x y hs (t.map (colorCell ws))) := by
  induction t generalizing x p with
  | nil => rfl
  | cons c t ih =>
    rw [colorsRow, List.map_cons, cellRow, ih]
    simp only [colorCell, Picture.addAll, List.foldl_cons, Picture.addCell, Picture.add, legendName_eq]

theorem colorsRows_eq (ws hs : Nat) (log : List (List CRect)) (y : Nat) (p : Picture) :
    colorsRows ws hs log y p = p.addAll (cellRows y hs (log.map (List.map (colorCell ws)))) := by
  induction log generalizing y p with
  | nil => rfl
  | cons t ts ih => rw [colorsRows, List.map_cons, cellRows, addAll_append, ih, colorsRow_eq, Nat.add_zero]

theorem foldl_length (t : List CRect) (ws a : Nat) : t.foldl (fun l r => l + r.length * ws) a = a + total t * ws := by
  induction t generalizing a with
  | nil => simp [total]
  | cons c t ih =>
    rw [List.foldl_cons, ih]
    simp only [total, List.map_cons, List.sum_cons, Nat.add_mul]
    omega

theorem rectTicks_eq (log : List (List CRect)) (ws m : Nat) (h1 : m ∈ log.map total) (h2 : ∀ x ∈ log.map total, x ≤ m) :
    rectTicks log ws = (m + 1) * ws := by
  unfold rectTicks
  simp only [foldl_length]
  have key : ∀ (log : List (List CRect)) (a : Nat),
      (∀ t ∈ log, total t ≤ m) → a ≤ (m + 1) * ws → (a = (m + 1) * ws ∨ ∃ t ∈ log, total t = m) →
      log.foldl (fun acc t => max acc (ws + total t * ws)) a = (m + 1) * ws := by
    intro log
    induction log with
    | nil =>
      rintro a _ _ (h | ⟨t, ht, _⟩)
      · exact h
      · simp at ht
    | cons t ts ih =>
      intro a hle ha hor
      rw [List.foldl_cons]
      have ht : ws + total t * ws ≤ (m + 1) * ws := by
        have : total t * ws ≤ m * ws := Nat.mul_le_mul_right _ (hle t (by simp))
        rw [Nat.add_one_mul]
        omega
      apply ih _ (fun t' ht' => hle t' (by simp [ht'])) (max_le ha ht)
      rcases hor with h | ⟨t', ht', e⟩
      · left; rw [h]; exact max_eq_left (h ▸ ht)
      · rcases List.mem_cons.1 ht' with rfl | ht'
        · left
          rw [e, Nat.add_one_mul, Nat.add_comm ws]
          rw [Nat.add_one_mul] at ha
          exact max_eq_right ha
        · exact Or.inr ⟨t', ht', e⟩
  obtain ⟨t, ht, e⟩ := List.mem_map.1 h1
  exact key log 0 (fun t ht => h2 _ (List.mem_map.2 ⟨t, ht, rfl⟩)) (Nat.zero_le _) (Or.inr ⟨t, ht, e⟩)

/-- C71a: the diagram of a log of colours shows row by row the rectangles of the traces side by side, with the names cut
to fifty characters in the legend. The vertical axis ends with the number of traces at the top of the last row. The
horizontal axis ends with the largest number of events, at the place `(m + 1) * ws - 1` instead of `m * ws`. -/
theorem C71_colors (log : List (List CRect)) (pl : Bool) (hs ws : Nat) (d : Diagram)
    (h : drawColorsLog log pl hs ws = .ok d) :
    Shows d.rects hs (log.map (List.map (colorCell ws))) ∧
    (pl = true → ∃ legend, d.legend = some legend ∧ Explains legend (log.map (List.map (colorCell ws)))) ∧
    (pl = false → d.legend = none) ∧ Axis d.yLabels (log.length * hs) log.length ∧
    ∃ m, (∃ t ∈ log, total t = m) ∧ (∀ t ∈ log, total t ≤ m) ∧ Axis d.xLabels ((m + 1) * ws - 1) m := by
  unfold drawColorsLog at h
  obtain ⟨h1, h2, h3, h4, h5, n, h6, h7, h8⟩ := finishDiagram_ok h
  rw [colorsRows_eq] at h3 h4
  refine ⟨?_, ?_, ?_, h5, ?_⟩
  · rw [h3, addAll_rects]
    exact shows_cellRows hs _
  · rintro rfl
    exact ⟨_, h4, explains_cellRows hs _⟩
  · rintro rfl
    exact h4
  · simp only [Except.ok.injEq] at h6
    have hne : log.map total ≠ [] := by
      intro e
      rw [List.map_eq_nil_iff] at e
      subst e
      rw [← h6] at h7
      exact absurd h7 (Nat.lt_irrefl 0)
    obtain ⟨m, hm⟩ := pyMax_exists hne
    obtain ⟨hm1, hm2⟩ := pyMax_ok hm
    obtain ⟨t, ht, e⟩ := List.mem_map.1 hm1
    refine ⟨m, ⟨t, ht, e⟩, fun t ht => hm2 _ (List.mem_map.2 ⟨t, ht, rfl⟩), ?_⟩
    rw [← h6, rectTicks_eq log ws m hm1 hm2] at h8
    have e : ((m + 1) * ws - 1) / ws = m := by
      rw [Nat.div_eq_iff h2]
      constructor
      · rw [Nat.add_one_mul]; omega
      · rw [Nat.add_one_mul]
    rwa [e] at h8

/-- C71b: when the drawing succeeds, and what is raised otherwise. -/
theorem C71_fails (log : List (List CRect)) (pl : Bool) (hs ws : Nat) :
    ((∃ d, drawColorsLog log pl hs ws = .ok d) ↔ log ≠ [] ∧ 0 < hs ∧ 0 < ws) ∧
    (hs = 0 → drawColorsLog log pl hs ws = .error .zeroDivision) ∧
    (0 < hs → (log = [] ∨ ws = 0) → drawColorsLog log pl hs ws = .error .indexError) := by
  have hz : hs = 0 → drawColorsLog log pl hs ws = .error .zeroDivision := by
    rintro rfl
    unfold drawColorsLog finishDiagram tickLabels
    rfl
  have hi : 0 < hs → (log = [] ∨ ws = 0) → drawColorsLog log pl hs ws = .error .indexError := by
    intro h0 hor
    have : rectTicks log ws = 0 := by
      rcases hor with rfl | rfl
      · rfl
      · unfold rectTicks
        simp only [Nat.mul_zero, Nat.add_zero]
        have key : ∀ t : List CRect, t.foldl (fun l _ => l) 0 = 0 := by
          intro t
          induction t with
          | nil => rfl
          | cons c t ih => exact ih
        simp only [key, Nat.max_zero]
        exact List.foldl_fixed _
    unfold drawColorsLog finishDiagram
    obtain ⟨y, hy⟩ := tickLabels_exists (count := log.length * hs + 1) (Nat.succ_pos _) h0
    rw [hy, this]
    rfl
  refine ⟨⟨?_, ?_⟩, hz, hi⟩
  · rintro ⟨d, hd⟩
    by_cases h0 : hs = 0
    · rw [hz h0] at hd; cases hd
    · by_cases hc : log = [] ∨ ws = 0
      · rw [hi (by omega) hc] at hd; cases hd
      · exact ⟨fun e => hc (Or.inl e), by omega, Nat.pos_of_ne_zero (fun e => hc (Or.inr e))⟩
  · rintro ⟨h1, h2, h3⟩
    obtain ⟨m, hm⟩ := pyMax_exists (l := log.map total) (by simpa using h1)
    obtain ⟨hm1, hm2⟩ := pyMax_ok hm
    unfold drawColorsLog finishDiagram
    obtain ⟨y, hy⟩ := tickLabels_exists (count := log.length * hs + 1) (Nat.succ_pos _) h2
    obtain ⟨x, hx⟩ := tickLabels_exists (count := rectTicks log ws) (scale := ws)
      (by rw [rectTicks_eq log ws m hm1 hm2]; exact Nat.mul_pos (Nat.succ_pos _) h3) h3
    rw [hy]
    simp only [bind, Except.bind]
    rw [hx]
    exact ⟨_, rfl⟩

example : (drawColorsLog [[⟨(255, 0, 0), 0, 2, "a"⟩, ⟨(0, 255, 0), 2, 1, "b"⟩], [⟨(0, 0, 255), 0, 1, "a"⟩]] true 1 2).toOption.map
      (fun d => (d.rects, d.xLabels, d.yLabels)) =
    some ([⟨0, 0, 4, 1, "#FF0000"⟩, ⟨4, 0, 2, 1, "#00FF00"⟩, ⟨0, 1, 2, 1, "#0000FF"⟩],
      ["0", "", "", "", "", "", "", "3"], ["0", "", "2"]) := by decide +kernel

/-- C71c: names that agree in their first fifty characters are one entry of the legend, which has the colour of only one
of them. -/
theorem C71_legend_merges : ∃ (log : List (List CRect)) (d : Diagram) (legend : Dict String (Rect Nat)),
    drawColorsLog log true 1 1 = .ok d ∧ d.legend = some legend ∧ legend.length = 1 ∧
    ((log.flatten.map (·.name)).eraseDups).length = 2 ∧ ((log.flatten.map (·.color)).eraseDups).length = 2 := by
  let a : String := String.ofList (List.replicate 50 'a')
  let log : List (List CRect) := [[⟨(255, 0, 0), 0, 1, a ++ "b"⟩, ⟨(0, 255, 0), 1, 1, a ++ "c"⟩]]
  obtain ⟨d, hd⟩ := ((C71_fails log true 1 1).1).2 ⟨by simp [log], by decide, by decide⟩
  obtain ⟨_, hl, _⟩ := C71_colors log true 1 1 d hd
  obtain ⟨legend, h1, h2, _⟩ := hl rfl
  refine ⟨log, d, legend, hd, h1, ?_, by decide +kernel, by decide +kernel⟩
  have := congrArg List.length h2
  unfold Dict.keys at this
  rw [List.length_map] at this
  rw [this]
  decide +kernel

/-! ### Diagrams of events -/

/-- The provider of the two diagrams: names that satisfy the predicate have the cached colour or a new one, which is
cached; other names are black. -/
def eventProvider (pred : String → Bool) (n : String) (q : Palette) : Draw (String × Palette) :=
  if pred n then q.colorOf n else .done ("#000000", q)

/-- The colour that a state of the colours has for a name. -/
def look (pred : String → Bool) (q : Palette) (n : String) : String :=
  if pred n then (q.cached.get? n).getD "" else "#000000"

/-- Cached colours are kept. -/
def Keeps (p q : Palette) : Prop := ∀ n c, p.cached.get? n = some c → q.cached.get? n = some c

theorem Keeps.refl (p : Palette) : Keeps p p := fun _ _ h => h
theorem Keeps.trans {p q r : Palette} (h1 : Keeps p q) (h2 : Keeps q r) : Keeps p r := fun n c h => h2 n c (h1 n c h)

/-- The cached colours of different names differ and are marked as used. -/
def Separate (p : Palette) : Prop :=
  (∀ n m c, p.cached.get? n = some c → p.cached.get? m = some c → n = m) ∧
  ∀ n c, p.cached.get? n = some c → UsedItem.text c ∈ p.used

theorem colorOf_step {p q : Palette} {n c : String} (h : p.colorOf n = .done (c, q)) :
    Keeps p q ∧ q.cached.get? n = some c ∧ (∀ m, m ≠ n → q.cached.get? m = p.cached.get? m) ∧
      (Separate p → Separate q) := by
  cases h0 : p.cached.get? n with
  | some c' =>
    obtain ⟨rfl, rfl⟩ := colorOf_cached h0 h
    exact ⟨Keeps.refl _, h0, fun _ _ => rfl, id⟩
  | none =>
    obtain ⟨used, ds, hn, rfl⟩ := colorOf_done h0 h
    obtain ⟨hu, hused, _, _⟩ := nextColor_done hn
    refine ⟨?_, Dict.get?_set_self _ _ _, fun m hm => Dict.get?_set_ne _ _ (Ne.symm hm), ?_⟩
    · intro m d hm
      have : m ≠ n := by rintro rfl; rw [h0] at hm; cases hm
      show (p.cached.set n c).get? m = some d
      rw [Dict.get?_set_ne _ _ (Ne.symm this)]
      exact hm
    · rintro ⟨h1, h2⟩
      have hval : ∀ m d, (p.cached.set n c).get? m = some d → (m = n ∧ d = c) ∨ (m ≠ n ∧ p.cached.get? m = some d) := by
        intro m d hm
        by_cases e : m = n
        · subst e
          rw [Dict.get?_set_self] at hm
          exact Or.inl ⟨rfl, (Option.some.inj hm).symm⟩
        · rw [Dict.get?_set_ne _ _ (Ne.symm e)] at hm
          exact Or.inr ⟨e, hm⟩
      refine ⟨?_, ?_⟩
      · intro a b d ha hb
        rcases hval a d ha with ⟨ea, da⟩ | ⟨_, ha'⟩
        · rcases hval b d hb with ⟨eb, _⟩ | ⟨_, hb'⟩
          · rw [ea, eb]
          · exact absurd (h2 b d hb') (da ▸ hu)
        · rcases hval b d hb with ⟨_, db⟩ | ⟨_, hb'⟩
          · exact absurd (h2 a d ha') (db ▸ hu)
          · exact h1 a b d ha' hb'
      · intro a d ha
        show UsedItem.text d ∈ used
        rw [hused]
        rcases hval a d ha with ⟨_, rfl⟩ | ⟨_, ha⟩
        · simp
        · simp [h2 a d ha]

/-- The state of a drawing: the chosen colours are those of the cache. -/
def Agrees (pred : String → Bool) (st : EventsState) : Prop :=
  ∀ n c, st.chosen.get? n = some c → c = look pred st.palette n ∧ (pred n = true → ∃ c', st.palette.cached.get? n = some c')

/-- What a step or a loop does to the colours, where `names` are the names that it meets. -/
structure Steps (pred : String → Bool) (names : List String) (p q : Palette) : Prop where
  keeps : Keeps p q
  others : ∀ n, ¬ (pred n = true ∧ n ∈ names) → q.cached.get? n = p.cached.get? n
  has : ∀ n ∈ names, pred n = true → ∃ c, q.cached.get? n = some c
  separate : Separate p → Separate q

theorem Steps.refl (pred : String → Bool) (p : Palette) : Steps pred [] p p :=
  ⟨Keeps.refl p, fun _ _ => rfl, fun _ h => by simp at h, id⟩

theorem Steps.trans {pred : String → Bool} {a b : List String} {p q r : Palette} (h1 : Steps pred a p q)
    (h2 : Steps pred b q r) : Steps pred (a ++ b) p r := by
  refine ⟨h1.keeps.trans h2.keeps, ?_, ?_, fun h => h2.separate (h1.separate h)⟩
  · intro n hn
    rw [h2.others n (fun h => hn ⟨h.1, by simp [h.2]⟩), h1.others n (fun h => hn ⟨h.1, by simp [h.2]⟩)]
  · intro n hn hp
    rcases List.mem_append.1 hn with hn | hn
    · obtain ⟨c, hc⟩ := h1.has n hn hp
      exact ⟨c, h2.keeps n c hc⟩
    · exact h2.has n hn hp

theorem look_of_keeps {pred : String → Bool} {p q : Palette} (h : Keeps p q) (n : String)
    (hn : pred n = true → ∃ c, p.cached.get? n = some c) : look pred q n = look pred p n := by
  unfold look
  by_cases hp : pred n = true
  · rw [if_pos hp, if_pos hp]
    obtain ⟨c, hc⟩ := hn hp
    rw [hc, h n c hc]
  · rw [if_neg hp, if_neg hp]

theorem Agrees.keep {pred : String → Bool} {st st' : EventsState} (h : Agrees pred st) (hc : st'.chosen = st.chosen)
    (hk : Keeps st.palette st'.palette) : Agrees pred st' := by
  intro n c hn
  rw [hc] at hn
  obtain ⟨h1, h2⟩ := h n c hn
  refine ⟨?_, ?_⟩
  · rw [look_of_keeps hk n h2]; exact h1
  · intro hp
    obtain ⟨c', hc'⟩ := h2 hp
    exact ⟨c', hk _ _ hc'⟩

theorem eventColor_done {pred : String → Bool} {st st' : EventsState} {n c : String} (ha : Agrees pred st)
    (h : eventColor (eventProvider pred) st n = .done (c, st')) :
    st'.picture = st.picture ∧ Agrees pred st' ∧ c = look pred st'.palette n ∧ Steps pred [n] st.palette st'.palette := by
  unfold eventColor at h
  cases hc : st.chosen.get? n with
  | some d =>
    rw [hc] at h
    simp only [Draw.done.injEq, Prod.mk.injEq] at h
    obtain ⟨rfl, rfl⟩ := h
    obtain ⟨h1, h2⟩ := ha n d hc
    refine ⟨rfl, ha, h1, Keeps.refl _, fun _ _ => rfl, ?_, id⟩
    intro m hm hp
    simp only [List.mem_singleton] at hm
    subst hm
    exact h2 hp
  | none =>
    rw [hc] at h
    cases hpr : eventProvider pred n st.palette with
    | overflow => rw [hpr] at h; simp at h
    | running => rw [hpr] at h; simp at h
    | done r =>
      obtain ⟨d, q⟩ := r
      rw [hpr] at h
      simp only [Draw.done.injEq, Prod.mk.injEq] at h
      obtain ⟨rfl, rfl⟩ := h
      have main : Keeps st.palette q ∧ d = look pred q n ∧ Steps pred [n] st.palette q := by
        unfold eventProvider at hpr
        by_cases hp : pred n = true
        · rw [if_pos hp] at hpr
          obtain ⟨k1, k2, k3, k4⟩ := colorOf_step hpr
          refine ⟨k1, by unfold look; rw [if_pos hp, k2]; rfl, k1, ?_, ?_, k4⟩
          · intro m hm
            by_cases e : m = n
            · subst e; exact absurd ⟨hp, by simp⟩ hm
            · exact k3 m e
          · intro m hm _
            simp only [List.mem_singleton] at hm
            subst hm
            exact ⟨d, k2⟩
        · rw [if_neg hp] at hpr
          simp only [Draw.done.injEq, Prod.mk.injEq] at hpr
          obtain ⟨rfl, rfl⟩ := hpr
          refine ⟨Keeps.refl _, by unfold look; rw [if_neg hp], Keeps.refl _, fun _ _ => rfl, ?_, id⟩
          intro m hm hp'
          simp only [List.mem_singleton] at hm
          subst hm
          exact absurd hp' hp
      obtain ⟨k1, k2, k3⟩ := main
      refine ⟨rfl, ?_, k2, k3⟩
      intro m e hm
      by_cases hmn : m = n
      · subst hmn
        have hm : (st.chosen.set m d).get? m = some e := hm
        rw [Dict.get?_set_self] at hm
        rw [← Option.some.inj hm]
        exact ⟨k2, fun hp => k3.has m (by simp) hp⟩
      · have hm : (st.chosen.set n d).get? m = some e := hm
        rw [Dict.get?_set_ne _ _ (Ne.symm hmn)] at hm
        exact (ha.keep (st' := { st with palette := q }) rfl k1) m e hm

/-- The piece of one event. -/
def eventCell (ws : Nat) (col : String → String) (n : String) : Piece := { width := ws, color := col n, label := some n }

theorem eventsRow_done {pred : String → Bool} {ws hs y : Nat} {t : List String} {x : Nat} {st st' : EventsState}
    (ha : Agrees pred st) (h : eventsRow (eventProvider pred) ws hs y t x st = .done st') :
    Agrees pred st' ∧ Steps pred t st.palette st'.palette ∧ ∀ q, Keeps st'.palette q →
      st'.picture = st.picture.addAll (cellRow x y hs (t.map (eventCell ws (look pred q)))) := by
  induction t generalizing x st with
  | nil =>
    simp only [eventsRow, Draw.done.injEq] at h
    subst h
    exact ⟨ha, Steps.refl _ _, fun _ _ => rfl⟩
  | cons n t ih =>
    rw [eventsRow] at h
    cases hc : eventColor (eventProvider pred) st n with
    | overflow => rw [hc] at h; simp at h
    | running => rw [hc] at h; simp at h
    | done r =>
      obtain ⟨c, st1⟩ := r
      rw [hc] at h
      obtain ⟨k1, k2, k3, k4⟩ := eventColor_done ha hc
      let st2 : EventsState := { st1 with picture := st1.picture.add { x := x, y := y, w := ws, h := hs, color := c } n }
      obtain ⟨i1, i2, i3⟩ := ih (st := st2) (k2.keep rfl (Keeps.refl _)) h
      refine ⟨i1, k4.trans i2, ?_⟩
      intro q hq
      rw [i3 q hq, List.map_cons, cellRow]
      simp only [Picture.addAll, List.foldl_cons, Picture.addCell, eventCell, Picture.add]
      have : look pred q n = c := by
        rw [k3]
        exact look_of_keeps (i2.keeps.trans hq) n (k4.has n (by simp))
      rw [this, ← k1]
      rfl

theorem eventsRows_done {pred : String → Bool} {ws hs : Nat} {log : List (List String)} {y : Nat} {st st' : EventsState}
    (ha : Agrees pred st) (h : eventsRows (eventProvider pred) ws hs log y st = .done st') :
    Steps pred log.flatten st.palette st'.palette ∧ ∀ q, Keeps st'.palette q →
      st'.picture = st.picture.addAll (cellRows y hs (log.map (List.map (eventCell ws (look pred q))))) := by
  induction log generalizing y st with
  | nil =>
    simp only [eventsRows, Draw.done.injEq] at h
    subst h
    exact ⟨Steps.refl _ _, fun _ _ => rfl⟩
  | cons t ts ih =>
    rw [eventsRows] at h
    cases hc : eventsRow (eventProvider pred) ws hs y t 0 st with
    | overflow => rw [hc] at h; simp at h
    | running => rw [hc] at h; simp at h
    | done st1 =>
      rw [hc] at h
      obtain ⟨k1, k2, k3⟩ := eventsRow_done ha hc
      obtain ⟨i1, i2⟩ := ih k1 h
      refine ⟨k2.trans i1, ?_⟩
      intro q hq
      rw [i2 q hq, k3 q (i1.keeps.trans hq), List.map_cons, cellRows, addAll_append, Nat.add_zero]

/-- When a diagram of a log succeeds, and what is raised otherwise. -/
theorem finish_log (p : Picture) (pl : Bool) (lengths : List Nat) (hs ws : Nat) :
    let res := finishDiagram p pl lengths.length (logTicks lengths ws) hs ws
    (hs = 0 → res = .error .zeroDivision) ∧ (0 < hs → lengths = [] → res = .error .valueError) ∧
    (0 < hs → lengths ≠ [] → ws = 0 → res = .error .zeroDivision) ∧
    (0 < hs → lengths ≠ [] → 0 < ws → ∃ d, res = .ok d) := by
  intro res
  refine ⟨?_, ?_, ?_, ?_⟩
  · rintro rfl
    rfl
  · rintro h rfl
    obtain ⟨y, hy⟩ := tickLabels_exists (count := 0 * hs + 1) (Nat.succ_pos _) h
    show finishDiagram _ _ _ _ _ _ = _
    unfold finishDiagram
    rw [show ([] : List Nat).length = 0 from rfl, hy]
    rfl
  · rintro h hl rfl
    obtain ⟨y, hy⟩ := tickLabels_exists (count := lengths.length * hs + 1) (Nat.succ_pos _) h
    obtain ⟨m, hm⟩ := pyMax_exists hl
    show finishDiagram _ _ _ _ _ _ = _
    unfold finishDiagram logTicks
    rw [hy, hm]
    rfl
  · intro h hl hw
    obtain ⟨y, hy⟩ := tickLabels_exists (count := lengths.length * hs + 1) (Nat.succ_pos _) h
    obtain ⟨m, hm⟩ := pyMax_exists hl
    obtain ⟨x, hx⟩ := tickLabels_exists (count := m * ws + 1) (Nat.succ_pos _) hw
    show ∃ d, finishDiagram _ _ _ _ _ _ = _
    unfold finishDiagram logTicks
    rw [hy, hm]
    simp only [bind, Except.bind, pure, Except.pure]
    rw [hx]
    exact ⟨_, rfl⟩

/-- A finished diagram of a log whose picture is made of pieces. -/
theorem finish_cells {pl : Bool} {lengths : List Nat} {hs ws : Nat} {d : Diagram} {cells : List (List Piece)}
    (h : finishDiagram (Picture.empty.addAll (cellRows 0 hs cells)) pl lengths.length (logTicks lengths ws) hs ws = .ok d) :
    Shows d.rects hs cells ∧ (pl = true → ∃ legend, d.legend = some legend ∧ Explains legend cells) ∧
    (pl = false → d.legend = none) ∧ Axis d.yLabels (lengths.length * hs) lengths.length ∧
    ∃ m ∈ lengths, (∀ n ∈ lengths, n ≤ m) ∧ Axis d.xLabels (m * ws) m := by
  obtain ⟨h1, h2, h3, h4, h5, n, h6, h7, h8⟩ := finishDiagram_ok h
  refine ⟨?_, ?_, ?_, h5, ?_⟩
  · rw [h3, addAll_rects]; exact shows_cellRows hs _
  · rintro rfl; exact ⟨_, h4, explains_cellRows hs _⟩
  · rintro rfl; exact h4
  · unfold logTicks at h6
    cases hm : pyMax lengths with
    | error e => rw [hm] at h6; cases h6
    | ok m =>
      rw [hm] at h6
      simp only [bind, Except.bind, pure, Except.pure, Except.ok.injEq] at h6
      obtain ⟨a, b⟩ := pyMax_ok hm
      refine ⟨m, a, b, ?_⟩
      rw [← h6, Nat.add_sub_cancel, Nat.mul_div_cancel _ h2] at h8
      exact h8

theorem eventsDiagram_done {pred : String → Bool} {p q : Palette} {log : List (List String)} {pl : Bool} {hs ws : Nat}
    {res : Except PyErr Diagram}
    (h : eventsDiagram (eventProvider pred) p log pl hs ws = .done (res, q)) :
    Steps pred log.flatten p q ∧ res = finishDiagram (Picture.empty.addAll (cellRows 0 hs
      (log.map (List.map (eventCell ws (look pred q)))))) pl (log.map List.length).length (logTicks (log.map List.length) ws) hs ws := by
  unfold eventsDiagram at h
  cases hr : eventsRows (eventProvider pred) ws hs log 0
      { picture := { rects := [], legend := [] }, chosen := [], palette := p } with
  | overflow => rw [hr] at h; simp at h
  | running => rw [hr] at h; simp at h
  | done st =>
    rw [hr] at h
    simp only [Draw.done.injEq, Prod.mk.injEq] at h
    obtain ⟨rfl, rfl⟩ := h
    obtain ⟨h1, h2⟩ := eventsRows_done (st := { picture := { rects := [], legend := [] }, chosen := [], palette := p })
      (by intro n c hn; simp [Dict.get?] at hn) hr
    refine ⟨h1, ?_⟩
    rw [h2 _ (Keeps.refl _), List.length_map]
    rfl

/-- C72a: the traces diversity diagram. All names of the log have a cached colour afterwards, colours cached before are
kept and no other names are cached. Each event is seen in its row at its place in the colour cached for its name; the
legend lists the names with their colours; the axes end with the number of traces and the longest length. -/
theorem C72_diversity (p q : Palette) (log : List (List String)) (pl : Bool) (hs ws : Nat) (res : Except PyErr Diagram)
    (h : diversityDiagram p log pl hs ws = .done (res, q)) :
    (∀ n c, p.cached.get? n = some c → q.cached.get? n = some c) ∧
    (∀ n, n ∉ log.flatten → q.cached.get? n = p.cached.get? n) ∧
    ∃ col : String → String, (∀ n ∈ log.flatten, q.cached.get? n = some (col n)) ∧ ∀ d, res = .ok d →
      Shows d.rects hs (log.map (List.map (eventCell ws col))) ∧
      (pl = true → ∃ legend, d.legend = some legend ∧ Explains legend (log.map (List.map (eventCell ws col)))) ∧
      (pl = false → d.legend = none) ∧ Axis d.yLabels (log.length * hs) log.length ∧
      ∃ t ∈ log, (∀ t' ∈ log, t'.length ≤ t.length) ∧ Axis d.xLabels (t.length * ws) t.length := by
  have e : (fun (n : String) (q : Palette) => q.colorOf n) = eventProvider (fun _ => true) := by
    funext n q; rfl
  unfold diversityDiagram at h
  rw [e] at h
  obtain ⟨h1, h2⟩ := eventsDiagram_done h
  refine ⟨h1.keeps, fun n hn => h1.others n (fun h => hn h.2), look (fun _ => true) q, ?_, ?_⟩
  · intro n hn
    obtain ⟨c, hc⟩ := h1.has n hn rfl
    rw [hc]
    unfold look
    rw [if_pos rfl, hc]
    rfl
  · rintro d rfl
    obtain ⟨k1, k2, k3, k4, m, hm, k5, k6⟩ := finish_cells h2.symm
    obtain ⟨t, ht, rfl⟩ := List.mem_map.1 hm
    rw [List.length_map] at k4
    exact ⟨k1, k2, k3, k4, t, ht, fun t' ht' => k5 _ (List.mem_map.2 ⟨t', ht', rfl⟩), k6⟩

/-- C72b: if, before the drawing, different names had different cached colours and all of them were marked as used (as
in a context without any reset in between), then different names are drawn in different colours. -/
theorem C72_distinct_partial (p q : Palette) (log : List (List String)) (pl : Bool) (hs ws : Nat) (res : Except PyErr Diagram)
    (h : diversityDiagram p log pl hs ws = .done (res, q)) (hp : Separate p) (n m : String) (hn : n ∈ log.flatten)
    (hm : m ∈ log.flatten) (hnm : n ≠ m) :
    ∃ c d, q.cached.get? n = some c ∧ q.cached.get? m = some d ∧ c ≠ d := by
  have e : (fun (n : String) (q : Palette) => q.colorOf n) = eventProvider (fun _ => true) := by
    funext n q; rfl
  unfold diversityDiagram at h
  rw [e] at h
  obtain ⟨h1, h2⟩ := eventsDiagram_done h
  obtain ⟨c, hc⟩ := h1.has n hn rfl
  obtain ⟨d, hd⟩ := h1.has m hm rfl
  refine ⟨c, d, hc, hd, ?_⟩
  rintro rfl
  exact hnm ((h1.separate hp).1 n m c hc hd)

/-- C72c: after a reset of the provider, which every execution of a pipeline does, a new name can be drawn in the
colour of another one. -/
theorem C72_same_color : ∃ (p q : Palette) (log : List (List String)) (res : Except PyErr Diagram),
    Separate p ∧ diversityDiagram p.reset log true 1 1 = .done (res, q) ∧
    log = [["a", "b"]] ∧ q.cached.get? "a" = q.cached.get? "b" ∧ q.cached.get? "a" ≠ none := by
  let p : Palette := { used := [.text "#010203"], cached := [("a", "#010203")], draws := [(1, 2, 3)] }
  let show' : Draw (Except PyErr Diagram × Palette) → Option Palette := fun r =>
    match r with
    | .done (_, q) => some q
    | _ => none
  have e : show' (diversityDiagram p.reset [["a", "b"]] true 1 1) =
      some { used := [.text "#010203"], cached := [("a", "#010203"), ("b", "#010203")], draws := [] } := by decide +kernel
  cases hd : diversityDiagram p.reset [["a", "b"]] true 1 1 with
  | overflow => rw [hd] at e; cases e
  | running => rw [hd] at e; cases e
  | done r =>
    obtain ⟨res, q⟩ := r
    rw [hd] at e
    have e := Option.some.inj e
    subst e
    refine ⟨p, _, _, res, ⟨?_, ?_⟩, hd, rfl, by decide, by decide⟩
    · intro n m c hn hm
      simp only [p, Dict.get?] at hn hm
      split at hn <;> split at hm <;> simp_all
    · intro n c hn
      simp only [p, Dict.get?] at hn
      split at hn
      · rw [← Option.some.inj hn]; simp [p]
      · cases hn

/-- C72d: the diagram of the placements of events. The names that satisfy the predicate are drawn in their cached
colours, all others in black, each event in its row at its place. -/
theorem C72_placements (p q : Palette) (log : List (List String)) (pred : String → Bool) (pl : Bool) (hs : Nat)
    (res : Except PyErr Diagram) (h : placementsDiagram p log pred pl hs = .done (res, q)) :
    (∀ n c, p.cached.get? n = some c → q.cached.get? n = some c) ∧
    (∀ n, (pred n = false ∨ n ∉ log.flatten) → q.cached.get? n = p.cached.get? n) ∧
    ∃ col : String → String, (∀ n ∈ log.flatten, pred n = true → q.cached.get? n = some (col n)) ∧
      (∀ n, pred n = false → col n = "#000000") ∧ ∀ d, res = .ok d →
      Shows d.rects hs (log.map (List.map (eventCell 1 col))) ∧
      (pl = true → ∃ legend, d.legend = some legend ∧ Explains legend (log.map (List.map (eventCell 1 col)))) ∧
      (pl = false → d.legend = none) ∧ Axis d.yLabels (log.length * hs) log.length ∧
      ∃ t ∈ log, (∀ t' ∈ log, t'.length ≤ t.length) ∧ Axis d.xLabels t.length t.length := by
  have e : (fun (n : String) (q : Palette) => if pred n then q.colorOf n else .done ("#000000", q)) = eventProvider pred := by
    funext n q; rfl
  unfold placementsDiagram at h
  rw [e] at h
  obtain ⟨h1, h2⟩ := eventsDiagram_done h
  refine ⟨fun n c hc => h1.keeps n c hc, ?_, look pred q, ?_, ?_, ?_⟩
  · intro n hn
    rw [h1.others n]
    · rfl
    · rintro ⟨a, b⟩
      rcases hn with hn | hn
      · rw [a] at hn; cases hn
      · exact hn b
  · intro n hn hp
    obtain ⟨c, hc⟩ := h1.has n hn hp
    rw [hc]
    unfold look
    rw [if_pos hp, hc]
    rfl
  · intro n hn
    unfold look
    rw [if_neg (by rw [hn]; simp)]
  · rintro d rfl
    obtain ⟨k1, k2, k3, k4, m, hm, k5, k6⟩ := finish_cells h2.symm
    obtain ⟨t, ht, rfl⟩ := List.mem_map.1 hm
    rw [List.length_map] at k4
    rw [Nat.mul_one] at k6
    exact ⟨k1, k2, k3, k4, t, ht, fun t' ht' => k5 _ (List.mem_map.2 ⟨t', ht', rfl⟩), k6⟩

/-- What a diagram gives, if the drawing returns. -/
def drawn (r : Draw (Except PyErr Diagram × Palette)) : Option (List (Rect Nat) × Palette) :=
  match r with
  | .done (.ok d, q) => some (d.rects, q)
  | _ => none

example : drawn (diversityDiagram { used := [], cached := [], draws := [(1, 2, 3), (4, 5, 6)] } [["a", "b"], ["b"]] true 1 2) =
    some ([⟨0, 0, 2, 1, "#010203"⟩, ⟨2, 0, 2, 1, "#040506"⟩, ⟨0, 1, 2, 1, "#040506"⟩],
      { used := [.text "#010203", .text "#040506"], cached := [("a", "#010203"), ("b", "#040506")], draws := [] }) := by
  decide +kernel

example : drawn (placementsDiagram { used := [], cached := [], draws := [(1, 2, 3)] } [["a", "b"]] (· == "b") true 1) =
    some ([⟨0, 0, 1, 1, "#000000"⟩, ⟨1, 0, 1, 1, "#010203"⟩],
      { used := [.triple (0, 0, 0), .text "#010203"], cached := [("b", "#010203")], draws := [] }) := by decide +kernel

/-- C72e: although black is marked as used before the placements are drawn, it can be the colour of a name that satisfies
the predicate, so that this name is not seen among the others: the mark is a triple and not a text. -/
theorem C72_black_taken : ∃ (p : Palette), p.used = [] ∧ p.cached = [] ∧
    (drawn (placementsDiagram p [["a", "b"]] (· == "b") true 1)).map (fun r => r.1.map (·.color)) =
      some ["#000000", "#000000"] :=
  ⟨{ used := [], cached := [], draws := [(0, 0, 0)] }, rfl, rfl, by decide +kernel⟩

/-- C72f: when the diagrams of events succeed, and what is raised otherwise; the colours are cached in any case. -/
theorem C72_fails (provider : String → Palette → Draw (String × Palette)) (p q : Palette) (log : List (List String)) (pl : Bool)
    (hs ws : Nat) (res : Except PyErr Diagram) (h : eventsDiagram provider p log pl hs ws = .done (res, q)) :
    (hs = 0 → res = .error .zeroDivision) ∧ (0 < hs → log = [] → res = .error .valueError) ∧
    (0 < hs → log ≠ [] → ws = 0 → res = .error .zeroDivision) ∧
    (0 < hs → log ≠ [] → 0 < ws → ∃ d, res = .ok d) := by
  unfold eventsDiagram at h
  cases hr : eventsRows provider ws hs log 0
      { picture := { rects := [], legend := [] }, chosen := [], palette := p } with
  | overflow => rw [hr] at h; simp at h
  | running => rw [hr] at h; simp at h
  | done st =>
    rw [hr] at h
    simp only [Draw.done.injEq, Prod.mk.injEq] at h
    obtain ⟨rfl, rfl⟩ := h
    have := finish_log st.picture pl (log.map List.length) hs ws
    simp only [List.length_map, ne_eq, List.map_eq_nil_iff] at this
    exact this

end Ficus
