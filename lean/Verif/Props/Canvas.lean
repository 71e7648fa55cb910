import Verif.Proofs.Diagrams
import Mathlib.Tactic.NormNum

/-! Property C70: the canvas diagram of a log of colours. -/

namespace Ficus
open Spec

/-- The rectangle number `i` of the legend. -/
def legendRect (width before : ℚ) (i : Nat) (color : String) : Rect ℚ :=
  { x := width / 3, y := before + 20 * i, w := 40, h := 20, color := color }

theorem drawCanvas_ok {log : List (List CRect)} {title : Option String} {pl : Bool} {ws hs : ℚ} {pic : CanvasPicture}
    (h : drawCanvas log title pl ws hs = .ok pic) :
    ∃ m, (m ∈ log.map total ∧ ∀ x ∈ log.map total, x ≤ m) ∧ pic.width = m * ws + 36 ∧
      pic.height = log.length * hs + 21 + topSpace title + (if pl then 20 * (canvasColors log).length else 0 : Nat) ∧
      fills pic.ops = { x := 0, y := 0, w := pic.width, h := pic.height, color := "white" } ::
        (layRows 21 (topSpace title) hs (log.map (List.map (fun c => ((c.length : ℚ) * ws, toHex c.color)))) ++
        if pl then ((canvasColors log).zipIdx).map (fun p => legendRect pic.width (log.length * hs + 21 + topSpace title) p.2 p.1.2) else []) ∧
      texts pic.ops = title.toList ++ [toString log.length, toString m] ++ if pl then (canvasColors log).keys else [] := by
  unfold drawCanvas at h
  cases hm : pyMax (log.map (fun t => (t.map (·.length)).sum)) with
  | error e => rw [hm] at h; cases h
  | ok m =>
    rw [hm] at h
    simp only [bind, Except.bind, pure, Except.pure, Except.ok.injEq] at h
    refine ⟨m, ?_, ?_, ?_, ?_, ?_⟩
    · have := pyMax_ok hm
      exact this
    · rw [← h]; simp only; ring
    · rw [← h]
      simp only
      cases pl <;> simp [topSpace, mul_comm]
    · subst h
      simp only [canvasDiagram, fills_append, fills_canvasRows]
      cases pl with
      | true =>
        simp only [if_true, fills_canvasLegend]
        cases title <;> simp [fills, topSpace, legendRect]
      | false => cases title <;> simp [fills, topSpace]
    · subst h
      simp only [canvasDiagram, texts_append, texts_canvasRows]
      cases pl with
      | true =>
        simp only [if_true, texts_canvasLegend]
        cases title <;> simp [texts, Dict.keys]
      | false => cases title <;> simp [texts]

/-- C70a: the drawing fails exactly for an empty log, with ValueError. -/
theorem C70_fails (log : List (List CRect)) (title : Option String) (pl : Bool) (ws hs : ℚ) :
    (log = [] → drawCanvas log title pl ws hs = .error .valueError) ∧
    (log ≠ [] → ∃ pic, drawCanvas log title pl ws hs = .ok pic) := by
  constructor
  · rintro rfl; rfl
  · intro h
    obtain ⟨m, hm⟩ := pyMax_exists (l := log.map (fun t => (t.map (·.length)).sum)) (by simpa using h)
    unfold drawCanvas
    rw [hm]
    exact ⟨_, rfl⟩

theorem filter_getLast_append {A : Type} (p : A → Bool) (a b : List A) (hb : b.filter p = []) :
    ((a ++ b).filter p).getLast? = (a.filter p).getLast? := by simp [hb]

/-- C70b: rectangle `j` of trace `k` is seen in row `k`, where it begins after the widths of the rectangles before it. -/
theorem C70_colors (log : List (List CRect)) (title : Option String) (pl : Bool) (ws hs : ℚ) (pic : CanvasPicture)
    (h : drawCanvas log title pl ws hs = .ok pic) (hws : 0 ≤ ws) (hhs : 0 ≤ hs) (k j : Nat) (t : List CRect) (r : CRect)
    (ht : log[k]? = some t) (hr : t[j]? = some r) (px py : ℚ)
    (hx : 21 + total (t.take j) * ws ≤ px ∧ px < 21 + total (t.take (j + 1)) * ws)
    (hy : topSpace title + k * hs ≤ py ∧ py < topSpace title + (k + 1) * hs) :
    colorAt (fills pic.ops) px py = some (toHex r.color) := by
  obtain ⟨m, _, _, _, hf, _⟩ := drawCanvas_ok h
  rw [hf]
  have hk : k < log.length := (List.getElem?_eq_some_iff.1 ht).1
  have hkq : ((k : ℚ) + 1) * hs ≤ log.length * hs := by
    apply mul_le_mul_of_nonneg_right _ hhs
    exact_mod_cast hk
  have hleg : hits (if pl then ((canvasColors log).zipIdx).map (fun p => legendRect pic.width (log.length * hs + 21 + topSpace title) p.2 p.1.2) else []) px py =
        [] := by
    unfold hits
    rw [List.filter_eq_nil_iff]
    intro r hr hh
    rw [has_iff] at hh
    cases pl with
    | false => simp at hr
    | true =>
      rw [if_pos rfl] at hr
      obtain ⟨p, _, rfl⟩ := List.mem_map.1 hr
      have := hh.2.2.1
      have hp : (0 : ℚ) ≤ 20 * p.2 := by positivity
      simp only [legendRect] at this
      linarith [hy.2]
  have hrow := hits_layRows (21 : ℚ) (topSpace title) hs px py (r.length * ws) (toHex r.color)
    (log.map (List.map (fun c => ((c.length : ℚ) * ws, toHex c.color))))
    (by
      intro s hs' p hp
      obtain ⟨t', _, rfl⟩ := List.mem_map.1 hs'
      obtain ⟨c, _, rfl⟩ := List.mem_map.1 hp
      exact mul_nonneg (Nat.cast_nonneg _) hws) hhs k _ j
    (by rw [List.getElem?_map, ht]; rfl) (by rw [List.getElem?_map, hr]; rfl)
    (by rw [widthBefore_map]; exact hx.1)
    (by
      rw [widthBefore_map]
      have := hx.2
      rw [total_take_succ t j r hr] at this
      push_cast at this
      linarith) hy.1 (by linarith [hy.2])
  unfold colorAt
  rw [← List.singleton_append, hits_append, hits_append, hrow, hleg]
  simp

/-- C70c: all other points above the legend are white. -/
theorem C70_white (log : List (List CRect)) (title : Option String) (pl : Bool) (ws hs : ℚ) (pic : CanvasPicture)
    (h : drawCanvas log title pl ws hs = .ok pic) (px py : ℚ)
    (hx : 0 ≤ px ∧ px < pic.width) (hy : 0 ≤ py ∧ py < log.length * hs + 21 + topSpace title)
    (hn : ∀ (k j : Nat) (t : List CRect), log[k]? = some t → j < t.length →
      ¬ ((21 + total (t.take j) * ws ≤ px ∧ px < 21 + total (t.take (j + 1)) * ws) ∧
        (topSpace title + k * hs ≤ py ∧ py < topSpace title + (k + 1) * hs))) :
    colorAt (fills pic.ops) px py = some "white" := by
  obtain ⟨m, _, _, hh, hf, _⟩ := drawCanvas_ok h
  rw [hf]
  have hleg : hits (if pl then ((canvasColors log).zipIdx).map (fun p => legendRect pic.width (log.length * hs + 21 + topSpace title) p.2 p.1.2) else []) px py =
        [] := by
    unfold hits
    rw [List.filter_eq_nil_iff]
    intro r hr hh
    rw [has_iff] at hh
    cases pl with
    | false => simp at hr
    | true =>
      rw [if_pos rfl] at hr
      obtain ⟨p, _, rfl⟩ := List.mem_map.1 hr
      have := hh.2.2.1
      have hp : (0 : ℚ) ≤ 20 * p.2 := by positivity
      simp only [legendRect] at this
      linarith [hy.2]
  have hrow : hits (layRows (21 : ℚ) (topSpace title) hs
      (log.map (List.map (fun c => ((c.length : ℚ) * ws, toHex c.color))))) px py = [] := by
    apply hits_layRows_none
    rintro k s j w c h1 h2 ⟨a1, a2, a3, a4⟩
    rw [List.getElem?_map, Option.map_eq_some_iff] at h1
    obtain ⟨t, ht, rfl⟩ := h1
    rw [List.getElem?_map, Option.map_eq_some_iff] at h2
    obtain ⟨r, hr, e⟩ := h2
    simp only [Prod.mk.injEq] at e
    rw [widthBefore_map] at a1 a2
    refine hn k j t ht (List.getElem?_eq_some_iff.1 hr).1 ⟨⟨a1, ?_⟩, a3, by linarith⟩
    rw [total_take_succ t j r hr]
    push_cast
    linarith [e.1]
  unfold colorAt
  rw [← List.singleton_append, hits_append, hits_append, hrow, hleg]
  have : Has px py ({ x := 0, y := 0, w := pic.width, h := pic.height, color := "white" } : Rect ℚ) = true := by
    rw [has_iff]
    refine ⟨hx.1, by simpa using hx.2, hy.1, ?_⟩
    simp only [zero_add]
    rw [hh]
    have : (0 : ℚ) ≤ ((if pl then 20 * (canvasColors log).length else 0 : Nat) : ℚ) := Nat.cast_nonneg _
    linarith [hy.2]
  simp [hits, this]

/-- C70d: all rectangles of events are inside the area between the axes, which are drawn at 15 from the left and 15 above
the legend, and inside the canvas; the legend is below them and inside the canvas vertically. The texts are the title,
the number of traces, the largest number of events of a trace, and the names in the legend. -/
theorem C70_layout (log : List (List CRect)) (title : Option String) (pl : Bool) (ws hs : ℚ) (pic : CanvasPicture)
    (h : drawCanvas log title pl ws hs = .ok pic) (hws : 0 ≤ ws) (hhs : 0 ≤ hs) :
    ∃ (background : Rect ℚ) (rows legend : List (Rect ℚ)) (m : Nat), fills pic.ops = background :: (rows ++ legend) ∧
      (∀ r ∈ rows, Inside r 21 (topSpace title) (pic.width - 15) (topSpace title + log.length * hs)) ∧
      (∀ r ∈ legend, r.y ≥ topSpace title + log.length * hs + 21 ∧ r.y + r.h ≤ pic.height ∧
        (r.x + r.w ≤ pic.width ↔ 60 ≤ pic.width)) ∧
      legend.map (·.color) = (if pl then (rectNames log).map (fun n =>
        ((lastWith (·.name) log.flatten n).map (fun r => toHex r.color)).getD "") else []) ∧
      texts pic.ops = title.toList ++ [toString log.length, toString m] ++ (if pl then rectNames log else []) ∧
      (∃ t ∈ log, total t = m) ∧ (∀ t ∈ log, total t ≤ m) ∧ pic.width = m * ws + 36 := by
  obtain ⟨m, ⟨hm1, hm2⟩, hw, hh, hf, ht⟩ := drawCanvas_ok h
  have hkeys : (canvasColors log).keys = rectNames log := by
    rw [canvasColors_eq]
    exact foldSet_keys (fun r : CRect => r.name) (fun r => toHex r.color) log.flatten
  have hlen : (canvasColors log).length = (rectNames log).length := by
    rw [← hkeys]; simp [Dict.keys]
  refine ⟨_, _, _, m, hf, ?_, ?_, ?_, ?_, ?_, ?_, hw⟩
  · intro r hr
    obtain ⟨k, s, j, w, c, h1, h2, rfl⟩ := (layRows_mem _ _ _ _ _).1 hr
    rw [List.getElem?_map, Option.map_eq_some_iff] at h1
    obtain ⟨t, ht, rfl⟩ := h1
    rw [List.getElem?_map, Option.map_eq_some_iff] at h2
    obtain ⟨r, hr, e⟩ := h2
    simp only [Prod.mk.injEq] at e
    have hk : k < log.length := (List.getElem?_eq_some_iff.1 ht).1
    have hkq : ((k : ℚ) + 1) * hs ≤ log.length * hs := by
      apply mul_le_mul_of_nonneg_right _ hhs
      exact_mod_cast hk
    have hk0 : 0 ≤ (k : ℚ) * hs := mul_nonneg (Nat.cast_nonneg _) hhs
    have h0 : 0 ≤ (total (t.take j) : ℚ) * ws := mul_nonneg (Nat.cast_nonneg _) hws
    have h3 : (total (t.take (j + 1)) : ℚ) * ws ≤ m * ws := by
      apply mul_le_mul_of_nonneg_right _ hws
      have h1 := total_take_le t (j + 1)
      have h2 := hm2 (total t) (List.mem_map.2 ⟨t, List.mem_of_getElem? ht, rfl⟩)
      exact_mod_cast h1.trans h2
    rw [total_take_succ t j r hr] at h3
    push_cast at h3
    unfold Inside
    simp only [widthBefore_map]
    rw [hw]
    refine ⟨by linarith, by linarith [e.1], by linarith, by linarith⟩
  · intro r hr
    cases pl with
    | false => simp at hr
    | true =>
      rw [if_pos rfl] at hr
      obtain ⟨p, hp, rfl⟩ := List.mem_map.1 hr
      have hp0 : (0 : ℚ) ≤ 20 * p.2 := by positivity
      have hpl : p.2 < (canvasColors log).length := by
        obtain ⟨x, i⟩ := p
        have := List.mem_zipIdx hp
        simpa using this.2.1
      have hplq : (20 : ℚ) * (p.2 + 1) ≤ 20 * (canvasColors log).length := by
        have : ((p.2 : ℚ) + 1) ≤ (canvasColors log).length := by exact_mod_cast hpl
        linarith
      refine ⟨by simp only [legendRect]; linarith, ?_, ?_⟩
      · simp only [legendRect]
        rw [hh, if_pos rfl]
        push_cast
        linarith
      · simp only [legendRect]
        constructor
        · intro h; linarith
        · intro h; linarith
  · cases pl with
    | false => rfl
    | true =>
      rw [if_pos rfl, if_pos rfl, List.map_map, ← hkeys]
      have hwf : (canvasColors log).WF := by
        unfold Dict.WF
        rw [hkeys]
        unfold rectNames
        have key : ∀ l : List String, l.eraseDups.Nodup := by
          intro l
          induction l using List.reverseRecOn with
          | nil => simp
          | append_singleton l a ih =>
            rw [List.eraseDups_append]
            simp only [List.removeAll, List.filter_cons, List.filter_nil]
            by_cases h : a ∈ l
            · simp [h, ih]
            · simp only [List.elem_eq_mem, h, decide_false, Bool.not_false, if_true]
              rw [List.nodup_append]
              refine ⟨ih, by simp [List.eraseDups_cons], ?_⟩
              intro x hx y hy
              simp [List.eraseDups_cons] at hy
              subst hy
              rintro rfl
              exact h (by simpa using hx)
        exact key _
      have e : ((canvasColors log).zipIdx).map ((fun r : Rect ℚ => r.color) ∘ fun p => legendRect pic.width (log.length * hs + 21 + topSpace title) p.2 p.1.2) =
          (canvasColors log).map Prod.snd := by
        conv_rhs => rw [← List.zipIdx_map_fst 0 (canvasColors log), List.map_map]
        rfl
      rw [e]
      unfold Dict.keys
      rw [List.map_map]
      apply List.map_congr_left
      intro kv hkv
      have hg := Dict.get?_of_mem hwf (k := kv.1) (v := kv.2) hkv
      rw [canvasColors_eq, foldSet_get? (fun r : CRect => r.name) (fun r => toHex r.color) log.flatten [] kv.1] at hg
      simp only [Function.comp_apply]
      cases hl : lastWith (fun r : CRect => r.name) log.flatten kv.1 with
      | none => rw [hl] at hg; simp at hg
      | some r => rw [hl] at hg; simpa using hg.symm
  · rw [ht, hkeys]
  · obtain ⟨t, ht, e⟩ := List.mem_map.1 hm1
    exact ⟨t, ht, e⟩
  · intro t ht
    exact hm2 _ (List.mem_map.2 ⟨t, ht, rfl⟩)

/-- C70e: the message arrives unchanged, so that the canvas shows the message; but the positions given in it are not
looked at: rectangles are always drawn side by side. -/
theorem C70_positions_ignored (message : List (List CRect)) (title : Option String) (pl : Bool) (ws hs : ℚ) :
    fromGrpcColorsLog message = message ∧
    viewCanvas message title pl ws hs = drawCanvas message title pl ws hs ∧
    drawCanvas (message.map (List.map (fun r => { r with start := 0 }))) title pl ws hs =
      drawCanvas message title pl ws hs := by
  have hsnoc : ∀ {A B : Type} (f : A → B) (l : List A) (acc : List B),
      l.foldl (fun acc a => acc ++ [f a]) acc = acc ++ l.map f := by
    intro A B f l
    induction l with
    | nil => intro acc; simp
    | cons a l ih => intro acc; simp [ih]
  have h1 : fromGrpcColorsLog message = message := by
    unfold fromGrpcColorsLog
    have : (fun t : List CRect => t.foldl (fun tr r => tr ++ [fromGrpcCRect r]) []) = id := by
      funext t
      rw [hsnoc]
      have : fromGrpcCRect = id := by funext r; rfl
      rw [this]
      simp
    rw [hsnoc (fun t : List CRect => t.foldl (fun tr r => tr ++ [fromGrpcCRect r]) []), this]
    simp
  refine ⟨h1, by unfold viewCanvas; rw [h1], ?_⟩
  have hrow : ∀ (t : List CRect) (x y : ℚ), canvasRow ws hs y (t.map (fun r => { r with start := 0 })) x =
      canvasRow ws hs y t x := by
    intro t
    induction t with
    | nil => intro x y; rfl
    | cons c t ih => intro x y; rw [List.map_cons, canvasRow, canvasRow, ih]
  have hrows : ∀ y : ℚ, canvasRows ws hs (message.map (List.map (fun r => { r with start := 0 }))) y =
      canvasRows ws hs message y := by
    induction message with
    | nil => intro y; rfl
    | cons t ts ih =>
      intro y
      have e : ∀ l : List CRect, l.foldl (fun tr r => tr ++ [fromGrpcCRect r]) [] = l := by
        intro l
        rw [hsnoc]
        have : fromGrpcCRect = id := by funext r; rfl
        rw [this]
        simp
      have ht : fromGrpcColorsLog ts = ts := by
        unfold fromGrpcColorsLog
        rw [hsnoc]
        simp [funext e]
      rw [List.map_cons, canvasRows, canvasRows, hrow, ih ht]
  have hcol : canvasColors (message.map (List.map (fun r => { r with start := 0 }))) = canvasColors message := by
    unfold canvasColors
    rw [List.foldl_map]
    congr 1
    funext d t
    rw [List.foldl_map]
  unfold drawCanvas canvasDiagram
  have hsum : ((fun t : List CRect => (t.map (·.length)).sum) ∘ List.map (fun r => { r with start := 0 })) =
      (fun t : List CRect => (t.map (·.length)).sum) := by
    funext t
    simp only [Function.comp_apply, List.map_map]
    rfl
  simp only [hrows, hcol, List.map_map, List.length_map]
  rw [hsum]

/-- A log of two traces. -/
def exampleColors : List (List CRect) := [[⟨(255, 0, 0), 0, 2, "a"⟩, ⟨(0, 255, 0), 2, 1, "b"⟩], [⟨(0, 0, 255), 0, 1, "a"⟩]]

example : (drawCanvas exampleColors none true 2 3).toOption.map (fun p => (p.width, p.height, fills p.ops)) =
    some (42, 77, [⟨0, 0, 42, 77, "white"⟩, ⟨21, 10, 4, 3, "#FF0000"⟩, ⟨25, 10, 2, 3, "#00FF00"⟩,
      ⟨21, 13, 2, 3, "#0000FF"⟩, ⟨14, 37, 40, 20, "#0000FF"⟩, ⟨14, 57, 40, 20, "#00FF00"⟩]) := by decide +kernel

/-- C70f: in a narrow diagram the legend is outside of the canvas. -/
theorem C70_legend_cut_off : ∃ pic, drawCanvas exampleColors none true 2 3 = .ok pic ∧
    ∃ r ∈ fills pic.ops, pic.width < r.x + r.w := by
  obtain ⟨pic, h⟩ := (C70_fails exampleColors none true 2 3).2 (by decide)
  refine ⟨pic, h, ?_⟩
  obtain ⟨m, _, hw, _, hf, _⟩ := drawCanvas_ok h
  have e : (drawCanvas exampleColors none true 2 3).toOption.map (fun p => (p.width, fills p.ops)) =
    some (42, [⟨0, 0, 42, 77, "white"⟩, ⟨21, 10, 4, 3, "#FF0000"⟩, ⟨25, 10, 2, 3, "#00FF00"⟩,
      ⟨21, 13, 2, 3, "#0000FF"⟩, ⟨14, 37, 40, 20, "#0000FF"⟩, ⟨14, 57, 40, 20, "#00FF00"⟩]) := by decide +kernel
  rw [h] at e
  simp only [Except.toOption, Option.map_some, Option.some.injEq, Prod.mk.injEq] at e
  rw [e.1, e.2]
  exact ⟨⟨14, 37, 40, 20, "#0000FF"⟩, by simp, by norm_num⟩

end Ficus
