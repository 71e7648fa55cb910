import Verif.Proofs.Diagrams

/-! Pictures that are made of rows of pieces. -/

namespace Ficus
open Spec

/-- Adds a rectangle that may have a label. -/
def Picture.addCell (p : Picture) (r : Rect Nat × Option String) : Picture :=
  match r.2 with
  | some n => p.add r.1 n
  | none => { p with rects := p.rects ++ [r.1] }

/-- Adds rectangles. -/
def Picture.addAll (p : Picture) (l : List (Rect Nat × Option String)) : Picture := l.foldl Picture.addCell p

/-- The rectangles of a row of pieces. -/
def cellRow (x y h : Nat) : List Piece → List (Rect Nat × Option String)
  | [] => []
  | c :: cs => ({ x := x, y := y, w := c.width, h := h, color := c.color }, c.label) :: cellRow (x + c.width) y h cs

/-- The rectangles of rows of pieces. -/
def cellRows (y h : Nat) : List (List Piece) → List (Rect Nat × Option String)
  | [] => []
  | r :: rs => cellRow 0 y h r ++ cellRows (y + h) h rs

/-- The empty picture. -/
def Picture.empty : Picture := { rects := [], legend := [] }

theorem addAll_append (p : Picture) (a b : List (Rect Nat × Option String)) : p.addAll (a ++ b) = (p.addAll a).addAll b :=
  List.foldl_append

theorem addAll_rects (p : Picture) (l : List (Rect Nat × Option String)) :
    (p.addAll l).rects = p.rects ++ l.map Prod.fst := by
  induction l generalizing p with
  | nil => simp [Picture.addAll]
  | cons a l ih =>
    have := ih (p.addCell a)
    unfold Picture.addAll at this ⊢
    rw [List.foldl_cons, this]
    obtain ⟨r, n⟩ := a
    cases n <;> simp [Picture.addCell, Picture.add]

theorem addAll_legend (p : Picture) (l : List (Rect Nat × Option String)) :
    (p.addAll l).legend = (l.filterMap (fun a => a.2.map (fun n => (n, a.1)))).foldl
      (fun (d : Dict String (Rect Nat)) a => d.set a.1 a.2) p.legend := by
  induction l generalizing p with
  | nil => rfl
  | cons a l ih =>
    have := ih (p.addCell a)
    unfold Picture.addAll at this ⊢
    rw [List.foldl_cons, this]
    obtain ⟨r, n⟩ := a
    cases n <;> simp [Picture.addCell, Picture.add]

theorem cellRow_layRow (x y h : Nat) (row : List Piece) :
    (cellRow x y h row).map Prod.fst = layRow x y h (row.map (fun c => (c.width, c.color))) := by
  induction row generalizing x with
  | nil => rfl
  | cons c cs ih => simp [cellRow, layRow, ih]

theorem cellRows_layRows (y h : Nat) (rows : List (List Piece)) :
    (cellRows y h rows).map Prod.fst = layRows 0 y h (rows.map (List.map (fun c => (c.width, c.color)))) := by
  induction rows generalizing y with
  | nil => rfl
  | cons c cs ih => simp [cellRows, layRows, ih, cellRow_layRow]

theorem cellRow_labels (x y h : Nat) (row : List Piece) :
    (cellRow x y h row).map (fun a => (a.2, a.1.color)) = row.map (fun c => (c.label, c.color)) := by
  induction row generalizing x with
  | nil => rfl
  | cons c cs ih => simp [cellRow, ih]

theorem cellRows_labels (y h : Nat) (rows : List (List Piece)) :
    (cellRows y h rows).map (fun a => (a.2, a.1.color)) = rows.flatten.map (fun c => (c.label, c.color)) := by
  induction rows generalizing y with
  | nil => rfl
  | cons c cs ih => simp [cellRows, ih, cellRow_labels]

theorem widthBefore_cells (row : List Piece) (j : Nat) :
    widthBefore (row.map (fun c => (c.width, c.color))) j = leftOf row j := by
  unfold widthBefore leftOf
  rw [← List.map_take, List.map_map]
  rfl

theorem shows_cellRows (h : Nat) (rows : List (List Piece)) : Shows ((cellRows 0 h rows).map Prod.fst) h rows := by
  intro px py c
  rw [cellRows_layRows]
  have hit : ∀ (k : Nat) (row : List Piece) (j : Nat) (cell : Piece), rows[k]? = some row → row[j]? = some cell →
      leftOf row j ≤ px → px < leftOf row j + cell.width → k * h ≤ py → py < (k + 1) * h →
      colorAt (layRows 0 0 h (rows.map (List.map (fun c => (c.width, c.color))))) px py = some cell.color := by
    intro k row j cell h1 h2 h3 h4 h5 h6
    have := hits_layRows (0 : Nat) 0 h px py cell.width cell.color (rows.map (List.map (fun c => (c.width, c.color))))
      (fun _ _ _ _ => Nat.zero_le _) (Nat.zero_le _) k (row.map (fun c => (c.width, c.color))) j
      (by rw [List.getElem?_map, h1]; rfl) (by rw [List.getElem?_map, h2]; rfl)
      (by rw [widthBefore_cells, zero_add]; exact h3) (by rw [widthBefore_cells, zero_add]; exact h4)
      (by simpa using h5) (by simp only [Nat.cast_id, zero_add]; rw [Nat.add_one_mul] at h6; exact h6)
    rw [colorAt_single this]
  constructor
  · intro hc
    by_contra hn
    have := hits_layRows_none (0 : Nat) 0 h px py (rows.map (List.map (fun c => (c.width, c.color)))) (by
      rintro k s j w c' h1 h2 ⟨a1, a2, a3, a4⟩
      rw [List.getElem?_map, Option.map_eq_some_iff] at h1
      obtain ⟨row, hrow, rfl⟩ := h1
      rw [List.getElem?_map, Option.map_eq_some_iff] at h2
      obtain ⟨cell, hcell, e⟩ := h2
      simp only [Prod.mk.injEq] at e
      rw [widthBefore_cells, zero_add] at a1 a2
      simp only [Nat.cast_id, zero_add] at a3 a4
      have a4' : py < (k + 1) * h := by rw [Nat.add_one_mul]; exact a4
      have a2' : px < leftOf row j + cell.width := by rw [e.1]; exact a2
      have hit := hit k row j cell hrow hcell a1 a2' a3 a4'
      rw [hc] at hit
      exact hn ⟨k, row, j, cell, hrow, hcell, (Option.some.inj hit).symm, a1, a2', a3, a4'⟩)
    unfold colorAt at hc
    rw [this] at hc
    simp at hc
  · rintro ⟨k, row, j, cell, h1, h2, rfl, h3, h4, h5, h6⟩
    exact hit k row j cell h1 h2 h3 h4 h5 h6

theorem lastWith_eq {K A : Type} [DecidableEq K] (key : A → K) (l : List A) (k : K) :
    lastWith key l k = (l.filter (fun a => key a = k)).getLast? := by
  unfold lastWith
  rw [← List.head?_reverse, ← List.filter_reverse, List.head?_filter]

theorem explains_cellRows (h : Nat) (rows : List (List Piece)) :
    Explains (Picture.empty.addAll (cellRows 0 h rows)).legend rows := by
  rw [addAll_legend]
  have hl := cellRows_labels 0 h rows
  generalize cellRows 0 h rows = l at hl
  unfold Explains
  generalize rows.flatten = cells at hl ⊢
  have e1 : (l.filterMap (fun a => a.2.map (fun n => (n, a.1)))).map Prod.fst = l.filterMap (fun a => a.2) := by
    rw [List.map_filterMap]
    congr 1
    funext a
    cases a.2 <;> rfl
  have e2 : l.filterMap (fun a => a.2) = cells.filterMap (·.label) := by
    have := congrArg (List.filterMap (fun p : Option String × String => p.1)) hl
    rwa [List.filterMap_map, List.filterMap_map] at this
  refine ⟨?_, ?_⟩
  · have := foldSet_keys (fun a : String × Rect Nat => a.1) (fun a => a.2) (l.filterMap (fun a => a.2.map (fun n => (n, a.1))))
    rw [Picture.empty, this]
    congr 1
    exact e1.trans e2
  · intro n
    have := foldSet_get? (fun a : String × Rect Nat => a.1) (fun a => a.2)
      (l.filterMap (fun a => a.2.map (fun n => (n, a.1)))) [] n
    rw [Picture.empty, this, lastWith_eq]
    have e3 : ((l.filterMap (fun a => a.2.map (fun n => (n, a.1)))).filter (fun a => a.1 = n)) =
        (l.filter (fun a => a.2 == some n)).map (fun a => (n, a.1)) := by
      clear hl e1 e2 this
      induction l with
      | nil => rfl
      | cons a l ih =>
        obtain ⟨r, m⟩ := a
        cases m with
        | none => simp [ih]
        | some m =>
          by_cases hm : m = n
          · subst hm; simp [ih]
          · simp [ih, hm]
    rw [e3]
    have e4 : (l.filter (fun a => a.2 == some n)).map (fun a => a.1.color) =
        (cells.filter (fun c => c.label == some n)).map (·.color) := by
      have := congrArg (fun q => (List.filter (fun p : Option String × String => p.1 == some n) q).map Prod.snd) hl
      simp only [List.filter_map, List.map_map] at this
      exact this
    have e5 := congrArg List.getLast? e4
    rw [List.getLast?_map, List.getLast?_map] at e5
    rw [← e5, List.getLast?_map]
    cases (l.filter (fun a => a.2 == some n)).getLast? <;> rfl

theorem tickLabels_ok {count scale : Nat} {labels : List String} (h : tickLabels count scale = .ok labels) :
    0 < scale ∧ 0 < count ∧ Axis labels (count - 1) ((count - 1) / scale) := by
  unfold tickLabels at h
  split at h
  · cases h
  · rename_i h0
    split at h
    · cases h
    · rename_i h1
      simp only [Except.ok.injEq] at h
      subst h
      refine ⟨by omega, by omega, ?_⟩
      intro i
      simp only [List.getElem?_set, List.length_set, List.length_replicate, List.getElem?_replicate]
      by_cases hi : i = count - 1
      · rw [if_pos hi.symm, if_pos hi, if_pos (by omega)]
      · have hi' : ¬ count - 1 = i := fun e => hi e.symm
        rw [if_neg hi, if_neg hi']
        by_cases hz : i = 0
        · rw [if_pos hz.symm, if_pos hz, if_pos (by omega), if_pos (by omega)]
        · have hz' : ¬ 0 = i := fun e => hz e.symm
          rw [if_neg hz, if_neg hz']
          by_cases hc : i < count - 1
          · rw [if_pos hc, if_pos (by omega)]
          · rw [if_neg hc, if_neg (by omega)]

theorem tickLabels_exists {count scale : Nat} (h0 : 0 < count) (h1 : 0 < scale) : ∃ l, tickLabels count scale = .ok l := by
  unfold tickLabels
  rw [if_neg (by omega), if_neg (by omega)]
  exact ⟨_, rfl⟩

/-- What a finished diagram is. -/
theorem finishDiagram_ok {p : Picture} {pl : Bool} {rows hs ws : Nat} {xt : Except PyErr Nat} {d : Diagram}
    (h : finishDiagram p pl rows xt hs ws = .ok d) :
    0 < hs ∧ 0 < ws ∧ d.rects = p.rects ∧ d.legend = (if pl then some p.legend else none) ∧
      Axis d.yLabels (rows * hs) rows ∧ ∃ n, xt = .ok n ∧ 0 < n ∧ Axis d.xLabels (n - 1) ((n - 1) / ws) := by
  unfold finishDiagram at h
  cases hy : tickLabels (rows * hs + 1) hs with
  | error e => rw [hy] at h; cases h
  | ok y =>
    rw [hy] at h
    cases hx : xt with
    | error e => rw [hx] at h; cases h
    | ok n =>
      rw [hx] at h
      simp only [bind, Except.bind] at h
      cases hn : tickLabels n ws with
      | error e => rw [hn] at h; cases h
      | ok x =>
        rw [hn] at h
        simp only [pure, Except.pure, Except.ok.injEq] at h
        subst h
        obtain ⟨h1, _, h3⟩ := tickLabels_ok hy
        obtain ⟨h4, h5, h6⟩ := tickLabels_ok hn
        rw [Nat.add_sub_cancel, Nat.mul_div_cancel _ h1] at h3
        exact ⟨h1, h4, rfl, rfl, h3, n, rfl, h5, h6⟩

end Ficus
