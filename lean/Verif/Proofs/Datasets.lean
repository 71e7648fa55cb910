import Verif.Spec.Datasets
import Verif.Proofs.Nets
import Mathlib.Data.List.Basic
import Mathlib.Data.List.Sort

namespace Ficus
open Spec

variable {F P : Type}

/-! ### Sorted labels -/

theorem sortedSet_sorted (l : List Int) : (sortedSet l).Pairwise (· < ·) := by
  unfold sortedSet
  have h1 := List.pairwise_insertionSort (fun a b : Int => a ≤ b) l.dedup
  have h2 : (l.dedup.insertionSort (fun a b => a ≤ b)).Nodup :=
    (List.perm_insertionSort _ _).nodup_iff.2 (List.nodup_dedup _)
  exact (h1.and h2).imp (fun h => lt_of_le_of_ne h.1 h.2)

theorem mem_sortedSet (l : List Int) (x : Int) : x ∈ sortedSet l ↔ x ∈ l := by
  unfold sortedSet
  rw [(List.perm_insertionSort _ _).mem_iff, List.mem_dedup]

/-! ### Frames -/

theorem foldl_max_const (w a : Nat) (l : List Nat) (h : ∀ x ∈ l, x = w) (hl : l ≠ []) :
    l.foldl max a = max a w := by
  induction l generalizing a with
  | nil => exact absurd rfl hl
  | cons x l ih =>
    rw [List.foldl_cons, h x (by simp)]
    by_cases hn : l = []
    · subst hn; rfl
    · rw [ih _ (fun y hy => h y (List.mem_cons_of_mem _ hy)) hn]
      omega

theorem zipIdx_cells (cols : List String) (r : List F) (pre : List F) (h : r.length = cols.length) :
    (cols.zipIdx pre.length).map (fun c => (c.1, ((pre ++ r)[c.2]?).elim Cell.missing Cell.num)) =
      (cols.zip r).map (fun c => (c.1, Cell.num c.2)) := by
  induction cols generalizing r pre with
  | nil => simp
  | cons c cols ih =>
    match r, h with
    | x :: r, h =>
      have := ih r (pre ++ [x]) (by simpa using h)
      rw [List.length_append, List.length_singleton, List.append_assoc, List.singleton_append] at this
      rw [List.zipIdx_cons, List.map_cons, this, List.zip_cons_cons, List.map_cons]
      simp

/-- The frame of a table. -/
def tableFrame (d : GrpcData F) : Frame F :=
  { index := d.rowNames
    columns := d.columns.zipIdx.map (fun c => (c.1, d.rows.map (fun r => (r[c.2]?).elim Cell.missing Cell.num))) }

theorem fromGrpcDataset_table (d : GrpcData F) (h : IsTable d) : fromGrpcDataset d = .ok (tableFrame d) := by
  unfold fromGrpcDataset Frame.ofRows tableFrame
  by_cases h0 : d.rows = []
  · rw [if_pos h0]
    have hn : d.rowNames = [] := by
      have := h.2
      rw [h0] at this
      exact List.length_eq_zero_iff.1 this
    simp only [h0, hn, List.map_nil, Except.ok.injEq, Frame.mk.injEq, true_and]
    apply List.ext_getElem
    · simp
    · intro i h1 h2
      simp
  · rw [if_neg h0, if_neg, if_neg]
    · exact not_not.2 h.2.symm
    · rw [not_not, foldl_max_const d.columns.length]
      · omega
      · intro x hx
        obtain ⟨r, hr, rfl⟩ := List.mem_map.1 hx
        exact h.1 r hr
      · simpa using h0

theorem tableFrame_row (d : GrpcData F) (h : IsTable d) (p : String → Bool) (i : Nat) (hi : i < d.rows.length) :
    Frame.row ((tableFrame d).columns.filter (fun c => p c.1)) i =
      ((d.columns.zip d.rows[i]).filter (fun c => p c.1)).map (fun c => Cell.num c.2) := by
  have hz := zipIdx_cells d.columns d.rows[i] [] (h.1 _ (List.getElem_mem hi))
  have h1 : Frame.row ((tableFrame d).columns.filter (fun c => p c.1)) i =
      (((d.columns.zipIdx).map (fun c => (c.1, ((d.rows[i])[c.2]?).elim Cell.missing Cell.num))).filter
        (fun c => p c.1)).map Prod.snd := by
    unfold Frame.row tableFrame
    simp only [List.filter_map, List.map_map]
    apply List.map_congr_left
    intro c _
    simp [hi]
  rw [h1]
  simp only [List.length_nil, List.nil_append] at hz
  rw [hz, List.filter_map, List.map_map]
  rfl

theorem tableFrame_values (d : GrpcData F) (h : IsTable d) : (tableFrame d).valuesWithout none = numbers d := by
  have hl : (tableFrame d).index.length = d.rows.length := h.2
  show (List.range _).map _ = _
  unfold numbers
  apply List.ext_getElem
  · simp [hl]
  · intro i h1 h2
    have hi : i < d.rows.length := by simpa using h2
    have := tableFrame_row d h (fun _ => true) i hi
    simp only [List.filter_true] at this
    simp only [List.getElem_map, List.getElem_range]
    rw [this]
    have hz : (d.columns.zip d.rows[i]).map Prod.snd = d.rows[i] :=
      List.map_snd_zip (Nat.le_of_eq (h.1 _ (List.getElem_mem hi)))
    conv_rhs => rw [← hz]
    rw [List.map_map]
    rfl

theorem numbersWithout_absent (d : GrpcData F) (h : IsTable d) (name : String) (hn : name ∉ d.columns) :
    numbersWithout d name = numbers d := by
  unfold numbersWithout numbers
  apply List.map_congr_left
  intro r hr
  rw [List.filter_eq_self.2]
  · have hz : (d.columns.zip r).map Prod.snd = r := List.map_snd_zip (Nat.le_of_eq (h.1 _ hr))
    conv_rhs => rw [← hz]
    rw [List.map_map]
    rfl
  · intro c hc
    have := List.of_mem_zip (a := c.1) (b := c.2) hc
    simp only [ne_eq, decide_not, Bool.not_eq_eq_eq_not, Bool.not_true, decide_eq_false_iff_not]
    intro e
    exact hn (e ▸ this.1)

theorem setColumn_new (f : Frame F) (name : String) (vs : List (Cell F)) (hn : f.index.length = vs.length) :
    ∃ g, f.setColumn name vs = .ok g ∧ g.index.length = f.index.length ∧
      g.valuesWithout (some name) = f.valuesWithout (some name) ∧
      g.columns.find? (fun c => c.1 = name) = some (name, vs) := by
  have key : ∀ f : Frame F, f.index.length = vs.length →
      ∃ cols, (if vs.length ≠ f.index.length then (.error .valueError : Except PyErr (Frame F))
        else if name ∈ f.columns.map Prod.fst then
          .ok { f with columns := f.columns.map (fun c => if c.1 = name then (c.1, vs) else c) }
        else .ok { f with columns := f.columns ++ [(name, vs)] }) = .ok { f with columns := cols } ∧
        cols.filter (fun c => decide (c.1 ≠ name)) = f.columns.filter (fun c => decide (c.1 ≠ name)) ∧
        cols.find? (fun c => c.1 = name) = some (name, vs) := by
    intro f hn
    rw [if_neg (not_not.2 hn.symm)]
    by_cases hm : name ∈ f.columns.map Prod.fst
    · rw [if_pos hm]
      refine ⟨_, rfl, ?_, ?_⟩
      · generalize f.columns = cols
        induction cols with
        | nil => rfl
        | cons c cols ih =>
          rw [List.map_cons]
          by_cases hc : c.1 = name
          · rw [if_pos hc, List.filter_cons_of_neg (by simpa using hc), List.filter_cons_of_neg (by simpa using hc), ih]
          · rw [if_neg hc, List.filter_cons_of_pos (by simpa using hc), List.filter_cons_of_pos (by simpa using hc), ih]
      · generalize f.columns = cols at hm
        induction cols with
        | nil => simp at hm
        | cons c cols ih =>
          rw [List.map_cons]
          by_cases hc : c.1 = name
          · rw [if_pos hc, List.find?_cons_of_pos (by simpa using hc), hc]
          · rw [if_neg hc, List.find?_cons_of_neg (by simpa using hc), ih]
            rw [List.map_cons, List.mem_cons] at hm
            exact hm.resolve_left (fun e => hc e.symm)
    · rw [if_neg hm]
      refine ⟨_, rfl, ?_, ?_⟩
      · simp
      · rw [List.find?_append, List.find?_eq_none.2]
        · simp
        · intro c hc
          simp only [decide_eq_true_eq]
          intro e
          exact hm (List.mem_map.2 ⟨c, hc, e⟩)
  unfold Frame.setColumn
  by_cases h0 : f.index = []
  · have hv : vs = [] := by
      rw [h0] at hn
      exact List.length_eq_zero_iff.1 hn.symm
    simp only [if_pos h0]
    obtain ⟨cols, h1, h2, h3⟩ := key { index := (List.range vs.length).map toString
                                       columns := f.columns.map (fun c => (c.1, vs.map (fun _ => Cell.missing))) }
      (by simp)
    refine ⟨_, h1, ?_, ?_, h3⟩
    · simp [hv, h0]
    · simp [Frame.valuesWithout, hv, h0]
  · simp only [if_neg h0]
    obtain ⟨cols, h1, h2, h3⟩ := key f hn
    exact ⟨_, h1, rfl, by simp only [Frame.valuesWithout, h2], h3⟩

theorem fromGrpcLabeled_table (d : GrpcLabeled F) (h : IsTable d.dataset)
    (hl : d.labels.length = d.dataset.rows.length) :
    ∃ g, fromGrpcLabeled d = .ok g ∧ g.valuesWithout (some clusterLabels) = numbersWithout d.dataset clusterLabels ∧
      g.labelsOf clusterLabels = .ok d.labels := by
  unfold fromGrpcLabeled
  rw [fromGrpcDataset_table _ h]
  have hn : (tableFrame d.dataset).index.length = (d.labels.map (Cell.label (F := F))).length := by
    rw [List.length_map, hl]
    exact h.2
  obtain ⟨g, h1, h2, h3, h4⟩ := setColumn_new (tableFrame d.dataset) clusterLabels _ hn
  refine ⟨g, h1, ?_, ?_⟩
  · rw [h3]
    have hi : (tableFrame d.dataset).index.length = d.dataset.rows.length := h.2
    show (List.range _).map _ = _
    unfold numbersWithout
    apply List.ext_getElem
    · simp [hi]
    · intro i h1 h2
      have hi : i < d.dataset.rows.length := by simpa using h2
      simp only [List.getElem_map, List.getElem_range]
      exact tableFrame_row d.dataset h (fun c => decide (c ≠ clusterLabels)) i hi
  · unfold Frame.labelsOf
    rw [h4]
    simp only [List.map_map, Except.ok.injEq]
    conv_rhs => rw [← List.map_id d.labels]
    apply List.map_congr_left
    intro x _
    rfl

/-! ### Components -/

theorem mapM_ok {A B E : Type} (f : A → Except E B) (g : A → B) (l : List A) (h : ∀ a ∈ l, f a = .ok (g a)) :
    l.mapM f = .ok (l.map g) := by
  induction l with
  | nil => rfl
  | cons a l ih =>
    rw [List.mapM_cons, h a (by simp), ih (fun b hb => h b (List.mem_cons_of_mem _ hb))]
    rfl

section
variable [Zero P]

/-- The columns of points as they are drawn. -/
def axesOf (n : Nat) (pts : List (List P)) : List (List P) :=
  (List.range n).map (fun i => pts.map (fun r => r.getD i 0))

/-- The number of axes. -/
def axisCount : NComponents → Nat
  | .three => 3
  | _ => 2

theorem columnsOf_eq (n : Nat) (coords : List (List P)) (h : ∀ c ∈ coords, c.length = n) :
    columnsOf n coords = .ok (axesOf n coords) := by
  unfold columnsOf axesOf
  apply mapM_ok
  intro i hi
  apply mapM_ok
  intro r hr
  have : i < r.length := by rw [h r hr]; exact List.mem_range.1 hi
  rw [List.getD_eq_getElem?_getD, List.getElem?_eq_getElem this]
  rfl

theorem pad_axes (n : NComponents) (coords : List (List P)) (h : ∀ c ∈ coords, c.length = n.value) :
    padComponents (axesOf n.value coords) = axesOf (axisCount n) (coords.map drawn) := by
  have hr : List.range 1 = [0] := rfl
  have hr2 : List.range 2 = [0, 1] := rfl
  have hr3 : List.range 3 = [0, 1, 2] := rfl
  cases n with
  | one =>
    simp only [axesOf, NComponents.value, axisCount, hr, hr2, List.map_cons, List.map_nil, padComponents,
      List.map_map, List.length_map, List.cons.injEq, and_true]
    refine ⟨?_, ?_⟩
    · apply List.map_congr_left
      intro c hc
      match c, h c hc with
      | [x], _ => rfl
    · apply List.ext_getElem
      · simp
      · intro i h1 h2
        have hi : i < coords.length := by simpa using h2
        simp only [List.getElem_map, Function.comp]
        have hl := h coords[i] (List.getElem_mem hi)
        match hc : coords[i], hl with
        | [x], _ => rfl
  | two =>
    simp only [axesOf, NComponents.value, axisCount, hr2, List.map_cons, List.map_nil, padComponents, List.map_map,
      List.cons.injEq, and_true]
    refine ⟨?_, ?_⟩ <;>
    · apply List.map_congr_left
      intro c hc
      match c, h c hc with
      | [x, y], _ => rfl
  | three =>
    simp only [axesOf, NComponents.value, axisCount, hr3, List.map_cons, List.map_nil, padComponents, List.map_map,
      List.cons.injEq, and_true]
    refine ⟨?_, ?_, ?_⟩ <;>
    · apply List.map_congr_left
      intro c hc
      match c, h c hc with
      | [x, y, z], _ => rfl

theorem drawn_length (n : NComponents) (c : List P) (h : c.length = n.value) : (drawn c).length = axisCount n := by
  cases n with
  | one => match c, h with | [x], _ => rfl
  | two => match c, h with | [x, y], _ => rfl
  | three => match c, h with | [x, y, z], _ => rfl

theorem points_axes (n : Nat) (pts : List (List P)) (hn : 0 < n) (h : ∀ c ∈ pts, c.length = n) :
    points (axesOf n pts) = pts := by
  obtain ⟨m, rfl⟩ : ∃ m, n = m + 1 := ⟨n - 1, by omega⟩
  have hc : axesOf (m + 1) pts = pts.map (fun r => r.getD 0 0) ::
      (List.range m).map (fun i => pts.map (fun r => r.getD (i + 1) 0)) := by
    unfold axesOf
    rw [List.range_succ_eq_map, List.map_cons, List.map_map]
    rfl
  have hp : points (axesOf (m + 1) pts) = (List.range pts.length).map (fun i =>
      (axesOf (m + 1) pts).filterMap (fun axis => axis[i]?)) := by
    rw [hc]
    simp only [points, List.length_map]
  rw [hp]
  apply List.ext_getElem
  · simp
  · intro i h1 h2
    simp only [List.getElem_map, List.getElem_range, axesOf, List.filterMap_map]
    have hl := h pts[i] (List.getElem_mem h2)
    have : (List.range (m + 1)).filterMap ((fun axis : List P => axis[i]?) ∘
        fun j => pts.map (fun r => r.getD j 0)) = (List.range (m + 1)).filterMap (fun j => some (pts[i].getD j 0)) := by
      apply List.filterMap_congr
      intro j _
      simp [h2]
    rw [this]
    have : (fun j => some (pts[i].getD j 0)) = (some ∘ fun j => pts[i].getD j 0) := rfl
    rw [this, List.filterMap_eq_map]
    apply List.ext_getElem
    · simp [hl]
    · intro j h3 h4
      simp [h4]

theorem positionsOf_append (y : List Int) (a l : Int) :
    positionsOf (y ++ [a]) l = positionsOf y l ++ (if a = l then [y.length] else []) := by
  unfold positionsOf
  rw [List.length_append, List.length_singleton, List.range_succ, List.filter_append]
  congr 1
  · apply List.filter_congr
    intro i hi
    rw [List.getElem?_append_left (List.mem_range.1 hi)]
  · by_cases h : a = l <;> simp [h]

theorem takePositions_eq (z : List (Int × P)) (l : Int) :
    takePositions (z.map Prod.snd) (positionsOf (z.map Prod.fst) l) =
      .ok ((z.filter (fun p => p.1 = l)).map Prod.snd) := by
  induction z using List.reverseRecOn with
  | nil => rfl
  | append_singleton z a ih =>
    rw [List.map_append, List.map_append, List.map_singleton, List.map_singleton, positionsOf_append]
    have h1 : takePositions (z.map Prod.snd ++ [a.2]) (positionsOf (z.map Prod.fst) l) =
        takePositions (z.map Prod.snd) (positionsOf (z.map Prod.fst) l) := by
      unfold takePositions
      have hm : ∀ i ∈ positionsOf (z.map Prod.fst) l, i < z.length := by
        intro i hi
        unfold positionsOf at hi
        have := List.mem_range.1 (List.mem_filter.1 hi).1
        simpa using this
      generalize positionsOf (z.map Prod.fst) l = ix at hm
      induction ix with
      | nil => rfl
      | cons i ix ih2 =>
        rw [List.mapM_cons, List.mapM_cons, ih2 (fun j hj => hm j (List.mem_cons_of_mem _ hj)),
          List.getElem?_append_left (by simpa using hm i (by simp))]
    have h2 : ∀ (c : List P) (u v : List Nat) (a b : List P), takePositions c u = .ok a → takePositions c v = .ok b →
        takePositions c (u ++ v) = .ok (a ++ b) := by
      intro c u v a b hu hv
      unfold takePositions at hu hv ⊢
      rw [List.mapM_append, hu, hv]
      rfl
    rw [List.filter_append, List.map_append]
    apply h2
    · rw [h1, ih]
    · by_cases h : a.1 = l
      · rw [if_pos h]
        simp [takePositions, h, pure, Except.pure, bind, Except.bind]
      · rw [if_neg h]
        simp [takePositions, h, pure, Except.pure]

theorem takePositions_map (y : List Int) (pts : List (List P)) (f : List P → P) (hl : y.length = pts.length) (l : Int) :
    takePositions (pts.map f) (positionsOf y l) = .ok (((y.zip pts).filter (fun p => p.1 = l)).map (fun p => f p.2)) := by
  have := takePositions_eq ((y.zip pts).map (fun p => (p.1, f p.2))) l
  rw [List.map_map, List.map_map] at this
  have e1 : (y.zip pts).map (Prod.snd ∘ fun p => (p.1, f p.2)) = pts.map f := by
    have : (y.zip pts).map Prod.snd = pts := List.map_snd_zip (by omega)
    conv_rhs => rw [← this]
    rw [List.map_map]
    rfl
  have e2 : (y.zip pts).map (Prod.fst ∘ fun p => (p.1, f p.2)) = y := by
    have : (y.zip pts).map Prod.fst = y := List.map_fst_zip (by omega)
    conv_rhs => rw [← this]
    rfl
  rw [e1, e2, List.filter_map, List.map_map] at this
  exact this

/-! ### Drawing -/

/-- The call of `scatter` for a label. -/
def labelStroke (n : Nat) (y : List Int) (pts : List (List P)) (colors : Dict Int Rgb) (l : Int) : Stroke P :=
  .scatter (axesOf n (((y.zip pts).filter (fun p => p.1 = l)).map Prod.snd))
    (some (labelColor colors l, "CLUSTER_" ++ toString l))

theorem scatterLabel_eq (n : Nat) (y : List Int) (pts : List (List P)) (colors : Dict Int Rgb) (l : Int)
    (hl : y.length = pts.length) :
    scatterLabel (axesOf n pts) colors y l = ([labelStroke n y pts colors l], none) := by
  unfold scatterLabel
  have : (axesOf n pts).mapM (fun c => takePositions c (positionsOf y l)) =
      .ok (axesOf n (((y.zip pts).filter (fun p => p.1 = l)).map Prod.snd)) := by
    unfold axesOf
    rw [List.mapM_map]
    apply mapM_ok
    intro i _
    rw [Function.comp, takePositions_map y pts _ hl, List.map_map]
    rfl
  rw [this]
  rfl

theorem scatterLabels_eq (n : Nat) (y : List Int) (pts : List (List P)) (colors : Dict Int Rgb) (ls : List Int)
    (hl : y.length = pts.length) :
    scatterLabels (axesOf n pts) colors y ls = (ls.map (labelStroke n y pts colors), none) := by
  induction ls with
  | nil => rfl
  | cons l ls ih =>
    rw [scatterLabels, scatterLabel_eq n y pts colors l hl, ih]
    rfl

theorem axisStrokes_eq (n : NComponents) (fs : Nat) :
    axisStrokes (P := P) (axisCount n) fs = axisNames n fs := by
  cases n <;> rfl

theorem axesOf_length (n : Nat) (pts : List (List P)) : (axesOf n pts).length = n := by simp [axesOf]

theorem viewer_eq (cfg : VisConfig) :
    (if axisCount cfg.components = 3 then [Stroke.view (P := P) cfg.view.1 cfg.view.2] else []) = viewer cfg := by
  unfold viewer
  cases cfg.components <;> rfl

theorem drawScatter_labels (cfg : VisConfig) (df : Frame F) (coords : List (List P)) (colors : Dict Int Rgb)
    (name : String) (y : List Int) (hy : df.labelsOf name = .ok y) (hl : y.length = coords.length)
    (hc : ∀ c ∈ coords, c.length = cfg.components.value) :
    drawScatter cfg df (axesOf cfg.components.value coords) (some name) colors =
      ((sortedSet y).map (labelStroke (axisCount cfg.components) y (coords.map drawn) colors) ++
        .legend cfg.legendCols :: (axisNames cfg.components cfg.fontSize ++ viewer cfg), none) := by
  unfold drawScatter
  simp only [pad_axes cfg.components coords hc, hy, Plot.withValue, axesOf_length, axisStrokes_eq, viewer_eq,
    scatterLabels_eq (axisCount cfg.components) y (coords.map drawn) colors _ (by simpa using hl), Plot.andThen]
  simp

theorem drawScatter_plain (cfg : VisConfig) (df : Frame F) (coords : List (List P)) (colors : Dict Int Rgb)
    (hc : ∀ c ∈ coords, c.length = cfg.components.value) :
    drawScatter cfg df (axesOf cfg.components.value coords) none colors =
      (.scatter (axesOf (axisCount cfg.components) (coords.map drawn)) none ::
        (axisNames cfg.components cfg.fontSize ++ viewer cfg), none) := by
  unfold drawScatter
  simp only [pad_axes cfg.components coords hc, axesOf_length, axisStrokes_eq, viewer_eq, Plot.andThen]
  simp

theorem visualizeDataset_eq (cfg : VisConfig) (strokes : List (Stroke P)) :
    visualizeDataset cfg (strokes, none) = (opened cfg :: (strokes ++ finish cfg), none) := by
  unfold visualizeDataset finish opened
  cases cfg.savePath <;> rfl

theorem visualizeDataset_error (cfg : VisConfig) (strokes : List (Stroke P)) (e : PyErr) :
    visualizeDataset cfg (strokes, some e) = (opened cfg :: strokes, some e) := by
  unfold visualizeDataset opened
  rfl

theorem visualize_eq (embed : Embed F P) (cfg : VisConfig) (df : Frame F) (colors : Dict Int Rgb)
    (lc : Option String) (coords : List (List P)) (hm : cfg.method ≠ .other)
    (he : embed cfg.method cfg.components.value (df.valuesWithout lc) = .ok coords)
    (hc : ∀ c ∈ coords, c.length = cfg.components.value) :
    visualize embed cfg df colors lc =
      visualizeDataset cfg (drawScatter cfg df (axesOf cfg.components.value coords) lc colors) := by
  unfold visualize
  split
  all_goals rename_i hm'
  all_goals first
    | exact absurd hm' hm
    | (rw [hm'] at he; simp [visualizePca, visualizeInternal, he, Plot.withValue, columnsOf_eq _ coords hc])

end

end Ficus
