import Verif.Proofs.Datasets
import Verif.Props.Colors

/-! Property C85: the pictures of datasets show every row once, in the colour and under the name of its cluster. -/

namespace Ficus
open Spec

variable {F P : Type} [Zero P]

theorem clouds_append (a b : List (Stroke P)) : clouds (a ++ b) = clouds a ++ clouds b := by
  unfold clouds
  rw [List.filterMap_append]

theorem furniture_append (a b : List (Stroke P)) : furniture (a ++ b) = furniture a ++ furniture b := by
  unfold furniture
  rw [List.filter_append]

theorem clouds_rest (cfg : VisConfig) :
    clouds (P := P) (axisNames cfg.components cfg.fontSize ++ viewer cfg ++ finish cfg) = [] := by
  unfold axisNames viewer finish
  cases cfg.components <;> cases cfg.savePath <;> rfl

theorem furniture_rest (cfg : VisConfig) :
    furniture (P := P) (axisNames cfg.components cfg.fontSize ++ viewer cfg ++ finish cfg) =
      axisNames cfg.components cfg.fontSize ++ viewer cfg ++ finish cfg := by
  unfold axisNames viewer finish
  cases cfg.components <;> cases cfg.savePath <;> rfl

theorem labelColor_eq (labels : List Int) (colors : List Rgb) (l : Int) :
    labelColor ((labels.zip colors).foldl (fun d lc => Dict.set d lc.1 lc.2) ([] : Dict Int Rgb)) l =
      colorFor labels colors l := by
  unfold labelColor colorFor
  rw [foldSet_get? (fun lc : Int × Rgb => lc.1) (fun lc => lc.2) (labels.zip colors) [] l]
  have e : (fun lc : Int × Rgb => lc.1) = Prod.fst := rfl
  rw [e]
  cases lastWith Prod.fst (labels.zip colors) l <;> rfl

theorem cloud_labelStroke (n : NComponents) (y : List Int) (coords : List (List P)) (colors : Dict Int Rgb) (l : Int)
    (hc : ∀ c ∈ coords, c.length = n.value) :
    cloud? (labelStroke (axisCount n) y (coords.map drawn) colors l) =
      some (pointsWith y coords l, some (labelColor colors l, "CLUSTER_" ++ toString l)) := by
  show some (points (axesOf _ _), _) = _
  unfold pointsWith
  have hz : y.zip (coords.map drawn) = (y.zip coords).map (fun p => (p.1, drawn p.2)) := by
    rw [List.zip_map_right]
    rfl
  rw [hz, List.filter_map, List.map_map, points_axes]
  · rfl
  · cases n <;> decide
  · intro c hm
    obtain ⟨p, hp, rfl⟩ := List.mem_map.1 hm
    have := (List.of_mem_zip (a := p.1) (b := p.2) (List.mem_filter.1 hp).1).2
    exact drawn_length n p.2 (hc _ this)

/-- The general form of C85a: the projection is given the numbers of all columns that are not called `cluster_labels`. -/
theorem clusters_drawn (embed : Embed F P) (cfg : VisConfig) (key : String) (values : Dict String (GrpcLabeled F))
    (d : GrpcLabeled F) (coords : List (List P)) (hv : values.get? key = some d) (hm : cfg.method ≠ .other)
    (ht : IsTable d.dataset) (hl : d.labels.length = d.dataset.rows.length)
    (he : embed cfg.method cfg.components.value (numbersWithout d.dataset clusterLabels) = .ok coords)
    (hp : IsProjection cfg.components.value d.dataset.rows.length coords) :
    ∃ strokes, clusteringCallback embed cfg true key values = (strokes, none) ∧
      (∃ ls : List Int, ls.Pairwise (· < ·) ∧ (∀ l, l ∈ ls ↔ l ∈ d.labels) ∧
        clouds strokes = ls.map (fun l =>
          (pointsWith d.labels coords l, some (colorFor d.labels d.colors l, "CLUSTER_" ++ toString l)))) ∧
      furniture strokes = opened cfg :: .legend cfg.legendCols ::
        (axisNames cfg.components cfg.fontSize ++ viewer cfg ++ finish cfg) := by
  obtain ⟨g, h1, h2, h3⟩ := fromGrpcLabeled_table d ht hl
  unfold clusteringCallback
  have hv' : values.getE key = .ok d := by unfold Dict.getE; rw [hv]
  simp only [Bool.not_true, Bool.false_eq_true, if_false, hv', Plot.withValue, h1]
  rw [visualize_eq embed cfg g _ _ coords hm (by rw [h2]; exact he) hp.2,
    drawScatter_labels cfg g coords _ clusterLabels d.labels h3 (by rw [hl, hp.1]) hp.2, visualizeDataset_eq]
  set colors := (d.labels.zip d.colors).foldl (fun d lc => Dict.set d lc.1 lc.2) ([] : Dict Int Rgb) with hcol
  have hc : ∀ ls : List Int, clouds (ls.map (labelStroke (axisCount cfg.components) d.labels (coords.map drawn) colors)) =
      ls.map (fun l =>
        (pointsWith d.labels coords l, some (colorFor d.labels d.colors l, "CLUSTER_" ++ toString l))) := by
    intro ls
    unfold clouds
    rw [List.filterMap_map]
    have : (cloud? ∘ labelStroke (axisCount cfg.components) d.labels (coords.map drawn) colors) =
        (fun l => some
          (pointsWith d.labels coords l, some (colorFor d.labels d.colors l, "CLUSTER_" ++ toString l))) := by
      funext l
      rw [Function.comp, cloud_labelStroke cfg.components d.labels coords colors l hp.2, hcol, labelColor_eq]
    rw [this]
    rw [List.filterMap_eq_map']
  have ho : ∀ ls : List Int, furniture (ls.map (labelStroke (axisCount cfg.components) d.labels (coords.map drawn) colors)) =
      [] := by
    intro ls
    unfold furniture
    rw [List.filter_eq_nil_iff]
    intro s hs
    obtain ⟨l, _, rfl⟩ := List.mem_map.1 hs
    simp [labelStroke, cloud?]
  refine ⟨_, rfl, ⟨sortedSet d.labels, sortedSet_sorted _, mem_sortedSet _, ?_⟩, ?_⟩
  · have e : opened cfg :: ((sortedSet d.labels).map
          (labelStroke (axisCount cfg.components) d.labels (coords.map drawn) colors) ++
        .legend cfg.legendCols :: (axisNames cfg.components cfg.fontSize ++ viewer cfg) ++ finish cfg) =
        [opened cfg] ++ (sortedSet d.labels).map
          (labelStroke (axisCount cfg.components) d.labels (coords.map drawn) colors) ++ [.legend cfg.legendCols] ++
        (axisNames cfg.components cfg.fontSize ++ viewer cfg ++ finish cfg) := by simp
    rw [e, clouds_append, clouds_append, clouds_append, hc, clouds_rest]
    have h1 : clouds [opened (P := P) cfg] = [] := rfl
    have h2 : clouds [Stroke.legend (P := P) cfg.legendCols] = [] := rfl
    rw [h1, h2]
    simp
  · have e : opened cfg :: ((sortedSet d.labels).map
          (labelStroke (axisCount cfg.components) d.labels (coords.map drawn) colors) ++
        .legend cfg.legendCols :: (axisNames cfg.components cfg.fontSize ++ viewer cfg) ++ finish cfg) =
        [opened cfg] ++ (sortedSet d.labels).map
          (labelStroke (axisCount cfg.components) d.labels (coords.map drawn) colors) ++ [.legend cfg.legendCols] ++
        (axisNames cfg.components cfg.fontSize ++ viewer cfg ++ finish cfg) := by simp
    rw [e, furniture_append, furniture_append, furniture_append, ho, furniture_rest]
    have h1 : furniture [opened (P := P) cfg] = [opened cfg] := rfl
    have h2 : furniture [Stroke.legend (P := P) cfg.legendCols] = [Stroke.legend cfg.legendCols] := rfl
    rw [h1, h2]
    simp

/-- C85a: for a table with one label per row and no column called `cluster_labels`, the projection is given exactly the
numbers sent. The callback then draws one cloud per cluster, in the order of the labels. The cloud of a label has exactly the
points of the rows with that label, in their order; its colour is the one sent for the label and its text is `CLUSTER_` and the
label. The rest of the picture is the figure, one legend, the names of the axes, the viewer in three dimensions, and the
picture is shown, or saved and closed. -/
theorem C85_clusters (embed : Embed F P) (cfg : VisConfig) (key : String) (values : Dict String (GrpcLabeled F))
    (d : GrpcLabeled F) (coords : List (List P)) (hv : values.get? key = some d) (hm : cfg.method ≠ .other)
    (ht : IsTable d.dataset) (hl : d.labels.length = d.dataset.rows.length) (hn : clusterLabels ∉ d.dataset.columns)
    (he : embed cfg.method cfg.components.value (numbers d.dataset) = .ok coords)
    (hp : IsProjection cfg.components.value d.dataset.rows.length coords) :
    ∃ strokes, clusteringCallback embed cfg true key values = (strokes, none) ∧
      (∃ ls : List Int, ls.Pairwise (· < ·) ∧ (∀ l, l ∈ ls ↔ l ∈ d.labels) ∧
        clouds strokes = ls.map (fun l =>
          (pointsWith d.labels coords l, some (colorFor d.labels d.colors l, "CLUSTER_" ++ toString l)))) ∧
      furniture strokes = opened cfg :: .legend cfg.legendCols ::
        (axisNames cfg.components cfg.fontSize ++ viewer cfg ++ finish cfg) :=
  clusters_drawn embed cfg key values d coords hv hm ht hl
    (by rw [numbersWithout_absent _ ht _ hn]; exact he) hp

omit [Zero P] in
theorem filter_flatMap_perm {A : Type} (z : List (Int × A)) (ls : List Int) (hd : ls.Nodup)
    (h : ∀ p ∈ z, p.1 ∈ ls) : (ls.flatMap (fun l => z.filter (fun p => p.1 = l))).Perm z := by
  induction z with
  | nil =>
    simp
  | cons a z ih =>
    have hz := ih (fun p hp => h p (List.mem_cons_of_mem _ hp))
    refine List.Perm.trans ?_ (List.Perm.cons a hz)
    have ha : a.1 ∈ ls := h a (by simp)
    clear hz ih h
    induction ls with
    | nil => simp at ha
    | cons l ls ih =>
      rw [List.flatMap_cons, List.flatMap_cons]
      by_cases hl : a.1 = l
      · rw [List.filter_cons_of_pos (by simpa using hl), List.cons_append]
        refine List.Perm.cons a (List.Perm.append_left _ ?_)
        have hnot : a.1 ∉ ls := fun hm => (List.nodup_cons.1 hd).1 (hl ▸ hm)
        have : ls.flatMap (fun l => (a :: z).filter (fun p => p.1 = l)) =
            ls.flatMap (fun l => z.filter (fun p => p.1 = l)) := by
          unfold List.flatMap
          congr 1
          apply List.map_congr_left
          intro m hm
          rw [List.filter_cons_of_neg]
          simp only [decide_eq_true_eq]
          intro e
          exact hnot (e ▸ hm)
        rw [this]
      · rw [List.filter_cons_of_neg (by simpa using hl)]
        have := ih (List.nodup_cons.1 hd).2 ((List.mem_cons.1 ha).resolve_left hl)
        exact (List.Perm.append_left _ this).trans List.perm_middle

/-- C85b: under the conditions of C85a every row is drawn exactly once, at its own point. -/
theorem C85_rows (embed : Embed F P) (cfg : VisConfig) (key : String) (values : Dict String (GrpcLabeled F))
    (d : GrpcLabeled F) (coords : List (List P)) (hv : values.get? key = some d) (hm : cfg.method ≠ .other)
    (ht : IsTable d.dataset) (hl : d.labels.length = d.dataset.rows.length) (hn : clusterLabels ∉ d.dataset.columns)
    (he : embed cfg.method cfg.components.value (numbers d.dataset) = .ok coords)
    (hp : IsProjection cfg.components.value d.dataset.rows.length coords) :
    ((clouds (clusteringCallback embed cfg true key values).1).flatMap Prod.fst).Perm (coords.map drawn) := by
  obtain ⟨strokes, h1, ⟨ls, h2, h3, h4⟩, _⟩ := C85_clusters embed cfg key values d coords hv hm ht hl hn he hp
  rw [h1]
  show ((clouds strokes).flatMap Prod.fst).Perm _
  rw [h4, List.flatMap_map]
  have := filter_flatMap_perm (d.labels.zip coords) ls (h2.imp (fun h => ne_of_lt h))
    (fun p hp' => (h3 _).2 (List.of_mem_zip (a := p.1) (b := p.2) hp').1)
  have := this.map (fun p : Int × List P => drawn p.2)
  rw [List.map_flatMap] at this
  refine this.trans (List.Perm.of_eq ?_)
  have hz : (d.labels.zip coords).map Prod.snd = coords := List.map_snd_zip (by rw [hp.1, hl])
  conv_rhs => rw [← hz]
  rw [List.map_map]
  rfl

theorem lastWith_zip (labels : List Int) (colors : List Rgb)
    (hcons : ∀ i j : Nat, ∀ l, labels[i]? = some l → labels[j]? = some l → colors[i]? = colors[j]?)
    (i : Nat) (l : Int) (c : Rgb) (hi : labels[i]? = some l) (hc : colors[i]? = some c) :
    lastWith Prod.fst (labels.zip colors) l = some (l, c) := by
  unfold lastWith
  cases hf : (labels.zip colors).reverse.find? (fun a => decide (a.1 = l)) with
  | none =>
    exfalso
    rw [List.find?_eq_none] at hf
    have hmem : (l, c) ∈ labels.zip colors := by
      rw [List.mem_iff_getElem?]
      exact ⟨i, by rw [List.getElem?_zip_eq_some]; exact ⟨hi, hc⟩⟩
    have := hf (l, c) (List.mem_reverse.2 hmem)
    simp at this
  | some a =>
    have h1 : a.1 = l := by simpa using List.find?_some hf
    have h2 := List.mem_reverse.1 (List.mem_of_find?_eq_some hf)
    obtain ⟨j, hj⟩ := List.mem_iff_getElem?.1 h2
    have hj' : labels[j]? = some a.1 ∧ colors[j]? = some a.2 := by
      rw [← List.getElem?_zip_eq_some]
      exact hj
    have := hcons i j l hi (h1 ▸ hj'.1)
    rw [hc, hj'.2, Option.some.injEq] at this
    rw [Option.some.injEq]
    exact Prod.ext h1 this.symm

/-- C85c: when in addition rows of one cluster are sent the same colour, then every row is drawn in the colour sent for it and
under the name of its own cluster. -/
theorem C85_color (embed : Embed F P) (cfg : VisConfig) (key : String) (values : Dict String (GrpcLabeled F))
    (d : GrpcLabeled F) (coords : List (List P)) (hv : values.get? key = some d) (hm : cfg.method ≠ .other)
    (ht : IsTable d.dataset) (hl : d.labels.length = d.dataset.rows.length) (hn : clusterLabels ∉ d.dataset.columns)
    (he : embed cfg.method cfg.components.value (numbers d.dataset) = .ok coords)
    (hp : IsProjection cfg.components.value d.dataset.rows.length coords)
    (hcons : ∀ i j : Nat, ∀ l, d.labels[i]? = some l → d.labels[j]? = some l → d.colors[i]? = d.colors[j]?)
    (i : Nat) (l : Int) (c : Rgb) (p : List P) (hi : d.labels[i]? = some l) (hc : d.colors[i]? = some c)
    (hpt : coords[i]? = some p) :
    ∃ pts, (pts, some (toHex c, "CLUSTER_" ++ toString l)) ∈
      clouds (clusteringCallback embed cfg true key values).1 ∧ drawn p ∈ pts := by
  obtain ⟨strokes, h1, ⟨ls, h2, h3, h4⟩, _⟩ := C85_clusters embed cfg key values d coords hv hm ht hl hn he hp
  rw [h1]
  refine ⟨pointsWith d.labels coords l, ?_, ?_⟩
  · show _ ∈ clouds strokes
    rw [h4]
    refine List.mem_map.2 ⟨l, (h3 l).2 (List.mem_of_getElem? hi), ?_⟩
    unfold colorFor
    rw [lastWith_zip d.labels d.colors hcons i l c hi hc]
  · unfold pointsWith
    refine List.mem_map.2 ⟨(l, p), List.mem_filter.2 ⟨?_, by simp⟩, rfl⟩
    rw [List.mem_iff_getElem?]
    exact ⟨i, by rw [List.getElem?_zip_eq_some]; exact ⟨hi, hpt⟩⟩

/-- C85d: when moreover different clusters are sent different colours, of components below 256, no two clouds have the same
colour. -/
theorem C85_distinct (embed : Embed F P) (cfg : VisConfig) (key : String) (values : Dict String (GrpcLabeled F))
    (d : GrpcLabeled F) (coords : List (List P)) (hv : values.get? key = some d) (hm : cfg.method ≠ .other)
    (ht : IsTable d.dataset) (hl : d.labels.length = d.dataset.rows.length) (hn : clusterLabels ∉ d.dataset.columns)
    (he : embed cfg.method cfg.components.value (numbers d.dataset) = .ok coords)
    (hp : IsProjection cfg.components.value d.dataset.rows.length coords)
    (hlen : d.colors.length = d.labels.length)
    (hcons : ∀ i j : Nat, ∀ l l', d.labels[i]? = some l → d.labels[j]? = some l' →
      (l = l' ↔ d.colors[i]? = d.colors[j]?))
    (hb : ∀ c ∈ d.colors, IsByteColor c) :
    ((clouds (clusteringCallback embed cfg true key values).1).map (fun c => c.2.map Prod.fst)).Nodup := by
  obtain ⟨strokes, h1, ⟨ls, h2, h3, h4⟩, _⟩ := C85_clusters embed cfg key values d coords hv hm ht hl hn he hp
  rw [h1]
  show ((clouds strokes).map _).Nodup
  rw [h4, List.map_map]
  refine List.Nodup.map_on ?_ (h2.imp (fun h => ne_of_lt h))
  intro l hlm l' hlm' e
  obtain ⟨i, hi⟩ := List.mem_iff_getElem?.1 ((h3 l).1 hlm)
  obtain ⟨j, hj⟩ := List.mem_iff_getElem?.1 ((h3 l').1 hlm')
  have hcons' : ∀ i j : Nat, ∀ l, d.labels[i]? = some l → d.labels[j]? = some l → d.colors[i]? = d.colors[j]? :=
    fun i j l a b => (hcons i j l l a b).1 rfl
  have hsome : ∀ {k : Nat} {x : Int}, d.labels[k]? = some x → ∃ c, d.colors[k]? = some c := by
    intro k x hk
    have := (List.getElem?_eq_some_iff.1 hk).1
    exact ⟨d.colors[k]'(by omega), List.getElem?_eq_getElem (by omega)⟩
  obtain ⟨c, hc⟩ := hsome hi
  obtain ⟨c', hc'⟩ := hsome hj
  simp only [Function.comp, Option.map_some, Option.some.injEq] at e
  unfold colorFor at e
  rw [lastWith_zip d.labels d.colors hcons' i l c hi hc, lastWith_zip d.labels d.colors hcons' j l' c' hj hc'] at e
  have := (C44_hex_injective c c' (hb _ (List.mem_of_getElem? hc)) (hb _ (List.mem_of_getElem? hc'))).1 e
  exact (hcons i j l l' hi hj).2 (by rw [hc, hc', this])

/-- C85e: a column of the dataset called `cluster_labels` is lost: the projection is given the numbers without it, and the
picture is that of C85a. Two datasets that differ in this column only give the same picture. -/
theorem C85_hidden_column (embed : Embed F P) (cfg : VisConfig) (key : String) (values : Dict String (GrpcLabeled F))
    (d : GrpcLabeled F) (coords : List (List P)) (hv : values.get? key = some d) (hm : cfg.method ≠ .other)
    (ht : IsTable d.dataset) (hl : d.labels.length = d.dataset.rows.length)
    (_hn : d.dataset.columns.count clusterLabels = 1)
    (he : embed cfg.method cfg.components.value (numbersWithout d.dataset clusterLabels) = .ok coords)
    (hp : IsProjection cfg.components.value d.dataset.rows.length coords) :
    ∃ strokes, clusteringCallback embed cfg true key values = (strokes, none) ∧
      (∃ ls : List Int, ls.Pairwise (· < ·) ∧ (∀ l, l ∈ ls ↔ l ∈ d.labels) ∧
        clouds strokes = ls.map (fun l =>
          (pointsWith d.labels coords l, some (colorFor d.labels d.colors l, "CLUSTER_" ++ toString l)))) ∧
      furniture strokes = opened cfg :: .legend cfg.legendCols ::
        (axisNames cfg.components cfg.fontSize ++ viewer cfg ++ finish cfg) :=
  clusters_drawn embed cfg key values d coords hv hm ht hl he hp

/-- C85f: without labels all rows are drawn in one cloud, in their order, without a colour and without a legend. -/
theorem C85_plain (embed : Embed F P) (cfg : VisConfig) (key : String) (values : Dict String (GrpcData F))
    (d : GrpcData F) (coords : List (List P)) (hv : values.get? key = some d) (hm : cfg.method ≠ .other)
    (ht : IsTable d) (he : embed cfg.method cfg.components.value (numbers d) = .ok coords)
    (hp : IsProjection cfg.components.value d.rows.length coords) :
    ∃ strokes, tracesCallback embed cfg key values = (strokes, none) ∧
      clouds strokes = [(coords.map drawn, none)] ∧
      furniture strokes = opened cfg :: (axisNames cfg.components cfg.fontSize ++ viewer cfg ++ finish cfg) := by
  unfold tracesCallback
  have hv' : values.getE key = .ok d := by unfold Dict.getE; rw [hv]
  simp only [hv', Plot.withValue, fromGrpcDataset_table d ht]
  rw [visualize_eq embed cfg _ _ _ coords hm (by rw [tableFrame_values d ht]; exact he) hp.2,
    drawScatter_plain cfg _ coords _ hp.2, visualizeDataset_eq]
  have e : opened cfg :: (Stroke.scatter (axesOf (axisCount cfg.components) (coords.map drawn)) none ::
        (axisNames cfg.components cfg.fontSize ++ viewer cfg) ++ finish cfg) =
      [opened cfg] ++ [Stroke.scatter (axesOf (axisCount cfg.components) (coords.map drawn)) none] ++
        (axisNames cfg.components cfg.fontSize ++ viewer cfg ++ finish cfg) := by simp
  refine ⟨_, rfl, ?_, ?_⟩
  · rw [e, clouds_append, clouds_append, clouds_rest]
    have h1 : clouds [opened (P := P) cfg] = [] := rfl
    have h2 : clouds [Stroke.scatter (axesOf (axisCount cfg.components) (coords.map drawn)) none] =
        [(points (axesOf (axisCount cfg.components) (coords.map drawn)), none)] := rfl
    rw [h1, h2, points_axes]
    · rfl
    · cases cfg.components <;> decide
    · intro c hc
      obtain ⟨x, hx, rfl⟩ := List.mem_map.1 hc
      exact drawn_length _ x (hp.2 x hx)
  · rw [e, furniture_append, furniture_append, furniture_rest]
    rfl

theorem le_foldl_max (l : List Nat) (a : Nat) : a ≤ l.foldl max a ∧ ∀ x ∈ l, x ≤ l.foldl max a := by
  induction l generalizing a with
  | nil => simp
  | cons y l ih =>
    obtain ⟨h1, h2⟩ := ih (max a y)
    refine ⟨Nat.le_trans (Nat.le_max_left _ _) h1, ?_⟩
    intro x hx
    rcases List.mem_cons.1 hx with e | hx
    · subst e
      exact Nat.le_trans (Nat.le_max_right _ _) h1
    · exact h2 x hx

theorem foldl_max_mem (l : List Nat) (a : Nat) : l.foldl max a = a ∨ l.foldl max a ∈ l := by
  induction l generalizing a with
  | nil => exact .inl rfl
  | cons y l ih =>
    rw [List.foldl_cons]
    rcases ih (max a y) with h | h
    · rw [h]
      rcases Nat.le_total a y with hay | hay
      · right
        rw [Nat.max_eq_right hay]
        simp
      · left
        exact Nat.max_eq_left hay
    · exact .inr (List.mem_cons_of_mem _ h)

theorem width_iff (rows : List (List F)) (hr : rows ≠ []) (n : Nat) :
    (rows.map List.length).foldl max 0 = n ↔ IsWidth rows n := by
  have hle := (le_foldl_max (rows.map List.length) 0).2
  have hmem := foldl_max_mem (rows.map List.length) 0
  constructor
  · intro h
    refine ⟨fun r hr => ?_, ?_⟩
    · rw [← h]
      exact hle _ (List.mem_map.2 ⟨r, hr, rfl⟩)
    · rcases hmem with h0 | hm
      · match rows, hr with
        | r :: rows, _ =>
          have := hle r.length (by simp)
          rw [h] at h0 this
          exact ⟨r, by simp, by omega⟩
      · obtain ⟨r, hr, e⟩ := List.mem_map.1 hm
        exact ⟨r, hr, by omega⟩
  · rintro ⟨h1, r, hr', h2⟩
    have h3 := hle r.length (List.mem_map.2 ⟨r, hr', rfl⟩)
    rcases hmem with h0 | hm
    · omega
    · obtain ⟨r', hr'', e⟩ := List.mem_map.1 hm
      have := h1 r' hr''
      omega

/-- C85g: a message with rows is refused with ValueError, before anything is drawn, exactly when its longest row does not have
one number per column, or the names or the labels do not match the number of rows. (A shorter row is accepted, its last
numbers missing.) -/
theorem C85_refused (embed : Embed F P) (cfg : VisConfig) (key : String) (values : Dict String (GrpcLabeled F))
    (d : GrpcLabeled F) (hv : values.get? key = some d) (hr : d.dataset.rows ≠ []) :
    (fromGrpcLabeled d = .error .valueError ↔
      ¬ (IsWidth d.dataset.rows d.dataset.columns.length ∧ d.dataset.rowNames.length = d.dataset.rows.length ∧
        d.labels.length = d.dataset.rows.length)) ∧
    (fromGrpcLabeled d = .error .valueError → clusteringCallback embed cfg true key values = ([], some .valueError)) := by
  constructor
  · unfold fromGrpcLabeled fromGrpcDataset Frame.ofRows
    rw [if_neg hr, ← width_iff d.dataset.rows hr]
    by_cases h1 : (d.dataset.rows.map List.length).foldl max 0 = d.dataset.columns.length
    · rw [if_neg (not_not.2 h1)]
      by_cases h2 : d.dataset.rows.length = d.dataset.rowNames.length
      · rw [if_neg (not_not.2 h2)]
        have hi : d.dataset.rowNames ≠ [] := by
          intro e
          rw [e] at h2
          exact hr (List.length_eq_zero_iff.1 h2)
        simp only [Bind.bind, Except.bind, Frame.setColumn, if_neg hi, List.length_map]
        by_cases h3 : d.labels.length = d.dataset.rowNames.length
        · rw [if_neg (not_not.2 h3)]
          constructor
          · intro h
            split at h <;> cases h
          · intro h
            exact absurd ⟨h1, h2.symm, by omega⟩ h
        · rw [if_pos h3]
          simp only [true_iff]
          rintro ⟨_, _, h⟩
          omega
      · rw [if_pos h2]
        simp only [Bind.bind, Except.bind, true_iff]
        rintro ⟨_, h, _⟩
        omega
    · rw [if_pos h1]
      simp only [Bind.bind, Except.bind, true_iff]
      rintro ⟨h, _, _⟩
      exact h1 h
  · intro h
    unfold clusteringCallback
    have hv' : values.getE key = .ok d := by unfold Dict.getE; rw [hv]
    simp only [Bool.not_true, Bool.false_eq_true, if_false, hv', Plot.withValue, h]

/-- C85h: nothing is drawn when the picture is not wanted; a missing value or an unknown method is a KeyError and nothing is
drawn; when the projection fails its exception is raised, and all methods but PCA leave an empty figure open. -/
theorem C85_failures (embed : Embed F P) (cfg : VisConfig) (key : String) (values : Dict String (GrpcLabeled F)) :
    clusteringCallback embed cfg false key values = ([], none) ∧
    (values.get? key = none → clusteringCallback embed cfg true key values = ([], some .keyError)) ∧
    (∀ d, values.get? key = some d → IsTable d.dataset → d.labels.length = d.dataset.rows.length →
      (cfg.method = .other → clusteringCallback embed cfg true key values = ([], some .keyError)) ∧
      (∀ e, embed cfg.method cfg.components.value (numbersWithout d.dataset clusterLabels) = .error e →
        (cfg.method = .pca → clusteringCallback embed cfg true key values = ([], some e)) ∧
        (cfg.method ≠ .pca → cfg.method ≠ .other →
          clusteringCallback embed cfg true key values = ([opened cfg], some e)))) := by
  refine ⟨rfl, ?_, ?_⟩
  · intro h
    unfold clusteringCallback Dict.getE
    rw [h]
    rfl
  · intro d hv ht hl
    obtain ⟨g, h1, h2, h3⟩ := fromGrpcLabeled_table d ht hl
    have hv' : values.getE key = .ok d := by unfold Dict.getE; rw [hv]
    unfold clusteringCallback
    simp only [Bool.not_true, Bool.false_eq_true, if_false, hv', Plot.withValue, h1]
    refine ⟨fun h => ?_, fun e he => ⟨fun h => ?_, fun h h' => ?_⟩⟩
    · unfold visualize
      rw [h]
    · unfold visualize
      rw [h] at he
      simp only [h, visualizePca, h2, he, Plot.withValue]
    · unfold visualize
      rw [← h2] at he
      cases hm : cfg.method with
      | pca => exact absurd hm h
      | other => exact absurd hm h'
      | _ =>
        rw [hm] at he
        simp only [visualizeInternal, he, Plot.withValue]
        exact visualizeDataset_error cfg [] e

theorem mapM_same_error {A B : Type} (e : PyErr) (f : A → Except PyErr B) (l : List A)
    (hall : ∀ x ∈ l, ∀ e', f x = .error e' → e' = e) (hex : ∃ x ∈ l, f x = .error e) : l.mapM f = .error e := by
  induction l with
  | nil => simp at hex
  | cons a l ih =>
    rw [List.mapM_cons]
    cases h : f a with
    | error e' => rw [hall a (by simp) e' h]; rfl
    | ok b =>
      have : l.mapM f = .error e := ih (fun x hx => hall x (by simp [hx])) (by
        obtain ⟨x, hx, hxe⟩ := hex
        rcases List.mem_cons.1 hx with rfl | hx
        · rw [h] at hxe; cases hxe
        · exact ⟨x, hx, hxe⟩)
      simp only [bind, Except.bind, this]

theorem mapM_error_kind {A B : Type} (e : PyErr) (f : A → Except PyErr B) (l : List A)
    (hall : ∀ x ∈ l, ∀ e', f x = .error e' → e' = e) (e' : PyErr) (h : l.mapM f = .error e') : e' = e := by
  induction l with
  | nil => cases h
  | cons a l ih =>
    rw [List.mapM_cons] at h
    cases ha : f a with
    | error e'' => rw [ha] at h; cases h; exact hall a (by simp) _ ha
    | ok b =>
      rw [ha] at h
      cases hl : l.mapM f with
      | error e'' =>
        simp only [bind, Except.bind, hl, Except.error.injEq] at h
        subst h
        exact ih (fun x hx => hall x (by simp [hx])) hl
      | ok bs => simp only [bind, Except.bind, hl] at h; cases h

theorem columnsOf_error (n : Nat) (result : List (List P)) (h : ∃ r ∈ result, r.length < n) :
    columnsOf n result = .error .indexError := by
  obtain ⟨r, hr, hlen⟩ := h
  have hone : ∀ (i : Nat) (r : List P) (e' : PyErr), (match r[i]? with
      | some x => Except.ok x
      | none => Except.error PyErr.indexError) = .error e' → e' = PyErr.indexError := by
    intro i r e' h
    cases hi : r[i]? with
    | none => rw [hi] at h; cases h; rfl
    | some x => rw [hi] at h; cases h
  unfold columnsOf
  refine mapM_same_error _ _ _ (fun i _ e' h => mapM_error_kind _ _ _ (fun r _ e' h => hone i r e' h) e' h)
    ⟨r.length, by simpa using hlen, mapM_same_error _ _ _ (fun r' _ e' h => hone _ r' e' h) ⟨r, hr, ?_⟩⟩
  rw [List.getElem?_eq_none (le_refl _)]

/-- C85i: when the projection gives a row with fewer numbers than there are components, the figure is opened and left empty,
and the call raises IndexError. -/
theorem C85_projection_too_small (embed : Embed F P) (cfg : VisConfig) (key : String) (values : Dict String (GrpcLabeled F))
    (d : GrpcLabeled F) (hv : values.get? key = some d) (ht : IsTable d.dataset)
    (hl : d.labels.length = d.dataset.rows.length) (hm : cfg.method ≠ .other) (coords : List (List P))
    (he : embed cfg.method cfg.components.value (numbersWithout d.dataset clusterLabels) = .ok coords)
    (hs : ∃ r ∈ coords, r.length < cfg.components.value) :
    clusteringCallback embed cfg true key values = ([opened cfg], some .indexError) := by
  obtain ⟨g, h1, h2, h3⟩ := fromGrpcLabeled_table d ht hl
  have hv' : values.getE key = .ok d := by unfold Dict.getE; rw [hv]
  unfold clusteringCallback
  simp only [Bool.not_true, Bool.false_eq_true, if_false, hv', Plot.withValue, h1]
  unfold visualize
  rw [← h2] at he
  cases hm' : cfg.method with
  | other => exact absurd hm' hm
  | _ =>
    rw [hm'] at he
    simp only [visualizePca, visualizeInternal, he, Plot.withValue, columnsOf_error _ _ hs]
    exact visualizeDataset_error cfg [] .indexError

/-! ### Examples -/

/-- Three rows, two clusters. -/
def exLabeled : GrpcLabeled Nat :=
  ⟨⟨[[1, 2], [3, 4], [5, 6]], ["A", "B"], ["r1", "r2", "r3"]⟩, [7, -1, 7], [(255, 0, 0), (0, 0, 16), (255, 0, 0)]⟩

/-- A projection to the first coordinates. -/
def exEmbed : Embed Nat Int := fun _ n rows =>
  .ok (rows.map (fun r => (r.take n).map (fun c => match c with | .num x => (x : Int) | _ => -100)))

def exVis (n : NComponents) (m : VisMethod) (path : Option String) : VisConfig := ⟨n, m, (4, 5), (30, 40), 12, 2, path⟩

example : IsTable exLabeled.dataset ∧ exLabeled.labels.length = exLabeled.dataset.rows.length ∧
    clusterLabels ∉ exLabeled.dataset.columns ∧
    exEmbed .tsne 2 (numbers exLabeled.dataset) = .ok [[1, 2], [3, 4], [5, 6]] ∧
    clusteringCallback exEmbed (exVis .two .tsne none) true "k" [("k", exLabeled)] =
      ([.figure false (4, 5), .scatter [[3], [4]] (some ("#000010", "CLUSTER_-1")),
        .scatter [[1, 5], [2, 6]] (some ("#FF0000", "CLUSTER_7")), .legend 2, .axis 0 "Component 1" 12,
        .axis 1 "Component 2" 12, .show], none) := by decide +kernel

/-- One component: the second coordinate is 0; the file is written and the figure closed. -/
example : clusteringCallback exEmbed (exVis .one .pca (some "x.png")) true "k" [("k", exLabeled)] =
      ([.figure false (4, 5), .scatter [[3], [0]] (some ("#000010", "CLUSTER_-1")),
        .scatter [[1, 5], [0, 0]] (some ("#FF0000", "CLUSTER_7")), .legend 2, .axis 0 "Component 1" 12,
        .axis 1 "Component 2" 12, .save "x.png", .close], none) := by decide +kernel

/-- Rows of one cluster have one colour, rows of different clusters different ones, as C85c and C85d ask. -/
example : (∀ i < 3, ∀ j < 3, (exLabeled.labels[i]? = exLabeled.labels[j]? ↔ exLabeled.colors[i]? = exLabeled.colors[j]?)) ∧
    ∀ c ∈ exLabeled.colors, IsByteColor c := by
  refine ⟨by decide, ?_⟩
  simp [exLabeled, IsByteColor]

/-- A feature called like the column of labels: the projection does not see the numbers 10 and 20. -/
def exHidden (a b : Nat) : GrpcLabeled Nat :=
  ⟨⟨[[1, a, 2], [3, b, 4]], ["A", "cluster_labels", "B"], ["r1", "r2"]⟩, [0, 1], [(1, 1, 1), (2, 2, 2)]⟩

example : (exHidden 10 20).dataset.columns.count clusterLabels = 1 ∧ IsTable (exHidden 10 20).dataset ∧
    numbersWithout (exHidden 10 20).dataset clusterLabels = [[.num 1, .num 2], [.num 3, .num 4]] ∧
    clusteringCallback exEmbed (exVis .two .pca none) true "k" [("k", exHidden 10 20)] =
      clusteringCallback exEmbed (exVis .two .pca none) true "k" [("k", exHidden 0 0)] := by decide +kernel

example : tracesCallback exEmbed (exVis .three .mds none) "k"
      [("k", ⟨[[1, 2, 3], [4, 5, 6]], ["A", "B", "C"], ["t1", "t2"]⟩)] =
    ([.figure true (4, 5), .scatter [[1, 4], [2, 5], [3, 6]] none, .axis 0 "Component 1" 12, .axis 1 "Component 2" 12,
      .axis 2 "Component 3" 12, .view 30 40, .show], none) := by decide +kernel

/-- Too few names; too few labels; a row that is too long; a row that is too short is accepted. -/
example : fromGrpcLabeled (⟨⟨[[1]], ["A"], []⟩, [0], []⟩ : GrpcLabeled Nat) = .error .valueError ∧
    fromGrpcLabeled (⟨⟨[[1]], ["A"], ["r"]⟩, [], []⟩ : GrpcLabeled Nat) = .error .valueError ∧
    fromGrpcLabeled (⟨⟨[[1, 2]], ["A"], ["r"]⟩, [0], []⟩ : GrpcLabeled Nat) = .error .valueError ∧
    (fromGrpcDataset (⟨[[1, 2], [3]], ["A", "B"], ["r", "s"]⟩ : GrpcData Nat)) =
      .ok ⟨["r", "s"], [("A", [.num 1, .num 3]), ("B", [.num 2, .missing])]⟩ := by decide +kernel

/-- A projection to one number where two are asked for. -/
example : clusteringCallback (P := Int) (fun _ _ _ => .ok [[1, 2], [3], [4, 5]]) (exVis .two .pca none) true "k"
      [("k", exLabeled)] = ([.figure false (4, 5)], some .indexError) :=
  C85_projection_too_small _ _ _ _ exLabeled rfl (by decide +kernel) (by decide) (by decide) _ rfl ⟨[3], by simp, by decide⟩

/-- A projection that fails: PCA draws nothing, Isomap leaves the figure open. -/
example :
    clusteringCallback (P := Int) (fun _ _ _ => .error .valueError) (exVis .two .pca none) true "k" [("k", exLabeled)] =
      ([], some .valueError) ∧
    clusteringCallback (P := Int) (fun _ _ _ => .error .valueError) (exVis .two .isomap none) true "k" [("k", exLabeled)] =
      ([.figure false (4, 5)], some .valueError) := by decide +kernel

end Ficus
