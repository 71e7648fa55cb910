import Verif.Spec.DrawParts
import Verif.Props.ActDiagrams
import Verif.Props.Placement
import Verif.Props.FilesLevels

/-! Property C105: the options of drawing parts. -/

namespace Ficus
open Spec
variable {E : Type} [HasName E]

theorem cellRow_mem {x y h : Nat} {row : List Piece} {a : Rect Nat × Option String} (ha : a ∈ cellRow x y h row) :
    a.1.h = h ∧ a.1.y = y ∧ ∃ c ∈ row, a.1.w = c.width := by
  induction row generalizing x with
  | nil => simp [cellRow] at ha
  | cons c row ih =>
    rw [cellRow] at ha
    rcases List.mem_cons.1 ha with rfl | ha
    · exact ⟨rfl, rfl, c, by simp, rfl⟩
    · obtain ⟨h1, h2, c', h3, h4⟩ := ih ha
      exact ⟨h1, h2, c', by simp [h3], h4⟩

theorem cellRows_mem {y h : Nat} {cells : List (List Piece)} {a : Rect Nat × Option String} (ha : a ∈ cellRows y h cells) :
    a.1.h = h ∧ (∃ k < cells.length, a.1.y = y + k * h) ∧ ∃ row ∈ cells, ∃ c ∈ row, a.1.w = c.width := by
  induction cells generalizing y with
  | nil => simp [cellRows] at ha
  | cons row cells ih =>
    rw [cellRows] at ha
    rcases List.mem_append.1 ha with ha | ha
    · obtain ⟨h1, h2, c, h3, h4⟩ := cellRow_mem ha
      exact ⟨h1, ⟨0, by simp, by simpa using h2⟩, row, by simp, c, h3, h4⟩
    · obtain ⟨h1, ⟨k, hk, h2⟩, row', h3, c, h4, h5⟩ := ih ha
      refine ⟨h1, ⟨k + 1, by simpa using hk, ?_⟩, row', by simp [h3], c, h4, h5⟩
      rw [h2, Nat.succ_mul]; omega

/-- A diagram made of pieces. -/
def MadeOf (res : Except PyErr Diagram) (lengths : List Nat) (pl : Bool) (hs ws : Nat) (same : Bool) : Prop :=
  ∃ cells : List (List Piece), cells.length ≤ lengths.length ∧
    (∀ row ∈ cells, ∀ c ∈ row, ws ∣ c.width ∧ (same = true → c.width = ws)) ∧
    res = finishDiagram (Picture.empty.addAll (cellRows 0 hs cells)) pl lengths.length (logTicks lengths ws) hs ws

theorem MadeOf.scaled {lengths : List Nat} {pl : Bool} {hs ws : Nat} {same : Bool} {d : Diagram}
    (h : MadeOf (.ok d) lengths pl hs ws same) :
    Scaled d lengths pl hs ws ∧ (same = true → ∀ r ∈ d.rects, r.w = ws) := by
  obtain ⟨cells, hl, hc, hd⟩ := h
  obtain ⟨h1, h2, h3, h4, h5, n, h6, h7, h8⟩ := finishDiagram_ok hd.symm
  obtain ⟨k1, k2, k3, k4, m, hm, k5, k6⟩ := finish_cells hd.symm
  have hr : ∀ r ∈ d.rects, ∃ a ∈ cellRows 0 hs cells, a.1 = r := by
    intro r hr
    rw [h3, addAll_rects] at hr
    simpa [Picture.empty] using hr
  refine ⟨⟨?_, ?_, ?_, h5, m, hm, k5, k6⟩, ?_⟩
  · rw [h4]; cases pl <;> rfl
  · intro r hr'
    obtain ⟨a, ha, rfl⟩ := hr r hr'
    obtain ⟨a1, ⟨k, a2, a3⟩, _⟩ := cellRows_mem ha
    exact ⟨a1, k, by omega, by simpa using a3⟩
  · intro r hr'
    obtain ⟨a, ha, rfl⟩ := hr r hr'
    obtain ⟨_, _, row, b1, c, b2, b3⟩ := cellRows_mem ha
    rw [b3]; exact (hc row b1 c b2).1
  · intro hsame r hr'
    obtain ⟨a, ha, rfl⟩ := hr r hr'
    obtain ⟨_, _, row, b1, c, b2, b3⟩ := cellRows_mem ha
    rw [b3]; exact (hc row b1 c b2).2 hsame

theorem logNames_lengths (log : List (List E)) : (logNames log).map List.length = log.map List.length := by
  simp [logNames, Function.comp_def]

theorem events_madeOf {pred : String → Bool} {p q : Palette} {log : List (List E)} {pl : Bool} {hs ws : Nat}
    {res : Except PyErr Diagram} (h : eventsDiagram (eventProvider pred) p (logNames log) pl hs ws = .done (res, q)) :
    MadeOf res (log.map List.length) pl hs ws true := by
  obtain ⟨_, h2⟩ := eventsDiagram_done h
  rw [logNames_lengths] at h2
  refine ⟨_, by simp [logNames], ?_, h2⟩
  intro row hrow c hc
  obtain ⟨t, _, rfl⟩ := List.mem_map.1 hrow
  obtain ⟨n, _, rfl⟩ := List.mem_map.1 hc
  exact ⟨dvd_refl _, fun _ => rfl⟩

theorem partWidth_dvd (short : Bool) (ws n : Nat) : ws ∣ partWidth short ws n ∧ (short = true → partWidth short ws n = ws) := by
  unfold partWidth
  cases short <;> simp

theorem rowCells_widths (short : Bool) (ws n : Nat) (col : SubTrace → String) (gap : String) (ds : List SubTrace) (last : Nat)
    (c : Piece) (hc : c ∈ rowCells short ws n col gap ds last) : ∃ k, c.width = partWidth short ws k := by
  induction ds generalizing last with
  | nil =>
    rw [rowCells] at hc
    split at hc
    · simp only [List.mem_singleton] at hc; subst hc; exact ⟨_, rfl⟩
    · simp at hc
  | cons d ds ih =>
    rw [rowCells] at hc
    rcases List.mem_append.1 hc with hc | hc
    · split at hc
      · simp only [List.mem_singleton] at hc; subst hc; exact ⟨_, rfl⟩
      · simp at hc
    · rcases List.mem_cons.1 hc with rfl | hc
      · exact ⟨_, rfl⟩
      · exact ih _ hc

theorem acts_madeOf {p : Palette} {rows : List (List SubTrace × Nat)} {lengths : List Nat} {short pl : Bool} {hs ws : Nat}
    {st : ActsState} (hl : rows.length ≤ lengths.length)
    (h : actsRows short ws hs rows 0 { picture := { rects := [], legend := [] }, colors := [], palette := p } = .done st) :
    MadeOf (finishDiagram st.picture pl lengths.length (logTicks lengths ws) hs ws) lengths pl hs ws short := by
  obtain ⟨_, _, _, h4⟩ := actsRows_done (met_start p) h
  have hpic := h4 st.palette [] (GStep.refl _)
  refine ⟨_, ?_, ?_, by rw [hpic]; rfl⟩
  · simpa [allCells] using hl
  · intro row hrow c hc
    obtain ⟨r, _, rfl⟩ := List.mem_map.1 hrow
    have : ∃ k, c.width = partWidth short ws k := by
      unfold traceCells at hc
      split at hc
      · simp only [List.mem_singleton] at hc; subst hc; exact ⟨_, rfl⟩
      · exact rowCells_widths _ _ _ _ _ _ _ _ hc
    obtain ⟨k, hk⟩ := this
    rw [hk]
    exact partWidth_dvd short ws k

theorem activity_madeOf {p q : Palette} {lengths : List Nat} {insts : List (List Instance)} {short pl : Bool} {hs ws : Nat}
    {res : Except PyErr Diagram} (h : activityDiagram p lengths insts short pl hs ws = .done (res, q)) :
    MadeOf res lengths pl hs ws short := by
  unfold activityDiagram at h
  cases hr : actsRows short ws hs ((insts.map (List.map instanceSubTrace)).zip lengths) 0
      { picture := { rects := [], legend := [] }, colors := [], palette := p } with
  | overflow => rw [hr] at h; simp at h
  | running => rw [hr] at h; simp at h
  | done st =>
    rw [hr] at h
    simp only [Draw.done.injEq, Prod.mk.injEq] at h
    rw [← h.1]
    exact acts_madeOf (by simp) hr

theorem patterns_madeOf {hash : E → Int} {p q : Palette} {log : List (List E)} {patterns : List (List SubArray)} {short pl : Bool}
    {hs ws : Nat} {res : Except PyErr Diagram} (h : patternsDiagram hash p log patterns short pl hs ws = .done (res, q)) :
    MadeOf res (log.map List.length) pl hs ws short := by
  unfold patternsDiagram at h
  cases hr : actsRows short ws hs
      ((List.zipWith (fun t ps => ps.map (patternSubTrace hash t)) log patterns).zip (log.map List.length)) 0
      { picture := { rects := [], legend := [] }, colors := [], palette := p } with
  | overflow => rw [hr] at h; simp at h
  | running => rw [hr] at h; simp at h
  | done st =>
    rw [hr] at h
    simp only [Draw.done.injEq, Prod.mk.injEq] at h
    rw [← h.1, show log.length = (log.map List.length).length by simp]
    exact acts_madeOf (by simp) hr

theorem placement_madeOf {p q : Palette} {lengths : List Nat} {name : String} {insts : List (List Instance)}
    {different pl : Bool} {hs : Nat} {res : Except PyErr Diagram}
    (h : placementDiagram p lengths name insts different pl hs = .done (res, q)) : MadeOf res lengths pl hs 1 false := by
  unfold placementDiagram at h
  cases h1 : startProvider different p with
  | overflow => rw [h1] at h; simp at h
  | running => rw [h1] at h; simp at h
  | done r1 =>
    obtain ⟨v, p1⟩ := r1
    rw [h1] at h
    simp only at h
    cases h2 : placementRows name 1 hs (insts.zip lengths) 0 v { rects := [], legend := [] } p1 with
    | overflow => rw [h2] at h; simp at h
    | running => rw [h2] at h; simp at h
    | done r2 =>
      obtain ⟨pic, p2⟩ := r2
      rw [h2] at h
      simp only [Draw.done.injEq, Prod.mk.injEq] at h
      obtain ⟨css, a1, a2, _, _⟩ := placementRows_done h2
      refine ⟨_, ?_, fun row _ c _ => ⟨one_dvd _, by simp⟩, by rw [← h.1, a2]; rfl⟩
      simp

theorem showDiagram_ok {title path : Option String} {r : Draw (Except PyErr Diagram × Palette)} {s : Shown} {q : Palette}
    (h : showDiagram title path r = .done (.ok s, q)) :
    s.title = title ∧ s.path = path ∧ r = .done (.ok s.diagram, q) := by
  unfold showDiagram at h
  split at h
  · simp at h
  · simp at h
  · simp at h
  · simp only [Draw.done.injEq, Prod.mk.injEq, Except.ok.injEq] at h
    obtain ⟨rfl, rfl⟩ := h
    exact ⟨rfl, rfl, rfl⟩

theorem showPlain_eq {o : DrawOptions (DrawContext E)} (c : DrawContext E) (r : Draw (Except PyErr Diagram × Palette))
    (h : ∀ f, o.savePath ≠ some (.creator f)) : showPlain o r = showDiagram o.title (getSavePath o c) r := by
  unfold showPlain getSavePath
  cases hs : o.savePath with
  | none => rfl
  | some x => cases x with
    | text p => rfl
    | creator f => exact absurd hs (h f)

theorem showPlain_ok {o : DrawOptions (DrawContext E)} {r : Draw (Except PyErr Diagram × Palette)} {s : Shown} {q : Palette}
    (h : showPlain o r = .done (.ok s, q)) (f : DrawContext E → String) : o.savePath ≠ some (.creator f) := by
  intro hs
  unfold showPlain at h
  rw [hs] at h
  simp only at h
  split at h <;> simp at h

/-- C105a: what the options of a drawing part mean, if it draws. The title is the given one; the diagram is saved in the given
path, or in the one that the given function has for the context, and shown if there is none; legend, heights and widths
are as given. Missing: the width, for the two parts that do not use it (`C105_width_ignored`); they draw as for width 1. -/
theorem C105_options_partial (hash : E → Int) (part : DrawPart E) (o : DrawOptions (DrawContext E)) (c : DrawContext E)
    (p q : Palette) (s : Shown) (h : part.execute hash o c p = .done (.ok s, q)) :
    s.title = o.title ∧
    (o.savePath = none → s.path = none) ∧ (∀ f, o.savePath = some (.text f) → s.path = some f) ∧
    (∀ f, o.savePath = some (.creator f) → s.path = some (f c)) ∧
    Scaled s.diagram (c.log.map List.length) o.plotLegend o.heightScale
      (if IgnoresWidth part || !HasWidth part then 1 else o.widthScale) ∧
    (SameWidths part = true → ∀ r ∈ s.diagram.rects,
      r.w = if IgnoresWidth part || !HasWidth part then 1 else o.widthScale) := by
  have key : s.title = o.title ∧ s.path = getSavePath o c ∧ MadeOf (.ok s.diagram) (c.log.map List.length) o.plotLegend
      o.heightScale (if IgnoresWidth part || !HasWidth part then 1 else o.widthScale) (SameWidths part) := by
    cases part with
    | diversity =>
      obtain ⟨h1, h2, h3⟩ := showDiagram_ok h
      exact ⟨h1, h2, events_madeOf (pred := fun _ => true) h3⟩
    | activities short =>
      obtain ⟨h1, h2, h3⟩ := showDiagram_ok h
      exact ⟨h1, h2, activity_madeOf h3⟩
    | shortActivities =>
      obtain ⟨h1, h2, h3⟩ := showDiagram_ok h
      exact ⟨h1, h2, activity_madeOf h3⟩
    | fullActivities =>
      obtain ⟨h1, h2, h3⟩ := showDiagram_ok h
      exact ⟨h1, h2, activity_madeOf h3⟩
    | patterns short =>
      obtain ⟨h1, h2, h3⟩ := showDiagram_ok h
      exact ⟨h1, h2, patterns_madeOf h3⟩
    | placement predicate =>
      obtain ⟨h1, h2, h3⟩ := showDiagram_ok h
      exact ⟨h1, h2, events_madeOf (pred := predicate) h3⟩
    | concrete events =>
      have hp := showPlain_ok h
      simp only [DrawPart.execute] at h
      rw [showPlain_eq c _ hp] at h
      obtain ⟨h1, h2, h3⟩ := showDiagram_ok h
      exact ⟨h1, h2, events_madeOf (pred := fun n => decide (n ∈ events)) h3⟩
    | single select different =>
      obtain ⟨h1, h2, h3⟩ := showDiagram_ok h
      exact ⟨h1, h2, placement_madeOf h3⟩
  obtain ⟨h1, h2, h3⟩ := key
  obtain ⟨h4, h5⟩ := h3.scaled
  refine ⟨h1, ?_, ?_, ?_, h4, h5⟩
  · intro e; rw [h2, getSavePath, e]
  · intro f e; rw [h2, getSavePath, e]
  · intro f e; rw [h2, getSavePath, e]

/-- C105b: `DrawPlacementOfEvents` and `DrawSingleActivityPlacement` take the option `width_scale` and ignore it. -/
theorem C105_width_ignored (hash : E → Int) (part : DrawPart E) (hi : IgnoresWidth part = true)
    (o : DrawOptions (DrawContext E)) (c : DrawContext E) (p : Palette) (ws : Nat) :
    part.execute hash { o with widthScale := ws } c p = part.execute hash { o with widthScale := 1 } c p := by
  cases part <;> first | rfl | simp [IgnoresWidth] at hi

/-- The legend of a diagram has no influence on the rest. -/
def LegendOnly (D : Bool → Draw (Except PyErr Diagram × Palette)) : Prop :=
  ∀ pl pl' d q, D pl = .done (.ok d, q) → ∃ d', D pl' = .done (.ok d', q) ∧ d'.rects = d.rects ∧ d'.xLabels = d.xLabels ∧
    d'.yLabels = d.yLabels ∧ (pl' = pl → d'.legend = d.legend)

theorem finish_legendOnly {pic : Picture} {rows hs ws : Nat} {xt : Except PyErr Nat} {pl : Bool} {d : Diagram}
    (h : finishDiagram pic pl rows xt hs ws = .ok d) (pl' : Bool) :
    ∃ d', finishDiagram pic pl' rows xt hs ws = .ok d' ∧ d'.rects = d.rects ∧ d'.xLabels = d.xLabels ∧
      d'.yLabels = d.yLabels ∧ (pl' = pl → d'.legend = d.legend) := by
  unfold finishDiagram at h ⊢
  cases hy : tickLabels (rows * hs + 1) hs with
  | error e => rw [hy] at h; cases h
  | ok y =>
    rw [hy] at h
    cases hx : xt with
    | error e => rw [hx] at h; cases h
    | ok n =>
      rw [hx] at h
      simp only [bind, Except.bind] at h ⊢
      cases hn : tickLabels n ws with
      | error e => rw [hn] at h; cases h
      | ok x =>
        rw [hn] at h
        simp only [pure, Except.pure, Except.ok.injEq] at h
        subst h
        exact ⟨_, rfl, rfl, rfl, rfl, by rintro rfl; rfl⟩

theorem events_legendOnly (provider : String → Palette → Draw (String × Palette)) (p : Palette) (log : List (List String))
    (hs ws : Nat) : LegendOnly (fun pl => eventsDiagram provider p log pl hs ws) := by
  intro pl pl' d q h
  simp only [eventsDiagram] at h ⊢
  cases hr : eventsRows provider ws hs log 0 { picture := { rects := [], legend := [] }, chosen := [], palette := p } with
  | overflow => rw [hr] at h; simp at h
  | running => rw [hr] at h; simp at h
  | done st =>
    rw [hr] at h
    simp only [Draw.done.injEq, Prod.mk.injEq] at h
    obtain ⟨d', e, k⟩ := finish_legendOnly h.1 pl'
    exact ⟨d', by simp only [e, h.2], k⟩

theorem activity_legendOnly (p : Palette) (lengths : List Nat) (insts : List (List Instance)) (short : Bool) (hs ws : Nat) :
    LegendOnly (fun pl => activityDiagram p lengths insts short pl hs ws) := by
  intro pl pl' d q h
  simp only [activityDiagram] at h ⊢
  cases hr : actsRows short ws hs ((insts.map (List.map instanceSubTrace)).zip lengths) 0
      { picture := { rects := [], legend := [] }, colors := [], palette := p } with
  | overflow => rw [hr] at h; simp at h
  | running => rw [hr] at h; simp at h
  | done st =>
    rw [hr] at h
    simp only [Draw.done.injEq, Prod.mk.injEq] at h
    obtain ⟨d', e, k⟩ := finish_legendOnly h.1 pl'
    exact ⟨d', by simp only [e, h.2], k⟩

theorem patterns_legendOnly (hash : E → Int) (p : Palette) (log : List (List E)) (patterns : List (List SubArray)) (short : Bool)
    (hs ws : Nat) : LegendOnly (fun pl => patternsDiagram hash p log patterns short pl hs ws) := by
  intro pl pl' d q h
  simp only [patternsDiagram] at h ⊢
  cases hr : actsRows short ws hs
      ((List.zipWith (fun t ps => ps.map (patternSubTrace hash t)) log patterns).zip (log.map List.length)) 0
      { picture := { rects := [], legend := [] }, colors := [], palette := p } with
  | overflow => rw [hr] at h; simp at h
  | running => rw [hr] at h; simp at h
  | done st =>
    rw [hr] at h
    simp only [Draw.done.injEq, Prod.mk.injEq] at h
    obtain ⟨d', e, k⟩ := finish_legendOnly h.1 pl'
    exact ⟨d', by simp only [e, h.2], k⟩

theorem placement_legendOnly (p : Palette) (lengths : List Nat) (name : String) (insts : List (List Instance))
    (different : Bool) (hs : Nat) : LegendOnly (fun pl => placementDiagram p lengths name insts different pl hs) := by
  intro pl pl' d q h
  simp only [placementDiagram] at h ⊢
  cases h1 : startProvider different p with
  | overflow => rw [h1] at h; simp at h
  | running => rw [h1] at h; simp at h
  | done r1 =>
    obtain ⟨v, p1⟩ := r1
    rw [h1] at h
    simp only at h ⊢
    cases h2 : placementRows name 1 hs (insts.zip lengths) 0 v { rects := [], legend := [] } p1 with
    | overflow => rw [h2] at h; simp at h
    | running => rw [h2] at h; simp at h
    | done r2 =>
      obtain ⟨pic, p2⟩ := r2
      rw [h2] at h
      simp only [Draw.done.injEq, Prod.mk.injEq] at h
      obtain ⟨d', e, k⟩ := finish_legendOnly h.1 pl'
      exact ⟨d', by simp only [e, h.2], k⟩

theorem LegendOnly.shown {D : Bool → Draw (Except PyErr Diagram × Palette)} (hD : LegendOnly D) {pl : Bool}
    {title path : Option String} {s : Shown} {q : Palette} (h : showDiagram title path (D pl) = .done (.ok s, q)) (pl' : Bool)
    (title' path' : Option String) :
    ∃ s', showDiagram title' path' (D pl') = .done (.ok s', q) ∧ s'.diagram.rects = s.diagram.rects ∧
      s'.diagram.xLabels = s.diagram.xLabels ∧ s'.diagram.yLabels = s.diagram.yLabels ∧
      (pl' = pl → s'.diagram.legend = s.diagram.legend) := by
  obtain ⟨_, _, h3⟩ := showDiagram_ok h
  obtain ⟨d', e, k⟩ := hD pl pl' _ q h3
  exact ⟨{ diagram := d', title := title', path := path' }, by rw [e]; rfl, k⟩

/-- C105c: the title, the path (if the part takes it) and the legend have no influence on the rest of the diagram or on the colours. -/
theorem C105_independent (hash : E → Int) (part : DrawPart E) (o o' : DrawOptions (DrawContext E)) (c : DrawContext E)
    (p q : Palette) (s : Shown) (hh : o'.heightScale = o.heightScale) (hw : o'.widthScale = o.widthScale)
    (ht : TakesPath part o') (h : part.execute hash o c p = .done (.ok s, q)) :
    ∃ s', part.execute hash o' c p = .done (.ok s', q) ∧ s'.diagram.rects = s.diagram.rects ∧
      s'.diagram.xLabels = s.diagram.xLabels ∧ s'.diagram.yLabels = s.diagram.yLabels ∧
      (o'.plotLegend = o.plotLegend → s'.diagram.legend = s.diagram.legend) := by
  cases part with
  | diversity =>
    simp only [DrawPart.execute, hh, hw] at h ⊢
    exact (events_legendOnly _ p (logNames c.log) o.heightScale o.widthScale).shown h _ _ _
  | activities short =>
    simp only [DrawPart.execute, drawActivitiesPart, hh, hw] at h ⊢
    exact (activity_legendOnly p _ c.instances short o.heightScale o.widthScale).shown h _ _ _
  | shortActivities =>
    simp only [DrawPart.execute, drawActivitiesPart, hh, hw] at h ⊢
    exact (activity_legendOnly p _ c.instances true o.heightScale o.widthScale).shown h _ _ _
  | fullActivities =>
    simp only [DrawPart.execute, drawActivitiesPart, hh, hw] at h ⊢
    exact (activity_legendOnly p _ c.instances false o.heightScale o.widthScale).shown h _ _ _
  | patterns short =>
    simp only [DrawPart.execute, hh, hw] at h ⊢
    exact (patterns_legendOnly hash p c.log c.patterns short o.heightScale o.widthScale).shown h _ _ _
  | placement predicate =>
    simp only [DrawPart.execute, hh] at h ⊢
    exact (events_legendOnly _ p.markBlack (logNames c.log) o.heightScale 1).shown h _ _ _
  | concrete events =>
    have hp := showPlain_ok h
    simp only [DrawPart.execute, hh] at h ⊢
    rw [showPlain_eq c _ (ht events rfl)]
    rw [showPlain_eq c _ hp] at h
    exact (events_legendOnly _ p.markBlack (logNames c.log) o.heightScale 1).shown h _ _ _
  | single select different =>
    simp only [DrawPart.execute, hh] at h ⊢
    exact (placement_legendOnly p _ _ c.instances different o.heightScale).shown h _ _ _

/-- C105d: the diagrams of concrete events are those of the predicate "is one of the events", if the path is not a function. -/
theorem C105_concrete (hash : E → Int) (events : List String) (o : DrawOptions (DrawContext E)) (c : DrawContext E) (p : Palette)
    (predicate : String → Bool) (hp : ∀ n, predicate n = true ↔ n ∈ events)
    (ht : TakesPath (DrawPart.concrete events : DrawPart E) o) :
    (DrawPart.concrete events : DrawPart E).execute hash o c p = (DrawPart.placement predicate).execute hash o c p := by
  have : predicate = fun n => decide (n ∈ events) := by
    funext n
    rw [Bool.eq_iff_iff, hp n]; simp
  subst this
  exact showPlain_eq c _ (ht events rfl)

/-- C105e: the part that draws the graphs of activities by levels takes the option `use_hashes_as_name` and ignores it. -/
theorem C105_hashes_ignored (viz : Viz) (part : LevelsPart) (acts : List ActTree) (b : Bool) :
    ({ part with useHashes := b }).execute viz acts = part.execute viz acts := rfl

theorem showDiagram_done {title path : Option String} {r : Draw (Except PyErr Diagram × Palette)} {res : Except PyErr Shown}
    {q : Palette} (h : showDiagram title path r = .done (res, q)) : r = .done (res.map (·.diagram), q) := by
  unfold showDiagram at h
  split at h
  · simp at h
  · simp at h
  · simp only [Draw.done.injEq, Prod.mk.injEq] at h
    obtain ⟨rfl, rfl⟩ := h
    rfl
  · simp only [Draw.done.injEq, Prod.mk.injEq] at h
    obtain ⟨rfl, rfl⟩ := h
    rfl

/-- C105g: when a drawing part draws, and what is raised otherwise: it needs a height that is not zero, a trace, a width
that is not zero if it uses one, and a path that it takes. -/
theorem C105_fails (hash : E → Int) (part : DrawPart E) (o : DrawOptions (DrawContext E)) (c : DrawContext E) (p q : Palette)
    (res : Except PyErr Shown) (h : part.execute hash o c p = .done (res, q)) :
    (o.heightScale = 0 → res = .error .zeroDivision) ∧ (0 < o.heightScale → c.log = [] → res = .error .valueError) ∧
    (0 < o.heightScale → c.log ≠ [] → HasWidth part = true → IgnoresWidth part = false → o.widthScale = 0 →
      res = .error .zeroDivision) ∧
    (0 < o.heightScale → c.log ≠ [] → ¬ TakesPath part o → res = .error .typeError) ∧
    (0 < o.heightScale → c.log ≠ [] → (HasWidth part = true → IgnoresWidth part = false → 0 < o.widthScale) →
      TakesPath part o → ∃ s, res = .ok s) := by
  have key : ∃ res', (TakesPath part o → res' = res.map (·.diagram)) ∧ (∀ e, res' = .error e → res = .error e) ∧
      (∀ d, ¬ TakesPath part o → res' = .ok d → res = .error .typeError) ∧ MadeOf res' (c.log.map List.length) o.plotLegend o.heightScale
      (if IgnoresWidth part || !HasWidth part then 1 else o.widthScale) (SameWidths part) := by
    by_cases ht : TakesPath part o
    · refine ⟨_, fun _ => rfl, fun e he => ?_, fun d hn => absurd ht hn, ?_⟩
      · cases res with
        | error _ => simpa [Except.map] using he
        | ok _ => simp [Except.map] at he
      · cases part with
        | diversity => exact events_madeOf (pred := fun _ => true) (showDiagram_done h)
        | activities short => exact activity_madeOf (showDiagram_done h)
        | shortActivities => exact activity_madeOf (showDiagram_done h)
        | fullActivities => exact activity_madeOf (showDiagram_done h)
        | patterns short => exact patterns_madeOf (showDiagram_done h)
        | placement predicate => exact events_madeOf (pred := predicate) (showDiagram_done h)
        | concrete events =>
          simp only [DrawPart.execute] at h
          rw [showPlain_eq c _ (ht events rfl)] at h
          exact events_madeOf (pred := fun n => decide (n ∈ events)) (showDiagram_done h)
        | single select different => exact placement_madeOf (showDiagram_done h)
    · cases part with
      | concrete events =>
        obtain ⟨f, hf⟩ : ∃ f, o.savePath = some (.creator f) := by
          unfold TakesPath at ht
          push Not at ht
          obtain ⟨_, _, f, hf⟩ := ht
          exact ⟨f, hf⟩
        simp only [DrawPart.execute, showPlain, hf] at h
        cases hr : placementsDiagram p (logNames c.log) (fun n => decide (n ∈ events)) o.plotLegend o.heightScale with
        | overflow => rw [hr] at h; simp at h
        | running => rw [hr] at h; simp at h
        | done x =>
          obtain ⟨r, q'⟩ := x
          refine ⟨r, fun h' => absurd h' ht, fun e he => ?_, fun d _ hd => ?_,
            events_madeOf (pred := fun n => decide (n ∈ events)) hr⟩
          · subst he
            rw [hr] at h
            simp only [Draw.done.injEq, Prod.mk.injEq] at h
            exact h.1.symm
          · subst hd
            rw [hr] at h
            simp only [Draw.done.injEq, Prod.mk.injEq] at h
            exact h.1.symm
      | _ => exact absurd (fun _ h => by simp at h) ht
  obtain ⟨res', hsame, herr, htype, cells, _, _, he⟩ := key
  have hf := finish_log (Picture.empty.addAll (cellRows 0 o.heightScale cells)) o.plotLegend (c.log.map List.length)
    o.heightScale (if IgnoresWidth part || !HasWidth part then 1 else o.widthScale)
  rw [← he] at hf
  simp only [ne_eq, List.map_eq_nil_iff] at hf
  obtain ⟨h1, h2, h3, h4⟩ := hf
  refine ⟨fun a => herr _ (h1 a), fun a b => herr _ (h2 a b), fun a b d e f => herr _ (h3 a b ?_), fun a b d => ?_,
    fun a b d ht => ?_⟩
  · simp [d, e, f]
  · have hw : HasWidth part = false := by
      cases part <;> first | rfl | exact absurd (fun _ h => by simp at h) d
    obtain ⟨x, hx⟩ := h4 a b (by simp [hw])
    exact htype x d hx
  · obtain ⟨x, hx⟩ := h4 a b (by
      split
      · exact Nat.one_pos
      · rename_i hn
        simp only [Bool.or_eq_true, Bool.not_eq_eq_eq_not, Bool.not_true, not_or, Bool.not_eq_true, Bool.not_eq_false] at hn
        exact d hn.2 hn.1)
    rw [hsame ht] at hx
    cases res with
    | error _ => simp [Except.map] at hx
    | ok s => exact ⟨s, rfl⟩

/-- C105h: what the options of the part that draws the graphs of activities by levels mean: with a path the graphs of the
levels, with a root if it is wanted, are saved and not displayed; without one they are displayed. -/
theorem C105_levels (viz : Viz) (he : "dot" ∈ viz.engines) (hf : "png" ∈ viz.formats) (part : LevelsPart) (acts : List ActTree)
    (d : Disk) (hs : SoundDisk d) :
    (∀ p, part.savePath = some p → ClearWay d (dirname p) →
      (∀ t ∈ acts, ∀ q, LevelName p t.act.level q → d.isDir q = false ∧ d.isDir (q ++ ".png") = false) →
      ∃ d', part.execute viz acts d = (d', .ok []) ∧ ∀ t ∈ acts, ∀ q, LevelName p t.act.level q →
        d'.files (q ++ ".png") = some (.picture "dot" "png" (levelGraph part.creator part.addRoot acts t.act.level))) ∧
    (part.savePath = none → d.isDir "Activities Graph.gv" = false → d.isDir "Activities Graph.gv.png" = false →
      ∃ (d' : Disk) (levels : List Nat), part.execute viz acts d =
          (d', .ok (levels.map (levelGraph part.creator part.addRoot acts))) ∧
        levels.Pairwise (· < ·) ∧ (∀ l, l ∈ levels ↔ ∃ t ∈ acts, t.act.level = l)) := by
  constructor
  · intro p hp hc hd
    obtain ⟨d', h1, h2, _⟩ := C94_by_levels viz he hf part.creator part.addRoot p acts d hs hc hd
    refine ⟨d', ?_, fun t ht q hq => (h2 t ht q hq).2⟩
    rw [← h1, ← hp]; rfl
  · intro hp h1 h2
    obtain ⟨d', levels, h3, h4, h5, _⟩ := C94_displayed viz he hf part.creator part.addRoot acts d hs ⟨h1, h2⟩
    refine ⟨d', levels, ?_, h4, h5⟩
    rw [← h3, ← hp]; rfl

/-- A context for examples: two traces with an instance of `b c` in the first. -/
def sampleDraw : DrawContext String :=
  { log := [["a", "b", "c"], ["a"]]
    activities := [.node (exLevelAct 0 "B" 0 0 1) []]
    instances := [[exampleInst "B" [7] 1 2], []]
    patterns := [[⟨1, 2⟩], []] }

/-- Colours for examples. -/
def sampleColors : Palette := { used := [], cached := [], draws := [(1, 2, 3), (4, 5, 6), (7, 8, 9), (10, 11, 12)] }

/-- What a part shows, if it returns: the rectangles, the title and the path. -/
def shownBy (r : Draw (Except PyErr Shown × Palette)) : Option (List (Rect Nat) × Option String × Option String) :=
  match r with
  | .done (.ok s, _) => some (s.diagram.rects, s.title, s.path)
  | _ => none

example : shownBy ((DrawPart.fullActivities : DrawPart String).execute (fun _ => 0)
    { title := some "T", heightScale := 3, widthScale := 2, savePath := some (.creator (fun c => toString c.log.length)) }
    sampleDraw sampleColors) =
    some ([⟨0, 0, 2, 3, "#000000"⟩, ⟨2, 0, 4, 3, "#010203"⟩, ⟨0, 3, 2, 3, "#000000"⟩], some "T", some "2") := by
  decide +kernel

example : shownBy ((DrawPart.patterns true : DrawPart String).execute (fun _ => 0)
    { heightScale := 3, widthScale := 2, savePath := some (.text "f.png") } sampleDraw sampleColors) =
    some ([⟨0, 0, 2, 3, "#000000"⟩, ⟨2, 0, 2, 3, "#010203"⟩, ⟨0, 3, 2, 3, "#000000"⟩], none, some "f.png") := by
  decide +kernel

example : shownBy ((DrawPart.concrete ["b"] : DrawPart String).execute (fun _ => 0) { } sampleDraw sampleColors) =
    some ([⟨0, 0, 1, 1, "#000000"⟩, ⟨1, 0, 1, 1, "#010203"⟩, ⟨2, 0, 1, 1, "#000000"⟩, ⟨0, 1, 1, 1, "#000000"⟩], none, none) := by
  decide +kernel

/-- What a part raises, if it returns. -/
def raisedBy (r : Draw (Except PyErr Shown × Palette)) : Option PyErr :=
  match r with
  | .done (.error e, _) => some e
  | _ => none

example : raisedBy ((DrawPart.fullActivities : DrawPart String).execute (fun _ => 0) { heightScale := 0 } sampleDraw
      sampleColors) = some .zeroDivision ∧
    raisedBy ((DrawPart.fullActivities : DrawPart String).execute (fun _ => 0) { } { sampleDraw with log := [] }
      sampleColors) = some .valueError ∧
    raisedBy ((DrawPart.fullActivities : DrawPart String).execute (fun _ => 0) { widthScale := 0 } sampleDraw
      sampleColors) = some .zeroDivision ∧
    raisedBy ((DrawPart.concrete ["b"] : DrawPart String).execute (fun _ => 0) { widthScale := 0 } sampleDraw
      sampleColors) = none ∧
    raisedBy ((DrawPart.concrete ["b"] : DrawPart String).execute (fun _ => 0) { savePath := some (.creator (fun _ => "f")) }
      sampleDraw sampleColors) = some .typeError := by
  decide +kernel

example : ∃ d', (({ savePath := some "out/new/net.png", addRoot := false } : LevelsPart).execute sampleViz sampleLevels
      sampleDisk) = (d', .ok []) ∧
    d'.files "out/new/net_1.png.png" = some (.picture "dot" "png" (levelGraph (·.name) false sampleLevels 1)) := by
  have hname : ∀ l : Nat, LevelName "out/new/net.png" l ("out/new/net" ++ "_" ++ toString l ++ "." ++ "png") := fun l =>
    .inl ⟨"out/new/net", "png", samplePng, by decide, rfl⟩
  obtain ⟨d', h1, h2⟩ := (C105_levels sampleViz (by decide) (by decide)
    { savePath := some "out/new/net.png", addRoot := false } sampleLevels sampleDisk sampleDisk_sound).1 "out/new/net.png" rfl
      sampleDisk_clear (by
      intro t ht q hq
      rw [hq.unique, ← (hname t.act.level).unique]
      simp only [sampleLevels, List.mem_cons, List.not_mem_nil, or_false] at ht
      rcases ht with rfl | rfl | rfl <;> exact ⟨by decide, by decide⟩)
  exact ⟨d', h1, h2 (.node (exLevelAct 2 "C" 1 0 1) []) (by simp [sampleLevels]) _ (hname 1)⟩

/-- C105f: hence the option of the width is not respected: with width 2 both parts draw rectangles of width 1 that are not a
multiple of 2 wide. -/
theorem C105_width_lost (part : DrawPart String)
    (hp : part = .placement (· == "b") ∨ part = .single (fun as => as.headD (.node (exLevelAct 0 "" 0 0 1) [])) true) :
    ∃ s q, part.execute (fun _ => 0) { widthScale := 2 } sampleDraw sampleColors = .done (.ok s, q) ∧
      ¬ Scaled s.diagram (sampleDraw.log.map List.length) false 1 2 := by
  have hall : ∀ part : DrawPart String, shownBy (part.execute (fun _ => 0) { widthScale := 2 } sampleDraw sampleColors) ≠ none →
      (∃ r ∈ ((shownBy (part.execute (fun _ => 0) { widthScale := 2 } sampleDraw sampleColors)).map (·.1)).getD [], ¬ 2 ∣ r.w) →
      ∃ s q, part.execute (fun _ => 0) { widthScale := 2 } sampleDraw sampleColors = .done (.ok s, q) ∧
      ¬ Scaled s.diagram (sampleDraw.log.map List.length) false 1 2 := by
    intro part h1 h2
    generalize part.execute (fun _ => 0) { widthScale := 2 } sampleDraw sampleColors = r at h1 h2
    match r with
    | .overflow => simp [shownBy] at h1
    | .running => simp [shownBy] at h1
    | .done (.error e, q) => simp [shownBy] at h1
    | .done (.ok s, q) =>
      refine ⟨s, q, rfl, fun hs => ?_⟩
      obtain ⟨r, hr, hn⟩ := h2
      exact hn (hs.widths r (by simpa [shownBy] using hr))
  rcases hp with rfl | rfl
  · exact hall _ (by decide +kernel) (by decide +kernel)
  · exact hall _ (by decide +kernel) (by decide +kernel)

/-- C105i: with `use_hashes_as_name` the graphs by levels show the names, while `draw_activity_graph` shows the hashes. -/
theorem C105_hashes_lost :
    (({ useHashes := true } : LevelsPart).execute sampleViz [.node (exLevelAct 0 "A" 0 0 1) []] sampleDisk).2 =
      .ok [[.edge "A" "root" none, .node "A" none none]] ∧
    activityGraph [.node (exLevelAct 0 "A" 0 0 1) []] true true = [.edge "66" "root" none, .node "66" none none] := by
  constructor
  · obtain ⟨d', levels, h1, h2, h3, -⟩ := C94_displayed sampleViz (by decide) (by decide) (fun a => a.name) true
      [.node (exLevelAct 0 "A" 0 0 1) []] sampleDisk sampleDisk_sound (by decide +kernel)
    have hl : levels = [0] := by
      have h0 : ∀ l ∈ levels, l = 0 := by
        intro l hl
        obtain ⟨t, ht, rfl⟩ := (h3 l).1 hl
        simp only [List.mem_singleton] at ht
        subst ht; rfl
      have h00 : 0 ∈ levels := (h3 0).2 ⟨.node (exLevelAct 0 "A" 0 0 1) [], by simp, rfl⟩
      match levels, h2, h0, h00 with
      | [a], _, h0, _ => rw [h0 a (by simp)]
      | a :: b :: l, h2, h0, _ =>
        have := (List.pairwise_cons.1 h2).1 b (by simp)
        rw [h0 a (by simp), h0 b (by simp)] at this
        omega
    show (drawLevels sampleViz (fun a => a.name) true none _ sampleDisk).2 = _
    rw [h1, hl]
    show Except.ok [levelGraph (fun a => a.name) true _ 0] = _
    have : levelGraph (fun a => a.name) true [.node (exLevelAct 0 "A" 0 0 1) []] 0 =
        [.edge "A" "root" none, .node "A" none none] := by decide +kernel
    rw [this]
  · decide +kernel

end Ficus
