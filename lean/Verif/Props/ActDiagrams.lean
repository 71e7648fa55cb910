import Verif.Proofs.ActDiagrams
import Verif.Proofs.RepeatSets

/-! Properties C73 (diagrams of activities) and C75 (diagrams of patterns). -/

namespace Ficus
open Spec

/-- The start of a drawing. -/
theorem met_start (p : Palette) : Met [] { picture := { rects := [], legend := [] }, colors := [], palette := p } :=
  ⟨fun _ => rfl, fun _ _ h => by cases h⟩

theorem firstLike_mem {all : List SubTrace} {s : SubTrace} (h : s ∈ all) : ∃ e, firstLike all s.hash = some e := by
  unfold firstLike
  cases hf : all.find? (fun e => e.hash = s.hash) with
  | some e => exact ⟨e, rfl⟩
  | none =>
    rw [List.find?_eq_none] at hf
    exact absurd (decide_eq_true rfl) (hf s h)

/-- What the drawing of sub traces shows, for rows of well placed sub traces. -/
def ShowsSubTraces (p q : Palette) (rows : List (List SubTrace × Nat)) (short pl : Bool) (hs ws : Nat) (d : Diagram) : Prop :=
  ∃ (col : SubTrace → String) (gap : String) (cells : List (List Piece)),
    (∀ s ∈ rows.flatMap (·.1), ∃ e, (rows.flatMap (·.1)).find? (fun e => e.hash = s.hash) = some e ∧
      col s = (q.cached.get? e.name).getD "#000000") ∧
    gap = (p.cached.get? "UndefinedActivity").getD "#000000" ∧
    Shows d.rects hs cells ∧
    (pl = true → ∃ legend, d.legend = some legend ∧ Explains legend cells) ∧ (pl = false → d.legend = none) ∧
    List.Forall₂ (fun r row => IsRow short ws col gap r.2 r.1 row) rows cells ∧
    (short = false → ∀ (k n : Nat) (ds : List SubTrace) (px py : Nat), rows[k]? = some (ds, n) → k * hs ≤ py →
      py < (k + 1) * hs →
      (∀ s ∈ ds, s.start * ws ≤ px → px < (s.start + s.length) * ws → colorAt d.rects px py = some (col s)) ∧
      ((∀ s ∈ ds, ¬ (s.start * ws ≤ px ∧ px < (s.start + s.length) * ws)) → px < n * ws →
        colorAt d.rects px py = some gap) ∧
      (n * ws ≤ px → colorAt d.rects px py = none))

theorem subTraces_shown {p q : Palette} {rows : List (List SubTrace × Nat)} {short pl : Bool} {hs ws : Nat} {st : ActsState}
    {lengths : List Nat} {d : Diagram}
    (h : actsRows short ws hs rows 0 { picture := { rects := [], legend := [] }, colors := [], palette := p } = .done st)
    (hq : q = st.palette)
    (hd : finishDiagram st.picture pl lengths.length (logTicks lengths ws) hs ws = .ok d)
    (hw : ∀ r ∈ rows, WellPlaced r.2 (r.1.map subSpanOf)) :
    ShowsSubTraces p q rows short pl hs ws d ∧ Axis d.yLabels (lengths.length * hs) lengths.length ∧
    ∃ m ∈ lengths, (∀ n ∈ lengths, n ≤ m) ∧ Axis d.xLabels (m * ws) m := by
  obtain ⟨h1, _, h3, h4⟩ := actsRows_done (met_start p) h
  have hpic := h4 st.palette [] (GStep.refl _)
  rw [hpic] at hd
  simp only [List.nil_append, List.append_nil] at hd h3
  obtain ⟨k1, k2, k3, k4, k5⟩ := finish_cells hd
  refine ⟨⟨firstColor st.palette (rows.flatMap (·.1)), gapColor st.palette, _, ?_, ?_, k1, k2, k3, ?_, ?_⟩, k4, k5⟩
  · intro s hs
    obtain ⟨e, he⟩ := firstLike_mem hs
    refine ⟨e, he, ?_⟩
    unfold firstColor
    rw [he, hq]
    rfl
  · rw [gapColor_step h1, gapColor_eq]
    rfl
  · unfold allCells
    rw [List.forall₂_map_right_iff, List.forall₂_same]
    intro r hr
    exact traceCells_isRow short ws r.2 _ _ r.1 (hw r hr)
  · rintro rfl k n ds px py hk b1 b2
    exact row_positions k1 (by unfold allCells; rw [List.getElem?_map, hk]; rfl) (hw (ds, n) (List.mem_of_getElem? hk)) px py b1 b2

/-- `st` stands for the instance `i`: its place, its length, the name of its activity, and as hash the hash of the events
of its activity in increasing order, whatever the order of these events and however often they occur. -/
def StandsFor (i : Instance) (st : SubTrace) : Prop :=
  st.start = i.startPos ∧ st.length = i.length ∧ st.name = i.node.act.name ∧
  ∀ l : List Int, l.Pairwise (· < ·) → SameSet l i.node.act.events → st.hash = collHashAll (fun h : Int => h) l

theorem standsFor_instance (i : Instance) : StandsFor i (instanceSubTrace i) := by
  refine ⟨rfl, rfl, rfl, ?_⟩
  intro l hl hs
  show collHashAll (fun h : Int => h) (sortedSet i.node.events) = _
  have he : i.node.events = i.node.act.events := by cases i.node; rfl
  rw [he, sortedSet_congr (fun x => (hs x).symm)]
  have hd : l.dedup = l := List.dedup_eq_self.2 (hl.imp (fun h => ne_of_lt h))
  unfold sortedSet
  rw [hd, (hl.imp (fun h => le_of_lt h)).insertionSort_eq]

/-- C73a: the diagrams of activities, for instances that are well placed in their traces. In the full diagram every event
of a trace is seen in the colour of the instance that contains it, or in the colour of gaps, and nothing is seen beyond
the end of the trace; in the short diagram every instance and every maximal gap is one piece of the same width, in their
order. Instances of activities with the same set of events have the same colour: the one that is cached for the name of
the first of them. The legend has the names of the activities. Cached colours are kept. -/
theorem C73_activities (p q : Palette) (lengths : List Nat) (insts : List (List Instance)) (short pl : Bool) (hs ws : Nat)
    (res : Except PyErr Diagram) (h : activityDiagram p lengths insts short pl hs ws = .done (res, q))
    (hw : ∀ r ∈ insts.zip lengths, WellPlaced r.2 (r.1.map span)) :
    (∀ n c, p.cached.get? n = some c → q.cached.get? n = some c) ∧
    ∀ d, res = .ok d →
      (∃ rows, List.Forall₂ (List.Forall₂ StandsFor) insts rows ∧
        ShowsSubTraces p q (rows.zip lengths) short pl hs ws d) ∧
      Axis d.yLabels (lengths.length * hs) lengths.length ∧
      ∃ m ∈ lengths, (∀ n ∈ lengths, n ≤ m) ∧ Axis d.xLabels (m * ws) m := by
  unfold activityDiagram at h
  cases hr : actsRows short ws hs ((insts.map (List.map instanceSubTrace)).zip lengths) 0
      { picture := { rects := [], legend := [] }, colors := [], palette := p } with
  | overflow => rw [hr] at h; simp at h
  | running => rw [hr] at h; simp at h
  | done st =>
    rw [hr] at h
    simp only [Draw.done.injEq, Prod.mk.injEq] at h
    obtain ⟨rfl, rfl⟩ := h
    refine ⟨(actsRows_done (met_start p) hr).1.1, ?_⟩
    intro d hd
    have hrow : ∀ r ∈ (insts.map (List.map instanceSubTrace)).zip lengths, WellPlaced r.2 (r.1.map subSpanOf) := by
      intro r hr
      rw [List.zip_map_left] at hr
      obtain ⟨x, hx, rfl⟩ := List.mem_map.1 hr
      have := hw x hx
      show WellPlaced x.2 ((x.1.map instanceSubTrace).map subSpanOf)
      rw [List.map_map]
      exact this
    obtain ⟨k1, k2, k3⟩ := subTraces_shown hr rfl hd hrow
    refine ⟨⟨_, ?_, k1⟩, k2, k3⟩
    rw [List.forall₂_map_right_iff, List.forall₂_same]
    intro is _
    rw [List.forall₂_map_right_iff, List.forall₂_same]
    exact fun i _ => standsFor_instance i

/-- C73d: instances of activities with the same set of events stand for the same hash, so that they have one colour. -/
theorem C73_same_set {i j : Instance} {s t : SubTrace} (hi : StandsFor i s) (hj : StandsFor j t)
    (h : SameSet i.node.act.events j.node.act.events) : s.hash = t.hash := by
  have hp : (sortedSet i.node.act.events).Pairwise (· < ·) := by
    unfold sortedSet
    have h1 := List.pairwise_insertionSort (fun a b : Int => a ≤ b) i.node.act.events.dedup
    have h2 : (i.node.act.events.dedup.insertionSort (fun a b => a ≤ b)).Nodup :=
      (List.perm_insertionSort _ _).nodup_iff.2 (List.nodup_dedup _)
    exact (h1.and h2).imp (fun h => lt_of_le_of_ne h.1 h.2)
  have hm : SameSet (sortedSet i.node.act.events) i.node.act.events := by
    intro x
    unfold sortedSet
    rw [(List.perm_insertionSort _ _).mem_iff, List.mem_dedup]
  rw [hi.2.2.2 _ hp hm, hj.2.2.2 _ hp (fun x => (hm x).trans (h x))]

/-- C73b: when the diagrams of activities succeed, and what is raised otherwise. -/
theorem C73_fails (p q : Palette) (lengths : List Nat) (insts : List (List Instance)) (short pl : Bool) (hs ws : Nat)
    (res : Except PyErr Diagram) (h : activityDiagram p lengths insts short pl hs ws = .done (res, q)) :
    (hs = 0 → res = .error .zeroDivision) ∧ (0 < hs → lengths = [] → res = .error .valueError) ∧
    (0 < hs → lengths ≠ [] → ws = 0 → res = .error .zeroDivision) ∧
    (0 < hs → lengths ≠ [] → 0 < ws → ∃ d, res = .ok d) := by
  unfold activityDiagram at h
  cases hr : actsRows short ws hs ((insts.map (List.map instanceSubTrace)).zip lengths) 0
      { picture := { rects := [], legend := [] }, colors := [], palette := p } with
  | overflow => rw [hr] at h; simp at h
  | running => rw [hr] at h; simp at h
  | done st =>
    rw [hr] at h
    simp only [Draw.done.injEq, Prod.mk.injEq] at h
    obtain ⟨rfl, rfl⟩ := h
    exact finish_log st.picture pl lengths hs ws

/-- An instance for examples. -/
def exampleInst (name : String) (events : List Int) (start length : Nat) : Instance :=
  { node := .node { uid := 0, name := name, level := 0, repeatSet := { firstPos := 0, length := 0, traceIndex := 0 },
                    events := events } []
    startPos := start, length := length }

/-- What a diagram gives, if the drawing returns: the rectangles and the colours in the legend. -/
def drawnLegend (r : Draw (Except PyErr Diagram × Palette)) : Option (List (Rect Nat) × List (String × String)) :=
  match r with
  | .done (.ok d, _) => some (d.rects, (d.legend.getD []).map (fun kv => (kv.1, kv.2.color)))
  | _ => none

/-- C73c: two activities with the same events and different names are drawn in the same colour, also in the legend; and a
gap at the end of a trace is drawn but not in the legend. -/
theorem C73_same_events_and_last_gap :
    drawnLegend (activityDiagram { used := [], cached := [], draws := [(1, 2, 3), (4, 5, 6)] } [5]
      [[exampleInst "A" [1, 2] 0 2, exampleInst "B" [1, 2] 2 2]] false true 1 1) =
    some ([⟨0, 0, 2, 1, "#010203"⟩, ⟨2, 0, 2, 1, "#010203"⟩, ⟨4, 0, 1, 1, "#000000"⟩],
      [("A", "#010203"), ("B", "#010203")]) := by decide +kernel

example : drawnLegend (activityDiagram { used := [], cached := [], draws := [(1, 2, 3), (4, 5, 6)] } [6, 0]
      [[exampleInst "A" [1, 2] 1 2, exampleInst "B" [3] 3 2], []] true true 1 2) =
    some ([⟨0, 0, 2, 1, "#000000"⟩, ⟨2, 0, 2, 1, "#010203"⟩, ⟨4, 0, 2, 1, "#040506"⟩, ⟨6, 0, 2, 1, "#000000"⟩,
      ⟨0, 1, 2, 1, "#000000"⟩], [("UndefinedActivity", "#000000"), ("A", "#010203"), ("B", "#040506")]) := by decide +kernel

example : WellPlaced 6 ([exampleInst "A" [1, 2] 1 2, exampleInst "B" [3] 3 2].map span) := by
  constructor
  · intro p hp
    simp only [List.map_cons, List.map_nil, List.mem_cons, List.not_mem_nil, or_false] at hp
    rcases hp with rfl | rfl <;> decide
  · simp [span, exampleInst]

/-! ### Diagrams of patterns -/

/-- C75a: the diagram of patterns, for patterns that are well placed in their traces, shows them in the same way.
Patterns with the same hash of their events have the same colour, cached for the text of the hash. -/
theorem C75_patterns_partial {E : Type} (hash : E → Int) (p q : Palette) (log : List (List E)) (patterns : List (List SubArray))
    (short pl : Bool) (hs ws : Nat) (res : Except PyErr Diagram)
    (h : patternsDiagram hash p log patterns short pl hs ws = .done (res, q))
    (hw : ∀ r ∈ log.zip patterns, WellPlaced r.1.length (r.2.map subSpan)) :
    (∀ n c, p.cached.get? n = some c → q.cached.get? n = some c) ∧
    ∀ d, res = .ok d →
      ShowsSubTraces p q ((log.zip patterns).map (fun r => (r.2.map (patternSubTrace hash r.1), r.1.length))) short pl hs ws d ∧
      (∀ r ∈ log.zip patterns, ∀ s ∈ r.2, patternSubTrace hash r.1 s =
        ⟨s.firstPos, s.length, collHashAll hash ((r.1.drop s.firstPos).take s.length),
          toString (collHashAll hash ((r.1.drop s.firstPos).take s.length))⟩) ∧
      Axis d.yLabels (log.length * hs) log.length ∧
      ∃ t ∈ log, (∀ t' ∈ log, t'.length ≤ t.length) ∧ Axis d.xLabels (t.length * ws) t.length := by
  have hrows : (List.zipWith (fun t ps => ps.map (patternSubTrace hash t)) log patterns).zip (log.map List.length) =
      (log.zip patterns).map (fun r => (r.2.map (patternSubTrace hash r.1), r.1.length)) := by
    clear h hw
    induction log generalizing patterns with
    | nil => rfl
    | cons t ts ih =>
      cases patterns with
      | nil => rfl
      | cons ps pss =>
        have := ih pss
        simp only [List.zipWith_cons_cons, List.map_cons, List.zip_cons_cons]
        rw [this]
  unfold patternsDiagram at h
  rw [hrows] at h
  cases hr : actsRows short ws hs ((log.zip patterns).map (fun r => (r.2.map (patternSubTrace hash r.1), r.1.length))) 0
      { picture := { rects := [], legend := [] }, colors := [], palette := p } with
  | overflow => rw [hr] at h; simp at h
  | running => rw [hr] at h; simp at h
  | done st =>
    rw [hr] at h
    simp only [Draw.done.injEq, Prod.mk.injEq] at h
    obtain ⟨rfl, rfl⟩ := h
    refine ⟨(actsRows_done (met_start p) hr).1.1, ?_⟩
    intro d hd
    have hd' : finishDiagram st.picture pl (log.map List.length).length (logTicks (log.map List.length) ws) hs ws = .ok d := by
      rw [List.length_map]; exact hd
    obtain ⟨k1, k2, m, hm, k3, k4⟩ := subTraces_shown hr rfl hd' (by
      intro r hr
      obtain ⟨x, hx, rfl⟩ := List.mem_map.1 hr
      have := hw x hx
      show WellPlaced x.1.length ((x.2.map (patternSubTrace hash x.1)).map subSpanOf)
      rw [List.map_map]
      exact this)
    obtain ⟨t, ht, rfl⟩ := List.mem_map.1 hm
    rw [List.length_map] at k2
    exact ⟨k1, fun _ _ _ _ => rfl, k2, t, ht, fun t' ht' => k3 _ (List.mem_map.2 ⟨t', ht', rfl⟩), k4⟩

example : drawnLegend (patternsDiagram id { used := [], cached := [], draws := [(1, 2, 3)] } [[1, 2, 7, 1, 2]]
      [[⟨0, 2⟩, ⟨3, 2⟩]] false true 1 1) =
    some ([⟨0, 0, 2, 1, "#010203"⟩, ⟨2, 0, 1, 1, "#000000"⟩, ⟨3, 0, 2, 1, "#010203"⟩],
      [(toString (collHashAll id [(1 : Int), 2]), "#010203"), ("UndefinedActivity", "#000000")]) := by decide +kernel

/-- C75b: patterns may overlap, as the repeats in `a b a b a` do. Their pieces are drawn side by side, so that the row is
longer than the trace: something is seen beyond the last event. -/
theorem C75_overlap : ∃ (d : Diagram) (q : Palette),
    patternsDiagram id { used := [], cached := [], draws := [(1, 2, 3)] } [[1, 2, 1, 2, 1]] [[⟨0, 3⟩, ⟨2, 3⟩]] false true 1 1 =
      .done (.ok d, q) ∧ colorAt d.rects 5 0 = some "#010203" := by
  let r := patternsDiagram (id : Int → Int) { used := [], cached := [], draws := [(1, 2, 3)] } [[1, 2, 1, 2, 1]]
    [[⟨0, 3⟩, ⟨2, 3⟩]] false true 1 1
  have e : (drawnLegend r).map (fun x => colorAt x.1 5 0) = some (some "#010203") := by decide +kernel
  cases hr : r with
  | overflow => rw [hr] at e; cases e
  | running => rw [hr] at e; cases e
  | done x =>
    obtain ⟨res, q⟩ := x
    cases res with
    | error err => rw [hr] at e; cases e
    | ok d =>
      rw [hr] at e
      exact ⟨d, q, hr, Option.some.inj e⟩

end Ficus
