import Verif.Props.ActDiagrams

/-! Property C74: the diagram of the placements of one activity. -/

namespace Ficus
open Spec

/-- The instances of the activity with the given name. -/
def named (name : String) (is : List Instance) : List Instance := is.filter (fun i => i.node.act.name = name)

/-- The instances as sub traces, numbered from `k` on. -/
def numbered (k : Nat) (is : List Instance) : List SubTrace :=
  (is.zipIdx k).map (fun p => ⟨p.1.startPos, p.1.length, (p.2 : Int), p.1.node.act.name⟩)

/-- The colour with the number of the sub trace. -/
def numberedColor (cs : List String) (d : SubTrace) : String := (cs[d.hash.toNat]?).getD ""

/-- The pieces of a row, as they are drawn. -/
def placeCells (n : Nat) : List (Instance × String) → Nat → List Piece
  | [], last => if last < n then [⟨n - last, "#000000", some undefinedActivity⟩] else []
  | (i, c) :: l, last => (if last < i.startPos then [⟨i.startPos - last, "#000000", some undefinedActivity⟩] else []) ++
      ⟨i.length, c, some i.node.act.name⟩ :: placeCells n l ((if last < i.startPos then i.startPos else last) + i.length)

theorem placeCells_segs (n : Nat) (col : SubTrace → String) (is : List Instance) (cs : List String) (k last : Nat)
    (hl : cs.length = is.length)
    (hcol : ∀ (j : Nat) (i : Instance) (c : String), is[j]? = some i → cs[j]? = some c →
      col ⟨i.startPos, i.length, ((k + j : Nat) : Int), i.node.act.name⟩ = c)
    (hw : WellPlaced n (is.map span)) (hlo : ∀ i ∈ is, last ≤ i.startPos) :
    placeCells n (is.zip cs) last = (segsFrom n last (numbered k is)).map (segCell false 1 n col "#000000" false) := by
  induction is generalizing cs k last with
  | nil =>
    simp only [List.zip_nil_left, placeCells, numbered, List.zipIdx_nil, List.map_nil, segsFrom]
    split
    · simp [segCell, undefinedActivity]
    · rfl
  | cons i is ih =>
    cases cs with
    | nil => simp at hl
    | cons c cs =>
      have hi := hw.1 (span i) (by simp)
      simp only [span] at hi
      have hlo' := hlo i (by simp)
      have hw' : WellPlaced n (is.map span) :=
        ⟨fun p hp => hw.1 p (by simp only [List.map_cons, List.mem_cons]; exact Or.inr hp), (List.pairwise_cons.1 hw.2).2⟩
      have hnext : ∀ j ∈ is, i.startPos + i.length ≤ j.startPos := fun j hj =>
        (List.pairwise_cons.1 hw.2).1 (span j) (List.mem_map.2 ⟨j, hj, rfl⟩)
      have hc := hcol 0 i c rfl rfl
      rw [Nat.add_zero] at hc
      have hrec := ih cs (k + 1) (i.startPos + i.length) (by simpa using hl) (by
        intro j i' c' h1 h2
        have := hcol (j + 1) i' c' (by simpa using h1) (by simpa using h2)
        rw [show k + 1 + j = k + (j + 1) by omega]
        exact this) hw' hnext
      have elast : (if last < i.startPos then i.startPos else last) = i.startPos := by split <;> omega
      simp only [List.zip_cons_cons, placeCells, numbered, List.zipIdx_cons, List.map_cons, segsFrom, List.map_append]
      rw [elast, hrec]
      simp only [segCell, Bool.false_eq_true, if_false, Nat.one_mul, hc, numbered]
      congr 1
      split
      · simp [undefinedActivity, segCell]
      · rfl

/-- The colours of the instances of one trace. -/
def TraceColors (v : Provider) (p q : Palette) (cs : List String) : Prop :=
  q.cached = p.cached ∧
  match v with
  | .random => ∃ ops, Issued p ops cs q
  | .single c => (∀ x ∈ cs, x = c) ∧ q = p

theorem placementRow_done {v : Provider} {name : String} {hs y n : Nat} {is : List Instance} {x last : Nat}
    {pic pic' : Picture} {p q : Palette} (h : placementRow v name 1 hs y n is x last pic p = .done (pic', q)) :
    ∃ cs, cs.length = (named name is).length ∧ TraceColors v p q cs ∧
      pic' = pic.addAll (cellRow x y hs (placeCells n ((named name is).zip cs) last)) := by
  induction is generalizing x last pic p with
  | nil =>
    simp only [placementRow, Draw.done.injEq, Prod.mk.injEq] at h
    obtain ⟨rfl, rfl⟩ := h
    refine ⟨[], rfl, ⟨rfl, ?_⟩, ?_⟩
    · cases v with
      | random => exact ⟨[], Issued.nil _⟩
      | single c => exact ⟨fun x hx => by simp at hx, rfl⟩
    · simp only [named, List.filter_nil, List.zip_nil_left, placeCells]
      split
      · rw [undefinedColor_eq]; rfl
      · rfl
  | cons i is ih =>
    rw [placementRow] at h
    by_cases hn : i.node.act.name = name
    · rw [if_pos hn] at h
      simp only at h
      cases hv : v.next p with
      | overflow => rw [hv] at h; simp at h
      | running => rw [hv] at h; simp at h
      | done r =>
        obtain ⟨c, p1⟩ := r
        rw [hv] at h
        simp only at h
        obtain ⟨cs, k1, k2, k3⟩ := ih h
        have hname : named name (i :: is) = i :: named name is := by
          unfold named; rw [List.filter_cons, if_pos (by simpa using hn)]
        refine ⟨c :: cs, by rw [hname]; simp [k1], ?_, ?_⟩
        · cases v with
          | random =>
            obtain ⟨a, ops, b⟩ := k2
            have hu : p.uncached = .done (c, p1) := hv
            obtain ⟨used, ds, _, e⟩ := uncached_done hu
            exact ⟨by rw [a, e], .unnamed :: ops, Issued.unnamed hu b⟩
          | single c0 =>
            simp only [Provider.next, Draw.done.injEq, Prod.mk.injEq] at hv
            obtain ⟨rfl, rfl⟩ := hv
            obtain ⟨a, b1, b2⟩ := k2
            refine ⟨a, ?_, b2⟩
            intro x hx
            rcases List.mem_cons.1 hx with rfl | hx
            · rfl
            · exact b1 x hx
        · rw [k3, hname, List.zip_cons_cons, placeCells, cellRow_append, addAll_append, cellRow, addAll_cons]
          by_cases hlt : last < i.startPos
          · simp only [hlt, decide_true, if_true, List.map_cons, List.map_nil, List.sum_cons, List.sum_nil, Nat.add_zero,
              Nat.mul_one, undefinedColor_eq]
            rfl
          · simp only [hlt, decide_false, if_false, Bool.false_eq_true, List.map_nil, List.sum_nil, Nat.add_zero, Nat.mul_one]
            rfl
    · rw [if_neg hn] at h
      obtain ⟨cs, k1, k2, k3⟩ := ih h
      have hname : named name (i :: is) = named name is := by
        unfold named; rw [List.filter_cons, if_neg (by simpa using hn)]
      rw [hname]
      exact ⟨cs, k1, k2, k3⟩

/-- The row of a trace with the colours of its instances. -/
def placedRow (name : String) (r : List Instance × Nat) (cs : List String) : List Piece :=
  placeCells r.2 ((named name r.1).zip cs) 0

theorem uncached_facts {p q : Palette} {c : String} (h : p.uncached = .done (c, q)) :
    q.cached = p.cached ∧ UsedItem.text c ∉ p.used ∧ q.used = p.used ++ [.text c] := by
  obtain ⟨used, ds, hn, rfl⟩ := uncached_done h
  obtain ⟨h1, h2, _, _⟩ := nextColor_done hn
  exact ⟨rfl, h1, h2⟩

/-- The colours of all traces, for the provider at the start. -/
def RowColors (v : Provider) (some_rows : Prop) (p q : Palette) (css : List (List String)) : Prop :=
  match v with
  | .random => (∀ cs ∈ css, cs.Nodup) ∧ (some_rows → q.used = [])
  | .single c => ∃ tc : List String, List.Forall₂ (fun cs c => ∀ x ∈ cs, x = c) css tc ∧
      (UsedItem.text c ∈ p.used → tc.Nodup) ∧ (∀ x ∈ tc, x = c ∨ UsedItem.text x ∉ p.used)

theorem placementRows_done {name : String} {hs : Nat} {rows : List (List Instance × Nat)} {y : Nat} {v : Provider}
    {pic pic' : Picture} {p q : Palette} (h : placementRows name 1 hs rows y v pic p = .done (pic', q)) :
    ∃ css : List (List String), List.Forall₂ (fun r cs => cs.length = (named name r.1).length) rows css ∧
      pic' = pic.addAll (cellRows y hs (List.zipWith (placedRow name) rows css)) ∧ q.cached = p.cached ∧
      RowColors v (rows ≠ []) p q css := by
  induction rows generalizing y v pic p with
  | nil =>
    simp only [placementRows, Draw.done.injEq, Prod.mk.injEq] at h
    obtain ⟨rfl, rfl⟩ := h
    refine ⟨[], List.Forall₂.nil, rfl, rfl, ?_⟩
    cases v with
    | random => exact ⟨fun cs hcs => by simp at hcs, fun h => absurd rfl h⟩
    | single c => exact ⟨[], List.Forall₂.nil, fun _ => List.nodup_nil, fun x hx => by simp at hx⟩
  | cons r rows ih =>
    obtain ⟨is, n⟩ := r
    rw [placementRows] at h
    cases h1 : placementRow v name 1 hs y n is 0 0 pic p with
    | overflow => rw [h1] at h; simp at h
    | running => rw [h1] at h; simp at h
    | done r1 =>
      obtain ⟨pic1, p1⟩ := r1
      rw [h1] at h
      simp only at h
      obtain ⟨cs, a1, a2, a3⟩ := placementRow_done h1
      cases h2 : v.reset p1 with
      | overflow => rw [h2] at h; simp at h
      | running => rw [h2] at h; simp at h
      | done r2 =>
        obtain ⟨v2, p2⟩ := r2
        rw [h2] at h
        simp only at h
        obtain ⟨css, b1, b2, b3, b4⟩ := ih h
        refine ⟨cs :: css, List.Forall₂.cons a1 b1, ?_, ?_, ?_⟩
        · rw [b2, a3, List.zipWith_cons_cons, cellRows, addAll_append]
          rfl
        · cases v with
          | random =>
            simp only [Provider.reset, Draw.done.injEq, Prod.mk.injEq] at h2
            rw [b3, ← h2.2]
            exact a2.1
          | single c =>
            simp only [Provider.reset] at h2
            cases hu : p1.uncached with
            | overflow => rw [hu] at h2; simp at h2
            | running => rw [hu] at h2; simp at h2
            | done r3 =>
              obtain ⟨c3, q3⟩ := r3
              rw [hu] at h2
              simp only [Draw.done.injEq, Prod.mk.injEq] at h2
              rw [b3, ← h2.2, (uncached_facts hu).1]
              exact a2.1
        · cases v with
          | random =>
            simp only [Provider.reset, Draw.done.injEq, Prod.mk.injEq] at h2
            obtain ⟨rfl, rfl⟩ := h2
            obtain ⟨_, ops, hiss⟩ := a2
            refine ⟨?_, ?_⟩
            · intro l hl
              rcases List.mem_cons.1 hl with rfl | hl
              · exact (C44_issued_distinct _ _ _ _ hiss).1
              · exact b4.1 l hl
            · intro _
              by_cases hr : rows = []
              · subst hr
                simp only [placementRows, Draw.done.injEq, Prod.mk.injEq] at h
                rw [← h.2]
                rfl
              · exact b4.2 hr
          | single c =>
            simp only [Provider.reset] at h2
            cases hu : p1.uncached with
            | overflow => rw [hu] at h2; simp at h2
            | running => rw [hu] at h2; simp at h2
            | done r3 =>
              obtain ⟨c3, q3⟩ := r3
              rw [hu] at h2
              simp only [Draw.done.injEq, Prod.mk.injEq] at h2
              obtain ⟨rfl, rfl⟩ := h2
              obtain ⟨_, e1, rfl⟩ := a2
              obtain ⟨_, f1, f2⟩ := uncached_facts hu
              obtain ⟨tc, t1, t2, t3⟩ := b4
              rw [f2] at t2 t3
              refine ⟨c :: tc, List.Forall₂.cons e1 t1, ?_, ?_⟩
              · intro hc
                refine List.nodup_cons.2 ⟨?_, t2 (by simp)⟩
                intro hm
                rcases t3 c hm with rfl | hx
                · exact f1 hc
                · exact hx (by simp [hc])
              · intro x hx
                rcases List.mem_cons.1 hx with rfl | hx
                · exact Or.inl rfl
                · rcases t3 x hx with rfl | hx
                  · exact Or.inr f1
                  · exact Or.inr (fun hm => hx (by simp [hm]))

theorem named_wellPlaced {n : Nat} {is : List Instance} (name : String) (h : WellPlaced n (is.map span)) :
    WellPlaced n ((named name is).map span) := by
  have hs : ((named name is).map span).Sublist (is.map span) := List.Sublist.map _ List.filter_sublist
  exact ⟨fun p hp => h.1 p (hs.subset hp), h.2.sublist hs⟩

/-- C74a: the diagram of one activity, for instances that are well placed in their traces. Row by row it shows the
instances of the activity with the given name at their places and black everywhere else. If the instances are to be
different, those of one trace have pairwise different colours; otherwise all instances of a trace have one colour, and
different traces have different ones. Colours are not cached. -/
theorem C74_placements (p q : Palette) (lengths : List Nat) (name : String) (insts : List (List Instance))
    (different pl : Bool) (hs : Nat) (res : Except PyErr Diagram)
    (h : placementDiagram p lengths name insts different pl hs = .done (res, q))
    (hw : ∀ r ∈ insts.zip lengths, WellPlaced r.2 (r.1.map span)) :
    q.cached = p.cached ∧ ∃ css : List (List String),
      List.Forall₂ (fun r cs => cs.length = (named name r.1).length) (insts.zip lengths) css ∧
      (different = true → ∀ cs ∈ css, cs.Nodup) ∧
      (different = false → ∃ tc : List String, tc.Nodup ∧ List.Forall₂ (fun cs c => ∀ x ∈ cs, x = c) css tc) ∧
      ∀ d, res = .ok d → ∃ cells, Shows d.rects hs cells ∧
        (pl = true → ∃ legend, d.legend = some legend ∧ Explains legend cells) ∧ (pl = false → d.legend = none) ∧
        cells.length = (insts.zip lengths).length ∧
        (∀ (k : Nat) (is : List Instance) (n : Nat) (cs : List String) (row : List Piece),
          (insts.zip lengths)[k]? = some (is, n) → css[k]? = some cs → cells[k]? = some row →
          ∃ segs, Segments n (numbered 0 (named name is)) segs ∧
            row = segs.map (segCell false 1 n (numberedColor cs) "#000000" false)) ∧
        Axis d.yLabels (lengths.length * hs) lengths.length ∧
        ∃ m ∈ lengths, (∀ n ∈ lengths, n ≤ m) ∧ Axis d.xLabels m m := by
  unfold placementDiagram at h
  cases h1 : startProvider different p with
  | overflow => rw [h1] at h; simp at h
  | running => rw [h1] at h; simp at h
  | done r1 =>
    obtain ⟨v, p1⟩ := r1
    rw [h1] at h
    simp only at h
    cases h2 : placementRows name 1 hs (insts.zip lengths) 0 v { rects := [], legend := [] } p1 with
    | overflow => rw [h2] at h; simp at h
    | running => rw [h2] at h; simp at h
    | done r2 =>
      obtain ⟨pic, p2⟩ := r2
      rw [h2] at h
      simp only [Draw.done.injEq, Prod.mk.injEq] at h
      obtain ⟨rfl, rfl⟩ := h
      obtain ⟨css, a1, a2, a3, a4⟩ := placementRows_done h2
      have hstart : p1.cached = p.cached ∧ (different = true → v = .random) ∧
          (different = false → ∃ c, v = .single c ∧ UsedItem.text c ∈ p1.used) := by
        unfold startProvider at h1
        cases different with
        | true =>
          simp only [if_true, Draw.done.injEq, Prod.mk.injEq] at h1
          obtain ⟨rfl, rfl⟩ := h1
          exact ⟨rfl, fun _ => rfl, fun h => by cases h⟩
        | false =>
          simp only [Bool.false_eq_true, if_false] at h1
          cases hu : p.uncached with
          | overflow => rw [hu] at h1; simp at h1
          | running => rw [hu] at h1; simp at h1
          | done r3 =>
            obtain ⟨c3, q3⟩ := r3
            rw [hu] at h1
            simp only [Draw.done.injEq, Prod.mk.injEq] at h1
            obtain ⟨rfl, rfl⟩ := h1
            obtain ⟨f1, _, f2⟩ := uncached_facts hu
            exact ⟨f1, fun h => (by cases h), fun _ => ⟨c3, rfl, by rw [f2]; simp⟩⟩
      refine ⟨a3.trans hstart.1, css, a1, ?_, ?_, ?_⟩
      · intro hd
        rw [hstart.2.1 hd] at a4
        exact a4.1
      · intro hd
        obtain ⟨c, rfl, hc⟩ := hstart.2.2 hd
        obtain ⟨tc, t1, t2, _⟩ := a4
        exact ⟨tc, t2 hc, t1⟩
      · intro d hd
        have hd' : finishDiagram (Picture.empty.addAll (cellRows 0 hs (List.zipWith (placedRow name) (insts.zip lengths) css)))
            pl lengths.length (logTicks lengths 1) hs 1 = .ok d := by rw [← hd, a2]; rfl
        obtain ⟨k1, k2, k3, k4, m, hm, k5, k6⟩ := finish_cells hd'
        rw [Nat.mul_one] at k6
        refine ⟨_, k1, k2, k3, by simp [← a1.length_eq], ?_, k4, m, hm, k5, k6⟩
        intro k is n cs row b1 b2 b3
        rw [List.getElem?_zipWith, b1, b2] at b3
        simp only [Option.some.injEq] at b3
        have hwk := hw (is, n) (List.mem_of_getElem? b1)
        have hwn := named_wellPlaced name hwk
        have hlen : cs.length = (named name is).length := by
          have := (List.forall₂_iff_get.1 a1).2 k (List.getElem?_eq_some_iff.1 b1).1 (List.getElem?_eq_some_iff.1 b2).1
          simp only [List.get_eq_getElem, (List.getElem?_eq_some_iff.1 b1).2, (List.getElem?_eq_some_iff.1 b2).2] at this
          exact this
        refine ⟨segsFrom n 0 (numbered 0 (named name is)), segments n _ ?_, ?_⟩
        · have : (numbered 0 (named name is)).map subSpanOf = (named name is).map span := by
            unfold numbered
            rw [List.map_map]
            conv_rhs => rw [← List.zipIdx_map_fst 0 (named name is), List.map_map]
            rfl
          rw [this]
          exact hwn
        · rw [← b3]
          unfold placedRow
          apply placeCells_segs n _ _ _ 0 0 hlen _ hwn (fun _ _ => Nat.zero_le _)
          intro j i c _ hc
          unfold numberedColor
          simp [hc]

/-- C74b: drawing with different colours empties the marks of the provider that all diagrams share, so that colours
given before can be given again. -/
theorem C74_marks_lost (p q : Palette) (lengths : List Nat) (name : String) (insts : List (List Instance))
    (pl : Bool) (hs : Nat) (res : Except PyErr Diagram)
    (h : placementDiagram p lengths name insts true pl hs = .done (res, q)) (hne : insts ≠ []) (hl : lengths ≠ []) :
    q.used = [] := by
  unfold placementDiagram startProvider at h
  simp only [if_true] at h
  cases h2 : placementRows name 1 hs (insts.zip lengths) 0 .random { rects := [], legend := [] } p with
  | overflow => rw [h2] at h; simp at h
  | running => rw [h2] at h; simp at h
  | done r2 =>
    obtain ⟨pic, p2⟩ := r2
    rw [h2] at h
    simp only [Draw.done.injEq, Prod.mk.injEq] at h
    obtain ⟨css, _, _, _, a4⟩ := placementRows_done h2
    rw [← h.2]
    apply a4.2
    cases insts with
    | nil => exact absurd rfl hne
    | cons a as =>
      cases lengths with
      | nil => exact absurd rfl hl
      | cons b bs => simp

example : drawnLegend (placementDiagram { used := [], cached := [], draws := [(1, 2, 3), (4, 5, 6), (7, 8, 9)] } [5, 2] "A"
      [[exampleInst "A" [1] 1 1, exampleInst "B" [2] 2 1, exampleInst "A" [1] 3 1], []] true true 1) =
    some ([⟨0, 0, 1, 1, "#000000"⟩, ⟨1, 0, 1, 1, "#010203"⟩, ⟨2, 0, 1, 1, "#000000"⟩, ⟨3, 0, 1, 1, "#040506"⟩,
      ⟨4, 0, 1, 1, "#000000"⟩, ⟨0, 1, 2, 1, "#000000"⟩], [("UndefinedActivity", "#000000"), ("A", "#040506")]) := by
  decide +kernel

example : drawnLegend (placementDiagram { used := [], cached := [], draws := [(1, 2, 3), (4, 5, 6), (7, 8, 9)] } [3, 1] "A"
      [[exampleInst "A" [1] 0 1, exampleInst "A" [1] 2 1], [exampleInst "A" [1] 0 1]] false true 1) =
    some ([⟨0, 0, 1, 1, "#010203"⟩, ⟨1, 0, 1, 1, "#000000"⟩, ⟨2, 0, 1, 1, "#010203"⟩, ⟨0, 1, 1, 1, "#040506"⟩],
      [("A", "#040506"), ("UndefinedActivity", "#000000")]) := by
  decide +kernel

end Ficus
