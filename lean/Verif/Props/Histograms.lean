import Verif.Proofs.Histograms
import Verif.Props.Colors
import Verif.Props.Filters
import Verif.Props.Classes

/-! Property C86: histograms of variants and of entropies. -/

namespace Ficus
open Spec

variable {E : Type} [HasName E]

/-- C86a: the histograms of at least two logs with a name for each are drawn in the smallest square grid that has room for all.
Every log has its own cell, row by row, with its name as the title. Its bars are, in order, as high as the variants of the log
(`splitLogByTraces`, C13 and C14) have traces. Then the picture is shown, or saved and closed. -/
theorem C86_grid (stem : String → String) (logs : List (Log E)) (names : List String) (savePath title : Option String)
    (h2 : 2 ≤ logs.length) (hn : logs.length ≤ names.length) :
    ∃ (side : Nat) (cells : List (List HistCall)),
      logs.length ≤ side * side ∧ (side - 1) * (side - 1) < logs.length ∧ cells.length = logs.length ∧
      plotTracesHistograms stem logs names savePath title =
        (.grid side side :: (cells.flatten ++ histFinish savePath title), none) ∧
      (∀ i (hi : i < logs.length), ∃ calls ∈ cells[i]?, ∃ values bins gs, splitLogByTraces logs[i] = .ok gs ∧
        calls = [.title (i / side, i % side) (stem (names[i]'(by omega))), .hist (i / side, i % side) values bins] ∧
        barHeights values bins = gs.map List.length ∧ values.length = logs[i].traces.length) ∧
      (∀ i < logs.length, i / side < side ∧ i % side < side) ∧
      (∀ i j, (i / side, i % side) = (j / side, j % side) → i = j) := by
  obtain ⟨h3, h4, h5⟩ := sideLength_spec logs.length h2
  set side := sideLength logs.length with hside
  refine ⟨side, (List.range logs.length).map (callsAt stem logs names (fun i => (i / side, i % side))), h3, h4,
    by simp, ?_, ?_, ?_, ?_⟩
  · unfold plotTracesHistograms
    simp only [← hside]
    rw [if_neg (by omega)]
    have := histRows_eq stem logs names side h5 hn side 0
    simp only [Nat.zero_mul, Nat.zero_min, Nat.zero_add, Nat.sub_zero, Nat.min_eq_right h3] at this
    rw [this]
    unfold histFinish
    cases savePath <;> simp [HistRun.andThen, List.flatMap_def, List.range_eq_range']
  · intro i hi
    obtain ⟨gs, hg, _⟩ := C13_partition logs[i]
    obtain ⟨hist, h6, h7, h8⟩ := hist_values logs[i] gs hg
    refine ⟨callsAt stem logs names (fun i => (i / side, i % side)) i, by simp [hi], hist, binsOf (gs.length + 1), gs, hg,
      ?_, h8, h7⟩
    unfold callsAt
    rw [List.getElem?_eq_getElem hi, List.getElem?_eq_getElem (by omega : i < names.length)]
    simp only [h6]
  · intro i hi
    refine ⟨?_, Nat.mod_lt _ (by omega)⟩
    rw [Nat.div_lt_iff_lt_mul (by omega)]
    omega
  · intro i j hij
    have h6 : i / side = j / side := (Prod.mk.inj hij).1
    have h7 : i % side = j % side := (Prod.mk.inj hij).2
    rw [← Nat.div_add_mod i side, ← Nat.div_add_mod j side, h6, h7]

/-- C86b: a single log is not drawn: an empty figure is opened, then TypeError. Without logs it is a ValueError, without names an
IndexError. The function for one log, `draw_traces_histogram`, always raises AttributeError. -/
theorem C86_failures (stem : String → String) (log : Log E) (n : String) (names : List String)
    (savePath title : Option String) :
    plotTracesHistograms stem [log] (n :: names) savePath title = ([.grid 1 1], some .typeError) ∧
    plotTracesHistograms stem ([] : List (Log E)) names savePath title = ([], some .valueError) ∧
    (∀ logs, ∃ side, plotTracesHistograms stem (log :: logs) [] savePath title = ([.grid side side], some .indexError)) ∧
    drawTracesHistogram log savePath title = ([], some .attributeError) := by
  have h0 : sideLength 0 = 0 := by decide
  have h1 : sideLength 1 = 1 := by decide
  refine ⟨?_, ?_, fun logs => ?_, ?_⟩
  · simp [plotTracesHistograms, h1, histRows, histRow, histCell, cellAccess, HistRun.andThen]
  · simp [plotTracesHistograms, h0]
  · refine ⟨sideLength (log :: logs).length, ?_⟩
    obtain ⟨s, hs⟩ : ∃ s, sideLength (logs.length + 1) = s + 1 := by
      cases logs with
      | nil => exact ⟨0, h1⟩
      | cons a l =>
        have := (sideLength_spec ((a :: l).length + 1) (by simp)).2.2
        exact ⟨_, (Nat.sub_add_cancel (by omega : 1 ≤ sideLength ((a :: l).length + 1))).symm⟩
    simp [plotTracesHistograms, hs, histRows, histRow, histCell, HistRun.andThen]
  · obtain ⟨hist, classes, h⟩ := hist_ok log
    simp [drawTracesHistogram, h]

/-! ### Entropies -/

section
variable {R : Type}

theorem entropyBars_spec (entropies : Dict String R) (x : Nat) (p q : Palette) (bs : List (String × Bar R))
    (h : entropyBars entropies x p = .done (bs, q)) :
    bs.map (fun b => (b.1, b.2.x, b.2.height)) = (entropies.zipIdx x).map (fun e => (e.1.1, e.2, e.1.2)) ∧
      Issued p (List.replicate entropies.length .unnamed) (bs.map (fun b => b.2.color)) q := by
  induction entropies generalizing x p bs with
  | nil =>
    simp only [entropyBars, Draw.done.injEq, Prod.mk.injEq] at h
    obtain ⟨rfl, rfl⟩ := h
    exact ⟨rfl, .nil _⟩
  | cons kv rest ih =>
    obtain ⟨n, e⟩ := kv
    unfold entropyBars at h
    split at h
    · rename_i c q' hq
      split at h
      · rename_i bs' r hr
        simp only [Draw.done.injEq, Prod.mk.injEq] at h
        obtain ⟨rfl, rfl⟩ := h
        obtain ⟨h1, h2⟩ := ih _ _ _ hr
        refine ⟨?_, .unnamed hq h2⟩
        rw [List.zipIdx_cons, List.map_cons, List.map_cons, h1]
      · cases h
      · cases h
    · cases h
    · cases h

theorem orderedInsert_lex [LinearOrder R] {A : Type} (hgt : A → R) (pos : A → Nat) (a : A) (s : List A)
    (hs : s.Pairwise (fun u v => hgt v < hgt u ∨ (hgt u = hgt v ∧ pos u < pos v))) (ha : ∀ b ∈ s, pos a < pos b) :
    (s.orderedInsert (fun u v => hgt v ≤ hgt u) a).Pairwise
      (fun u v => hgt v < hgt u ∨ (hgt u = hgt v ∧ pos u < pos v)) := by
  induction s with
  | nil => simp
  | cons b s ih =>
    rw [List.pairwise_cons] at hs
    rw [List.orderedInsert_cons]
    split
    · rename_i hle
      refine List.pairwise_cons.2 ⟨?_, List.pairwise_cons.2 hs⟩
      intro c hc
      have hpos := ha c hc
      rcases lt_or_eq_of_le hle with hlt | heq
      · left
        rcases List.mem_cons.1 hc with rfl | hc
        · exact hlt
        · rcases hs.1 c hc with h | h
          · exact lt_trans h hlt
          · rw [← h.1]
            exact hlt
      · rcases List.mem_cons.1 hc with rfl | hc
        · exact .inr ⟨heq.symm, hpos⟩
        · rcases hs.1 c hc with h | h
          · left
            rw [← heq]
            exact h
          · exact .inr ⟨by rw [← heq, h.1], hpos⟩
    · rename_i hle
      refine List.pairwise_cons.2 ⟨?_, ih hs.2 (fun c hc => ha c (List.mem_cons_of_mem _ hc))⟩
      intro c hc
      rw [List.mem_orderedInsert] at hc
      rcases hc with rfl | hc
      · exact .inl (not_le.1 hle)
      · exact hs.1 c hc

theorem insertionSort_lex [LinearOrder R] {A : Type} (hgt : A → R) (pos : A → Nat) (l : List A)
    (hl : l.Pairwise (fun u v => pos u < pos v)) :
    (l.insertionSort (fun u v => hgt v ≤ hgt u)).Pairwise
      (fun u v => hgt v < hgt u ∨ (hgt u = hgt v ∧ pos u < pos v)) := by
  induction l with
  | nil => simp
  | cons a l ih =>
    rw [List.pairwise_cons] at hl
    rw [List.insertionSort_cons]
    apply orderedInsert_lex hgt pos a _ (ih hl.2)
    intro b hb
    exact hl.1 b ((List.perm_insertionSort _ _).mem_iff.1 hb)

theorem get?_of_mem {K V : Type} [DecidableEq K] (d : Dict K V) (h : d.WF) (k : K) (v : V) (hm : (k, v) ∈ d) :
    d.get? k = some v := by
  induction d with
  | nil => simp at hm
  | cons a d ih =>
    obtain ⟨k', v'⟩ := a
    have hk := List.nodup_cons.1 h
    rw [Dict.get?_cons]
    rcases List.mem_cons.1 hm with e | hm
    · obtain ⟨rfl, rfl⟩ := Prod.mk.inj e
      rw [if_pos rfl]
    · rw [if_neg, ih hk.2 hm]
      rintro rfl
      exact hk.1 (List.mem_map.2 ⟨_, hm, rfl⟩)

/-- C86c: the histogram of entropies has one bar for every event, side by side in the order of the dictionary, as high as
its entropy, and no two bars have the same colour, nor a colour that is already in use. The legend has exactly one entry for
every event: its bar, its name and its entropy. The entries are sorted by falling entropy, events of equal entropy in the
order of the bars. -/
theorem C86_entropies [LinearOrder R] (text : R → String) (entropies : Dict String R) (hwf : entropies.WF) (p q : Palette)
    (pic : EntropyPicture R) (h : drawEntropies text entropies p = .done (pic, q)) :
    pic.bars.map (fun b => (b.x, b.height)) = entropies.zipIdx.map (fun e => (e.2, e.1.2)) ∧
    (pic.bars.map Bar.color).Nodup ∧ (∀ b ∈ pic.bars, UsedItem.text b.color ∉ p.used) ∧
    pic.legend.Perm ((entropies.zip pic.bars).map (fun e => (e.2, e.1.1 ++ " " ++ text e.1.2))) ∧
    pic.legend.Pairwise (fun a b => b.1.height < a.1.height ∨ (a.1.height = b.1.height ∧ a.1.x < b.1.x)) := by
  unfold drawEntropies at h
  split at h
  · rename_i bs q' hb
    obtain ⟨h1, h2⟩ := entropyBars_spec entropies 0 p q' bs hb
    simp only [Draw.done.injEq, Prod.mk.injEq] at h
    obtain ⟨rfl, rfl⟩ := h
    obtain ⟨h3, h4, _, _⟩ := C44_issued_distinct _ _ _ _ h2
    have hlen : bs.length = entropies.length := by
      have := congrArg List.length h1
      simpa using this
    have hget : ∀ b ∈ bs, entropies.get? b.1 = some b.2.height := by
      intro b hb'
      apply get?_of_mem entropies hwf
      have : (b.1, b.2.x, b.2.height) ∈ (entropies.zipIdx 0).map (fun e => (e.1.1, e.2, e.1.2)) := by
        rw [← h1]
        exact List.mem_map.2 ⟨b, hb', rfl⟩
      obtain ⟨e, he, he'⟩ := List.mem_map.1 this
      simp only [Prod.mk.injEq] at he'
      rw [← he'.1, ← he'.2.2]
      exact List.fst_mem_of_mem_zipIdx he
    have hlst : bs.map (fun b => (b.1, b.2, (entropies.get? b.1).getD b.2.height)) =
        bs.map (fun b => (b.1, b.2, b.2.height)) := by
      apply List.map_congr_left
      intro b hb'
      rw [hget b hb']
      rfl
    have hx : (bs.map (fun b => (b.1, b.2, b.2.height))).Pairwise (fun u v => u.2.1.x < v.2.1.x) := by
      rw [List.pairwise_map]
      have hp : (bs.map (fun b => (b.1, b.2.x, b.2.height))).Pairwise (fun u v => u.2.1 < v.2.1) := by
        rw [h1, List.pairwise_map]
        rw [List.pairwise_iff_getElem]
        intro i j hi hj hij
        simp only [List.getElem_zipIdx]
        omega
      rw [List.pairwise_map] at hp
      exact hp
    have hsorted := insertionSort_lex (fun t : String × Bar R × R => t.2.2) (fun t => t.2.1.x) _ hx
    have hperm := List.perm_insertionSort (fun a b : String × Bar R × R => b.2.2 ≤ a.2.2)
      (bs.map (fun b => (b.1, b.2, b.2.height)))
    have hshape : ∀ t ∈ (bs.map (fun b => (b.1, b.2, b.2.height))).insertionSort
        (fun a b : String × Bar R × R => b.2.2 ≤ a.2.2), t.2.2 = t.2.1.height := by
      intro t ht
      obtain ⟨b, _, rfl⟩ := List.mem_map.1 (hperm.mem_iff.1 ht)
      rfl
    refine ⟨?_, ?_, ?_, ?_, ?_⟩
    · have := congrArg (List.map (fun t : String × Nat × R => (t.2.1, t.2.2))) h1
      simpa [List.map_map, Function.comp_def] using this
    · simpa [List.map_map, Function.comp_def] using h3
    · intro b hb'
      obtain ⟨c, hc, rfl⟩ := List.mem_map.1 hb'
      exact h4 _ (List.mem_map.2 ⟨c, hc, rfl⟩)
    · simp only [hlst]
      refine (hperm.map _).trans (List.Perm.of_eq ?_)
      apply List.ext_getElem
      · simp [hlen]
      · intro i hi hi'
        have hib : i < bs.length := by simpa using hi
        have hie : i < entropies.length := by omega
        have hgi : (bs[i].1, bs[i].2.x, bs[i].2.height) = (entropies[i].1, i, entropies[i].2) := by
          have e1 : (bs.map (fun b => (b.1, b.2.x, b.2.height)))[i]'(by simpa using hib) =
              ((entropies.zipIdx 0).map (fun e => (e.1.1, e.2, e.1.2)))[i]'(by simpa using hie) := by
            simp only [h1]
          simpa using e1
        simp only [Prod.mk.injEq] at hgi
        have hg2 : entropies.get? entropies[i].1 = some entropies[i].2 :=
          get?_of_mem entropies hwf _ _ (List.getElem_mem hie)
        simp only [List.getElem_map, List.getElem_zip, hgi.1, hg2, Option.getD_some]
    · simp only [hlst]
      rw [List.pairwise_map]
      refine hsorted.imp_of_mem ?_
      intro a b ha hb' hab
      rw [hshape a ha, hshape b hb'] at hab
      exact hab
  · cases h
  · cases h

/-- C86d: the entropies of a log can always be computed, and the condition of C86c holds for them: one entry for every event
name that occurs in the log and no other. -/
theorem C86_entropies_of_log (log : Log E) :
    ∃ d, calculateEntropies false log = .ok d ∧ d.WF ∧ ∀ n, n ∈ d.keys ↔ n ∈ log.names.flatten := by
  obtain ⟨d, h1, h2⟩ := entropies_ok false log none
  obtain ⟨h3, h4⟩ := eventsCount_keys log
  refine ⟨d, h1, ?_, fun n => ?_⟩
  · unfold Dict.WF
    rw [h2]
    exact h3
  · rw [h2]
    exact h4 n

end

/-! ### Examples -/

def exLogs : List (Log String) :=
  [Log.ofEvs [["a", "b"], ["a"], ["a", "b"]], Log.ofEvs [["c"]], Log.ofEvs [["a"], ["b"], ["b"], ["b"]]]

/-- Three logs in a grid of two by two; the bars of the first log are 2 and 1. -/
example : plotTracesHistograms (fun s => s) exLogs ["x", "y", "z"] none (some "t") =
      ([.grid 2 2, .title (0, 0) "x", .hist (0, 0) [1, 1, 2] [1, 2, 3], .title (0, 1) "y", .hist (0, 1) [1] [1, 2],
        .title (1, 0) "z", .hist (1, 0) [1, 2, 2, 2] [1, 2, 3], .suptitle (some "t"), .show], none) ∧
    barHeights [1, 1, 2] [1, 2, 3] = [2, 1] ∧ barHeights [1, 2, 2, 2] [1, 2, 3] = [1, 3] := by decide +kernel

/-- Four events, two of them with the same entropy. -/
def exEntropies : Dict String Nat := [("a", 2), ("b", 5), ("c", 2), ("d", 3)]

def exBarPalette : Palette := ⟨[], [], [(1, 0, 0), (2, 0, 0), (2, 0, 0), (3, 0, 0), (4, 0, 0)]⟩

example : exEntropies.WF ∧ drawEntropies toString exEntropies exBarPalette =
    .done (⟨[⟨0, 2, "#010000"⟩, ⟨1, 5, "#020000"⟩, ⟨2, 2, "#030000"⟩, ⟨3, 3, "#040000"⟩],
      [(⟨1, 5, "#020000"⟩, "b 5"), (⟨3, 3, "#040000"⟩, "d 3"), (⟨0, 2, "#010000"⟩, "a 2"), (⟨2, 2, "#030000"⟩, "c 2")]⟩,
      ⟨[.text "#010000", .text "#020000", .text "#030000", .text "#040000"], [], []⟩) := by decide +kernel

end Ficus
