import Verif.Proofs.Extract

namespace Ficus
open Spec

theorem slice_one {α : Type} (t : List α) (i : Nat) (e : α) (h : t[i]? = some e) : slice t i 1 = [e] := by
  unfold slice
  have hlt : i < t.length := by
    by_contra hc
    rw [List.getElem?_eq_none (by omega)] at h; cases h
  rw [List.getElem?_eq_getElem hlt] at h
  simp only [Option.some.injEq] at h
  rw [List.drop_eq_getElem_cons hlt]
  simp [h]

theorem slice_snoc {α : Type} (t : List α) (s i : Nat) (e : α) (hs : s ≤ i) (h : t[i]? = some e) :
    slice t s (i + 1 - s) = slice t s (i - s) ++ [e] := by
  have : i + 1 - s = (i - s) + 1 := by omega
  rw [this]
  unfold slice
  rw [List.take_add, List.drop_drop]
  rw [show s + (i - s) = i by omega]
  have := slice_one t i e h
  unfold slice at this
  rw [this]

/-- What is known about the running activity when the scan is about to read position `idx`. -/
def CurOk (nodes : List ActTree) (t : List Int) (idx : Nat) : Option (ActTree × Nat × List Int) → Prop
  | none => True
  | some (a, s, seen) => s < idx ∧ (∀ e, e ∈ seen ↔ e ∈ slice t s (idx - s)) ∧ a ∈ nodes ∧
      (∀ e ∈ seen, e ∈ a.events) ∧ ∀ b ∈ nodes, (∀ e ∈ seen, e ∈ b.events) → a.size ≤ b.size

def curLow (idx : Nat) : Option (ActTree × Nat × List Int) → Nat
  | none => idx
  | some (_, s, _) => s

/-- What holds for one segment. -/
structure SegOk (nodes : List ActTree) (t : List Int) (g : Seg) : Prop where
  pos : 0 < g.length
  bound : g.start + g.length ≤ t.length
  seen : ∀ e, e ∈ g.seen ↔ e ∈ slice t g.start g.length
  mem : g.act ∈ nodes
  sub : ∀ e ∈ g.seen, e ∈ g.act.events
  min : ∀ b ∈ nodes, (∀ e ∈ g.seen, e ∈ b.events) → g.act.size ≤ b.size
  max : ∀ e, t[g.start + g.length]? = some e →
    ¬ ∃ b ∈ nodes, (∀ e ∈ g.seen, e ∈ b.events) ∧ e ∈ b.events

/-- What holds for the segments found from position `lo` on. -/
structure SegsOk (nodes : List ActTree) (t : List Int) (lo : Nat) (segs : List Seg) : Prop where
  each : ∀ g ∈ segs, SegOk nodes t g
  low : ∀ g ∈ segs, lo ≤ g.start
  order : segs.Pairwise (fun g h => g.start + g.length ≤ h.start)
  cover : ∀ i e, lo ≤ i → t[i]? = some e →
    ((∃ g ∈ segs, g.start ≤ i ∧ i < g.start + g.length) ↔ ∃ b ∈ nodes, e ∈ b.events)

theorem findStart_curOk (nodes : List ActTree) (groups : List (List ActTree)) (hg : SizeGroups nodes groups)
    (t : List Int) (idx : Nat) (e : Int) (he : t[idx]? = some e) :
    CurOk nodes t (idx + 1) ((findStart groups e).map (fun a => (a, idx, [e]))) := by
  cases hf : findStart groups e with
  | none => trivial
  | some a =>
    rw [findStart_eq] at hf
    obtain ⟨h1, h2, h3⟩ := find?_min hg.sorted hf
    simp only [Option.map_some, CurOk]
    refine ⟨by omega, ?_, (hg.mem a).1 h1, ?_, ?_⟩
    · intro x
      rw [show idx + 1 - idx = 1 by omega, slice_one t idx e he]
    · intro x hx
      obtain rfl := List.mem_singleton.1 hx
      simpa using h2
    · intro b hb hbs
      exact h3 b ((hg.mem b).2 hb) (by simpa using hbs e (by simp))

theorem segsOk_start (nodes : List ActTree) (groups : List (List ActTree)) (hg : SizeGroups nodes groups)
    (t : List Int) (idx : Nat) (e : Int) (he : t[idx]? = some e) (segs : List Seg)
    (h : SegsOk nodes t (curLow (idx + 1) ((findStart groups e).map (fun a => (a, idx, [e])))) segs) :
    SegsOk nodes t idx segs := by
  cases hf : findStart groups e with
  | some a => rw [hf] at h; exact h
  | none =>
    rw [hf] at h
    simp only [Option.map_none, curLow] at h
    refine ⟨h.each, fun g hg' => by have := h.low g hg'; omega, h.order, ?_⟩
    intro i x hi hx
    rcases Nat.lt_or_ge idx i with hlt | hge
    · exact h.cover i x hlt hx
    · obtain rfl : i = idx := by omega
      rw [he] at hx
      simp only [Option.some.injEq] at hx
      subst hx
      constructor
      · rintro ⟨g, hg', h1, _⟩
        have := h.low g hg'; omega
      · rintro ⟨b, hb, hbe⟩
        rw [findStart_eq, List.find?_eq_none] at hf
        exact absurd hbe (by simpa using hf b ((hg.mem b).2 hb))

theorem scan_ok (nodes : List ActTree) (groups : List (List ActTree)) (hg : SizeGroups nodes groups)
    (t rest : List Int) (idx : Nat) (cur : Option (ActTree × Nat × List Int)) (hr : t.drop idx = rest)
    (hidx : idx ≤ t.length) (hc : CurOk nodes t idx cur) :
    SegsOk nodes t (curLow idx cur) (scan groups rest idx cur) := by
  induction rest generalizing idx cur with
  | nil =>
    have hlen : t.length ≤ idx := List.drop_eq_nil_iff.1 hr
    have hlen' : idx = t.length := by omega
    cases cur with
    | none =>
      simp only [scan, curLow]
      refine ⟨by simp, by simp, by simp, ?_⟩
      intro i e hi he
      rw [List.getElem?_eq_none (by omega)] at he; cases he
    | some c =>
      obtain ⟨a, s, seen⟩ := c
      obtain ⟨h1, h2, h3, h4, h5⟩ := hc
      simp only [scan, curLow]
      refine ⟨?_, by simp, by simp, ?_⟩
      · intro g hg'
        obtain rfl := List.mem_singleton.1 hg'
        refine ⟨by simp; omega, by simp; omega, h2, h3, h4, h5, ?_⟩
        intro e he
        simp only at he
        rw [List.getElem?_eq_none (by omega)] at he; cases he
      · intro i e hi he
        have hlt : i < t.length := by
          by_contra hcon
          rw [List.getElem?_eq_none (by omega)] at he; cases he
        constructor
        · intro _
          refine ⟨a, h3, h4 e ((h2 e).2 ?_)⟩
          unfold slice
          rw [List.mem_take_iff_getElem]
          have hh : t[i] = e := by
            rw [List.getElem?_eq_getElem hlt] at he; simpa using he
          refine ⟨i - s, by simp; omega, ?_⟩
          simp only [List.getElem_drop, show s + (i - s) = i by omega]
          exact hh
        · intro _
          exact ⟨⟨a, s, idx - s, seen⟩, by simp, hi, by simp; omega⟩
  | cons e rest ih =>
    have hi : t[idx]? = some e := by
      have := congrArg (fun l => l[0]?) hr
      simpa using this
    have hlt : idx < t.length := by
      by_contra hcon
      rw [List.getElem?_eq_none (by omega)] at hi; cases hi
    have hr' : t.drop (idx + 1) = rest := by
      rw [← List.tail_drop, hr]; rfl
    have hstart : SegsOk nodes t idx
        (scan groups rest (idx + 1) ((findStart groups e).map (fun a => (a, idx, [e])))) :=
      segsOk_start nodes groups hg t idx e hi _
        (ih (idx + 1) _ hr' hlt (findStart_curOk nodes groups hg t idx e hi))
    cases cur with
    | none => simpa [scan, curLow] using hstart
    | some c =>
      obtain ⟨a, s, seen⟩ := c
      obtain ⟨h1, h2, h3, h4, h5⟩ := hc
      have hseen : ∀ x, x ∈ e :: seen ↔ x ∈ slice t s (idx + 1 - s) := by
        intro x
        rw [slice_snoc t s idx e (by omega) hi, List.mem_cons, List.mem_append, List.mem_singleton, h2 x]
        tauto
      simp only [scan, curLow]
      by_cases he : e ∈ a.events
      · rw [if_pos he]
        refine ih (idx + 1) (some (a, s, e :: seen)) hr' hlt ⟨by omega, hseen, h3, ?_, ?_⟩
        · intro x hx
          rcases List.mem_cons.1 hx with rfl | hx
          · exact he
          · exact h4 x hx
        · intro b hb hbs
          exact h5 b hb (fun x hx => hbs x (by simp [hx]))
      · rw [if_neg he]
        rw [findLarger_eq groups hg.const]
        cases hl : groups.flatten.find? (fun x => decide (a.size ≤ x.size) && x.covers (e :: seen)) with
        | some a' =>
          simp only
          obtain ⟨k1, k2, k3⟩ := find?_min hg.sorted hl
          simp only [Bool.and_eq_true, decide_eq_true_eq, covers_iff] at k2 k3
          refine ih (idx + 1) (some (a', s, e :: seen)) hr' hlt ⟨by omega, hseen, (hg.mem a').1 k1, k2.2, ?_⟩
          intro b hb hbs
          exact k3 b ((hg.mem b).2 hb) ⟨h5 b hb (fun x hx => hbs x (by simp [hx])), hbs⟩
        | none =>
          simp only
          have hmax : ¬ ∃ b ∈ nodes, (∀ x ∈ seen, x ∈ b.events) ∧ e ∈ b.events := by
            rintro ⟨b, hb, hbs, hbe⟩
            rw [List.find?_eq_none] at hl
            have := hl b ((hg.mem b).2 hb)
            apply this
            simp only [Bool.and_eq_true, decide_eq_true_eq, covers_iff]
            refine ⟨h5 b hb hbs, ?_⟩
            intro x hx
            rcases List.mem_cons.1 hx with rfl | hx
            · exact hbe
            · exact hbs x hx
          refine ⟨?_, ?_, ?_, ?_⟩
          · intro g hg'
            rcases List.mem_cons.1 hg' with rfl | hg'
            · refine ⟨by simp; omega, by simp; omega, h2, h3, h4, h5, ?_⟩
              intro x hx
              simp only [show s + (idx - s) = idx by omega] at hx
              rw [hi] at hx
              simp only [Option.some.injEq] at hx
              subst hx
              exact hmax
            · exact hstart.each g hg'
          · intro g hg'
            rcases List.mem_cons.1 hg' with rfl | hg'
            · simp
            · have := hstart.low g hg'; omega
          · rw [List.pairwise_cons]
            refine ⟨?_, hstart.order⟩
            intro g hg'
            have := hstart.low g hg'
            simp only; omega
          · intro i x hi' hx
            rcases Nat.lt_or_ge i idx with hlt' | hge
            · constructor
              · intro _
                refine ⟨a, h3, h4 x ((h2 x).2 ?_)⟩
                unfold slice
                rw [List.mem_take_iff_getElem]
                have hilt : i < t.length := by omega
                have hh : t[i] = x := by
                  rw [List.getElem?_eq_getElem hilt] at hx; simpa using hx
                refine ⟨i - s, by simp; omega, ?_⟩
                simp only [List.getElem_drop, show s + (i - s) = i by omega]
                exact hh
              · intro _
                exact ⟨⟨a, s, idx - s, seen⟩, by simp, hi', by simp; omega⟩
            · rw [← hstart.cover i x hge hx]
              constructor
              · rintro ⟨g, hg', k1, k2⟩
                rcases List.mem_cons.1 hg' with rfl | hg'
                · simp only at k2; omega
                · exact ⟨g, hg', k1, k2⟩
              · rintro ⟨g, hg', k⟩
                exact ⟨g, by simp [hg'], k⟩

theorem scan_segsOk (nodes : List ActTree) (t : List Int) :
    SegsOk nodes t 0 (scan (splitBySize nodes) t 0 none) :=
  scan_ok nodes _ (splitBySize_spec nodes) t t 0 none rfl (by omega) trivial

end Ficus
