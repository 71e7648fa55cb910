import Verif.Proofs.Scan
import Verif.Spec.RsActivities

/-! Lemmas for the extraction of activity instances of the backend. -/

namespace Ficus.Rs
open Spec
variable (heap : Heap)

theorem sizeLists_spec (groups : List (List Nat)) (cur : Nat) (xs : List Nat)
    (hne : groups ≠ []) (hlast : ∀ a ∈ groups.getLastD [], (heap a).size = cur)
    (hgood : ∀ g ∈ groups, g ≠ [] ∧ ∀ a ∈ g, ∀ b ∈ g, (heap a).size = (heap b).size) :
    (sizeLists heap groups cur xs).flatten = groups.flatten ++ xs ∧
      ∀ g ∈ sizeLists heap groups cur xs, g ≠ [] ∧ ∀ a ∈ g, ∀ b ∈ g, (heap a).size = (heap b).size := by
  induction xs generalizing groups cur with
  | nil => simpa [sizeLists] using hgood
  | cons x xs ih =>
    unfold sizeLists
    by_cases h : (heap x).size = cur
    · rw [if_neg (by simpa using h)]
      have hd : groups = groups.dropLast ++ [groups.getLastD []] := by
        rw [List.getLastD_eq_getLast?, List.getLast?_eq_some_getLast hne]
        exact (List.dropLast_append_getLast hne).symm
      have := ih (groups.dropLast ++ [groups.getLastD [] ++ [x]]) cur (by simp)
        (by
          intro a ha
          simp only [List.getLastD_concat, List.mem_append, List.mem_singleton] at ha
          rcases ha with ha | rfl
          · exact hlast a ha
          · exact h)
        (by
          intro g hg
          rcases List.mem_append.1 hg with hg | hg
          · exact hgood g (by rw [hd]; simp [hg])
          · obtain rfl := List.mem_singleton.1 hg
            refine ⟨by simp, ?_⟩
            have hs : ∀ a ∈ groups.getLastD [] ++ [x], (heap a).size = cur := by
              intro a ha
              rcases List.mem_append.1 ha with ha | ha
              · exact hlast a ha
              · obtain rfl := List.mem_singleton.1 ha; exact h
            intro a ha b hb
            rw [hs a ha, hs b hb])
      refine ⟨?_, this.2⟩
      refine this.1.trans ?_
      conv_rhs => rw [hd]
      simp
    · rw [if_pos h]
      have := ih (groups ++ [[x]]) (heap x).size (by simp) (by simp)
        (by
          intro g hg
          rcases List.mem_append.1 hg with hg | hg
          · exact hgood g hg
          · obtain rfl := List.mem_singleton.1 hg; simp)
      refine ⟨?_, this.2⟩
      rw [this.1]; simp

/-- What the search relies on: groups of equal size, in order of size. -/
structure SizeGroups (nodes : List Nat) (groups : List (List Nat)) : Prop where
  mem : ∀ a, a ∈ groups.flatten ↔ a ∈ nodes
  const : ∀ g ∈ groups, ∀ a ∈ g, ∀ b ∈ g, (heap a).size = (heap b).size
  sorted : groups.flatten.Pairwise (fun a b => (heap a).size ≤ (heap b).size)

theorem bySize_spec (nodes : List Nat) : SizeGroups heap nodes (bySize heap nodes) := by
  unfold bySize sortActivities
  have hperm := List.perm_insertionSort (fun a b : Nat => (heap a).size ≤ (heap b).size) nodes
  have : Std.Total (fun a b : Nat => (heap a).size ≤ (heap b).size) := ⟨fun a b => by omega⟩
  have : IsTrans Nat (fun a b : Nat => (heap a).size ≤ (heap b).size) := ⟨fun a b c h1 h2 => by omega⟩
  have hsort := List.pairwise_insertionSort (fun a b : Nat => (heap a).size ≤ (heap b).size) nodes
  cases hs : nodes.insertionSort (fun a b : Nat => (heap a).size ≤ (heap b).size) with
  | nil =>
    rw [hs] at hperm
    have hn : nodes = [] := hperm.symm.eq_nil
    subst hn
    exact ⟨by simp, by simp, by simp⟩
  | cons a rest =>
    rw [hs] at hperm hsort
    simp only
    obtain ⟨h1, h2⟩ := sizeLists_spec heap [[a]] (heap a).size (a :: rest) (by simp) (by simp) (by simp)
    have h1' : (sizeLists heap [[a]] (heap a).size (a :: rest)).flatten = a :: a :: rest := by simpa using h1
    have hsort' : (a :: a :: rest).Pairwise (fun a b => (heap a).size ≤ (heap b).size) := by
      refine List.pairwise_cons.2 ⟨?_, hsort⟩
      intro b hb
      rcases List.mem_cons.1 hb with rfl | hb
      · exact le_refl _
      · exact (List.pairwise_cons.1 hsort).1 b hb
    refine ⟨?_, ?_, ?_⟩
    · intro b
      have hb : b ∈ nodes ↔ b ∈ a :: a :: rest := by rw [← hperm.mem_iff]; simp
      rw [hb, ← h1']
      simp only [List.mem_flatten, List.mem_map]
      constructor
      · rintro ⟨l, ⟨g, hg, rfl⟩, hb⟩
        exact ⟨g, hg, by simpa using hb⟩
      · rintro ⟨g, hg, hb⟩
        exact ⟨_, ⟨g, hg, rfl⟩, by simpa using hb⟩
    · intro l hl b hb c hc
      obtain ⟨g, hg, rfl⟩ := List.mem_map.1 hl
      exact (h2 g hg).2 b (by simpa using hb) c (by simpa using hc)
    · rw [← h1', List.pairwise_flatten] at hsort'
      rw [List.pairwise_flatten]
      constructor
      · intro l hl
        obtain ⟨g, hg, rfl⟩ := List.mem_map.1 hl
        apply List.pairwise_iff_forall_sublist.2
        intro b c hbc
        have hb : b ∈ g := by simpa using hbc.subset (List.mem_cons_self)
        have hc : c ∈ g := by simpa using hbc.subset (List.mem_cons_of_mem _ (List.mem_cons_self))
        exact le_of_eq ((h2 g hg).2 b hb c hc)
      · rw [List.pairwise_map]
        refine hsort'.2.imp ?_
        intro g h hgh b hb c hc
        exact hgh b (by simpa using hb) c (by simpa using hc)

theorem firstKnowing_eq (groups : List (List Nat)) (e : Nat) :
    firstKnowing heap groups e = groups.flatten.find? (fun a => decide (e ∈ (heap a).classes)) := by
  unfold firstKnowing; rw [List.find?_flatten]

theorem firstLarger_eq (groups : List (List Nat)) (hc : ∀ g ∈ groups, ∀ a ∈ g, ∀ b ∈ g, (heap a).size = (heap b).size)
    (cur : Nat) (s : List Nat) :
    firstLarger heap groups cur s = groups.flatten.find? (fun a => decide ((heap cur).size ≤ (heap a).size) && (heap a).covers s) := by
  unfold firstLarger
  induction groups with
  | nil => rfl
  | cons g groups ih =>
    have ih := ih (fun g' hg' => hc g' (by simp [hg']))
    rw [List.flatten_cons, List.find?_append, List.findSome?_cons, ih]
    cases g with
    | nil => simp
    | cons a g' =>
      have hcg := hc (a :: g') (by simp)
      simp only
      by_cases h : (heap a).size < (heap cur).size
      · rw [if_pos h]
        have : (a :: g').find? (fun a => decide ((heap cur).size ≤ (heap a).size) && (heap a).covers s) = none := by
          rw [List.find?_eq_none]
          intro x hx
          have := hcg x hx a (by simp)
          simp; intro; omega
        rw [this]; rfl
      · rw [if_neg h]
        have : (a :: g').find? (fun a => decide ((heap cur).size ≤ (heap a).size) && (heap a).covers s) =
            (a :: g').find? (fun a => (heap a).covers s) := by
          apply find?_congr'
          intro x hx
          have := hcg x hx a (by simp)
          simp; intro; omega
        rw [this]
        cases (a :: g').find? (fun a => (heap a).covers s) <;> rfl

theorem covers_iff (t : Nat) (s : List Nat) : (heap t).covers s = true ↔ ∀ e ∈ s, e ∈ (heap t).classes := by
  simp [RNode.covers]

theorem find?_min {l : List Nat} (hl : l.Pairwise (fun a b => (heap a).size ≤ (heap b).size)) {p : Nat → Bool} {a : Nat}
    (h : l.find? p = some a) : a ∈ l ∧ p a = true ∧ ∀ b ∈ l, p b = true → (heap a).size ≤ (heap b).size := by
  rw [List.find?_eq_some_iff_append] at h
  obtain ⟨hp, as, bs, rfl, hpre⟩ := h
  refine ⟨by simp, hp, ?_⟩
  intro b hb hpb
  rcases List.mem_append.1 hb with hb | hb
  · have := hpre b hb; simp [hpb] at this
  · rw [List.pairwise_append] at hl
    rcases List.mem_cons.1 hb with rfl | hb
    · exact le_refl _
    · exact (List.pairwise_cons.1 hl.2.1).1 b hb

/-! ### The scan as a function of the remaining events -/

/-- A segment before narrowing and filtering: activity, start, length, observed set (latest event first). -/
structure RSeg where
  node : Nat
  start : Nat
  length : Nat
  seen : List Nat

/-- The segments found from a given situation. -/
def segments (groups : List (List Nat)) : List Nat → Nat → Option (Nat × Nat × List Nat) → List RSeg
  | [], _, none => []
  | [], idx, some (a, s, seen) => [⟨a, s, idx - s, seen⟩]
  | e :: rest, idx, none => segments groups rest (idx + 1) ((firstKnowing heap groups e).map (fun a => (a, idx, [e])))
  | e :: rest, idx, some (a, s, seen) =>
    if e ∈ (heap a).classes then segments groups rest (idx + 1) (some (a, s, e :: seen))
    else
      match firstLarger heap groups a (e :: seen) with
      | some a' => segments groups rest (idx + 1) (some (a', s, e :: seen))
      | none => ⟨a, s, idx - s, seen⟩ ::
          segments groups rest (idx + 1) ((firstKnowing heap groups e).map (fun a => (a, idx, [e])))

/-- What is known about the running activity when the segments heap is about to read position `idx`. -/
def CurOk (nodes : List Nat) (t : List Nat) (idx : Nat) : Option (Nat × Nat × List Nat) → Prop
  | none => True
  | some (a, s, seen) => s < idx ∧ (∀ e, e ∈ seen ↔ e ∈ slice t s (idx - s)) ∧ a ∈ nodes ∧
      (∀ e ∈ seen, e ∈ (heap a).classes) ∧ ∀ b ∈ nodes, (∀ e ∈ seen, e ∈ (heap b).classes) → (heap a).size ≤ (heap b).size

def curLow (idx : Nat) : Option (Nat × Nat × List Nat) → Nat
  | none => idx
  | some (_, s, _) => s

/-- What holds for one segment. -/
structure SegOk (nodes : List Nat) (t : List Nat) (g : RSeg) : Prop where
  pos : 0 < g.length
  bound : g.start + g.length ≤ t.length
  seen : ∀ e, e ∈ g.seen ↔ e ∈ slice t g.start g.length
  mem : g.node ∈ nodes
  sub : ∀ e ∈ g.seen, e ∈ (heap g.node).classes
  min : ∀ b ∈ nodes, (∀ e ∈ g.seen, e ∈ (heap b).classes) → (heap g.node).size ≤ (heap b).size
  max : ∀ e, t[g.start + g.length]? = some e →
    ¬ ∃ b ∈ nodes, (∀ e ∈ g.seen, e ∈ (heap b).classes) ∧ e ∈ (heap b).classes

/-- What holds for the segments found from position `lo` on. -/
structure SegsOk (nodes : List Nat) (t : List Nat) (lo : Nat) (segs : List RSeg) : Prop where
  each : ∀ g ∈ segs, SegOk heap nodes t g
  low : ∀ g ∈ segs, lo ≤ g.start
  order : segs.Pairwise (fun g h => g.start + g.length ≤ h.start)
  cover : ∀ i e, lo ≤ i → t[i]? = some e →
    ((∃ g ∈ segs, g.start ≤ i ∧ i < g.start + g.length) ↔ ∃ b ∈ nodes, e ∈ (heap b).classes)

theorem firstKnowing_curOk (nodes : List Nat) (groups : List (List Nat)) (hg : SizeGroups heap nodes groups)
    (t : List Nat) (idx : Nat) (e : Nat) (he : t[idx]? = some e) :
    CurOk heap nodes t (idx + 1) ((firstKnowing heap groups e).map (fun a => (a, idx, [e]))) := by
  cases hf : firstKnowing heap groups e with
  | none => trivial
  | some a =>
    rw [firstKnowing_eq heap] at hf
    obtain ⟨h1, h2, h3⟩ := find?_min heap hg.sorted hf
    simp only [Option.map_some, CurOk]
    refine ⟨by omega, ?_, (hg.mem a).1 h1, ?_, ?_⟩
    · intro x
      rw [show idx + 1 - idx = 1 by omega, slice_one t idx e he]
    · intro x hx
      obtain rfl := List.mem_singleton.1 hx
      simpa using h2
    · intro b hb hbs
      exact h3 b ((hg.mem b).2 hb) (by simpa using hbs e (by simp))

theorem segsOk_start (nodes : List Nat) (groups : List (List Nat)) (hg : SizeGroups heap nodes groups)
    (t : List Nat) (idx : Nat) (e : Nat) (he : t[idx]? = some e) (segs : List RSeg)
    (h : SegsOk heap nodes t (curLow (idx + 1) ((firstKnowing heap groups e).map (fun a => (a, idx, [e])))) segs) :
    SegsOk heap nodes t idx segs := by
  cases hf : firstKnowing heap groups e with
  | some a => rw [hf] at h; exact h
  | none =>
    rw [hf] at h
    simp only [Option.map_none, curLow] at h
    refine ⟨h.each, fun g hg' => by have := h.low g hg'; omega, h.order, ?_⟩
    intro i x hi hx
    rcases Nat.lt_or_ge idx i with hlt | hge
    · exact h.cover i x hlt hx
    · obtain rfl : i = idx := by omega
      rw [he] at hx
      simp only [Option.some.injEq] at hx
      subst hx
      constructor
      · rintro ⟨g, hg', h1, _⟩
        have := h.low g hg'; omega
      · rintro ⟨b, hb, hbe⟩
        rw [firstKnowing_eq heap, List.find?_eq_none] at hf
        exact absurd hbe (by simpa using hf b ((hg.mem b).2 hb))

theorem segments_ok (nodes : List Nat) (groups : List (List Nat)) (hg : SizeGroups heap nodes groups)
    (t rest : List Nat) (idx : Nat) (cur : Option (Nat × Nat × List Nat)) (hr : t.drop idx = rest)
    (hidx : idx ≤ t.length) (hc : CurOk heap nodes t idx cur) :
    SegsOk heap nodes t (curLow idx cur) (segments heap groups rest idx cur) := by
  induction rest generalizing idx cur with
  | nil =>
    have hlen : t.length ≤ idx := List.drop_eq_nil_iff.1 hr
    have hlen' : idx = t.length := by omega
    cases cur with
    | none =>
      simp only [segments, curLow]
      refine ⟨by simp, by simp, by simp, ?_⟩
      intro i e hi he
      rw [List.getElem?_eq_none (by omega)] at he; cases he
    | some c =>
      obtain ⟨a, s, seen⟩ := c
      obtain ⟨h1, h2, h3, h4, h5⟩ := hc
      simp only [segments, curLow]
      refine ⟨?_, by simp, by simp, ?_⟩
      · intro g hg'
        obtain rfl := List.mem_singleton.1 hg'
        refine ⟨by simp; omega, by simp; omega, h2, h3, h4, h5, ?_⟩
        intro e he
        simp only at he
        rw [List.getElem?_eq_none (by omega)] at he; cases he
      · intro i e hi he
        have hlt : i < t.length := by
          by_contra hcon
          rw [List.getElem?_eq_none (by omega)] at he; cases he
        constructor
        · intro _
          refine ⟨a, h3, h4 e ((h2 e).2 ?_)⟩
          unfold slice
          rw [List.mem_take_iff_getElem]
          have hh : t[i] = e := by
            rw [List.getElem?_eq_getElem hlt] at he; simpa using he
          refine ⟨i - s, by simp; omega, ?_⟩
          simp only [List.getElem_drop, show s + (i - s) = i by omega]
          exact hh
        · intro _
          exact ⟨⟨a, s, idx - s, seen⟩, by simp, hi, by simp; omega⟩
  | cons e rest ih =>
    have hi : t[idx]? = some e := by
      have := congrArg (fun l => l[0]?) hr
      simpa using this
    have hlt : idx < t.length := by
      by_contra hcon
      rw [List.getElem?_eq_none (by omega)] at hi; cases hi
    have hr' : t.drop (idx + 1) = rest := by
      rw [← List.tail_drop, hr]; rfl
    have hstart : SegsOk heap nodes t idx
        (segments heap groups rest (idx + 1) ((firstKnowing heap groups e).map (fun a => (a, idx, [e])))) :=
      segsOk_start heap nodes groups hg t idx e hi _
        (ih (idx + 1) _ hr' hlt (firstKnowing_curOk heap nodes groups hg t idx e hi))
    cases cur with
    | none => simpa [segments, curLow] using hstart
    | some c =>
      obtain ⟨a, s, seen⟩ := c
      obtain ⟨h1, h2, h3, h4, h5⟩ := hc
      have hseen : ∀ x, x ∈ e :: seen ↔ x ∈ slice t s (idx + 1 - s) := by
        intro x
        rw [slice_snoc t s idx e (by omega) hi, List.mem_cons, List.mem_append, List.mem_singleton, h2 x]
        tauto
      simp only [segments, curLow]
      by_cases he : e ∈ (heap a).classes
      · rw [if_pos he]
        refine ih (idx + 1) (some (a, s, e :: seen)) hr' hlt ⟨by omega, hseen, h3, ?_, ?_⟩
        · intro x hx
          rcases List.mem_cons.1 hx with rfl | hx
          · exact he
          · exact h4 x hx
        · intro b hb hbs
          exact h5 b hb (fun x hx => hbs x (by simp [hx]))
      · rw [if_neg he]
        rw [firstLarger_eq heap groups hg.const]
        cases hl : groups.flatten.find? (fun x => decide ((heap a).size ≤ (heap x).size) && (heap x).covers (e :: seen)) with
        | some a' =>
          simp only
          obtain ⟨k1, k2, k3⟩ := find?_min heap hg.sorted hl
          simp only [Bool.and_eq_true, decide_eq_true_eq, covers_iff] at k2 k3
          refine ih (idx + 1) (some (a', s, e :: seen)) hr' hlt ⟨by omega, hseen, (hg.mem a').1 k1, k2.2, ?_⟩
          intro b hb hbs
          exact k3 b ((hg.mem b).2 hb) ⟨h5 b hb (fun x hx => hbs x (by simp [hx])), hbs⟩
        | none =>
          simp only
          have hmax : ¬ ∃ b ∈ nodes, (∀ x ∈ seen, x ∈ (heap b).classes) ∧ e ∈ (heap b).classes := by
            rintro ⟨b, hb, hbs, hbe⟩
            rw [List.find?_eq_none] at hl
            have := hl b ((hg.mem b).2 hb)
            apply this
            simp only [Bool.and_eq_true, decide_eq_true_eq, covers_iff]
            refine ⟨h5 b hb hbs, ?_⟩
            intro x hx
            rcases List.mem_cons.1 hx with rfl | hx
            · exact hbe
            · exact hbs x hx
          refine ⟨?_, ?_, ?_, ?_⟩
          · intro g hg'
            rcases List.mem_cons.1 hg' with rfl | hg'
            · refine ⟨by simp; omega, by simp; omega, h2, h3, h4, h5, ?_⟩
              intro x hx
              simp only [show s + (idx - s) = idx by omega] at hx
              rw [hi] at hx
              simp only [Option.some.injEq] at hx
              subst hx
              exact hmax
            · exact hstart.each g hg'
          · intro g hg'
            rcases List.mem_cons.1 hg' with rfl | hg'
            · simp
            · have := hstart.low g hg'; omega
          · rw [List.pairwise_cons]
            refine ⟨?_, hstart.order⟩
            intro g hg'
            have := hstart.low g hg'
            simp only; omega
          · intro i x hi' hx
            rcases Nat.lt_or_ge i idx with hlt' | hge
            · constructor
              · intro _
                refine ⟨a, h3, h4 x ((h2 x).2 ?_)⟩
                unfold slice
                rw [List.mem_take_iff_getElem]
                have hilt : i < t.length := by omega
                have hh : t[i] = x := by
                  rw [List.getElem?_eq_getElem hilt] at hx; simpa using hx
                refine ⟨i - s, by simp; omega, ?_⟩
                simp only [List.getElem_drop, show s + (i - s) = i by omega]
                exact hh
              · intro _
                exact ⟨⟨a, s, idx - s, seen⟩, by simp, hi', by simp; omega⟩
            · rw [← hstart.cover i x hge hx]
              constructor
              · rintro ⟨g, hg', k1, k2⟩
                rcases List.mem_cons.1 hg' with rfl | hg'
                · simp only at k2; omega
                · exact ⟨g, hg', k1, k2⟩
              · rintro ⟨g, hg', k⟩
                exact ⟨g, by simp [hg'], k⟩


theorem segments_segsOk (nodes : List Nat) (t : List Nat) : SegsOk heap nodes t 0 (segments heap (bySize heap nodes) t 0 none) :=
  segments_ok heap nodes _ (bySize_spec heap nodes) t t 0 none rfl (by omega) trivial

/-- An instance is added for a segment. -/
def closeSegment (o : Options) (out : List RInstance) (g : RSeg) : Option (List RInstance) :=
  closeInstance heap o out g.node g.start (g.start + g.length) g.seen

/-- The end of the loop over a trace. -/
def endTrace (o : Options) (st : Scanned) : Option (List RInstance) :=
  match st.current with
  | none => some st.out
  | some (p, start, seen) => closeInstance heap o st.out p start st.index seen

/-- The start of an open instance is before the index. -/
def StartOk : Scanned → Prop
  | ⟨_, none, _⟩ => True
  | ⟨i, some (_, s, _), _⟩ => s ≤ i

theorem rounds_eq (o : Options) (groups : List (List Nat)) (t rest : List Nat) (fuel : Nat) (st : Scanned)
    (hr : t.drop st.index = rest) (hf : 2 * rest.length ≤ fuel) (hs : StartOk st) :
    (scanRounds heap o groups t fuel st).bind (endTrace heap o) =
      (segments heap groups rest st.index st.current).foldlM (closeSegment heap o) st.out := by
  induction rest generalizing fuel st with
  | nil =>
    have hlen : t.length ≤ st.index := List.drop_eq_nil_iff.1 hr
    have hn : t[st.index]? = none := List.getElem?_eq_none hlen
    unfold scanRounds
    rw [hn]
    obtain ⟨i, cur, out⟩ := st
    cases cur with
    | none => rfl
    | some c =>
      obtain ⟨p, s, seen⟩ := c
      simp only [StartOk] at hs
      simp only [Option.bind_some, endTrace, segments, List.foldlM_cons, List.foldlM_nil, closeSegment,
        show s + (i - s) = i by omega]
      cases closeInstance heap o out p s i seen <;> rfl
  | cons e rest ih =>
    have hi : t[st.index]? = some e := by
      have := congrArg (fun l => l[0]?) hr
      simpa using this
    have hr' : t.drop (st.index + 1) = rest := by
      rw [← List.tail_drop, hr]; rfl
    obtain ⟨i, cur, out⟩ := st
    simp only [List.length_cons] at hf
    -- the step without an activity
    have hnone : ∀ (out : List RInstance) (fuel : Nat), 2 * rest.length + 1 ≤ fuel →
        (scanRounds heap o groups t fuel ⟨i, none, out⟩).bind (endTrace heap o) =
          (segments heap groups rest (i + 1) ((firstKnowing heap groups e).map (fun a => (a, i, [e])))).foldlM
            (closeSegment heap o) out := by
      intro out fuel hf
      obtain ⟨fuel, rfl⟩ : ∃ f, fuel = f + 1 := ⟨fuel - 1, by omega⟩
      rw [scanRounds.eq_def]
      simp only at hi
      simp only [hi, scanEvent]
      refine ih fuel ⟨i + 1, _, out⟩ hr' (by omega) ?_
      cases firstKnowing heap groups e with
      | none => trivial
      | some p => simp [StartOk]
    cases cur with
    | none => exact hnone out fuel (by omega)
    | some c =>
      obtain ⟨p, s, seen⟩ := c
      simp only [StartOk] at hs
      obtain ⟨fuel, rfl⟩ : ∃ f, fuel = f + 1 := ⟨fuel - 1, by omega⟩
      rw [scanRounds.eq_def]
      simp only at hi
      simp only [hi, scanEvent, segments]
      by_cases he : e ∈ (heap p).classes
      · simp only [if_pos he]
        exact ih fuel ⟨i + 1, some (p, s, e :: seen), out⟩ hr' (by omega) (by simp [StartOk]; omega)
      · simp only [if_neg he]
        cases hl : firstLarger heap groups p (e :: seen) with
        | some q =>
          simp only
          exact ih fuel ⟨i + 1, some (q, s, e :: seen), out⟩ hr' (by omega) (by simp [StartOk]; omega)
        | none =>
          simp only [List.foldlM_cons]
          have hcl : closeSegment heap o out ⟨p, s, i - s, seen⟩ = closeInstance heap o out p s i seen := by
            unfold closeSegment
            simp only [show s + (i - s) = i by omega]
          rw [hcl]
          cases closeInstance heap o out p s i seen with
          | none => rfl
          | some out' => exact hnone out' fuel (by omega)

theorem instancesOfTrace_eq (o : Options) (groups : List (List Nat)) (t : List Nat) :
    instancesOfTrace heap o groups t = (segments heap groups t 0 none).foldlM (closeSegment heap o) [] := by
  have := rounds_eq heap o groups t t (2 * t.length) ⟨0, none, []⟩ rfl (le_refl _) trivial
  rw [← this]
  unfold instancesOfTrace
  cases scanRounds heap o groups t (2 * t.length) ⟨0, none, []⟩ with
  | none => rfl
  | some st =>
    obtain ⟨i, cur, out⟩ := st
    cases cur <;> rfl

end Ficus.Rs
