import Verif.Props.RsNewLog

/-! Property C134: instances in the unattached parts of traces, and the log of the unattached events. -/

namespace Ficus.Rs
open Spec

/-- The extraction with the vector of activities after an extraction: it is the same. -/
theorem extract_sorted (h : Heap) (o : Options) (log : List (List Nat)) (acts : List Nat) :
    extractInstances h o log (sortActivities h acts) = extractInstances h o log acts := by
  have : sortActivities h (sortActivities h acts) = sortActivities h acts :=
    List.Pairwise.insertionSort_eq (sort_pairwise h acts)
  unfold extractInstances bySize
  rw [this]

theorem placedFrom_append {k a n : Nat} {u v : List (Nat × Nat)} (hu : PlacedFrom k a u) (hv : PlacedFrom a n v) :
    PlacedFrom k n (u ++ v) := by
  have h1 := hu.le
  have h2 := hv.le
  refine ⟨by omega, ?_, List.pairwise_append.2 ⟨hu.order, hv.order, ?_⟩⟩
  · intro p hp
    rcases List.mem_append.1 hp with hp | hp
    · have := hu.each p hp; omega
    · have := hv.each p hp; omega
  · intro p hp q hq
    have := hu.each p hp
    have := hv.each q hq
    omega

theorem placedFrom_nil {k n : Nat} (h : k ≤ n) : PlacedFrom k n [] := ⟨h, by simp, List.Pairwise.nil⟩

theorem weave_placed (N : Nat × Nat → List RInstance) (k n : Nat) (is : List RInstance) (h : PlacedFrom k n (is.map spanOf))
    (hN : ∀ b ∈ gapsFrom k n (is.map spanOf), PlacedFrom b.1 b.2 ((N b).map spanOf)) :
    PlacedFrom k n ((weave ((gapsFrom k n (is.map spanOf)).map N) (is.map (fun i => [i]))).map spanOf) := by
  induction is generalizing k with
  | nil =>
    have := hN (k, n) (by simp [gapsFrom_nil])
    simpa [gapsFrom_nil, weave] using this
  | cons i is ih =>
    have e : gapsFrom k n ((i :: is).map spanOf) = (k, i.startPos) :: gapsFrom (i.startPos + i.length) n (is.map spanOf) := rfl
    rw [e] at hN ⊢
    have hi := h.each (spanOf i) (by simp)
    simp only [spanOf] at hi
    have hrest := ih (i.startPos + i.length) h.tail (fun b hb => hN b (List.mem_cons_of_mem _ hb))
    have hfirst := hN (k, i.startPos) (by simp)
    simp only [List.map_cons, weave, List.map_append]
    refine placedFrom_append hfirst (placedFrom_append (a := i.startPos + i.length) ⟨by omega, ?_, by simp⟩ hrest)
    intro p hp
    simp only [List.map_nil, List.mem_singleton] at hp
    subst hp
    simp only [spanOf]
    omega

theorem weave_perm {A : Type} (gs bs : List (List A)) : (weave gs bs).Perm (gs.flatten ++ bs.flatten) := by
  induction bs generalizing gs with
  | nil => cases gs <;> simp [weave]
  | cons b bs ih =>
    cases gs with
    | nil => simp [weave]
    | cons g gs =>
      simp only [weave, List.flatten_cons, List.append_assoc]
      refine List.Perm.append_left g ?_
      refine (List.Perm.append_left b (ih gs)).trans ?_
      rw [← List.append_assoc, ← List.append_assoc]
      exact List.Perm.append_right _ List.perm_append_comm

theorem traceInstances_nil (h : Heap) (kind : Narrowing) (m : Nat) (f : FilterKind) (acts : List Nat) :
    traceInstances h kind m f acts [] = [] := by
  have hp := (traceInstances_placed h kind m f acts []).1
  cases hr : traceInstances h kind m f acts [] with
  | nil => rfl
  | cons i is =>
    rw [hr] at hp
    have := hp (spanOf i) (by simp)
    simp only [List.length_nil] at this
    omega

/-- What is added in a gap. -/
def addedIn (h : Heap) (kind : Narrowing) (m : Nat) (f : FilterKind) (minEvents : Nat) (acts t : List Nat) (b : Nat × Nat) :
    List RInstance :=
  (if b.2 - b.1 < minEvents then [] else traceInstances h kind m f acts (between t b)).map (movedBy b.1)

theorem addedIn_placed (h : Heap) (kind : Narrowing) (m : Nat) (f : FilterKind) (minEvents : Nat) (acts t : List Nat) (b : Nat × Nat)
    (hb : b.1 ≤ b.2 ∧ b.2 ≤ t.length) : PlacedFrom b.1 b.2 ((addedIn h kind m f minEvents acts t b).map spanOf) := by
  unfold addedIn
  split
  · exact placedFrom_nil hb.1
  · have hp := traceInstances_placed h kind m f acts (between t b)
    have hlen : (between t b).length = b.2 - b.1 := by
      unfold between; simp only [List.length_take, List.length_drop]; omega
    rw [hlen] at hp
    rw [List.map_map]
    refine ⟨hb.1, ?_, ?_⟩
    · intro p hp'
      obtain ⟨i, hi, rfl⟩ := List.mem_map.1 hp'
      have := hp.1 (spanOf i) (List.mem_map.2 ⟨i, hi, rfl⟩)
      simp only [spanOf] at this
      simp only [Function.comp_apply, spanOf, movedBy]
      omega
    · rw [List.pairwise_map]
      have := hp.2
      rw [List.pairwise_map] at this
      refine this.imp (fun {x y} hxy => ?_)
      simp only [spanOf] at hxy
      simp only [Function.comp_apply, spanOf, movedBy]
      omega

theorem addToInstances_eq (h : Heap) (hn : NestedIn h) (o : Options) (minEvents : Nat) (acts : List Nat) (existing : List RInstance)
    (t : List Nat) (hp : WellPlaced t.length (existing.map spanOf)) (hf : (acts.map (weight h)).sum ≤ o.fuel) :
    addToInstances h o minEvents acts existing t =
      some (weave ((gapBounds t.length (existing.map spanOf)).map (addedIn h o.kind o.minEvents o.filter minEvents acts t))
        (existing.map (fun i => [i]))) := by
  have hpl := placedFrom_zero hp
  obtain ⟨parts, h1, h2⟩ := pieces_mapM (unattachedIn h o minEvents acts t)
    (fun a b => addedIn h o.kind o.minEvents o.filter minEvents acts t (a, b)) (fun _ => []) t.length 0 existing hpl
    (fun a b _ hab hb => by
      simp only [unattachedIn, addedIn]
      by_cases hm : b - a < minEvents
      · simp [hm]
      · simp only [hm, if_false]
        rw [rangeOf_eq t a b (by omega) hb]
        simp only [Option.bind_eq_bind, Option.bind_some, extractInstances_eq h hn o _ acts hf, List.map_cons, List.map_nil,
          List.getElem?_cons_zero, Option.getD_some, Option.pure_def]
        rfl)
    (fun i _ => rfl)
  unfold addToInstances
  rw [h1]
  simp only [Option.bind_eq_bind, Option.bind_some, Option.pure_def, Option.some.injEq]
  have hg : (gapsFrom 0 t.length (existing.map spanOf)).map
      (fun b => if b.1 < b.2 then addedIn h o.kind o.minEvents o.filter minEvents acts t (b.1, b.2) else []) =
      (gapsFrom 0 t.length (existing.map spanOf)).map (addedIn h o.kind o.minEvents o.filter minEvents acts t) := by
    refine List.map_congr_left (fun b _ => ?_)
    by_cases hb : b.1 < b.2
    · rw [if_pos hb]
    · rw [if_neg hb]
      unfold addedIn
      rw [between_empty t b hb, traceInstances_nil]
      simp
  rw [hg] at h2
  have hplaced := weave_placed (addedIn h o.kind o.minEvents o.filter minEvents acts t) 0 t.length existing hpl
    (fun b hb => addedIn_placed h o.kind o.minEvents o.filter minEvents acts t b (gapsFrom_ok hpl b hb).2)
  rw [gapBounds_eq]
  generalize hW : weave ((gapsFrom 0 t.length (existing.map spanOf)).map (addedIn h o.kind o.minEvents o.filter minEvents acts t))
    (existing.map (fun i => [i])) = W at hplaced ⊢
  refine eq_of_keys RInstance.startPos _ _ ?_ ?_ ?_
  · refine (List.perm_insertionSort _ _).trans ?_
    rw [h2, ← hW]
    have e1 : (existing.map (fun _ : RInstance => ([] : List RInstance))).flatten = [] := by simp
    have e2 : (existing.map (fun i => [i])).flatten = existing := by
      rw [← List.flatMap_def]; simp
    have p1 := weave_perm ((gapsFrom 0 t.length (existing.map spanOf)).map (addedIn h o.kind o.minEvents o.filter minEvents acts t))
      (existing.map (fun _ : RInstance => ([] : List RInstance)))
    have p2 := weave_perm ((gapsFrom 0 t.length (existing.map spanOf)).map (addedIn h o.kind o.minEvents o.filter minEvents acts t))
      (existing.map (fun i => [i]))
    rw [e1, List.append_nil] at p1
    rw [e2] at p2
    exact (p1.append_right existing).trans p2.symm
  · have : Std.Total (fun a b : RInstance => a.startPos ≤ b.startPos) := ⟨fun a b => by omega⟩
    have : IsTrans RInstance (fun a b : RInstance => a.startPos ≤ b.startPos) := ⟨fun a b c h1 h2 => by omega⟩
    exact List.pairwise_insertionSort (fun a b : RInstance => a.startPos ≤ b.startPos) _
  · have hord := hplaced.order
    rw [List.pairwise_map] at hord
    refine hord.imp_of_mem (fun {x y} hx _ hxy => ?_)
    have := hplaced.each (spanOf x) (List.mem_map.2 ⟨x, hx, rfl⟩)
    simp only [spanOf] at this hxy
    omega

theorem wellPlaced_of {n : Nat} {l : List (Nat × Nat)} (h : PlacedFrom 0 n l) : WellPlaced n l :=
  ⟨fun p hp => ⟨(h.each p hp).1, (h.each p hp).2.1⟩, h.order⟩

/-- C134a: adding instances in the unattached parts of traces always ends. The instances there were before are all kept; in every gap
with enough events those are added that extraction finds in the gap taken as a trace of its own, moved to its place; and the result
is again ordered, disjoint and inside the traces. -/
theorem C134_added (h : Heap) (hn : NestedIn h) (kind : Narrowing) (m : Nat) (f : FilterKind) (minEvents : Nat) (acts : List Nat)
    (log : List (List Nat)) (existing : List (List RInstance))
    (hp : ∀ p ∈ existing.zip log, WellPlaced p.2.length (p.1.map spanOf)) :
    ∃ n, ∀ fuel, n ≤ fuel → ∃ r, addUnattached h ⟨fuel, kind, m, f⟩ minEvents log acts existing = some r ∧
      List.Forall₂ (fun p js => ∃ found,
        List.Forall₂ (fun b g => (b.2 - b.1 < minEvents → g = []) ∧
          (minEvents ≤ b.2 - b.1 → extractInstances h ⟨fuel, kind, m, f⟩ [between p.2 b] acts = some [g]))
          (gapBounds p.2.length (p.1.map spanOf)) found ∧
        js = weave (List.zipWith (fun b g => g.map (movedBy b.1)) (gapBounds p.2.length (p.1.map spanOf)) found)
          (p.1.map (fun i => [i])) ∧
        WellPlaced p.2.length (js.map spanOf)) (existing.zip log) r := by
  refine ⟨(acts.map (weight h)).sum, fun fuel hf => ?_⟩
  refine ⟨_, mapM_eq_some _ _ _ (fun p hp' => addToInstances_eq h hn ⟨fuel, kind, m, f⟩ minEvents acts p.1 p.2 (hp p hp') hf), ?_⟩
  rw [List.forall₂_map_right_iff, List.forall₂_same]
  intro p hp'
  have hpl := placedFrom_zero (hp p hp')
  refine ⟨(gapBounds p.2.length (p.1.map spanOf)).map
    (fun b => if b.2 - b.1 < minEvents then [] else traceInstances h kind m f acts (between p.2 b)), ?_, ?_, ?_⟩
  · rw [List.forall₂_map_right_iff, List.forall₂_same]
    intro b _
    refine ⟨fun hb => if_pos hb, fun hb => ?_⟩
    rw [if_neg (by omega), extractInstances_eq h hn ⟨fuel, kind, m, f⟩ _ acts hf]
    rfl
  · rw [List.zipWith_map_right, List.zipWith_self]
    rfl
  · exact wellPlaced_of (weave_placed _ 0 _ _ hpl (fun b hb => addedIn_placed h kind m f minEvents acts p.2 b (gapsFrom_ok hpl b hb).2))

theorem mem_weave_right {A : Type} (gs bs : List (List A)) (x : A) : x ∈ weave gs bs ↔ x ∈ gs.flatten ∨ x ∈ bs.flatten := by
  rw [(weave_perm gs bs).mem_iff, List.mem_append]

theorem without_instances (h : Heap) (hn : NestedIn h) (o : Options) (minEvents : Nat) (acts : List Nat) (log : List (List Nat))
    (hf : (acts.map (weight h)).sum ≤ o.fuel) :
    addUnattached h o minEvents log acts (log.map (fun _ => [])) =
      some (log.map (fun t => if t.length < minEvents then [] else traceInstances h o.kind o.minEvents o.filter acts t)) := by
  have hwp : ∀ n, WellPlaced n (([] : List RInstance).map spanOf) := fun n => ⟨by simp, List.Pairwise.nil⟩
  unfold addUnattached
  rw [mapM_eq_some _ (fun p => if p.2.length < minEvents then [] else traceInstances h o.kind o.minEvents o.filter acts p.2)]
  · congr 1
    induction log with
    | nil => rfl
    | cons t log ih => simp only [List.map_cons, List.zip_cons_cons, ih]
  · rintro ⟨is, t⟩ hp
    have his : is = [] := by
      have := (List.of_mem_zip hp).1
      simp only [List.map_const', List.mem_replicate] at this
      exact this.2
    subst his
    rw [addToInstances_eq h hn o minEvents acts [] t (hwp _) hf]
    simp only [gapBounds_eq, List.map_nil, gapsFrom_nil, List.map_cons, weave_nil_single, addedIn, Option.some.injEq, Nat.sub_zero]
    have e : between t (0, t.length) = t := by simp [between]
    have e2 : movedBy 0 = id := by funext i; simp [movedBy]
    rw [e, e2, List.map_id]

/-- C134b: without instances this is extraction in the traces with enough events. -/
theorem C134_without_instances (h : Heap) (hn : NestedIn h) (kind : Narrowing) (m : Nat) (f : FilterKind) (minEvents : Nat)
    (acts : List Nat) (log : List (List Nat)) :
    ∃ n, ∀ fuel, n ≤ fuel → ∃ r, extractInstances h ⟨fuel, kind, m, f⟩ log acts = some r ∧
      addUnattached h ⟨fuel, kind, m, f⟩ minEvents log acts (log.map (fun _ => [])) =
        some (List.zipWith (fun t is => if t.length < minEvents then [] else is) log r) := by
  refine ⟨(acts.map (weight h)).sum, fun fuel hf => ⟨_, extractInstances_eq h hn ⟨fuel, kind, m, f⟩ log acts hf, ?_⟩⟩
  rw [without_instances h hn ⟨fuel, kind, m, f⟩ minEvents acts log hf, List.zipWith_map_right, List.zipWith_self]

theorem gap_not_covered {k n : Nat} {l : List (Nat × Nat)} (h : PlacedFrom k n l) (b : Nat × Nat) (hb : b ∈ gapsFrom k n l) (i : Nat)
    (hi : b.1 ≤ i ∧ i < b.2) : ¬ Covered l i := by
  induction l generalizing k with
  | nil => rintro ⟨p, hp, _⟩; cases hp
  | cons p l ih =>
    rw [gapsFrom_cons, List.mem_cons] at hb
    have hp := h.each p (by simp)
    rw [covered_cons]
    rcases hb with rfl | hb
    · rintro (hc | hc)
      · simp only at hi; omega
      · exact not_covered_below h.tail i (by simp only at hi; omega) hc
    · rintro (hc | hc)
      · have := gapsFrom_ok h.tail b hb; omega
      · exact ih h.tail hb hc

theorem uncovered_in_gap {k n : Nat} {l : List (Nat × Nat)} (h : PlacedFrom k n l) (b : Nat × Nat) (h1 : k ≤ b.1) (h2 : b.2 ≤ n)
    (hb : b.1 < b.2) (hc : ∀ i, b.1 ≤ i → i < b.2 → ¬ Covered l i) : ∃ c ∈ gapsFrom k n l, c.1 ≤ b.1 ∧ b.2 ≤ c.2 := by
  induction l generalizing k with
  | nil => exact ⟨(k, n), by simp [gapsFrom_nil], h1, h2⟩
  | cons p l ih =>
    rw [gapsFrom_cons]
    by_cases hp : b.2 ≤ p.1
    · exact ⟨(k, p.1), by simp, h1, hp⟩
    · have hp' := h.each p (by simp)
      have hge : p.1 + p.2 ≤ b.1 := by
        by_contra hlt
        refine hc (max b.1 p.1) (by omega) (by omega) ?_
        rw [covered_cons]
        left
        omega
      obtain ⟨c, hc', hi⟩ := ih h.tail hge (fun i hi hi' hcov => hc i hi hi' (by rw [covered_cons]; exact Or.inr hcov))
      exact ⟨c, List.mem_cons_of_mem _ hc', hi⟩

theorem weave_nils {A : Type} (gs : List (List A)) (js : List A) (h : ∀ g ∈ gs, g = []) : weave gs (js.map (fun i => [i])) = js := by
  induction js generalizing gs with
  | nil =>
    cases gs with
    | nil => rfl
    | cons g gs =>
      have : (g :: gs).flatten = [] := List.flatten_eq_nil_iff.2 h
      simpa [weave] using this
  | cons j js ih =>
    cases gs with
    | nil => simp only [weave]; rw [← List.flatMap_def]; simp
    | cons g gs =>
      simp only [List.map_cons, weave, h g (by simp), List.nil_append, ih gs (fun x hx => h x (List.mem_cons_of_mem _ hx)),
        List.singleton_append]

theorem between_getElem? {A : Type} (t : List A) (b : Nat × Nat) (j : Nat) (hj : j < b.2 - b.1) : (between t b)[j]? = t[b.1 + j]? := by
  unfold between
  rw [List.getElem?_take, if_pos hj, List.getElem?_drop]

/-- Nothing is added any more. -/
theorem nothing_more (h : Heap) (hn : NestedIn h) (kind : Narrowing) (m minEvents : Nat) (acts : List Nat)
    (is : List RInstance) (t : List Nat) (hp : WellPlaced t.length (is.map spanOf)) (fuel : Nat) (hf : (acts.map (weight h)).sum ≤ fuel) :
    ∃ js, addToInstances h ⟨fuel, kind, m, .noFilter⟩ minEvents acts is t = some js ∧
      addToInstances h ⟨fuel, kind, m, .noFilter⟩ minEvents acts js t = some js := by
  have hpl := placedFrom_zero hp
  have hjs := weave_placed (addedIn h kind m .noFilter minEvents acts t) 0 t.length is hpl
    (fun b hb => addedIn_placed h kind m .noFilter minEvents acts t b (gapsFrom_ok hpl b hb).2)
  refine ⟨_, addToInstances_eq h hn ⟨fuel, kind, m, .noFilter⟩ minEvents acts is t hp hf, ?_⟩
  rw [gapBounds_eq]
  generalize hW : weave ((gapsFrom 0 t.length (is.map spanOf)).map (addedIn h kind m .noFilter minEvents acts t))
    (is.map (fun i => [i])) = js at hjs ⊢
  rw [addToInstances_eq h hn ⟨fuel, kind, m, .noFilter⟩ minEvents acts js t (wellPlaced_of hjs) hf]
  simp only [Option.some.injEq]
  refine weave_nils _ _ ?_
  intro g hg
  obtain ⟨b, hb, rfl⟩ := List.mem_map.1 hg
  rw [gapBounds_eq] at hb
  have hbk := gapsFrom_ok hjs b hb
  unfold addedIn
  rw [List.map_eq_nil_iff]
  split
  · rfl
  · have hgreedy := traceInstances_greedy h kind m acts (between t b)
    cases hr : traceInstances h kind m .noFilter acts (between t b) with
    | nil => rfl
    | cons i rest =>
      exfalso
      rw [hr] at hgreedy
      have hlen : (between t b).length = b.2 - b.1 := by
        unfold between; simp only [List.length_take, List.length_drop]; omega
      have hi := hgreedy.placed.1 (spanOf i) (by simp)
      rw [hlen] at hi
      simp only [spanOf] at hi
      have hget : (between t b)[i.startPos]? = t[b.1 + i.startPos]? := between_getElem? t b _ (by omega)
      have hlt : b.1 + i.startPos < t.length := by omega
      rw [List.getElem?_eq_getElem hlt] at hget
      have hknown := (hgreedy.cover i.startPos _ hget).1 ⟨spanOf i, by simp, by simp [spanOf], by simp only [spanOf]; omega⟩
      have hnot := gap_not_covered hjs b hb (b.1 + i.startPos) (by omega)
      have hnot' : ∀ x, b.1 ≤ x → x < b.2 → ¬ Covered (is.map spanOf) x := by
        rintro x hx hx' ⟨p, hp', hc⟩
        obtain ⟨j, hj, rfl⟩ := List.mem_map.1 hp'
        refine gap_not_covered hjs b hb x ⟨hx, hx'⟩ ⟨spanOf j, List.mem_map.2 ⟨j, ?_, rfl⟩, hc⟩
        rw [← hW, mem_weave_right]
        exact Or.inr (List.mem_flatten.2 ⟨[j], List.mem_map.2 ⟨j, hj, rfl⟩, by simp⟩)
      obtain ⟨c, hc, hci⟩ := uncovered_in_gap hpl b (Nat.zero_le _) hbk.2.2 (by omega) hnot'
      have hck := gapsFrom_ok hpl c hc
      have hg2 := traceInstances_greedy h kind m acts (between t c)
      have hget2 : (between t c)[b.1 + i.startPos - c.1]? = t[b.1 + i.startPos]? := by
        rw [between_getElem? t c _ (by omega)]
        congr 1
        omega
      rw [List.getElem?_eq_getElem hlt] at hget2
      obtain ⟨p, hp', hcov⟩ := (hg2.cover _ _ hget2).2 hknown
      obtain ⟨j, hj, rfl⟩ := List.mem_map.1 hp'
      refine hnot ⟨spanOf (movedBy c.1 j), List.mem_map.2 ⟨movedBy c.1 j, ?_, rfl⟩, ?_⟩
      · rw [← hW, mem_weave_right]
        refine Or.inl (List.mem_flatten.2 ⟨_, List.mem_map.2 ⟨c, hc, rfl⟩, ?_⟩)
        unfold addedIn
        rw [if_neg (by omega)]
        exact List.mem_map.2 ⟨j, hj, rfl⟩
      · simp only [spanOf] at hcov
        simp only [spanOf, movedBy]
        omega

/-- C134c: without a filter, adding a second time with the same activities adds nothing. -/
theorem C134_idempotent (h : Heap) (hn : NestedIn h) (kind : Narrowing) (m minEvents : Nat) (acts : List Nat)
    (log : List (List Nat)) (existing : List (List RInstance))
    (hp : ∀ p ∈ existing.zip log, WellPlaced p.2.length (p.1.map spanOf)) :
    ∃ n, ∀ fuel, n ≤ fuel → ∃ r, addUnattached h ⟨fuel, kind, m, .noFilter⟩ minEvents log acts existing = some r ∧
      addUnattached h ⟨fuel, kind, m, .noFilter⟩ minEvents log acts r = some r := by
  refine ⟨(acts.map (weight h)).sum, fun fuel hf => ?_⟩
  unfold addUnattached
  induction existing generalizing log with
  | nil => exact ⟨[], rfl, rfl⟩
  | cons is existing ih =>
    cases log with
    | nil => exact ⟨[], rfl, rfl⟩
    | cons t log =>
      obtain ⟨r, h1, h2⟩ := ih log (fun p hp' => hp p (List.mem_cons_of_mem _ hp'))
      obtain ⟨js, h3, h4⟩ := nothing_more h hn kind m minEvents acts is t (hp (is, t) (by simp)) fuel hf
      refine ⟨js :: r, ?_, ?_⟩
      · rw [List.zip_cons_cons, List.mapM_cons, h3, h1]; rfl
      · rw [List.zip_cons_cons, List.mapM_cons, h4, h2]; rfl

theorem flatten_map_nil {A B : Type} (l : List A) : (l.map (fun _ => ([] : List B))).flatten = [] := by simp

theorem weave_right_nils {A B : Type} (gs : List (List A)) (l : List B) : weave gs (l.map (fun _ => [])) = gs.flatten := by
  induction l generalizing gs with
  | nil => cases gs <;> simp [weave]
  | cons b l ih =>
    cases gs with
    | nil =>
      have : weave ([] : List (List A)) ((b :: l).map (fun _ => [])) = ((b :: l).map (fun _ => ([] : List A))).flatten := rfl
      rw [this, flatten_map_nil]; rfl
    | cons g gs => simp only [List.map_cons, weave, ih, List.nil_append, List.flatten_cons]

/-- C134d: the log of the unattached events has, for instances that are ordered, disjoint and inside the traces, exactly the events at
the positions in no instance, in their order. -/
theorem C134_unattached_log {A : Type} (log : List (List A)) (instances : List (List RInstance))
    (hp : ∀ p ∈ log.zip instances, WellPlaced p.1.length (p.2.map spanOf)) :
    unattachedLog log instances = some ((log.zip instances).map (fun p => outsideAll p.1 (p.2.map spanOf))) := by
  unfold unattachedLog
  refine mapM_eq_some _ _ _ ?_
  rintro ⟨t, is⟩ hp'
  have hpl := placedFrom_zero (hp _ hp')
  unfold unattachedTrace
  obtain ⟨parts, h1, h2⟩ := pieces_mapM (fun p =>
      match p with
      | .free start stop => rangeOf t start stop
      | .held _ => some []) (fun a b => between t (a, b)) (fun _ => []) t.length 0 is hpl
    (fun a b _ hab hb => rangeOf_eq t a b (by omega) hb) (fun i _ => rfl)
  refine (congrArg (fun o => Option.bind o (fun parts => some parts.flatten)) h1).trans ?_
  simp only [Option.bind_some, h2, Option.some.injEq]
  rw [uncovered_eq t _ (hp _ hp'), weave_right_nils, gapBounds_eq]
  congr 1
  refine List.map_congr_left (fun b _ => ?_)
  by_cases hb : b.1 < b.2
  · rw [if_pos hb]
  · rw [if_neg hb, between_empty t b hb]

/-! ### Concrete cases -/

/-- Events 1 and 2 are found around an instance that is kept; a gap of one event is too short for the second call. -/
example : addUnattached (heapOf exChainNodes) ⟨20, .dontNarrow, 0, .noFilter⟩ 1 [[1, 7, 7, 2, 1, 8]] [2, 3] [[⟨0, 1, 2⟩]] =
      some [[⟨3, 0, 1⟩, ⟨0, 1, 2⟩, ⟨2, 3, 2⟩]] ∧
    addUnattached (heapOf exChainNodes) ⟨20, .dontNarrow, 0, .noFilter⟩ 2 [[1, 7, 7, 2, 1, 8]] [2, 3] [[⟨0, 1, 2⟩]] =
      some [[⟨0, 1, 2⟩, ⟨2, 3, 2⟩]] := by decide +kernel

theorem exKept : ∀ p ∈ [[(⟨0, 1, 2⟩ : RInstance)]].zip [[1, 7, 7, 2, 1, 8]], WellPlaced p.2.length (p.1.map spanOf) := by
  intro p hp
  simp only [List.zip_cons_cons, List.zip_nil_right, List.mem_singleton] at hp
  subst hp
  exact ⟨by decide, by decide⟩

example : ∃ n, ∀ fuel, n ≤ fuel → ∃ r,
    addUnattached (heapOf exChainNodes) ⟨fuel, .dontNarrow, 0, .noFilter⟩ 1 [[1, 7, 7, 2, 1, 8]] [2, 3] [[⟨0, 1, 2⟩]] = some r ∧
    addUnattached (heapOf exChainNodes) ⟨fuel, .dontNarrow, 0, .noFilter⟩ 1 [[1, 7, 7, 2, 1, 8]] [2, 3] r = some r :=
  C134_idempotent _ exChain_nested _ _ 1 _ _ _ exKept

example : unattachedLog [["a", "b", "c", "d", "e"]] [[⟨0, 1, 2⟩, ⟨0, 4, 1⟩]] = some [["a", "d"]] := by decide +kernel

example : unattachedLog [["a", "b", "c", "d", "e"]] [[⟨0, 1, 2⟩, ⟨0, 4, 1⟩]] =
    some [outsideAll ["a", "b", "c", "d", "e"] [(1, 2), (4, 1)]] :=
  C134_unattached_log [["a", "b", "c", "d", "e"]] [[⟨0, 1, 2⟩, ⟨0, 4, 1⟩]] (by
    intro p hp
    simp only [List.zip_cons_cons, List.zip_nil_right, List.mem_singleton] at hp
    subst hp
    exact ⟨by decide, by decide⟩)

end Ficus.Rs
