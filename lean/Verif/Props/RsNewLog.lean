import Verif.Proofs.RsPieces
import Verif.Props.RsExtract
import Verif.Props.RsMutations

/-! Property C133: the log made from activity instances. -/

namespace Ficus.Rs
open Spec
variable {E : Type}

theorem weave_blocks_map {A B : Type} (f : List A → List B) (t : List A) (is : List RInstance) :
    (blocks t (is.map spanOf)).map f = is.map (fun i => f ((t.drop i.startPos).take i.length)) := by
  unfold blocks
  rw [List.map_map, List.map_map]
  rfl

theorem newTrace_spec (s : Strategy E) (make : RInstance → E) (is : List RInstance) (t : List (Nested E))
    (h : WellPlaced t.length (is.map spanOf)) :
    newTrace s make is t = some (weave ((gapBounds t.length (is.map spanOf)).map (fun b => remainsOf s (between t b)))
      (is.map (fun i => [Nested.over (make i) ((t.drop i.startPos).take i.length)]))) := by
  have hpl := placedFrom_zero h
  have hheld : ∀ i ∈ is, pushedFor s make t (.held i) = some [Nested.over (make i) ((t.drop i.startPos).take i.length)] := by
    intro i hi
    have hb := (h.1 (spanOf i) (List.mem_map.2 ⟨i, hi, rfl⟩)).2
    simp only [spanOf] at hb
    simp only [pushedFor]
    rw [rangeOf_eq t _ _ (Nat.le_add_right _ _) hb]
    unfold between
    simp
  obtain ⟨parts, h1, h2⟩ := pieces_mapM (pushedFor s make t) (fun a b => remainsOf s (between t (a, b))) _ t.length 0 is hpl
    (fun a b _ hab hb => by
      unfold pushedFor remainsOf
      cases s with
      | dontInsert => rfl
      | insertAsSingleEvent e => simp [between_ne_nil t (a, b) hab hb]
      | insertAllEvents => exact rangeOf_eq t a b (by omega) hb) hheld
  unfold newTrace
  rw [h1]
  simp only [Option.bind_eq_bind, Option.bind_some, Option.pure_def, h2, Option.some.injEq]
  congr 1
  rw [← gapBounds_eq]
  refine List.map_congr_left (fun b _ => ?_)
  by_cases hb : b.1 < b.2
  · rw [if_pos hb]
  · rw [if_neg hb, between_empty t b hb]
    unfold remainsOf
    cases s <;> simp

theorem mapM_eq_some {A B : Type} (f : A → Option B) (g : A → B) (l : List A) (h : ∀ a ∈ l, f a = some (g a)) :
    l.mapM f = some (l.map g) := by
  induction l with
  | nil => rfl
  | cons a l ih =>
    rw [List.mapM_cons, h a (by simp), ih (fun x hx => h x (List.mem_cons_of_mem _ hx))]
    rfl

/-- C133a: for instances that are ordered, disjoint and inside their traces the new log is always defined. A trace is made up of its
gaps and of the events of its instances; in the new trace every instance is one event over its events, made by `make`, and of every
gap there is what the strategy leaves. -/
theorem C133_new_log (s : Strategy E) (make : RInstance → E) (instances : List (List RInstance)) (log : List (List (Nested E)))
    (h : ∀ p ∈ instances.zip log, WellPlaced p.2.length (p.1.map spanOf)) :
    ∃ r, newLog s make instances log = some r ∧
      List.Forall₂ (fun p t =>
        p.2 = weave ((gapBounds p.2.length (p.1.map spanOf)).map (between p.2)) (blocks p.2 (p.1.map spanOf)) ∧
        t = weave ((gapBounds p.2.length (p.1.map spanOf)).map (fun b => remainsOf s (between p.2 b)))
          (p.1.map (fun i => [Nested.over (make i) ((p.2.drop i.startPos).take i.length)]))) (instances.zip log) r := by
  refine ⟨_, mapM_eq_some _ _ _ (fun p hp => newTrace_spec s make p.1 p.2 (h p hp)), ?_⟩
  rw [List.forall₂_map_right_iff, List.forall₂_same]
  intro p hp
  refine ⟨?_, rfl⟩
  have := weave_eq_drop p.2 0 (p.1.map spanOf) (placedFrom_zero (h p hp))
  rw [List.drop_zero] at this
  exact this.symm

theorem atoms_append {l m : List (Nested E)} {r s : List E} (h1 : Atoms l r) (h2 : Atoms m s) : Atoms (l ++ m) (r ++ s) := by
  induction h1 with
  | nil => exact h2
  | atom _ ih => exact .atom ih
  | over hu _ _ ih => rw [List.append_assoc]; exact .over hu ih

theorem substituteAll_append (l m : List (Nested E)) : substituteAll [] (l ++ m) = substituteAll [] l ++ substituteAll [] m := by
  obtain ⟨r, h1, h2⟩ := substituteAll_spec l ([] : List E)
  obtain ⟨s, h3, h4⟩ := substituteAll_spec m ([] : List E)
  obtain ⟨u, h5, h6⟩ := substituteAll_spec (l ++ m) ([] : List E)
  rw [h2, h4, h6, atoms_unique h5 (atoms_append h1 h3)]
  simp

theorem substituteAll_weave (gs bs cs : List (List (Nested E)))
    (h : List.Forall₂ (fun b c => substituteAll [] b = substituteAll [] c) bs cs) :
    substituteAll [] (weave gs bs) = substituteAll [] (weave gs cs) := by
  induction h generalizing gs with
  | nil => rfl
  | @cons b c bs cs hbc hrest ih =>
    cases gs with
    | nil =>
      have e : ∀ x : List (List (Nested E)), weave [] x = x.flatten := fun x => rfl
      have := ih []
      rw [e, e] at this
      simp only [e, List.flatten_cons, substituteAll_append, hbc, this]
    | cons g gs => simp only [weave, substituteAll_append, hbc, ih gs]

/-- C133b: if all events between instances are inserted, substituting the underlying events gives the same as for the old log: nothing
is lost, added or reordered. -/
theorem C133_substitution (make : RInstance → E) (instances : List (List RInstance)) (log : List (List (Nested E)))
    (hl : instances.length = log.length) (h : ∀ p ∈ instances.zip log, WellPlaced p.2.length (p.1.map spanOf))
    (r : List (List (Nested E))) (hr : newLog .insertAllEvents make instances log = some r) :
    substituteLog r = substituteLog log := by
  obtain ⟨r', h1, h2⟩ := C133_new_log .insertAllEvents make instances log h
  rw [h1] at hr
  cases hr
  unfold substituteLog
  have hlog : log = (instances.zip log).map Prod.snd := by
    rw [← List.unzip_snd, List.unzip_zip_right (by omega)]
  rw [hlog, List.map_map]
  clear h1
  revert h2
  generalize instances.zip log = zs
  intro h2
  induction h2 with
  | nil => rfl
  | @cons p t zs r hpt _ ih =>
    simp only [List.map_cons, ih, Function.comp_apply]
    congr 1
    conv_rhs => rw [hpt.1]
    rw [hpt.2]
    refine substituteAll_weave _ _ _ ?_
    unfold blocks
    rw [List.map_map, List.forall₂_map_left_iff, List.forall₂_map_right_iff, List.forall₂_same]
    intro i _
    simp [substituteAll, substitute, spanOf]

theorem weave_length {A : Type} (gs bs : List (List A)) :
    (weave gs bs).length = (gs.map List.length).sum + (bs.map List.length).sum := by
  induction bs generalizing gs with
  | nil => cases gs <;> simp [weave]
  | cons b bs ih =>
    cases gs with
    | nil => simp [weave]
    | cons g gs => simp only [weave, List.length_append, ih gs, List.map_cons, List.sum_cons]; omega

theorem remainsOf_le (s : Strategy E) (gap : List (Nested E)) : (remainsOf s gap).length ≤ gap.length := by
  unfold remainsOf
  cases s with
  | dontInsert => simp
  | insertAsSingleEvent e =>
    simp only
    split
    · simp
    · rename_i hne
      have := List.length_pos_iff.2 hne
      simpa [Nat.succ_le_iff] using this
  | insertAllEvents => simp

theorem sum_map_le {A : Type} (f g : A → Nat) (l : List A) (h : ∀ a ∈ l, f a ≤ g a) : (l.map f).sum ≤ (l.map g).sum := by
  induction l with
  | nil => simp
  | cons a l ih =>
    have := h a (by simp)
    have := ih (fun x hx => h x (List.mem_cons_of_mem _ hx))
    simp only [List.map_cons, List.sum_cons]
    omega

/-- C133c: whatever the strategy, a trace of the new log has at least as many events as instances and no more events than before; if
nothing is inserted exactly as many as instances; and if all events are inserted it loses one event less than each instance has. -/
theorem C133_numbers_of_events (s : Strategy E) (make : RInstance → E) (is : List RInstance) (t r : List (Nested E))
    (h : WellPlaced t.length (is.map spanOf)) (hr : newTrace s make is t = some r) :
    is.length ≤ r.length ∧ r.length ≤ t.length ∧ (s = .dontInsert → r.length = is.length) ∧
    (s = .insertAllEvents → r.length + (is.map (fun i => i.length - 1)).sum = t.length) := by
  rw [newTrace_spec s make is t h] at hr
  cases hr
  have ht := weave_eq_drop t 0 (is.map spanOf) (placedFrom_zero h)
  rw [List.drop_zero, ← gapBounds_eq] at ht
  have hlen := congrArg List.length ht
  rw [weave_length] at hlen
  rw [weave_length]
  have hb1 : ((is.map (fun i => [Nested.over (make i) ((t.drop i.startPos).take i.length)])).map List.length).sum = is.length := by
    rw [List.map_map]
    have : (List.length ∘ fun i => [Nested.over (make i) ((t.drop i.startPos).take i.length)]) = fun _ => 1 := by funext i; rfl
    rw [this]; simp
  have hb2 : ((blocks t (is.map spanOf)).map List.length).sum = (is.map RInstance.length).sum := by
    unfold blocks
    rw [List.map_map, List.map_map]
    congr 1
    refine List.map_congr_left (fun i hi => ?_)
    have := (h.1 (spanOf i) (List.mem_map.2 ⟨i, hi, rfl⟩)).2
    simp only [spanOf] at this
    simp only [Function.comp_apply, spanOf, List.length_take, List.length_drop]
    omega
  have hsum : (is.map RInstance.length).sum = is.length + (is.map (fun i => i.length - 1)).sum := by
    have hpos : ∀ i ∈ is, 0 < i.length := fun i hi => (h.1 (spanOf i) (List.mem_map.2 ⟨i, hi, rfl⟩)).1
    clear hb1 hb2 hlen ht h
    induction is with
    | nil => rfl
    | cons i is ih =>
      have := hpos i (by simp)
      have := ih (fun j hj => hpos j (List.mem_cons_of_mem _ hj))
      simp only [List.map_cons, List.sum_cons, List.length_cons]
      omega
  have hg : (((gapBounds t.length (is.map spanOf)).map (fun b => remainsOf s (between t b))).map List.length).sum ≤
      (((gapBounds t.length (is.map spanOf)).map (between t)).map List.length).sum := by
    rw [List.map_map, List.map_map]
    exact sum_map_le _ _ _ (fun b _ => remainsOf_le s _)
  rw [hb1]
  rw [hb2] at hlen
  refine ⟨by omega, by omega, ?_, ?_⟩
  · rintro rfl
    have : (((gapBounds t.length (is.map spanOf)).map (fun b => remainsOf Strategy.dontInsert (between t b))).map List.length).sum = 0 := by
      rw [List.map_map]
      have : (List.length ∘ fun b => remainsOf (Strategy.dontInsert : Strategy E) (between t b)) = fun _ => 0 := by funext b; rfl
      rw [this]; simp
    omega
  · rintro rfl
    have : ((gapBounds t.length (is.map spanOf)).map (fun b => remainsOf (Strategy.insertAllEvents : Strategy E) (between t b))) =
        (gapBounds t.length (is.map spanOf)).map (between t) := rfl
    rw [this]
    omega

theorem wellPlaced_filter {n : Nat} {is : List RInstance} (f : RInstance → Bool) (h : WellPlaced n (is.map spanOf)) :
    WellPlaced n ((is.filter f).map spanOf) := by
  refine ⟨?_, ?_⟩
  · intro p hp
    obtain ⟨i, hi, rfl⟩ := List.mem_map.1 hp
    exact h.1 _ (List.mem_map.2 ⟨i, (List.mem_filter.1 hi).1, rfl⟩)
  · exact h.2.sublist (List.filter_sublist.map spanOf)

theorem traceInstances_placed (h : Heap) (kind : Narrowing) (m : Nat) (f : FilterKind) (acts t : List Nat) :
    WellPlaced t.length ((traceInstances h kind m f acts t).map spanOf) := by
  have hg := (traceInstances_greedy h kind m acts t).placed
  have : traceInstances h kind m f acts t = (traceInstances h kind m .noFilter acts t).filter (suitable h m f) := by
    unfold traceInstances
    rw [keep_all]
  rw [this]
  exact wellPlaced_filter _ hg

/-- C133d: the instances that extraction finds, for every kind of narrowing and of filter, are ordered, disjoint and inside their
traces, one list per trace; so the new log is defined for them and has as many traces as before. -/
theorem C133_after_extraction (h : Heap) (hn : NestedIn h) (kind : Narrowing) (m : Nat) (f : FilterKind) (acts : List Nat)
    (hashes : List (List Nat)) (log : List (List (Nested E))) (hl : hashes.map List.length = log.map List.length)
    (s : Strategy E) (make : RInstance → E) :
    ∃ n, ∀ fuel, n ≤ fuel → ∃ instances r, extractInstances h ⟨fuel, kind, m, f⟩ hashes acts = some instances ∧
      instances.length = log.length ∧ (∀ p ∈ instances.zip log, WellPlaced p.2.length (p.1.map spanOf)) ∧
      newLog s make instances log = some r ∧ r.length = log.length := by
  refine ⟨(acts.map (weight h)).sum, fun fuel hf => ?_⟩
  have hlen : hashes.length = log.length := by simpa using congrArg List.length hl
  have hp : ∀ p ∈ (hashes.map (traceInstances h kind m f acts)).zip log, WellPlaced p.2.length (p.1.map spanOf) := by
    rintro ⟨is, t⟩ hp
    obtain ⟨k, hk, he⟩ := List.mem_iff_getElem.1 hp
    rw [List.getElem_zip] at he
    simp only [Prod.mk.injEq, List.getElem_map] at he
    obtain ⟨he1, he2⟩ := he
    simp only [List.length_zip, List.length_map] at hk
    have hk1 : k < hashes.length := by omega
    have hk2 : k < log.length := by omega
    have hsame : hashes[k].length = log[k].length := by
      have h1 : (hashes.map List.length)[k]? = (log.map List.length)[k]? := by rw [hl]
      simpa [hk1, hk2] using h1
    subst he1 he2
    simp only
    rw [← hsame]
    exact traceInstances_placed h kind m f acts _
  obtain ⟨r, h1, h2⟩ := C133_new_log s make _ log hp
  refine ⟨_, r, extractInstances_eq h hn ⟨fuel, kind, m, f⟩ hashes acts hf, by simp [hlen], hp, h1, ?_⟩
  rw [← h2.length_eq]
  simp [hlen]

/-- C133e: traces without a list of instances are lost, and an instance beyond the end of its trace panics. -/
theorem C133_traces_lost :
    (newLog Strategy.insertAllEvents (fun _ => "x") [[]] [[.atom "a"], [.atom "b"]]).map List.length = some 1 ∧
    (newLog Strategy.insertAllEvents (fun _ => "x") [[⟨0, 1, 2⟩]] [[.atom "a", .atom "b"]]).isNone = true := by
  constructor <;> rfl

/-! ### Concrete cases -/

/-- Two instances in a trace with underlying events. -/
def exNested : List (Nested String) := [.atom "a", .atom "b", .over "x" [.atom "c", .atom "d"], .atom "e", .atom "f"]

def exInstances : List RInstance := [⟨0, 1, 2⟩, ⟨1, 4, 1⟩]

theorem exPlaced : ∀ p ∈ [exInstances].zip [exNested], WellPlaced p.2.length (p.1.map spanOf) := by
  intro p hp
  simp only [List.zip_cons_cons, List.zip_nil_right, List.mem_singleton] at hp
  subst hp
  refine ⟨by decide, by decide⟩

example : ∃ r, newLog .insertAllEvents (fun i => toString i.node) [exInstances] [exNested] = some r ∧
    substituteLog r = [["a", "b", "c", "d", "e", "f"]] := by
  obtain ⟨r, h1, -⟩ := C133_new_log .insertAllEvents (fun i => toString i.node) [exInstances] [exNested] exPlaced
  refine ⟨r, h1, ?_⟩
  rw [C133_substitution _ _ _ rfl exPlaced r h1]
  rfl

/-- The shapes for the three strategies. -/
def outline : Nested String → String × Nat
  | .atom e => (e, 0)
  | .over e u => (e, u.length)

example : (newTrace .dontInsert (fun i => toString i.node) exInstances exNested).map (List.map outline) = some [("0", 2), ("1", 1)] ∧
    (newTrace (.insertAsSingleEvent "U") (fun i => toString i.node) exInstances exNested).map (List.map outline) =
      some [("U", 0), ("0", 2), ("U", 0), ("1", 1)] ∧
    (newTrace .insertAllEvents (fun i => toString i.node) exInstances exNested).map (List.map outline) =
      some [("a", 0), ("0", 2), ("e", 0), ("1", 1)] := by decide +kernel

example (r : List (Nested String)) (hr : newTrace (.insertAsSingleEvent "U") (fun i => toString i.node) exInstances exNested = some r) :
    exInstances.length ≤ r.length ∧ r.length ≤ exNested.length :=
  ⟨(C133_numbers_of_events _ _ _ _ r (exPlaced (exInstances, exNested) (by simp)) hr).1,
   (C133_numbers_of_events _ _ _ _ r (exPlaced (exInstances, exNested) (by simp)) hr).2.1⟩

example : ∃ n, ∀ fuel, n ≤ fuel → ∃ instances r,
    extractInstances (heapOf exChainNodes) ⟨fuel, .narrowUp, 0, .defaultFilter⟩ [[1, 1, 7, 2, 3]] [1] = some instances ∧
    instances.length = 1 ∧ (∀ p ∈ instances.zip [exNested], WellPlaced p.2.length (p.1.map spanOf)) ∧
    newLog .dontInsert (fun _ => "x") instances [exNested] = some r ∧ r.length = 1 :=
  C133_after_extraction _ exChain_nested _ _ _ _ _ [exNested] rfl _ _

end Ficus.Rs
