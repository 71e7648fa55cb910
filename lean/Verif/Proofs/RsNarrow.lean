import Verif.Proofs.RsExtract
import Verif.Props.RsGraph

/-! Lemmas for narrowing of activities of the backend. -/

namespace Ficus.Rs
open Spec
variable (heap : Heap)

theorem nested_size (hn : NestedIn heap) (p c : Nat) (hc : c ∈ (heap p).children) : (heap c).size < (heap p).size :=
  strictlyAbove_length (hn.nodup c) (hn.inside p c hc)

theorem weightTo_stable (hn : NestedIn heap) (k k' p : Nat) (h : (heap p).size < k) (h' : (heap p).size < k') :
    weightTo heap k p = weightTo heap k' p := by
  induction k generalizing k' p with
  | zero => omega
  | succ k ih =>
    cases k' with
    | zero => omega
    | succ k' =>
      unfold weightTo
      congr 1
      congr 1
      refine List.map_congr_left (fun c hc => ?_)
      have := nested_size heap hn p c hc
      exact ih k' c (by omega) (by omega)

theorem weight_eq (hn : NestedIn heap) (p : Nat) : weight heap p = 1 + ((heap p).children.map (weight heap)).sum := by
  unfold weight
  conv_lhs => unfold weightTo
  congr 1
  congr 1
  refine List.map_congr_left (fun c hc => ?_)
  have := nested_size heap hn p c hc
  exact weightTo_stable heap hn _ _ c (by omega) (by omega)

theorem narrowQueue_some (hn : NestedIn heap) (seen : List Nat) (fuel : Nat) (queue result : List Nat)
    (hf : (queue.map (weight heap)).sum ≤ fuel) : ∃ r, narrowQueue heap seen fuel queue result = some r := by
  induction fuel generalizing queue result with
  | zero =>
    cases queue with
    | nil => exact ⟨result, rfl⟩
    | cons p queue =>
      have := weight_eq heap hn p
      simp only [List.map_cons, List.sum_cons] at hf
      omega
  | succ fuel ih =>
    cases queue with
    | nil => exact ⟨result, rfl⟩
    | cons p queue =>
      have hw := weight_eq heap hn p
      simp only [List.map_cons, List.sum_cons] at hf
      unfold narrowQueue
      by_cases hc : (heap p).covers seen = true
      · rw [if_pos hc]
        refine ih _ _ ?_
        rw [List.map_append, List.sum_append]
        omega
      · rw [if_neg hc]
        exact ih _ _ (by omega)

theorem narrowQueue_mono (seen : List Nat) (fuel k : Nat) (queue result r : List Nat)
    (h : narrowQueue heap seen fuel queue result = some r) : narrowQueue heap seen (fuel + k) queue result = some r := by
  induction fuel generalizing queue result with
  | zero =>
    cases queue with
    | nil =>
      unfold narrowQueue at h ⊢
      exact h
    | cons p queue => cases h
  | succ fuel ih =>
    cases queue with
    | nil =>
      unfold narrowQueue at h ⊢
      exact h
    | cons p queue =>
      rw [show fuel + 1 + k = (fuel + k) + 1 by omega]
      unfold narrowQueue at h ⊢
      split at h
      · rename_i hc; rw [if_pos hc]; exact ih _ _ h
      · rename_i hc; rw [if_neg hc]; exact ih _ _ h

/-- Reached from a pointer along nodes with all the given classes, itself included. -/
inductive ReachedVia (seen : List Nat) : Nat → Nat → Prop
  | here {p : Nat} : (heap p).covers seen = true → ReachedVia seen p p
  | step {p c x : Nat} : (heap p).covers seen = true → c ∈ (heap p).children → ReachedVia seen c x → ReachedVia seen p x

theorem narrowQueue_mem (seen : List Nat) (fuel : Nat) (queue result r : List Nat)
    (h : narrowQueue heap seen fuel queue result = some r) (x : Nat) :
    x ∈ r ↔ x ∈ result ∨ ∃ q ∈ queue, ReachedVia heap seen q x := by
  induction fuel generalizing queue result with
  | zero =>
    cases queue with
    | nil => unfold narrowQueue at h; cases h; simp
    | cons p queue => cases h
  | succ fuel ih =>
    cases queue with
    | nil => unfold narrowQueue at h; cases h; simp
    | cons p queue =>
      unfold narrowQueue at h
      by_cases hc : (heap p).covers seen = true
      · rw [if_pos hc] at h
        rw [ih _ _ h]
        simp only [List.mem_append, List.mem_cons, List.not_mem_nil, or_false]
        constructor
        · rintro ((h1 | rfl) | ⟨q, h1 | h1, h2⟩)
          · exact Or.inl h1
          · exact Or.inr ⟨x, Or.inl rfl, ReachedVia.here hc⟩
          · exact Or.inr ⟨q, Or.inr h1, h2⟩
          · exact Or.inr ⟨p, Or.inl rfl, ReachedVia.step hc h1 h2⟩
        · rintro (h1 | ⟨q, rfl | h1, h2⟩)
          · exact Or.inl (Or.inl h1)
          · cases h2 with
            | here _ => exact Or.inl (Or.inr rfl)
            | step _ h3 h4 => exact Or.inr ⟨_, Or.inr h3, h4⟩
          · exact Or.inr ⟨q, Or.inl h1, h2⟩
      · rw [if_neg hc] at h
        rw [ih _ _ h]
        simp only [List.mem_cons]
        constructor
        · rintro (h1 | ⟨q, h1, h2⟩)
          · exact Or.inl h1
          · exact Or.inr ⟨q, Or.inr h1, h2⟩
        · rintro (h1 | ⟨q, rfl | h1, h2⟩)
          · exact Or.inl h1
          · exfalso
            cases h2 with
            | here h3 => exact hc h3
            | step h3 _ _ => exact hc h3
          · exact Or.inr ⟨q, h1, h2⟩

theorem reachedVia_covers {seen : List Nat} {p x : Nat} (h : ReachedVia heap seen p x) : (heap x).covers seen = true := by
  induction h with
  | here h => exact h
  | step _ _ _ ih => exact ih

theorem belowIn_covers (hn : NestedIn heap) {seen : List Nat} {p x : Nat} (h : BelowIn heap p x) (hx : (heap x).covers seen = true) :
    (heap p).covers seen = true := by
  rw [covers_iff] at hx ⊢
  induction h with
  | child hc => exact fun e he => (hn.inside _ _ hc).1 e (hx e he)
  | step hc _ ih => exact fun e he => (hn.inside _ _ hc).1 e (ih hx e he)

theorem reachedVia_iff (hn : NestedIn heap) (seen : List Nat) (p x : Nat) :
    (∃ c ∈ (heap p).children, ReachedVia heap seen c x) ↔ BelowIn heap p x ∧ (heap x).covers seen = true := by
  constructor
  · rintro ⟨c, hc, h⟩
    refine ⟨?_, reachedVia_covers heap h⟩
    clear hn
    induction h generalizing p with
    | here _ => exact BelowIn.child hc
    | step _ hc' _ ih => exact BelowIn.step hc (ih _ hc')
  · rintro ⟨h, hx⟩
    induction h with
    | child hc => exact ⟨_, hc, ReachedVia.here hx⟩
    | step hc hb ih =>
      obtain ⟨d, hd, hr⟩ := ih hx
      exact ⟨_, hc, ReachedVia.step (belowIn_covers heap hn hb hx) hd hr⟩

theorem smallest_spec (best : Nat) (ps : List Nat) : smallest heap best ps ∈ best :: ps ∧
    ∀ x ∈ best :: ps, (heap (smallest heap best ps)).size ≤ (heap x).size := by
  induction ps generalizing best with
  | nil => simp [smallest]
  | cons p ps ih =>
    unfold smallest
    obtain ⟨h1, h2⟩ := ih (if (heap p).size < (heap best).size then p else best)
    refine ⟨?_, ?_⟩
    · rcases List.mem_cons.1 h1 with h1 | h1
      · rw [h1]; split <;> simp
      · simp [h1]
    · intro x hx
      have h3 := h2 _ (by simp : (if (heap p).size < (heap best).size then p else best) ∈ _)
      rcases List.mem_cons.1 hx with rfl | hx
      · split at h3 <;> split <;> omega
      · rcases List.mem_cons.1 hx with rfl | hx
        · split at h3 <;> split <;> omega
        · exact h2 x (by simp [hx])

/-- The node that narrowing gives. -/
def narrowed (kind : Narrowing) (p : Nat) (seen : List Nat) : Nat := (narrow heap (weight heap p) kind p seen).getD p

theorem narrow_spec (hn : NestedIn heap) (kind : Narrowing) (p : Nat) (seen : List Nat) (hp : HasAll heap p seen) :
    (∀ fuel, weight heap p ≤ fuel → narrow heap fuel kind p seen = some (narrowed heap kind p seen)) ∧
      NarrowedTo heap kind seen p (narrowed heap kind p seen) := by
  have hself : NarrowedTo heap .dontNarrow seen p p := ⟨Or.inl rfl, hp, fun _ => rfl, by simp⟩
  have hself' : NarrowedTo heap .stayTheSame seen p p := ⟨Or.inl rfl, hp, fun _ => rfl, by simp⟩
  have hw := weight_eq heap hn p
  obtain ⟨r, hr⟩ := narrowQueue_some heap hn seen (weight heap p) (heap p).children [] (by omega)
  have hmono : ∀ fuel, weight heap p ≤ fuel → narrowQueue heap seen fuel (heap p).children [] = some r := by
    intro fuel hf
    have := narrowQueue_mono heap seen (weight heap p) (fuel - weight heap p) _ _ r hr
    rwa [show weight heap p + (fuel - weight heap p) = fuel by omega] at this
  have hmem : ∀ x, x ∈ r ↔ BelowIn heap p x ∧ (heap x).covers seen = true := by
    intro x
    rw [narrowQueue_mem heap seen _ _ _ r hr, ← reachedVia_iff heap hn]
    simp
  have hmain : ∀ kind', (kind' = .narrowUp ∨ kind' = .narrowDown) → ∃ q, (∀ fuel, weight heap p ≤ fuel →
      narrow heap fuel kind' p seen = some q) ∧ NarrowedTo heap kind' seen p q := by
    intro kind' hk
    cases hrr : r with
    | nil =>
      refine ⟨p, ?_, ?_⟩
      · intro fuel hf
        unfold narrow
        rcases hk with rfl | rfl <;> simp only [hmono fuel hf, hrr, Option.bind_eq_bind, Option.bind_some] <;> rfl
      · refine ⟨Or.inl rfl, hp, fun _ => rfl, ?_⟩
        intro _ x hb hx
        have := (hmem x).2 ⟨hb, (covers_iff heap x seen).2 hx⟩
        rw [hrr] at this; cases this
    | cons q qs =>
      refine ⟨smallest heap q qs, ?_, ?_⟩
      · intro fuel hf
        unfold narrow
        rcases hk with rfl | rfl <;> simp only [hmono fuel hf, hrr, Option.bind_eq_bind, Option.bind_some] <;> rfl
      · obtain ⟨h1, h2⟩ := smallest_spec heap q qs
        rw [← hrr] at h1 h2
        have h3 := (hmem _).1 h1
        refine ⟨Or.inr h3.1, (covers_iff heap _ seen).1 h3.2, ?_, ?_⟩
        · intro hc; rcases hk with rfl | rfl <;> simp at hc
        · intro _ x hb hx
          exact h2 x ((hmem x).2 ⟨hb, (covers_iff heap x seen).2 hx⟩)
  have : ∃ q, (∀ fuel, weight heap p ≤ fuel → narrow heap fuel kind p seen = some q) ∧ NarrowedTo heap kind seen p q := by
    cases kind with
    | dontNarrow => exact ⟨p, fun _ _ => rfl, hself⟩
    | stayTheSame => exact ⟨p, fun _ _ => rfl, hself'⟩
    | narrowUp => exact hmain _ (Or.inl rfl)
    | narrowDown => exact hmain _ (Or.inr rfl)
  obtain ⟨q, h1, h2⟩ := this
  have hq : narrowed heap kind p seen = q := by unfold narrowed; rw [h1 _ (le_refl _)]; rfl
  rw [hq]
  exact ⟨h1, h2⟩

/-- The instance of a segment. -/
def toInstance (kind : Narrowing) (g : RSeg) : RInstance := ⟨narrowed heap kind g.node g.seen, g.start, g.length⟩

theorem closeAll_eq (hn : NestedIn heap) (o : Options) (segs : List RSeg) (out : List RInstance)
    (hs : ∀ g ∈ segs, HasAll heap g.node g.seen ∧ weight heap g.node ≤ o.fuel) :
    segs.foldlM (closeSegment heap o) out =
      some (out ++ (segs.map (toInstance heap o.kind)).filter (suitable heap o.minEvents o.filter)) := by
  induction segs generalizing out with
  | nil => simp
  | cons g segs ih =>
    rw [List.foldlM_cons]
    obtain ⟨h1, h2⟩ := hs g (by simp)
    have hc : closeSegment heap o out g = some (if suitable heap o.minEvents o.filter (toInstance heap o.kind g) then
        out ++ [toInstance heap o.kind g] else out) := by
      unfold closeSegment closeInstance
      rw [(narrow_spec heap hn o.kind g.node g.seen h1).1 o.fuel h2]
      simp only [Option.bind_eq_bind, Option.bind_some, Option.pure_def, toInstance, Nat.add_sub_cancel_left]
      rfl
    rw [hc]
    refine (ih _ (fun g hg => hs g (by simp [hg]))).trans ?_
    rw [List.map_cons, List.filter_cons]
    split <;> simp

/-- The instances of a trace. -/
def traceInstances (kind : Narrowing) (minEvents : Nat) (filter : FilterKind) (acts t : List Nat) : List RInstance :=
  ((segments heap (bySize heap acts) t 0 none).map (toInstance heap kind)).filter (suitable heap minEvents filter)

theorem le_weightSum (acts : List Nat) (p : Nat) (hp : p ∈ acts) : weight heap p ≤ (acts.map (weight heap)).sum := by
  induction acts with
  | nil => cases hp
  | cons a acts ih =>
    simp only [List.map_cons, List.sum_cons]
    rcases List.mem_cons.1 hp with rfl | hp
    · omega
    · have := ih hp; omega

theorem extractInstances_eq (hn : NestedIn heap) (o : Options) (log : List (List Nat)) (acts : List Nat)
    (hf : (acts.map (weight heap)).sum ≤ o.fuel) :
    extractInstances heap o log acts = some (log.map (traceInstances heap o.kind o.minEvents o.filter acts)) := by
  unfold extractInstances
  induction log with
  | nil => rfl
  | cons t log ih =>
    rw [List.mapM_cons, ih, instancesOfTrace_eq]
    have ok := segments_segsOk heap acts t
    rw [closeAll_eq heap hn o _ [] (fun g hg => ⟨(ok.each g hg).sub,
      (le_weightSum heap acts g.node (ok.each g hg).mem).trans hf⟩)]
    rfl

end Ficus.Rs
