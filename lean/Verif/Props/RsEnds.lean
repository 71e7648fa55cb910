import Verif.Proofs.RsNfcNets

/-! C170: the searches of the alpha algorithms end, also if hashes collide. -/

namespace Ficus.Rs
open Spec Spec.Ends Spec.Nfc Rs.Nfc

variable {E : Type} [HasName E]

theorem without_nil (log : List (List String)) : withoutLoops log [] = log := by simp [withoutLoops]

theorem follows_iff (it : Iter) (log : List (List E)) (ignored : Option (List String)) (a b : String) :
    (createInfo it log ignored).follows a b = true ↔ Directly (withoutLoops (namesOf log) (ignored.getD [])) a b := by
  rw [(C110_pairs it log ignored false a b).2]
  exact directly_without_iff log (ignored.getD []) a b

/-- A hash for which all sets are the same. -/
def constHash : List String → Nat := fun _ => 0

/-- With it only one place is found, but the algorithm ends. -/
example : ((discoverAlpha .plain constHash 6 0 exAlpha).map (fun s => s.net.places.map Place.name)) =
    some ["({a}, {b})", "StartPlace", "EndPlace"] := by decide +kernel

/-- **C170** (sets). For any log, any relations and any hash, and for every order of iteration, the search for sets ends; it finds only
pairs of sets of classes of the log, all of the first in the first relation to all of the second, and those of each set in the second. -/
theorem C170_sets (it : Iter) (hash : List String → Nat) (log : List (List E)) (ignored : Option (List String)) (rel : Relations) :
    ∃ r, EndsWith (fun fuel => alphaSets it hash fuel (createInfo it log ignored) rel) r ∧
      ∀ x ∈ r, Sides (withoutLoops (namesOf log) (ignored.getD [])).flatten x ∧
        IsPair (fun a b => rel.causal a b = true) (fun a b => rel.unrelated a b = true) (sides x) := by
  obtain ⟨r, h1, h2⟩ := alphaSets_end it hash (createInfo it log ignored) rel
  refine ⟨r, h1, fun x hx => ⟨?_, (h2 x hx).2.pair⟩⟩
  obtain ⟨s1, s2, s3, s4⟩ := (h2 x hx).1
  exact ⟨s1, s2, fun a ha => (mem_without _ _ _).mpr ((kept_keys it log ignored a).mp (s3 a ha)),
    fun a ha => (mem_without _ _ _).mpr ((kept_keys it log ignored a).mp (s4 a ha))⟩

/-- **C170** (Alpha). For any log and any hash Alpha ends with a well formed net with a transition for each class, whose places stand for
pairs of sets of the algorithm. -/
theorem C170_alpha (it : Iter) (hash : List String → Nat) (next : Nat) (log : List (List E)) :
    ∃ s, EndsWith (fun fuel => discoverAlpha it hash fuel next log) s ∧
      PlusNet (namesOf log) [] [] (Causal (namesOf log)) (Unrelated (namesOf log)) s.net := by
  have hnil : ∀ s, addLoops it log [] s = some s := by
    intro s
    unfold addLoops
    rw [List.Perm.eq_nil (it.perm _ _ _)]
    rfl
  have heq : ∀ fuel, discoverAlpha it hash fuel next log = plusNet it hash fuel next log none [] (alphaRelations (createInfo it log)) := by
    intro fuel
    have : addLoops it log [] = some := funext hnil
    unfold discoverAlpha plusNet
    rw [this]
    simp
  have hC : (alphaRelations (createInfo it log)).C = Causal (namesOf log) := by
    funext a b
    refine propext ?_
    unfold Relations.C Causal
    simp only [alphaRelations, Bool.and_eq_true, Bool.not_eq_true', ← Bool.not_eq_true, follows_iff, Option.getD_none, without_nil]
  have hU : (alphaRelations (createInfo it log)).U = Unrelated (namesOf log) := by
    funext a b
    refine propext ?_
    unfold Relations.U Unrelated
    simp only [alphaRelations, Bool.and_eq_true, Bool.not_eq_true', ← Bool.not_eq_true, follows_iff, Option.getD_none, without_nil]
  rcases plusNet_ends it hash next log none [] (alphaRelations (createInfo it log)) with ⟨s, h1, h2, _⟩ | ⟨_, c, hc, _⟩
  · refine ⟨s, ?_, by rw [hC, hU] at h2; exact h2⟩
    obtain ⟨n, hn⟩ := h1
    exact ⟨n, fun fuel hf => (heq fuel).trans (hn fuel hf)⟩
  · cases hc

/-- **C170** (Alpha+). For any log and any hash, if no trace has fewer than two events and no class that comes directly after itself begins
or ends a trace, Alpha+ ends with a net. -/
theorem C170_alpha_plus (it : Iter) (hash : List String → Nat) (next : Nat) (log : List (List E)) (h1 : ¬ ShortTrace (namesOf log))
    (h2 : ¬ LoopAtEnd (namesOf log)) :
    ∃ s loops, EndsWith (fun fuel => discoverAlphaPlus it hash fuel next log) s ∧ loops.Nodup ∧
      (∀ c, c ∈ loops ↔ Directly (namesOf log) c c) ∧
      PlusNet (namesOf log) loops loops (PlusCausal (namesOf log) loops) (Unrelated (withoutLoops (namesOf log) loops)) s.net := by
  obtain ⟨o1, o2⟩ := oneLoops_spec (namesOf log)
  obtain ⟨t1, t2⟩ := triangles_spec (namesOf log)
  obtain ⟨tri, htri⟩ := Option.ne_none_iff_exists'.mp (fun h => h1 (t1.mp h))
  obtain ⟨loops, hloops⟩ := Option.ne_none_iff_exists'.mp (fun h => h1 ⟨[], o1.mp h, by simp⟩)
  obtain ⟨ln, lm⟩ := o2 loops hloops
  have heq : ∀ fuel, discoverAlphaPlus it hash fuel next log = plusNet it hash fuel next log (some loops) loops
      (alphaPlusRelations (createInfo it log (some loops)) tri) := by
    intro fuel
    unfold discoverAlphaPlus
    have e1 : oneLoops (log.map (fun t => t.map name)) = some loops := hloops
    have e2 : triangles (log.map (fun t => t.map name)) = some tri := htri
    rw [e1, e2]
    rfl
  have ht := t2 tri htri
  have hC : (alphaPlusRelations (createInfo it log (some loops)) tri).C = PlusCausal (namesOf log) loops := by
    funext a b
    refine propext ?_
    unfold Relations.C PlusCausal
    simp only [alphaPlusRelations, Bool.and_eq_true, Bool.or_eq_true, Bool.not_eq_true', ← Bool.not_eq_true, follows_iff, Option.getD_some,
      decide_eq_true_eq, ht]
  have hU : (alphaPlusRelations (createInfo it log (some loops)) tri).U = Unrelated (withoutLoops (namesOf log) loops) := by
    funext a b
    refine propext ?_
    unfold Relations.U Unrelated
    simp only [alphaPlusRelations, Bool.and_eq_true, Bool.not_eq_true', ← Bool.not_eq_true, follows_iff, Option.getD_some]
  rcases plusNet_ends it hash next log (some loops) loops (alphaPlusRelations (createInfo it log (some loops)) tri) with
    ⟨s, ⟨n, hn⟩, h, _⟩ | ⟨_, c, hc, hfl⟩
  · refine ⟨s, loops, ⟨n, fun fuel hf => (heq fuel).trans (hn fuel hf)⟩, ln, lm, by rw [hC, hU] at h; exact h⟩
  · exact absurd ⟨c, (lm c).mp hc, hfl⟩ h2

/-- **C170** (panics of Alpha+). Otherwise it panics, whatever the hash. -/
theorem C170_alpha_plus_panics (it : Iter) (hash : List String → Nat) (next : Nat) (log : List (List E))
    (h : ShortTrace (namesOf log) ∨ LoopAtEnd (namesOf log)) (fuel : Nat) : discoverAlphaPlus it hash fuel next log = none := by
  obtain ⟨o1, o2⟩ := oneLoops_spec (namesOf log)
  obtain ⟨t1, _⟩ := triangles_spec (namesOf log)
  unfold discoverAlphaPlus
  change (oneLoops (namesOf log)).bind _ = none
  cases hloops : oneLoops (namesOf log) with
  | none => rfl
  | some loops =>
    rw [Option.bind_some]
    change (triangles (namesOf log)).bind _ = none
    cases htri : triangles (namesOf log) with
    | none => rfl
    | some tri =>
      rw [Option.bind_some]
      have hs : ¬ ShortTrace (namesOf log) := fun hs => by rw [t1.mpr hs] at htri; cases htri
      obtain ⟨c, hc, hfl⟩ := h.resolve_left hs
      rcases plusNet_ends it hash next log (some loops) loops (alphaPlusRelations (createInfo it log (some loops)) tri) with
        ⟨_, _, _, hno⟩ | ⟨hn, _⟩
      · exact absurd ⟨c, ((o2 loops hloops).2 c).mpr hc, hfl⟩ hno
      · exact hn fuel

example : LoopAtEnd (namesOf [["a", "a", "b"]]) :=
  ⟨"a", ⟨["a", "a", "b"], by simp [namesOf, HasName.name], [], ["b"], rfl⟩, Or.inl ⟨["a", "a", "b"], by simp [namesOf, HasName.name], rfl⟩⟩

/-- The hypotheses of both theorems exclude each other; here those of the first hold. -/
example : ¬ ShortTrace (namesOf [["a", "l", "l", "b"]]) ∧ ¬ LoopAtEnd (namesOf [["a", "l", "l", "b"]]) := by
  have h : (discoverAlphaPlus .plain constHash 4 0 [["a", "l", "l", "b"]]).isSome = true := by decide +kernel
  constructor
  · intro hs; rw [C170_alpha_plus_panics .plain constHash 0 _ (Or.inl hs) 4] at h; cases h
  · intro hs; rw [C170_alpha_plus_panics .plain constHash 0 _ (Or.inr hs) 4] at h; cases h

/-- **C170** (Alpha++ NFC). The three searches for sets of Alpha++ NFC end for any relations and any hash, and find only sets over the
given names; the pairs are all in the relation and unrelated on each side. -/
theorem C170_nfc (it : Iter) (hash : List String → Nat) (classes : List String) :
    (∀ w3 unrelated, ∃ r, EndsWith (fun fuel => zw it hash fuel classes w3 unrelated) r ∧ ∀ x ∈ r, Sides classes x ∧
      (∀ a ∈ x.left, ∀ b ∈ x.right, (a, b) ∈ w3) ∧ (∀ a ∈ x.left, ∀ b ∈ x.left, unrelated a b = true) ∧
      ∀ a ∈ x.right, ∀ b ∈ x.right, unrelated a b = true) ∧
    (∀ hashText rel loops, ∃ r, EndsWith (fun fuel => lw it hashText fuel rel classes loops) r ∧ ∀ x ∈ r, Columns (classes ++ loops) x) ∧
    ∀ hashBoth rel bases, (∀ x ∈ bases, Sides classes x) →
      ∃ r, EndsWith (fun fuel => yw it hash hashBoth fuel rel classes bases) r ∧ ∀ x ∈ r, Extended classes x := by
  refine ⟨fun w3 unrelated => ?_, fun hashText rel loops => lw_end it hashText rel classes loops,
    fun hashBoth rel bases hb => yw_end it hash hashBoth rel classes bases hb⟩
  obtain ⟨r, h1, h2⟩ := zw_end it hash classes w3 unrelated
  refine ⟨r, h1, fun x hx => ⟨(h2 x hx).1, ?_⟩⟩
  have hv := (h2 x hx).2
  simpa [pairValid, and_assoc] using hv

example : Sides ["a", "b", "c"] ⟨["a"], ["b", "c"]⟩ :=
  ⟨by simp, by simpa using String.lt_iff_toList_lt.mpr (by decide), by simp, by simp⟩

end Ficus.Rs
