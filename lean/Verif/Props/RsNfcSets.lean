import Verif.Proofs.RsNfcSets
import Verif.Props.RsNfc

/-! C165: the extended sets of Alpha++ NFC. -/

namespace Ficus.Rs
open Spec Spec.Nfc Nfc

/-- C165a: if the hashes tell apart the sets and the extensions, the extended sets are exactly the maximal extensions of each set,
each once, for every order of iteration. Missing: the same for every hash, which is false (`C165_lost`); and that new classes of one
side are apart from each other, which is not asked. -/
theorem C165_extended_partial (it : Iter) (hashBase : List String → Nat) (hash : List String → String → Nat) (rel : ESetRel)
    (classes : List String) (bases : List ASet) (implied apart : String → String → Prop)
    (hi : ∀ a b, implied a b ↔ rel.implied a b = true) (ha : ∀ a b, apart a b ↔ rel.unrelated a b = true ∧ rel.double a b = false)
    (hs : ∀ b ∈ bases, b.left.Pairwise (· < ·) ∧ b.right.Pairwise (· < ·))
    (hb : ∀ b ∈ bases, ∀ c ∈ bases, hashBase (b.left ++ b.right) = hashBase (c.left ++ c.right) → b = c)
    (hx : ∀ b ∈ bases, ∀ c ∈ bases, ∀ x y : List String × List String,
      x.1.Pairwise (· < ·) → x.2.Pairwise (· < ·) → y.1.Pairwise (· < ·) → y.2.Pairwise (· < ·) →
      IsExtension classes implied apart (sides b) (x.1.toFinset, x.2.toFinset) →
      IsExtension classes implied apart (sides c) (y.1.toFinset, y.2.toFinset) →
      hash (b.left ++ b.right) (together x) = hash (c.left ++ c.right) (together y) → b = c ∧ x = y)
    (fuel : Nat) (hf : 2 * classes.length + 1 < fuel) :
    ∃ r, yw it hashBase hash fuel rel classes bases = some r ∧ r.Nodup ∧
      (∀ x ∈ r, x.left.Pairwise (· < ·) ∧ x.right.Pairwise (· < ·)) ∧
      ∀ b x, (∃ y ∈ r, y.base = b ∧ (y.left.toFinset, y.right.toFinset) = x) ↔
        b ∈ bases ∧ MaximalExtension classes implied apart (sides b) x := by
  have e1 : implied = EScene.Implied ⟨rel, classes, bases⟩ := by funext a b; exact propext (hi a b)
  have e2 : apart = EScene.Apart ⟨rel, classes, bases⟩ := by funext a b; exact propext (ha a b)
  subst e1 e2
  obtain ⟨r, h1, h2, h3, h4⟩ := yw_spec (sc := ⟨rel, classes, bases⟩) ⟨hs, hb, hx⟩ it fuel (by simp only; omega)
  exact ⟨r, h1, h2, fun x hx => ⟨(h3 x hx).left, (h3 x hx).right⟩, h4⟩

/-- The relations of the example: `a` implies what `p` leads to. -/
def exGrown : ESetRel := ⟨fun a b => decide ((a, b) ∈ [("a", "q"), ("p", "d"), ("a", "d")]), fun _ _ => true, fun _ _ => false⟩

theorem exGrown_list (l : List String) (c : String) (h : l.Pairwise (· < ·)) (hc : ∀ x ∈ l, x = c) : l = [] ∨ l = [c] := by
  rcases l with _ | ⟨a, _ | ⟨b, l⟩⟩
  · exact Or.inl rfl
  · exact Or.inr (by rw [hc a (by simp)])
  · have h1 := hc a (by simp)
    have h2 := hc b (by simp)
    have h3 := (List.pairwise_cons.mp h).1 b (by simp)
    rw [h1, h2] at h3
    exact absurd h3 (lt_irrefl _)

/-- The set of the example is extended on both sides; the hash tells the extensions apart. -/
example : (yw .plain exHash (fun l s => exHash (s :: l)) 12 exGrown ["a", "d", "p", "q"] [⟨["p"], ["q"]⟩] =
      some [⟨⟨["p"], ["q"]⟩, ["a"], ["d"]⟩]) ∧
    ∀ x y : List String × List String, x.1.Pairwise (· < ·) → x.2.Pairwise (· < ·) → y.1.Pairwise (· < ·) → y.2.Pairwise (· < ·) →
      IsExtension ["a", "d", "p", "q"] (fun a b => exGrown.implied a b = true) (fun _ _ => True) ({"p"}, {"q"}) (x.1.toFinset, x.2.toFinset) →
      IsExtension ["a", "d", "p", "q"] (fun a b => exGrown.implied a b = true) (fun _ _ => True) ({"p"}, {"q"}) (y.1.toFinset, y.2.toFinset) →
      exHash (together x :: ["p", "q"]) = exHash (together y :: ["p", "q"]) → x = y := by
  refine ⟨by decide +kernel, ?_⟩
  have key : ∀ x : List String × List String, x.1.Pairwise (· < ·) → x.2.Pairwise (· < ·) →
      IsExtension ["a", "d", "p", "q"] (fun a b => exGrown.implied a b = true) (fun _ _ => True) ({"p"}, {"q"}) (x.1.toFinset, x.2.toFinset) →
      (x.1 = [] ∨ x.1 = ["a"]) ∧ (x.2 = [] ∨ x.2 = ["d"]) := by
    intro x h1 h2 hx
    refine ⟨exGrown_list _ _ h1 (fun z hz => ?_), exGrown_list _ _ h2 (fun z hz => ?_)⟩
    · have k := hx.newOld z (by simpa using hz) "q" (by simp)
      simpa [exGrown] using k
    · have k := hx.oldNew "p" (by simp) z (by simpa using hz)
      simpa [exGrown] using k
  rintro ⟨x1, x2⟩ ⟨y1, y2⟩ a1 a2 b1 b2 hx hy h
  have e : together (x1, x2) = together (y1, y2) := by
    have := exHash_apart ([together (x1, x2), together (y1, y2), "p", "q"]) (together (x1, x2) :: ["p", "q"])
      (together (y1, y2) :: ["p", "q"]) (by simp) (by simp) (by simp) (by simp) h
    exact (List.cons.inj this).1
  obtain ⟨k1, k2⟩ := key _ a1 a2 hx
  obtain ⟨k3, k4⟩ := key _ b1 b2 hy
  simp only at k1 k2 k3 k4
  rcases k1 with rfl | rfl <;> rcases k2 with rfl | rfl <;> rcases k3 with rfl | rfl <;> rcases k4 with rfl | rfl <;>
    first | rfl | (exfalso; revert e; decide)

theorem eset_same_symm (hash : List String → String → Nat) (x y : ESet) : ESet.same hash x y = ESet.same hash y x := by
  unfold ESet.same; simp only [eq_comm]

/-- C165b: of the extensions of one set whose new names make the same text, first side before second side, only one is found, whatever
the hashes are. -/
theorem C165_one_per_text (it : Iter) (hashBase : List String → Nat) (hash : List String → String → Nat) (fuel : Nat) (rel : ESetRel)
    (classes : List String) (bases : List ASet) (r : List ESet) (h : yw it hashBase hash fuel rel classes bases = some r) :
    r.Pairwise (fun x y => x.base = y.base → together (x.left, x.right) ≠ together (y.left, y.right)) := by
  unfold yw at h
  have := maximize_apart (ESet.same hash) (eset_same_symm hash) it _ fuel 0 _ r
    (insertBy_apart (ESet.same hash) (eset_same_symm hash) _ [] List.Pairwise.nil) h
  refine this.imp (fun {x y} hxy eb e => ?_)
  unfold ESet.same at hxy
  have e' : x.text = y.text := e
  rw [e', eb] at hxy
  simp at hxy

theorem yw_sorted (it : Iter) (hashBase : List String → Nat) (hash : List String → String → Nat) (fuel : Nat) (rel : ESetRel)
    (classes : List String) (bases : List ASet) (r : List ESet) (h : yw it hashBase hash fuel rel classes bases = some r) :
    ∀ x ∈ r, x.left.Pairwise (· < ·) ∧ x.right.Pairwise (· < ·) := by
  unfold yw at h
  refine maximize_all (ESet.same hash) _ it _ ?_ fuel 0 _ r (insertBy_all _ _ _ [] ?_ (by simp)) h
  · intro x y m hm
    unfold esetMerge at hm
    split at hm
    · cases hm
    · split at hm
      · cases hm; exact ⟨(sortedSet_spec _).1, (sortedSet_spec _).1⟩
      · cases hm
  · intro x hx
    unfold esetCandidates esetsOf at hx
    have ht : ∀ x y, ESet.tried rel x = some y → y = x := by
      intro x y h
      unfold ESet.tried at h
      split at h
      · cases h; rfl
      · cases h
    simp only [List.mem_append, List.mem_flatMap, List.mem_filterMap, List.mem_map, Option.mem_toList] at hx
    rcases hx with (⟨b, _, (⟨a, _, c, _, h⟩ | ⟨a, _, (h | h)⟩)⟩ | ⟨b, _, rfl⟩)
    · rw [ht _ _ h]; simp
    · rw [ht _ _ h]; simp
    · rw [ht _ _ h]; simp
    · simp

/-- The relations of the next theorem: `p` implies `a` and `a` implies `q`. -/
def lostExt : ESetRel := ⟨fun a b => decide ((a, b) ∈ [("a", "q"), ("p", "a")]), fun _ _ => true, fun _ _ => false⟩

/-- C165c: a class that extends a set on either side, but not on both: one of the two maximal extensions is lost for all hashes and every
order of iteration. -/
theorem C165_lost : ∃ (rel : ESetRel) (classes : List String) (base : ASet) (x y : Finset String × Finset String),
    x ≠ y ∧
    MaximalExtension classes (fun a b => rel.implied a b = true) (fun a b => rel.unrelated a b = true ∧ rel.double a b = false) (sides base) x ∧
    MaximalExtension classes (fun a b => rel.implied a b = true) (fun a b => rel.unrelated a b = true ∧ rel.double a b = false) (sides base) y ∧
    (∃ r, yw .plain exHash (fun l s => exHash (s :: l)) 8 rel classes [base] = some r) ∧
    ∀ it hashBase hash fuel r, yw it hashBase hash fuel rel classes [base] = some r →
      ¬ ((∃ z ∈ r, z.base = base ∧ (z.left.toFinset, z.right.toFinset) = x) ∧
        ∃ z ∈ r, z.base = base ∧ (z.left.toFinset, z.right.toFinset) = y) := by
  have hsides : sides ⟨["p"], ["q"]⟩ = ({"p"}, {"q"}) := by simp [sides]
  refine ⟨lostExt, ["a", "p", "q"], ⟨["p"], ["q"]⟩, ({"a"}, ∅), (∅, {"a"}), by decide, ?_, ?_,
    Option.isSome_iff_exists.mp (by decide +kernel), ?_⟩
  · rw [hsides]
    refine ⟨⟨by simp, by simp, by simp, by simp [lostExt], by simp, by simp [lostExt], by simp⟩, ?_⟩
    rintro ⟨l, r⟩ hy h1 h2
    simp only at h1 h2
    have ha : "a" ∈ l := h1 (by simp)
    have hl : l = {"a"} := by
      refine Finset.Subset.antisymm (fun x hx => ?_) h1
      have k := hy.newOld x hx "q" (by simp)
      simp [lostExt] at k
      simp [k]
    have hr : r = ∅ := by
      rw [Finset.eq_empty_iff_forall_notMem]
      intro x hx
      have k1 := hy.oldNew "p" (by simp) x hx
      have k2 := hy.newNew "a" ha x hx
      simp [lostExt] at k1 k2
      rw [k1] at k2
      revert k2; decide
    rw [hl, hr]
  · rw [hsides]
    refine ⟨⟨by simp, by simp, by simp [lostExt], by simp, by simp, by simp, by simp [lostExt]⟩, ?_⟩
    rintro ⟨l, r⟩ hy h1 h2
    simp only at h1 h2
    have ha : "a" ∈ r := h2 (by simp)
    have hr : r = {"a"} := by
      refine Finset.Subset.antisymm (fun x hx => ?_) h2
      have k := hy.oldNew "p" (by simp) x hx
      simp [lostExt] at k
      simp [k]
    have hl : l = ∅ := by
      rw [Finset.eq_empty_iff_forall_notMem]
      intro x hx
      have k1 := hy.newOld x hx "q" (by simp)
      have k2 := hy.newNew x hx "a" ha
      simp [lostExt] at k1 k2
      rw [k1] at k2
      revert k2; decide
    rw [hl, hr]
  · rintro it hashBase hash fuel r h ⟨⟨x, hx, bx, ex⟩, y, hy, b_y, ey⟩
    have hone := C165_one_per_text it hashBase hash fuel _ _ _ r h
    have hsort := yw_sorted it hashBase hash fuel _ _ _ r h
    have x1 : x.left = ["a"] := sorted_ext (hsort x hx).1 (by decide) ((congrArg Prod.fst ex).trans (by decide))
    have x2 : x.right = [] := sorted_ext (hsort x hx).2 (by decide) ((congrArg Prod.snd ex).trans (by decide))
    have y1 : y.left = [] := sorted_ext (hsort y hy).1 (by decide) ((congrArg Prod.fst ey).trans (by decide))
    have y2 : y.right = ["a"] := sorted_ext (hsort y hy).2 (by decide) ((congrArg Prod.snd ey).trans (by decide))
    have hne : x ≠ y := by intro e; rw [e, y1] at x1; simp at x1
    refine pairwise_ne hone hx hy hne (fun _ _ h eb e => h eb.symm e.symm) (bx.trans b_y.symm) ?_
    rw [x1, x2, y1, y2]
    decide

/-- C165d: the sets of an extended set are the sides with the new classes. -/
theorem C165_two_sets (x : ESet) : (∀ n, n ∈ x.twoSets.left ↔ n ∈ x.base.left ∨ n ∈ x.left) ∧
    (∀ n, n ∈ x.twoSets.right ↔ n ∈ x.base.right ∨ n ∈ x.right) ∧
    x.twoSets.left.Pairwise (· < ·) ∧ x.twoSets.right.Pairwise (· < ·) := by
  unfold ESet.twoSets
  exact ⟨fun n => by simp [(sortedSet_spec _).2], fun n => by simp [(sortedSet_spec _).2], (sortedSet_spec _).1, (sortedSet_spec _).1⟩

example : ESet.twoSets ⟨⟨["p"], ["q"]⟩, ["a"], ["r"]⟩ = ⟨["a", "p"], ["q", "r"]⟩ := by decide

end Ficus.Rs
