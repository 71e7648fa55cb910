import Verif.Proofs.RsNfcTriples
import Verif.Proofs.RsNfcNet
import Verif.Props.RsNet

/-! C160 to C164: the last steps of Alpha++ NFC. -/

namespace Ficus.Rs
open Spec Spec.Nfc Nfc

/-! ### C160, C161: the closure of the third relation and the rules of reduction -/

/-- C161a: when the closure is computed, it has exactly the pairs of classes with a way between them that are not related directly. -/
theorem C161_closure (it : Iter) (fuel : Nat) (rels : List (String × String)) (closure : Dict String (List String))
    (h : closureCache it fuel rels = some closure) (a b : String) :
    (∃ l, closure.get? a = some l ∧ b ∈ l) ↔ Reaches rels a b ∧ (a, b) ∉ rels := by
  unfold closureCache at h
  simp only at h
  set cs := it.order "all_classes" 0 (allClasses (it.order "w3_relations" 0 rels)) with hcs
  have hn := mem_kids it rels 0
  have hc : ∀ c, c ∈ cs ↔ Related rels c := by
    intro c
    rw [hcs, (it.perm _ _ _).mem_iff, mem_allClasses]
    unfold Related
    simp only [(it.perm "w3_relations" 0 rels).mem_iff]
  obtain ⟨f1, f2⟩ := closure_fold (kids it (graph (it.order "w3_relations" 0 rels))) fuel (cs.flatMap (fun a => cs.map (fun b => (a, b)))) []
  have hall := f1.mp (by rw [h]; rfl)
  have := f2 closure h a b
  change inClosure closure a b ↔ _
  rw [this]
  have hmem : ∀ a b, (a, b) ∈ cs.flatMap (fun a => cs.map (fun b => (a, b))) ↔ Related rels a ∧ Related rels b := by
    intro a b
    simp only [List.mem_flatMap, List.mem_map, Prod.mk.injEq, hc]
    constructor
    · rintro ⟨x, hx, y, hy, rfl, rfl⟩; exact ⟨hx, hy⟩
    · rintro ⟨hx, hy⟩; exact ⟨a, hx, b, hy, rfl, rfl⟩
  have h0 : ¬ inClosure [] a b := by rintro ⟨l, hl, _⟩; cases hl
  obtain ⟨s1, s2⟩ := search_spec hn a b
  constructor
  · rintro (h | ⟨_, h2, h3⟩)
    · exact absurd h h0
    · exact ⟨s1.mp ⟨fuel, h3⟩, fun h => h2 ((hn a b).mpr h)⟩
  · rintro ⟨h1, h2⟩
    have hp := (hmem a b).mpr (reaches_related h1)
    refine Or.inr ⟨hp, fun h => h2 ((hn a b).mp h), ?_⟩
    rcases hall (a, b) hp with hd | hd
    · exact absurd ((hn a b).mp hd) h2
    · obtain ⟨v, hv⟩ := Option.isSome_iff_exists.mp hd
      cases v with
      | true => exact hv
      | false => exact absurd h1 (s2.mp ⟨fuel, hv⟩).1

example : closureCache .plain 4 [("a", "b"), ("b", "c"), ("c", "d")] = some [("a", ["c", "d"]), ("b", ["d"])] := by decide +kernel

/-- C161b: the computation ends exactly if every class from which a cycle can be reached has a way to all classes; there is no set of
visited classes. -/
theorem C161_ends_iff (it : Iter) (rels : List (String × String)) :
    (∃ fuel, (closureCache it fuel rels).isSome = true) ↔
      ∀ a b, Related rels a → Related rels b → ReachesCycle rels a → Reaches rels a b := by
  unfold closureCache
  simp only
  set cs := it.order "all_classes" 0 (allClasses (it.order "w3_relations" 0 rels)) with hcs
  set next := kids it (graph (it.order "w3_relations" 0 rels)) with hnext
  have hn : ∀ a b, b ∈ next a ↔ (a, b) ∈ rels := mem_kids it rels 0
  have hc : ∀ c, c ∈ cs ↔ Related rels c := by
    intro c
    rw [hcs, (it.perm _ _ _).mem_iff, mem_allClasses]
    unfold Related
    simp only [(it.perm "w3_relations" 0 rels).mem_iff]
  have hmem : ∀ a b, (a, b) ∈ cs.flatMap (fun a => cs.map (fun b => (a, b))) ↔ Related rels a ∧ Related rels b := by
    intro a b
    simp only [List.mem_flatMap, List.mem_map, Prod.mk.injEq, hc]
    constructor
    · rintro ⟨x, hx, y, hy, rfl, rfl⟩; exact ⟨hx, hy⟩
    · rintro ⟨hx, hy⟩; exact ⟨a, hx, b, hy, rfl, rfl⟩
  generalize cs.flatMap (fun a => cs.map (fun b => (a, b))) = ps at hmem
  simp only [(closure_fold next _ ps []).1]
  constructor
  · rintro ⟨fuel, h⟩ a b ha hb hcyc
    rcases h (a, b) ((hmem a b).mpr ⟨ha, hb⟩) with h | h
    · exact Relation.TransGen.single ((hn a b).mp h)
    · obtain ⟨v, hv⟩ := Option.isSome_iff_exists.mp h
      obtain ⟨s1, s2⟩ := search_spec hn a b
      cases v with
      | true => exact s1.mp ⟨fuel, hv⟩
      | false => exact absurd hcyc (s2.mp ⟨fuel, hv⟩).2
  · intro h
    have hone : ∀ p ∈ ps, ∃ fuel, (search next p.2 fuel [p.1]).isSome = true := by
      rintro ⟨a, b⟩ hp
      obtain ⟨ha, hb⟩ := (hmem a b).mp hp
      obtain ⟨s1, s2⟩ := search_spec hn a b
      by_cases hr : Reaches rels a b
      · obtain ⟨f, hf⟩ := s1.mpr hr; exact ⟨f, by rw [hf]; rfl⟩
      · obtain ⟨f, hf⟩ := s2.mpr ⟨hr, fun hcyc => hr (h a b ha hb hcyc)⟩
        exact ⟨f, by rw [hf]; rfl⟩
    clear hmem h
    induction ps with
    | nil => exact ⟨0, by simp⟩
    | cons p ps ih =>
      obtain ⟨f1, h1⟩ := ih (fun q hq => hone q (by simp [hq]))
      obtain ⟨f2, h2⟩ := hone p (by simp)
      have hmono : ∀ q : String × String, ∀ f g, (search next q.2 f [q.1]).isSome = true → (search next q.2 (f + g) [q.1]).isSome = true := by
        intro q f g hq
        obtain ⟨v, hv⟩ := Option.isSome_iff_exists.mp hq
        rw [search_mono next q.2 f [q.1] v hv g]; rfl
      refine ⟨f1 + f2, fun q hq => ?_⟩
      rcases List.mem_cons.mp hq with rfl | hq
      · rw [Nat.add_comm]; exact Or.inr (hmono q f2 f1 h2)
      · exact (h1 q hq).imp id (hmono q f1 f2)

/-- The computation does not end for two relations in a cycle beside another relation. -/
theorem C161_endless : ∃ rels : List (String × String), ∀ it fuel, closureCache it fuel rels = none := by
  refine ⟨[("a", "b"), ("b", "a"), ("c", "d")], fun it fuel => ?_⟩
  cases h : closureCache it fuel [("a", "b"), ("b", "a"), ("c", "d")] with
  | none => rfl
  | some d =>
    exfalso
    have hab : Reaches [("a", "b"), ("b", "a"), ("c", "d")] "a" "b" := Relation.TransGen.single (by decide)
    have hba : Reaches [("a", "b"), ("b", "a"), ("c", "d")] "b" "a" := Relation.TransGen.single (by decide)
    have := (C161_ends_iff it _).mp ⟨fuel, by rw [h]; rfl⟩ "a" "d" ⟨"b", by decide⟩ ⟨"c", by decide⟩ ⟨"a", Or.inl rfl, hab.trans hba⟩
    have key : ∀ x, Reaches [("a", "b"), ("b", "a"), ("c", "d")] "a" x → x = "a" ∨ x = "b" := by
      intro x hx
      induction hx with
      | single h => simp at h; exact Or.inr h
      | tail _ h ih =>
        rcases ih with rfl | rfl
        · simp at h; exact Or.inr h
        · simp at h; exact Or.inl h
    have hk := key "d" this
    revert hk; decide

/-- A cycle through all classes is no obstacle. -/
example : (closureCache .plain 9 [("a", "b"), ("b", "a")]).isSome = true := by decide +kernel

/-- C160a: the second rule never removes a relation: the closure has only pairs that are not related. -/
theorem C160_rule2_removes_nothing (it : Iter) (fuel : Nat) (rels : List (String × String)) (closure : Dict String (List String))
    (h : closureCache it fuel rels = some closure) : rule2 rels closure = rels := by
  unfold rule2
  simp only
  have hnone : rels.filter (fun r => (closure.get? r.1).any (fun children => decide (r.2 ∈ children))) = [] := by
    rw [List.filter_eq_nil_iff]
    rintro ⟨a, b⟩ hr hany
    simp only [Option.any_eq_true, decide_eq_true_eq] at hany
    obtain ⟨l, hl, hb⟩ := hany
    exact ((C161_closure it fuel rels closure h a b).mp ⟨l, hl, hb⟩).2 hr
  rw [hnone]
  simp

/-- C160b: so the relations that remain are those that do not follow from others exactly if there are no others. Missing: that
relations which follow from others are removed, which is false (`C160_implied_stays`). -/
theorem C160_rule2_partial (it : Iter) (fuel : Nat) (rels : List (String × String)) (closure : Dict String (List String))
    (h : closureCache it fuel rels = some closure) :
    (∀ r, r ∈ rule2 rels closure ↔ r ∈ rels ∧ ¬ Implied rels r) ↔ ∀ r ∈ rels, ¬ Implied rels r := by
  rw [C160_rule2_removes_nothing it fuel rels closure h]
  exact ⟨fun hr r hm => ((hr r).mp hm).2, fun hr r => ⟨fun hm => ⟨hm, hr r hm⟩, fun hm => hm.1⟩⟩

/-- A relation that follows from two others stays, whatever the order of iteration. -/
theorem C160_implied_stays : ∃ (rels : List (String × String)) (r : String × String), r ∈ rels ∧ Implied rels r ∧
    (closureCache .plain 9 rels).isSome = true ∧
    ∀ it fuel closure, closureCache it fuel rels = some closure → r ∈ rule2 rels closure := by
  refine ⟨[("a", "b"), ("b", "c"), ("a", "c")], ("a", "c"), by decide, ?_, by decide +kernel, fun it fuel closure h => ?_⟩
  · exact ⟨"b", Relation.TransGen.single (by decide), Relation.TransGen.single (by decide)⟩
  · rw [C160_rule2_removes_nothing it fuel _ closure h]; decide

/-- C160c: the first rule removes a relation exactly if some class stands between its classes, where the answers about the second
relation are those from before the removal; so it does not matter in which order relations are removed. -/
theorem C160_rule1 (w2 concave : String → String → Bool) (classes : List String) (rels : List (String × String)) (a c : String) :
    (a, c) ∈ rule1 w2 concave classes rels ↔ (a, c) ∈ rels ∧
      ¬ ∃ b ∈ classes, (w2 a b = true ∧ concave b c = true) ∨ (w2 b c = true ∧ concave a b = true) := by
  unfold rule1
  simp only [List.mem_filter, decide_eq_true_eq, List.any_eq_true, Bool.or_eq_true, Bool.and_eq_true]
  constructor
  · rintro ⟨h1, h2⟩; exact ⟨h1, fun h => h2 ⟨h1, h⟩⟩
  · rintro ⟨h1, h2⟩; exact ⟨h1, fun h => h2 h.2⟩

example : rule1 (fun a b => decide ((a, b) ∈ [("a", "b"), ("a", "c")])) (fun a b => decide ((a, b) = ("b", "c"))) ["a", "b", "c"]
    [("a", "b"), ("a", "c")] = [("a", "b")] := by decide

/-! ### C162: the pairs of the third relation -/

/-- C162a: if no relation follows from two others and the hash tells the sequences of names apart, the pairs are exactly the maximal
ones, each once, for every order of iteration. Missing: the same without the first condition, which is false (`C162_lost`). -/
theorem C162_pairs_partial (it : Iter) (hash : List String → Nat) (classes : List String) (w3 : List (String × String))
    (unrelated : String → String → Bool) (ht : NoTriangle w3) (hc : ∀ a b, (a, b) ∈ w3 → a ∈ classes ∧ b ∈ classes)
    (hh : TellsApart hash classes) (fuel : Nat) (hf : classes.length < fuel) :
    ∃ r, zw it hash fuel classes w3 unrelated = some r ∧ (r.map sides).Nodup ∧
      (∀ x ∈ r, x.left.Pairwise (· < ·) ∧ x.right.Pairwise (· < ·)) ∧
      ∀ p, p ∈ r.map sides ↔ MaximalPair (fun a b => (a, b) ∈ w3) (fun a b => unrelated a b = true) p := by
  obtain ⟨r, h1, h2, h3, h4⟩ := zw_spec (unrelated := unrelated) ht hc hh it fuel hf
  have hs : ∀ x : ASet, sides x = x.pair := fun _ => rfl
  refine ⟨r, h1, ?_, fun x hx => ⟨(h3 x hx).left, (h3 x hx).right⟩, fun p => ?_⟩
  · refine (List.nodup_map_iff_inj_on h2).mpr (fun x hx y hy h => ?_)
    exact pair_inj (h3 x hx) (h3 y hy) h
  · rw [List.mem_map]
    simp only [hs]
    rw [h4 p]
    exact maximal_congr (by simp [Relations.C, pairRel]) (by simp [Relations.U, pairRel]) p

/-- Two relations to the same class, two from the same class. -/
example : ((zw .plain exHash 6 ["a", "b", "c", "d", "e"] [("a", "c"), ("b", "c"), ("b", "d"), ("e", "d")] (fun a b => decide ((a, b) ∉ [("b", "e"), ("e", "b")]))).map
      (fun r => r.map ASet.text)) = some ["({a,b}, {c})", "({b}, {c,d})", "({e}, {d})"] ∧
    NoTriangle [("a", "c"), ("b", "c"), ("b", "d"), ("e", "d")] ∧ TellsApart exHash ["a", "b", "c", "d", "e"] := by
  refine ⟨by decide +kernel, ?_, exHash_apart _⟩
  intro a b c h1 h2
  simp at h1 h2 ⊢
  aesop

theorem same_symm (hash : List String → Nat) (x y : ASet) : ASet.same hash x y = ASet.same hash y x := by
  unfold ASet.same; simp only [eq_comm]

/-- C162b: two pairs that remain never list the same names one after the other, whatever the hash is: the hash does not see where the
first side ends. -/
theorem C162_one_per_sequence (it : Iter) (hash : List String → Nat) (fuel : Nat) (classes : List String) (w3 : List (String × String))
    (unrelated : String → String → Bool) (r : List ASet) (h : zw it hash fuel classes w3 unrelated = some r) :
    r.Pairwise (fun x y => x.left ++ x.right ≠ y.left ++ y.right) := by
  unfold zw at h
  have := maximize_apart (ASet.same hash) (same_symm hash) it _ fuel 0 _ r
    (insertBy_apart (ASet.same hash) (same_symm hash) _ [] List.Pairwise.nil) h
  refine this.imp (fun {x y} hxy e => ?_)
  unfold ASet.same ASet.key at hxy
  rw [e] at hxy
  simp at hxy

theorem zw_sorted (it : Iter) (hash : List String → Nat) (fuel : Nat) (classes : List String) (w3 : List (String × String))
    (unrelated : String → String → Bool) (r : List ASet) (h : zw it hash fuel classes w3 unrelated = some r) :
    ∀ x ∈ r, x.left.Pairwise (· < ·) ∧ x.right.Pairwise (· < ·) := by
  unfold zw at h
  refine maximize_all (ASet.same hash) _ it _ ?_ fuel 0 _ r (insertBy_all _ _ _ [] ?_ (by simp)) h
  · intro x y m hm
    unfold pairMerge at hm
    split at hm
    · cases hm; exact ⟨(sortedSet_spec _).1, (sortedSet_spec _).1⟩
    · cases hm
  · intro x hx
    unfold pairCandidates at hx
    simp only [List.mem_flatMap, List.mem_filterMap] at hx
    obtain ⟨a, _, b, _, hx⟩ := hx
    split at hx
    · cases hx; exact ⟨by simp [ASet.new], by simp [ASet.new]⟩
    · cases hx

theorem pairwise_ne {α : Type} {R : α → α → Prop} {l : List α} (h : l.Pairwise R) {x y : α} (hx : x ∈ l) (hy : y ∈ l) (hne : x ≠ y)
    (hs : ∀ x y, R x y → R y x) : R x y := by
  induction l with
  | nil => cases hx
  | cons z l ih =>
    obtain ⟨h1, h2⟩ := List.pairwise_cons.mp h
    rcases List.mem_cons.mp hx with rfl | hx' <;> rcases List.mem_cons.mp hy with rfl | hy'
    · exact absurd rfl hne
    · exact h1 y hy'
    · exact hs _ _ (h1 x hx')
    · exact ih h2 hx' hy'

/-- C162c: for three classes that are related in a chain, and the first also with the last, there are two maximal pairs, of which
one is lost for every hash and every order of iteration. -/
theorem C162_lost : ∃ (classes : List String) (w3 : List (String × String)) (unrelated : String → String → Bool)
    (p q : Finset String × Finset String), (∀ a b, (a, b) ∈ w3 → a ∈ classes ∧ b ∈ classes) ∧ p ≠ q ∧
    MaximalPair (fun a b => (a, b) ∈ w3) (fun a b => unrelated a b = true) p ∧
    MaximalPair (fun a b => (a, b) ∈ w3) (fun a b => unrelated a b = true) q ∧
    (∃ r, zw .plain exHash 4 classes w3 unrelated = some r) ∧
    ∀ it hash fuel r, zw it hash fuel classes w3 unrelated = some r → ¬ (p ∈ r.map sides ∧ q ∈ r.map sides) := by
  have hw : ∀ a b, (a, b) ∈ [("a", "b"), ("b", "c"), ("a", "c")] ↔ (a = "a" ∧ b = "b") ∨ (a = "b" ∧ b = "c") ∨ (a = "a" ∧ b = "c") := by
    intro a b; simp
  refine ⟨["a", "b", "c"], [("a", "b"), ("b", "c"), ("a", "c")], fun _ _ => true, ({"a"}, {"b", "c"}), ({"a", "b"}, {"c"}), ?_, ?_, ?_, ?_,
    Option.isSome_iff_exists.mp (by decide +kernel), ?_⟩
  · intro a b h
    rw [hw] at h
    rcases h with ⟨rfl, rfl⟩ | ⟨rfl, rfl⟩ | ⟨rfl, rfl⟩ <;> simp
  · decide
  · refine ⟨⟨by simp, by simp, by simp, by simp, by simp⟩, ?_⟩
    rintro ⟨l, r⟩ hq h1 h2
    simp only at h1 h2
    have ha : "a" ∈ l := h1 (by simp)
    have hb : "b" ∈ r := h2 (by simp)
    have hl : l = {"a"} := by
      refine Finset.Subset.antisymm (fun x hx => ?_) h1
      have := hq.causal x hx "b" hb
      rw [hw] at this
      simp at this; simp [this]
    have hr : r = {"b", "c"} := by
      refine Finset.Subset.antisymm (fun x hx => ?_) h2
      have := hq.causal "a" ha x hx
      rw [hw] at this
      simp at this; simpa using this
    rw [hl, hr]
  · refine ⟨⟨by simp, by simp, by simp, by simp, by simp⟩, ?_⟩
    rintro ⟨l, r⟩ hq h1 h2
    simp only at h1 h2
    have hb : "b" ∈ l := h1 (by simp)
    have hc : "c" ∈ r := h2 (by simp)
    have hr : r = {"c"} := by
      refine Finset.Subset.antisymm (fun x hx => ?_) h2
      have := hq.causal "b" hb x hx
      rw [hw] at this
      simp at this; simp [this]
    have hl : l = {"a", "b"} := by
      refine Finset.Subset.antisymm (fun x hx => ?_) h1
      have := hq.causal x hx "c" hc
      rw [hw] at this
      simp at this; simp; tauto
    rw [hl, hr]
  · rintro it hash fuel r h ⟨hp, hq⟩
    have hone := C162_one_per_sequence it hash fuel _ _ _ r h
    have hsort := zw_sorted it hash fuel _ _ _ r h
    obtain ⟨x, hx, ex⟩ := List.mem_map.mp hp
    obtain ⟨y, hy, ey⟩ := List.mem_map.mp hq
    have x1 : x.left = ["a"] := sorted_ext (hsort x hx).1 (by decide) ((congrArg Prod.fst ex).trans (by decide))
    have x2 : x.right = ["b", "c"] := sorted_ext (hsort x hx).2 (by decide) ((congrArg Prod.snd ex).trans (by decide))
    have y1 : y.left = ["a", "b"] := sorted_ext (hsort y hy).1 (by decide) ((congrArg Prod.fst ey).trans (by decide))
    have y2 : y.right = ["c"] := sorted_ext (hsort y hy).2 (by decide) ((congrArg Prod.snd ey).trans (by decide))
    have hne : x ≠ y := by intro e; rw [e, y1] at x1; simp at x1
    refine pairwise_ne hone hx hy hne (fun _ _ h e => h e.symm) ?_
    rw [x1, x2, y1, y2]; rfl

/-! ### C163: the triples -/

/-- C163a: if the hash tells apart the texts of the triples, they are exactly the maximal ones, each once, for every order of
iteration. Missing: the same for every hash of texts, which is false (`C163_lost`); and that the classes of one set are unrelated with
each other, which is not asked. -/
theorem C163_triples_partial (it : Iter) (hash : String → Nat) (rel : TripleRel) (classes loops : List String)
    (ok : String → String → String → Prop)
    (hok : ∀ a b c, ok a b c ↔ a ∈ classes ∧ b ∈ classes ∧ c ∈ loops ∧
      Between (fun x y => rel.direct x y = true) (fun x y => rel.triangle x y = true) (fun x y => rel.parallel x y = true)
        (fun x y => rel.unrelated x y = true) a b c)
    (hh : TriplesApart hash ok) (fuel : Nat) (hf : 2 * classes.length + loops.length < fuel) :
    ∃ r, lw it hash fuel rel classes loops = some r ∧ r.Nodup ∧
      (∀ x ∈ r, x.a.Pairwise (· < ·) ∧ x.b.Pairwise (· < ·) ∧ x.c.Pairwise (· < ·)) ∧
      ∀ t, (∃ x ∈ r, (x.a.toFinset, x.b.toFinset, x.c.toFinset) = t) ↔ MaximalTriple ok t := by
  have e : ok = Scene.Ok ⟨rel, classes, loops⟩ := by
    funext a b c
    rw [eq_iff_iff, hok]
    unfold Scene.Ok Between TripleRel.ok
    simp only [Bool.and_eq_true, Bool.not_eq_true', ← Bool.not_eq_true]
    tauto
  subst e
  obtain ⟨r, h1, h2, h3, h4⟩ := lw_spec (rel := ⟨rel, classes, loops⟩) hh it fuel (by simp only; omega)
  exact ⟨r, h1, h2, fun x hx => ⟨(h3 x hx).a, (h3 x hx).b, (h3 x hx).c⟩, h4⟩

/-- The relations of the example: two classes come before the loop and one after it. -/
def exTriple : TripleRel :=
  ⟨fun a b => decide ((a, b) ∈ [("a", "c"), ("d", "c"), ("c", "b")]), fun _ _ => false, fun _ _ => false, fun _ _ => true⟩

theorem exTriple_ok (a b c : String) : (a ∈ ["a", "b", "d"] ∧ b ∈ ["a", "b", "d"] ∧ c ∈ ["c"] ∧
    Between (fun x y => exTriple.direct x y = true) (fun x y => exTriple.triangle x y = true) (fun x y => exTriple.parallel x y = true)
      (fun x y => exTriple.unrelated x y = true) a b c) ↔ (a = "a" ∨ a = "d") ∧ b = "b" ∧ c = "c" := by
  constructor
  · rintro ⟨h1, h2, h3, h4, _, h6, _⟩
    simp only [List.mem_singleton] at h3
    subst h3
    simp [exTriple] at h4 h6
    tauto
  · rintro ⟨rfl | rfl, rfl, rfl⟩ <;> exact ⟨by decide, by decide, by decide, by decide, by decide, by decide, by decide, by decide, by decide, by decide⟩

example : lw .plain (fun s => if s = "abc" then 0 else if s = "dbc" then 1 else 2) 8 exTriple ["a", "b", "d"] ["c"] = some [⟨["a", "d"], ["b"], ["c"]⟩] ∧
    TriplesApart (fun s => if s = "abc" then 0 else if s = "dbc" then 1 else 2) (fun a b c => (a = "a" ∨ a = "d") ∧ b = "b" ∧ c = "c") := by
  refine ⟨by decide +kernel, ?_⟩
  have key : ∀ x : List String × List String × List String, x.1.Pairwise (· < ·) → x.2.1.Pairwise (· < ·) → x.2.2.Pairwise (· < ·) →
      IsTriple (fun a b c => (a = "a" ∨ a = "d") ∧ b = "b" ∧ c = "c") (x.1.toFinset, x.2.1.toFinset, x.2.2.toFinset) →
      x = (["a"], ["b"], ["c"]) ∨ x = (["d"], ["b"], ["c"]) ∨ x = (["a", "d"], ["b"], ["c"]) := by
    rintro ⟨l, m, n⟩ h1 h2 h3 ⟨⟨a, ha⟩, ⟨b, hb⟩, ⟨c, hc⟩, hok⟩
    simp only at *
    have em : m = ["b"] := sorted_ext h2 (by decide) (by
      refine Finset.Subset.antisymm (fun y hy => ?_) (fun y hy => ?_)
      · have := (hok a ha y hy c hc).2.1; simp [this]
      · have hy' : y = "b" := by simpa using hy
        rw [hy', ← (hok a ha b hb c hc).2.1]; exact hb)
    have en : n = ["c"] := sorted_ext h3 (by decide) (by
      refine Finset.Subset.antisymm (fun y hy => ?_) (fun y hy => ?_)
      · have := (hok a ha b hb y hy).2.2; simp [this]
      · have hy' : y = "c" := by simpa using hy
        rw [hy', ← (hok a ha b hb c hc).2.2]; exact hc)
    have hl : ∀ y ∈ l, y = "a" ∨ y = "d" := fun y hy => (hok y (by simpa using hy) b hb c hc).1
    have hsub : l.toFinset ∈ ({"a", "d"} : Finset String).powerset := by
      rw [Finset.mem_powerset]; intro y hy; simpa using hl y (by simpa using hy)
    have hpow : ({"a", "d"} : Finset String).powerset = {∅, {"a"}, {"d"}, {"a", "d"}} := by decide
    rw [hpow] at hsub
    simp only [Finset.mem_insert, Finset.mem_singleton] at hsub
    rcases hsub with h | h | h | h
    · rw [h] at ha; simp at ha
    · left; rw [em, en, sorted_ext h1 (m := ["a"]) (by decide) (by rw [h]; rfl)]
    · right; left; rw [em, en, sorted_ext h1 (m := ["d"]) (by decide) (by rw [h]; rfl)]
    · right; right; rw [em, en, sorted_ext h1 (m := ["a", "d"]) (by decide) (by rw [h]; decide)]
  intro x y x1 x2 x3 y1 y2 y3 hx hy hh
  rcases key x x1 x2 x3 hx with rfl | rfl | rfl <;> rcases key y y1 y2 y3 hy with rfl | rfl | rfl <;>
    first | rfl | (exfalso; revert hh; decide)

theorem triple_same_symm (hash : String → Nat) (x y : Triple) : Triple.same hash x y = Triple.same hash y x := by
  unfold Triple.same; simp only [eq_comm]

/-- C163b: two triples that remain never give the same text when all their names are put one after the other, whatever the hash is. -/
theorem C163_one_per_text (it : Iter) (hash : String → Nat) (fuel : Nat) (rel : TripleRel) (classes loops : List String)
    (r : List Triple) (h : lw it hash fuel rel classes loops = some r) :
    r.Pairwise (fun x y => joined (x.a, x.b, x.c) ≠ joined (y.a, y.b, y.c)) := by
  unfold lw at h
  have := maximize_apart (Triple.same hash) (triple_same_symm hash) it _ fuel 0 _ r
    (insertBy_apart (Triple.same hash) (triple_same_symm hash) _ [] List.Pairwise.nil) h
  refine this.imp (fun {x y} hxy e => ?_)
  unfold Triple.same at hxy
  have e' : x.text = y.text := e
  rw [e'] at hxy
  simp at hxy

theorem lw_sorted (it : Iter) (hash : String → Nat) (fuel : Nat) (rel : TripleRel) (classes loops : List String)
    (r : List Triple) (h : lw it hash fuel rel classes loops = some r) :
    ∀ x ∈ r, x.a.Pairwise (· < ·) ∧ x.b.Pairwise (· < ·) ∧ x.c.Pairwise (· < ·) := by
  unfold lw at h
  refine maximize_all (Triple.same hash) _ it _ ?_ fuel 0 _ r (insertBy_all _ _ _ [] ?_ (by simp)) h
  · intro x y m hm
    unfold tripleMerge at hm
    split at hm
    · cases hm; exact join_sorted _ _
    · cases hm
  · intro x hx
    unfold tripleCandidates at hx
    simp only [List.mem_flatMap, List.mem_filterMap] at hx
    obtain ⟨a, _, b, _, c, _, hx⟩ := hx
    split at hx
    · cases hx; exact ⟨by simp [Triple.new], by simp [Triple.new], by simp [Triple.new]⟩
    · cases hx

/-- The relations of the next theorem: `p` and `pq` come before the loop `c`, `qr` and `r` after it. -/
def lostTriple : TripleRel :=
  ⟨fun a b => decide ((a, b) ∈ [("p", "c"), ("pq", "c"), ("c", "qr"), ("c", "r")]), fun _ _ => false,
    fun a b => decide ((a, b) ∈ [("p", "r"), ("pq", "qr")]), fun _ _ => true⟩

/-- C163c: two maximal triples whose names give the same text one after the other: one of them is lost for every hash and every order
of iteration. -/
theorem C163_lost : ∃ (rel : TripleRel) (classes loops : List String) (ok : String → String → String → Prop)
    (t u : Finset String × Finset String × Finset String),
    (∀ a b c, ok a b c ↔ a ∈ classes ∧ b ∈ classes ∧ c ∈ loops ∧
      Between (fun x y => rel.direct x y = true) (fun x y => rel.triangle x y = true) (fun x y => rel.parallel x y = true)
        (fun x y => rel.unrelated x y = true) a b c) ∧
    t ≠ u ∧ MaximalTriple ok t ∧ MaximalTriple ok u ∧ (∃ r, lw .plain (fun s => exHash [s]) 12 rel classes loops = some r) ∧
    ∀ it hash fuel r, lw it hash fuel rel classes loops = some r →
      ¬ ((∃ x ∈ r, (x.a.toFinset, x.b.toFinset, x.c.toFinset) = t) ∧ ∃ x ∈ r, (x.a.toFinset, x.b.toFinset, x.c.toFinset) = u) := by
  refine ⟨lostTriple, ["p", "pq", "qr", "r"], ["c"], fun a b c => ((a = "p" ∧ b = "qr") ∨ (a = "pq" ∧ b = "r")) ∧ c = "c",
    ({"p"}, {"qr"}, {"c"}), ({"pq"}, {"r"}, {"c"}), ?_, by decide, ?_, ?_, Option.isSome_iff_exists.mp (by decide +kernel), ?_⟩
  · intro a b c
    constructor
    · rintro ⟨⟨rfl, rfl⟩ | ⟨rfl, rfl⟩, rfl⟩ <;>
        exact ⟨by decide, by decide, by decide, by decide, by decide, by decide, by decide, by decide, by decide, by decide⟩
    · rintro ⟨h1, h2, h3, h4, _, h6, _, h8, _⟩
      simp only [List.mem_singleton] at h3
      subst h3
      simp [lostTriple] at h4 h6 h8
      rcases h4 with rfl | rfl <;> rcases h6 with rfl | rfl <;> simp_all
  · refine ⟨⟨by simp, by simp, by simp, by simp⟩, ?_⟩
    rintro ⟨l, m, n⟩ hu h1 h2 h3
    simp only at h1 h2 h3
    have ha : "p" ∈ l := h1 (by simp)
    have hb : "qr" ∈ m := h2 (by simp)
    have hc : "c" ∈ n := h3 (by simp)
    have e1 : l = {"p"} := Finset.Subset.antisymm (fun x hx => by
      have := hu.ok x hx "qr" hb "c" hc; simpa using this) h1
    have e2 : m = {"qr"} := Finset.Subset.antisymm (fun x hx => by
      have := hu.ok "p" ha x hx "c" hc; simpa using this) h2
    have e3 : n = {"c"} := Finset.Subset.antisymm (fun x hx => by
      have := hu.ok "p" ha "qr" hb x hx; simpa using this) h3
    rw [e1, e2, e3]
  · refine ⟨⟨by simp, by simp, by simp, by simp⟩, ?_⟩
    rintro ⟨l, m, n⟩ hu h1 h2 h3
    simp only at h1 h2 h3
    have ha : "pq" ∈ l := h1 (by simp)
    have hb : "r" ∈ m := h2 (by simp)
    have hc : "c" ∈ n := h3 (by simp)
    have e1 : l = {"pq"} := Finset.Subset.antisymm (fun x hx => by
      have := hu.ok x hx "r" hb "c" hc; simpa using this) h1
    have e2 : m = {"r"} := Finset.Subset.antisymm (fun x hx => by
      have := hu.ok "pq" ha x hx "c" hc; simpa using this) h2
    have e3 : n = {"c"} := Finset.Subset.antisymm (fun x hx => by
      have := hu.ok "pq" ha "r" hb x hx; simpa using this) h3
    rw [e1, e2, e3]
  · rintro it hash fuel r h ⟨⟨x, hx, ex⟩, y, hy, ey⟩
    have hone := C163_one_per_text it hash fuel _ _ _ r h
    have hsort := lw_sorted it hash fuel _ _ _ r h
    have x1 : x.a = ["p"] := sorted_ext (hsort x hx).1 (by decide) ((congrArg Prod.fst ex).trans (by decide))
    have x2 : x.b = ["qr"] := sorted_ext (hsort x hx).2.1 (by decide) ((congrArg (fun t => t.2.1) ex).trans (by decide))
    have x3 : x.c = ["c"] := sorted_ext (hsort x hx).2.2 (by decide) ((congrArg (fun t => t.2.2) ex).trans (by decide))
    have y1 : y.a = ["pq"] := sorted_ext (hsort y hy).1 (by decide) ((congrArg Prod.fst ey).trans (by decide))
    have y2 : y.b = ["r"] := sorted_ext (hsort y hy).2.1 (by decide) ((congrArg (fun t => t.2.1) ey).trans (by decide))
    have y3 : y.c = ["c"] := sorted_ext (hsort y hy).2.2 (by decide) ((congrArg (fun t => t.2.2) ey).trans (by decide))
    have hne : x ≠ y := by intro e; rw [e, y1] at x1; revert x1; decide
    refine pairwise_ne hone hx hy hne (fun _ _ h e => h e.symm) ?_
    rw [x1, x2, x3, y1, y2, y3]
    decide

/-! ### C164: the net -/

theorem zipWith_fst (pids : List Nat) (sets : List ASet) (h : pids.length = sets.length) :
    List.zipWith (fun i x => Place.id ⟨i, x.text, none⟩) pids sets = pids := by
  induction pids generalizing sets with
  | nil => rfl
  | cons i pids ih =>
    cases sets with
    | nil => cases h
    | cons x sets => rw [List.zipWith_cons_cons, ih sets (by simpa using h)]

theorem insertBy_present {α : Type} (same : α → α → Bool) (hr : ∀ x, same x x = true) (hsym : ∀ x y, same x y = same y x)
    (l s : List α) : ∀ y, (y ∈ s ∨ y ∈ l) → ∃ x ∈ l.foldl (insertBy same) s, same x y = true := by
  induction l generalizing s with
  | nil =>
    rintro y (h | h)
    · exact ⟨y, h, hr y⟩
    · cases h
  | cons z l ih =>
    intro y hy
    rw [List.foldl_cons]
    have hsub : ∀ w ∈ s, w ∈ insertBy same s z := by
      intro w hw; unfold insertBy; split
      · exact hw
      · exact List.mem_append_left _ hw
    have hkeep : ∀ (l s : List α) w, w ∈ s → w ∈ l.foldl (insertBy same) s := by
      intro l
      induction l with
      | nil => intro s w h; exact h
      | cons q l ih' =>
        intro s w h
        rw [List.foldl_cons]
        refine ih' _ w ?_
        unfold insertBy; split
        · exact h
        · exact List.mem_append_left _ h
    rcases hy with hy | hy
    · exact ih _ y (Or.inl (hsub y hy))
    · rcases List.mem_cons.mp hy with rfl | hy
      · by_cases hany : s.any (same y) = true
        · obtain ⟨w, hw, hs⟩ := List.any_eq_true.mp hany
          exact ⟨w, hkeep _ _ w (hsub w hw), (hsym w y).trans hs⟩
        · refine ih _ y (Or.inl ?_)
          unfold insertBy
          rw [if_neg hany]
          simp
      · exact ih _ y (Or.inr hy)

/-- C164a: the places are made from these sets only, from one of each hash, and each of these sets has a place with its hash. -/
theorem C164_places (it : Iter) (hash : List String → Nat) (lw : List Triple) (zw yw : List ASet) :
    (∀ x ∈ pw it hash lw zw yw, PlaceSource lw zw yw x) ∧
    (pw it hash lw zw yw).Pairwise (fun x y => hash (x.left ++ x.right) ≠ hash (y.left ++ y.right)) ∧
    ∀ y, PlaceSource lw zw yw y → ∃ x ∈ pw it hash lw zw yw, hash (x.left ++ x.right) = hash (y.left ++ y.right) := by
  have hsh : ∀ x, shouldAdd lw x = true ↔ ∀ t ∈ lw, ¬ (t.a = x.left ∧ t.b = x.right) := by
    intro x
    unfold shouldAdd
    simp
  have hsrc : ∀ x, x ∈ (((it.order "z_w" 0 zw).filter (shouldAdd lw)) ++ ((it.order "y_w" 0 yw).filter (shouldAdd lw)) ++
      (it.order "l_w" 0 lw).map Triple.twoSets) ↔ PlaceSource lw zw yw x := by
    intro x
    unfold PlaceSource
    simp only [List.mem_append, List.mem_filter, (it.perm _ _ _).mem_iff, hsh, List.mem_map]
    have htwo : (∃ t ∈ lw, t.twoSets = x) ↔ (x.left.Pairwise (· < ·) ∧ x.right.Pairwise (· < ·) ∧
        ∃ t ∈ lw, (∀ n, n ∈ x.left ↔ n ∈ t.a ∨ n ∈ t.c) ∧ ∀ n, n ∈ x.right ↔ n ∈ t.b ∨ n ∈ t.c) := by
      constructor
      · rintro ⟨t, ht, rfl⟩
        exact ⟨(sortedSet_spec _).1, (sortedSet_spec _).1, t, ht, fun n => by simp [Triple.twoSets, (sortedSet_spec _).2],
          fun n => by simp [Triple.twoSets, (sortedSet_spec _).2]⟩
      · rintro ⟨h1, h2, t, ht, h3, h4⟩
        refine ⟨t, ht, ?_⟩
        have e1 : sortedSet (t.a ++ t.c) = x.left := sorted_ext (sortedSet_spec _).1 h1 (by
          ext n; simp [(sortedSet_spec _).2, h3])
        have e2 : sortedSet (t.b ++ t.c) = x.right := sorted_ext (sortedSet_spec _).1 h2 (by
          ext n; simp [(sortedSet_spec _).2, h4])
        unfold Triple.twoSets
        rw [e1, e2]
    rw [htwo]
    tauto
  unfold pw
  refine ⟨insertBy_all _ _ _ [] (fun x hx => (hsrc x).mp hx) (by simp), ?_, fun y hy => ?_⟩
  · refine (insertBy_apart (ASet.same hash) (same_symm hash) _ [] List.Pairwise.nil).imp (fun {x y} h e => ?_)
    unfold ASet.same ASet.key at h
    simp [e] at h
  · obtain ⟨x, hx, h⟩ := insertBy_present (ASet.same hash) (fun x => by simp [ASet.same]) (same_symm hash) _ [] y (Or.inr ((hsrc y).mpr hy))
    unfold ASet.same ASet.key at h
    exact ⟨x, hx, of_decide_eq_true h⟩

example : pw .plain exHash [⟨["a"], ["b"], ["c"]⟩] [⟨["a"], ["b"]⟩, ⟨["d"], ["b"]⟩] [⟨["d"], ["b"]⟩, ⟨["e"], ["a", "b"]⟩] =
    [⟨["d"], ["b"]⟩, ⟨["e"], ["a", "b"]⟩, ⟨["a", "c"], ["b", "c"]⟩] := by decide +kernel

/-- C164b: a place of the extended sets is lost for every hash if a pair lists the same names with another border between its sides. -/
theorem C164_lost : ∃ (zw yw : List ASet) (x : ASet), PlaceSource [] zw yw x ∧ ∀ hash, x ∉ pw .plain hash [] zw yw := by
  refine ⟨[⟨["a"], ["b", "c"]⟩], [⟨["a", "b"], ["c"]⟩], ⟨["a", "b"], ["c"]⟩, Or.inl ⟨Or.inr (by simp), by simp⟩, fun hash h => ?_⟩
  have e : pw .plain hash [] [⟨["a"], ["b", "c"]⟩] [⟨["a", "b"], ["c"]⟩] = [⟨["a"], ["b", "c"]⟩] := by
    simp [pw, Iter.plain, shouldAdd, insertBy, ASet.same, ASet.key]
  rw [e] at h
  revert h; decide

/-- C164c: the net can be built exactly if every name of a place is a class or a loop. It is then well formed; its transitions are
the classes and loops, none silent; its places are those of the sets, with their text as name, one arc from each transition of the
first side and one to each of the second. It has no start and no end: no initial and no final marking. -/
theorem C164_net (it : Iter) (next : Nat) (classes loops : List String) (places : List ASet) (hn : (classes ++ loops).Nodup)
    (hs : ∀ x ∈ places, x.left.Nodup ∧ x.right.Nodup) :
    (resultNet it next classes loops places = none ↔ ∃ x ∈ places, ∃ c ∈ x.left ++ x.right, c ∉ classes ++ loops) ∧
    ∀ s, resultNet it next classes loops places = some s →
      WellFormed s.net ∧ Drawn s ∧ s.net.initial = none ∧ s.net.final = none ∧
      (s.net.transitions.map Trans.name).Perm (classes ++ loops) ∧ (∀ t ∈ s.net.transitions, t.silent = false) ∧
      ∃ sets : List ASet, sets.Perm places ∧ s.net.places.length = sets.length ∧
        ∀ (i : Nat) (p : Place) (x : ASet), s.net.places[i]? = some p → sets[i]? = some x → p.name = x.text ∧ ∀ t ∈ s.net.transitions,
          arcsInto p t = (if t.name ∈ x.right then 1 else 0) ∧ arcsOutOf t p = (if t.name ∈ x.left then 1 else 0) := by
  obtain ⟨k1, k2⟩ := resultNet_spec it next classes loops places hn hs
  refine ⟨k1, fun s h => ?_⟩
  obtain ⟨pids, hl, hfr, hpl, hi, hf, hnm, hv⟩ := k2 s h
  set sets := it.order "p_w" 0 places with hsets
  have hperm : sets.Perm places := it.perm _ _ _
  have hl' : pids.length = sets.length := by rw [hl, hperm.length_eq]
  have hd := distinct_of_fresh hfr
  have hpn : (s.net.places.map Place.id).Nodup := (List.nodup_append.mp (List.nodup_append.mp hd).1).1
  have hid : s.net.places.map Place.id = pids := by
    rw [hpl]; unfold nfcPlaces
    rw [List.map_zipWith]
    exact zipWith_fst pids sets hl'
  rw [hid] at hpn
  have hview : ∀ t ∈ s.net.transitions, t.view ∈ s.views := fun t ht => List.mem_map_of_mem ht
  refine ⟨⟨hd, ?_⟩, drawn_of_fresh hfr, hi, hf, ?_, fun t ht => (hv _ (hview t ht)).1, sets, hperm, ?_, ?_⟩
  · intro t ht a ha
    have hmem : a.place ∈ t.view.ins ++ t.view.outs := by
      simp only [Trans.view, ← List.map_append]
      exact List.mem_map_of_mem ha
    have hsub : ∀ f, ∀ j ∈ placesWith pids sets f, j ∈ pids := by
      intro f j hj
      obtain ⟨⟨a, b⟩, h1, rfl⟩ := List.mem_map.mp hj
      exact (List.of_mem_zip (List.mem_filter.mp h1).1).1
    have : a.place ∈ pids := by
      rw [(hv _ (hview t ht)).2.1, (hv _ (hview t ht)).2.2] at hmem
      rcases List.mem_append.mp hmem with h | h <;> exact hsub _ _ h
    rw [← hid] at this
    obtain ⟨p, hp, he⟩ := List.mem_map.mp this
    exact ⟨p, hp, he⟩
  · have : s.views.map View.name = s.net.transitions.map Trans.name := by
      unfold Building.views; rw [List.map_map]; rfl
    rw [← this]; exact hnm
  · rw [hpl]; simp [nfcPlaces, hl']
  · intro i p x hp hx
    have hpi : pids[i]? = some p.id := by rw [← hid, List.getElem?_map, hp]; rfl
    have hpe : p = ⟨p.id, x.text, none⟩ := by
      rw [hpl] at hp
      unfold nfcPlaces at hp
      rw [List.getElem?_zipWith, hpi, hx] at hp
      simp only [Option.some.injEq] at hp
      exact hp.symm
    refine ⟨by rw [hpe], fun t ht => ?_⟩
    have hvt := hv _ (hview t ht)
    have c1 := placesWith_count_at pids sets hl' hpn (fun x => decide (t.view.name ∈ x.right)) i p.id x hpi hx
    have c2 := placesWith_count_at pids sets hl' hpn (fun x => decide (t.view.name ∈ x.left)) i p.id x hpi hx
    rw [← hvt.2.1] at c1
    rw [← hvt.2.2] at c2
    simp only [decide_eq_true_eq] at c1 c2
    exact ⟨c1, c2⟩

example : ((resultNet .plain 0 ["a", "b"] ["c"] [⟨["a", "c"], ["b", "c"]⟩]).map (fun s =>
      (s.net.places.map Place.name, s.net.transitions.map (fun t => (t.name, t.incoming.length, t.outgoing.length)), s.net.initial.isNone))) =
    some (["({a,c}, {b,c})"], [("a", 0, 1), ("b", 1, 0), ("c", 1, 1)], true) := by decide +kernel

example : resultNet .plain 0 ["a"] [] [⟨["a"], ["b"]⟩] = none := by decide +kernel

end Ficus.Rs
