import Verif.Proofs.RsAlpha
import Verif.Props.RsInfo

/-! C112: the sets of the alpha algorithm. -/

namespace Ficus.Rs
open Spec Core
variable {E : Type} [HasName E]

/-- The names of a log. -/
def namesOf (log : List (List E)) : List (List String) := log.map (fun t => t.map name)

theorem mem_adjacent_iff (l : List String) (a b : String) : (a, b) ∈ adjacent l ↔ [a, b] <:+: l := by
  induction l with
  | nil => simp [adjacent]
  | cons x xs ih =>
    rw [List.infix_cons_iff, ← ih]
    cases xs with
    | nil => simp [adjacent]
    | cons y ys => simp [adjacent, List.cons_prefix_cons]

theorem directly_iff (log : List (List E)) (a b : String) :
    (a, b) ∈ neighbours [] false log ↔ Directly (namesOf log) a b := by
  unfold neighbours Directly namesOf
  simp only [List.mem_flatMap, List.mem_map, Bool.false_eq_true, if_false, mem_adjacent_iff]
  have hk : ∀ t : List E, kept [] t = t.map name := by intro t; simp [kept]
  simp only [hk]
  constructor
  · rintro ⟨t, ht, h⟩; exact ⟨_, ⟨t, ht, rfl⟩, h⟩
  · rintro ⟨_, ⟨t, ht, rfl⟩, h⟩; exact ⟨t, ht, h⟩

theorem directly_without_iff (log : List (List E)) (ignored : List String) (a b : String) :
    (a, b) ∈ neighbours ignored false log ↔ Directly (withoutLoops (namesOf log) ignored) a b := by
  unfold neighbours Directly namesOf withoutLoops
  simp only [List.mem_flatMap, List.mem_map, Bool.false_eq_true, if_false, mem_adjacent_iff, List.map_map]
  have hk : ∀ t : List E, kept ignored t = (t.map name).filter (fun n => decide (n ∉ ignored)) := by
    intro t; simp [kept]
  simp only [hk]
  constructor
  · rintro ⟨t, ht, h⟩; exact ⟨_, ⟨t, ht, rfl⟩, h⟩
  · rintro ⟨_, ⟨t, ht, rfl⟩, h⟩; exact ⟨t, ht, h⟩

theorem mem_kept_of_neighbour {ignored : List String} {log : List (List E)} {a b : String}
    (h : (a, b) ∈ neighbours ignored false log) : a ∈ keptNamesOf ignored log ∧ b ∈ keptNamesOf ignored log := by
  unfold neighbours at h
  simp only [List.mem_flatMap, Bool.false_eq_true, if_false] at h
  obtain ⟨t, ht, h⟩ := h
  have := (mem_adjacent_iff _ _ _).mp h
  unfold keptNamesOf
  rw [List.mem_flatMap, List.mem_flatMap]
  exact ⟨⟨t, ht, this.subset (by simp)⟩, ⟨t, ht, this.subset (by simp)⟩⟩

theorem info_classes_keys (it : Iter) (log : List (List E)) (ignored : Option (List String)) (fake : Bool) (c : String) :
    c ∈ (createInfo it log ignored fake).classes.keys ↔ c ∈ keptNamesOf (ignored.getD []) log := by
  rw [createInfo_eq]; exact mem_counter_keys _ _

/-- What follows holds for relations that need one name directly after the other. -/
theorem lawful_of (it : Iter) (log : List (List E)) (ignored : Option (List String)) (rel : Relations)
    (h1 : ∀ a b, rel.causal a b = true → (createInfo it log ignored).follows a b = true)
    (h2 : ∀ a b, rel.unrelated a b = true → (createInfo it log ignored).follows a b = false) :
    Lawful (createInfo it log ignored) rel := by
  refine ⟨?_, ?_⟩
  · intro a b h
    rw [Bool.eq_false_iff]
    intro hu
    have := h1 a b h
    rw [h2 a b hu] at this; cases this
  · intro a b h
    have hn := (C110_pairs it log ignored false a b).2.mp (h1 a b h)
    obtain ⟨k1, k2⟩ := mem_kept_of_neighbour hn
    refine ⟨(info_classes_keys it log ignored false a).mpr k1, (info_classes_keys it log ignored false b).mpr k2, ?_⟩
    obtain ⟨m, hm, _⟩ := ((C110_followers it log ignored false a b _).1).mpr ⟨rfl, List.count_pos_iff.mpr hn⟩
    rw [hm]; rfl

theorem tellsApart_of_perm {hash : List String → Nat} {l m : List String} (h : TellsApart hash l) (hp : l.Perm m) :
    TellsApart hash m := by
  intro s t h1 h2 h3 h4 h5
  exact h s t (hp.length_eq ▸ h1) (hp.length_eq ▸ h2) (fun x hx => hp.mem_iff.mpr (h3 x hx))
    (fun x hx => hp.mem_iff.mpr (h4 x hx)) h5

theorem classes_perm (it : Iter) (log : List (List E)) (ignored : Option (List String)) :
    (keptNamesOf (ignored.getD []) log).dedup.Perm (createInfo it log ignored).classes.keys := by
  refine (List.perm_ext_iff_of_nodup (List.nodup_dedup _) ?_).mpr (fun c => ?_)
  · rw [createInfo_eq]; exact counter_WF _
  · rw [List.mem_dedup, info_classes_keys]

theorem maximal_congr {c u c' u' : String → String → Prop} (hc : ∀ a b, c a b ↔ c' a b) (hu : ∀ a b, u a b ↔ u' a b) (p : P) :
    MaximalPair c u p ↔ MaximalPair c' u' p := by
  have e1 : c = c' := funext (fun a => funext (fun b => propext (hc a b)))
  have e2 : u = u' := funext (fun a => funext (fun b => propext (hu a b)))
  rw [e1, e2]

theorem keptNamesOf_nil (log : List (List E)) : keptNamesOf [] log = (namesOf log).flatten := by
  unfold keptNamesOf namesOf
  rw [List.flatMap_def]
  congr 1
  refine List.map_congr_left (fun t _ => ?_)
  simp [kept]

/-- C112a: if the hash tells the sequences of names apart that can occur, the alpha algorithm makes its places from exactly the
maximal pairs of sets, each once, for every order of iteration, and the loop ends after at most as many rounds as there are
classes. Missing: hashes that collide, for which it fails (`C112_collision`). -/
theorem C112_alpha_sets_partial (it : Iter) (hash : List String → Nat) (log : List (List E))
    (hh : TellsApart hash (namesOf log).flatten.dedup) (fuel : Nat) (hf : (namesOf log).flatten.dedup.length < fuel) :
    ∃ sets, alphaSets it hash fuel (createInfo it log) (alphaRelations (createInfo it log)) = some sets ∧
      (∀ x ∈ sets, x.left.Pairwise (· < ·) ∧ x.right.Pairwise (· < ·)) ∧
      (sets.map (fun x => (x.left.toFinset, x.right.toFinset))).Nodup ∧
      ∀ p, p ∈ sets.map (fun x => (x.left.toFinset, x.right.toFinset)) ↔
        MaximalPair (Causal (namesOf log)) (Unrelated (namesOf log)) p := by
  have hfol : ∀ a b, (createInfo it log).follows a b = true ↔ Directly (namesOf log) a b := by
    intro a b
    rw [(C110_pairs it log none false a b).2]
    exact directly_iff log a b
  have hl : Lawful (createInfo it log) (alphaRelations (createInfo it log)) := by
    refine lawful_of it log none _ ?_ ?_
    · intro a b h; simp only [alphaRelations, Bool.and_eq_true] at h; exact h.1
    · intro a b h; simp only [alphaRelations, Bool.and_eq_true, Bool.not_eq_true'] at h; exact h.1
  have hperm := classes_perm it log none
  rw [Option.getD_none, keptNamesOf_nil] at hperm
  obtain ⟨r, h1, h2, h3, h4⟩ := alphaSets_spec hl it (tellsApart_of_perm hh hperm) fuel (by rw [← hperm.length_eq]; exact hf)
  refine ⟨r, h1, fun x hx => ⟨(h3 x hx).left, (h3 x hx).right⟩, ?_, ?_⟩
  · exact (List.nodup_map_iff_inj_on h2).mpr (fun x hx y hy h => pair_inj (h3 x hx) (h3 y hy) h)
  · intro p
    have : p ∈ r.map (fun x => (x.left.toFinset, x.right.toFinset)) ↔ pairsIn r p := by
      unfold pairsIn; rw [List.mem_map]; rfl
    rw [this, h4 p]
    apply maximal_congr
    · intro a b
      unfold Relations.C Causal
      simp only [alphaRelations, Bool.and_eq_true, Bool.not_eq_true', hfol, ← Bool.not_eq_true]
    · intro a b
      unfold Relations.U Unrelated
      simp only [alphaRelations, Bool.and_eq_true, Bool.not_eq_true', ← Bool.not_eq_true, hfol]

/-- A log for the examples: `b` and `c` in any order, or `e` alone. -/
def exAlpha : List (List String) := [["a", "b", "c", "d"], ["a", "c", "b", "d"], ["a", "e", "d"]]

/-- A hash that tells all sequences of names apart. -/
def exHash (l : List String) : Nat := Encodable.encode (l.map (fun s => s.toList.map Char.toNat))

theorem exHash_apart (names : List String) : TellsApart exHash names := by
  intro s t _ _ _ _ h
  have h1 := Encodable.encode_injective h
  refine List.map_injective_iff.mpr (fun x y hxy => ?_) h1
  have h2 := List.map_injective_iff.mpr (fun c d (hcd : Char.toNat c = Char.toNat d) => Char.ext (UInt32.toNat_inj.mp hcd)) hxy
  exact String.toList_injective h2

example : alphaSets .plain exHash 6 (createInfo .plain exAlpha) (alphaRelations (createInfo .plain exAlpha)) =
    some [⟨["a"], ["b", "e"]⟩, ⟨["a"], ["c", "e"]⟩, ⟨["b", "e"], ["d"]⟩, ⟨["c", "e"], ["d"]⟩] := by decide +kernel

example : TellsApart exHash (namesOf exAlpha).flatten.dedup ∧ (namesOf exAlpha).flatten.dedup.length < 6 :=
  ⟨exHash_apart _, by decide⟩

/-- C112b: sets are compared by their hashes only. If two of them collide, one place is lost. -/
theorem C112_collision : ∃ (hash : List String → Nat) (log : List (List String)),
    (∀ fuel, 3 < fuel → (alphaSets .plain hash fuel (createInfo .plain log) (alphaRelations (createInfo .plain log))).map
      List.length = some 1) ∧
    MaximalPair (Causal (namesOf log)) (Unrelated (namesOf log)) ({"a"}, {"b"}) ∧
    MaximalPair (Causal (namesOf log)) (Unrelated (namesOf log)) ({"c"}, {"d"}) := by
  refine ⟨fun _ => 0, [["a", "b"], ["c", "d"]], ?_, ?_, ?_⟩
  · intro fuel hf
    obtain ⟨f, rfl⟩ : ∃ f, fuel = f + 1 := ⟨fuel - 1, by omega⟩
    rfl
  all_goals
    have hd : ∀ a b, Directly (namesOf [["a", "b"], ["c", "d"]]) a b ↔ (a = "a" ∧ b = "b") ∨ (a = "c" ∧ b = "d") := by
      intro a b
      rw [← directly_iff]
      simp [neighbours, kept, adjacent, name, HasName.name]
    refine ⟨⟨by simp, by simp, ?_, ?_, ?_⟩, ?_⟩
    · simp [Causal, hd]
    · simp [Unrelated, hd]
    · simp [Unrelated, hd]
    · rintro ⟨A, B⟩ hq h1 h2
      simp only [Finset.singleton_subset_iff] at h1 h2
      have e1 : ∀ x ∈ A, Causal (namesOf [["a", "b"], ["c", "d"]]) x _ := fun x hx => hq.causal x hx _ h2
      have e2 : ∀ x ∈ B, Causal (namesOf [["a", "b"], ["c", "d"]]) _ x := fun x hx => hq.causal _ h1 x hx
      simp only [Causal, hd] at e1 e2
      refine Prod.ext (Finset.eq_singleton_iff_unique_mem.mpr ⟨h1, fun x hx => ?_⟩)
        (Finset.eq_singleton_iff_unique_mem.mpr ⟨h2, fun x hx => ?_⟩)
      · have := e1 x hx; simp at this; tauto
      · have := e2 x hx; simp at this; tauto

/-! ### Alpha+ -/

theorem getElem?_infix3 (l : List String) (a b c : String) :
    [a, b, c] <:+: l ↔ ∃ i, l[i]? = some a ∧ l[i + 1]? = some b ∧ l[i + 2]? = some c := by
  constructor
  · rintro ⟨s, t, rfl⟩
    refine ⟨s.length, ?_, ?_, ?_⟩ <;> simp
  · rintro ⟨i, h1, h2, h3⟩
    obtain ⟨k1, e1⟩ := List.getElem?_eq_some_iff.mp h1
    obtain ⟨k2, e2⟩ := List.getElem?_eq_some_iff.mp h2
    obtain ⟨k3, e3⟩ := List.getElem?_eq_some_iff.mp h3
    refine ⟨l.take i, l.drop (i + 3), ?_⟩
    conv_rhs => rw [← List.take_append_drop i l, List.drop_eq_getElem_cons k1, List.drop_eq_getElem_cons k2,
      List.drop_eq_getElem_cons k3, e1, e2, e3]
    simp

theorem getElem?_infix2 (l : List String) (a b : String) :
    [a, b] <:+: l ↔ ∃ i, l[i]? = some a ∧ l[i + 1]? = some b := by
  constructor
  · rintro ⟨s, t, rfl⟩
    refine ⟨s.length, ?_, ?_⟩ <;> simp
  · rintro ⟨i, h1, h2⟩
    obtain ⟨k1, e1⟩ := List.getElem?_eq_some_iff.mp h1
    obtain ⟨k2, e2⟩ := List.getElem?_eq_some_iff.mp h2
    refine ⟨l.take i, l.drop (i + 2), ?_⟩
    conv_rhs => rw [← List.take_append_drop i l, List.drop_eq_getElem_cons k1, List.drop_eq_getElem_cons k2, e1, e2]
    simp

theorem trianglesOf_spec (ns : List String) :
    (trianglesOf ns = none ↔ ns.length < 2) ∧
    ∀ r, trianglesOf ns = some r → ∀ a b, (a, b) ∈ r ↔ [a, b, a] <:+: ns := by
  unfold trianglesOf
  split
  · rename_i h; exact ⟨by simp [h], fun r hr => by cases hr⟩
  · rename_i h
    refine ⟨by simp [h], fun r hr a b => ?_⟩
    cases hr
    rw [getElem?_infix3, List.mem_filterMap]
    constructor
    · rintro ⟨i, _, hi⟩
      split at hi
      · rename_i x y z h1 h2 h3
        split at hi
        · rename_i he; cases hi; exact ⟨i, h1, h2, he ▸ h3⟩
        · cases hi
      · cases hi
    · rintro ⟨i, h1, h2, h3⟩
      obtain ⟨k3, _⟩ := List.getElem?_eq_some_iff.mp h3
      refine ⟨i, List.mem_range.mpr (by omega), ?_⟩
      rw [h1, h2, h3]; simp

theorem oneLoopsOf_spec (ns : List String) :
    (oneLoopsOf ns = none ↔ ns = []) ∧
    ∀ r, oneLoopsOf ns = some r → ∀ a, a ∈ r ↔ [a, a] <:+: ns := by
  unfold oneLoopsOf
  split
  · rename_i h
    exact ⟨by simp only [true_iff]; exact List.length_eq_zero_iff.mp (by omega), fun r hr => by cases hr⟩
  · rename_i h
    refine ⟨by constructor; · intro h'; cases h'
               · rintro rfl; simp at h, fun r hr a => ?_⟩
    cases hr
    rw [getElem?_infix2, List.mem_filterMap]
    constructor
    · rintro ⟨i, _, hi⟩
      split at hi
      · rename_i x y h1 h2
        split at hi
        · rename_i he; cases hi; exact ⟨i, h1, he ▸ h2⟩
        · cases hi
      · cases hi
    · rintro ⟨i, h1, h2⟩
      obtain ⟨k2, _⟩ := List.getElem?_eq_some_iff.mp h2
      refine ⟨i, List.mem_range.mpr (by omega), ?_⟩
      rw [h1, h2]; simp

theorem mapM_option {α β : Type} (f : α → Option β) (l : List α) :
    (l.mapM f = none ↔ ∃ x ∈ l, f x = none) ∧
    ∀ r, l.mapM f = some r → ∀ y, y ∈ r ↔ ∃ x ∈ l, f x = some y := by
  induction l with
  | nil => simp
  | cons x xs ih =>
    obtain ⟨ih1, ih2⟩ := ih
    rw [List.mapM_cons]
    cases hx : f x with
    | none => simp [hx]
    | some y =>
      cases hr : xs.mapM f with
      | none =>
        have := ih1.mp hr
        simp only [Option.pure_def, Option.bind_eq_bind, Option.bind_some, Option.bind_none, true_iff, List.mem_cons]
        obtain ⟨z, hz, hz'⟩ := this
        exact ⟨⟨z, Or.inr hz, hz'⟩, fun r h => by cases h⟩
      | some r =>
        have h2 := ih2 r hr
        have h1 : ¬ ∃ z ∈ xs, f z = none := fun h => by rw [ih1.mpr h] at hr; cases hr
        simp only [Option.pure_def, Option.bind_eq_bind, Option.bind_some, List.mem_cons]
        refine ⟨⟨fun h => (by cases h), ?_⟩, ?_⟩
        · rintro ⟨z, rfl | hz, hz'⟩
          · rw [hx] at hz'; cases hz'
          · exact absurd ⟨z, hz, hz'⟩ h1
        · rintro r' h y'
          cases h
          rw [List.mem_cons, h2 y']
          constructor
          · rintro (rfl | ⟨z, hz, hz'⟩)
            · exact ⟨x, Or.inl rfl, hx⟩
            · exact ⟨z, Or.inr hz, hz'⟩
          · rintro ⟨z, rfl | hz, hz'⟩
            · rw [hx] at hz'; cases hz'; exact Or.inl rfl
            · exact Or.inr ⟨z, hz, hz'⟩

theorem triangles_spec (log : List (List String)) :
    (triangles log = none ↔ ∃ t ∈ log, t.length < 2) ∧
    ∀ r, triangles log = some r → ∀ a b, (a, b) ∈ r ↔ Triangle log a b := by
  unfold triangles
  obtain ⟨h1, h2⟩ := mapM_option trianglesOf log
  constructor
  · rw [Option.map_eq_none_iff, h1]
    simp only [(trianglesOf_spec _).1]
  · intro r hr a b
    rw [Option.map_eq_some_iff] at hr
    obtain ⟨l, hl, rfl⟩ := hr
    rw [List.mem_flatten]
    unfold Triangle
    constructor
    · rintro ⟨x, hx, hab⟩
      obtain ⟨t, ht, he⟩ := (h2 l hl x).mp hx
      exact ⟨t, ht, ((trianglesOf_spec t).2 x he a b).mp hab⟩
    · rintro ⟨t, ht, h⟩
      cases he : trianglesOf t with
      | none => rw [h1.mpr ⟨t, ht, he⟩] at hl; cases hl
      | some x => exact ⟨x, (h2 l hl x).mpr ⟨t, ht, he⟩, ((trianglesOf_spec t).2 x he a b).mpr h⟩

theorem oneLoops_spec (log : List (List String)) :
    (oneLoops log = none ↔ [] ∈ log) ∧
    ∀ r, oneLoops log = some r → r.Nodup ∧ ∀ a, a ∈ r ↔ Directly log a a := by
  unfold oneLoops
  obtain ⟨h1, h2⟩ := mapM_option oneLoopsOf log
  constructor
  · rw [Option.map_eq_none_iff, h1]
    simp only [(oneLoopsOf_spec _).1]
    simp
  · intro r hr
    rw [Option.map_eq_some_iff] at hr
    obtain ⟨l, hl, rfl⟩ := hr
    refine ⟨setOf_nodup _, fun a => ?_⟩
    rw [show a ∈ l.flatten.foldl insertSet [] ↔ a ∈ l.flatten from mem_setOf _ _, List.mem_flatten]
    unfold Directly
    constructor
    · rintro ⟨x, hx, hab⟩
      obtain ⟨t, ht, he⟩ := (h2 l hl x).mp hx
      exact ⟨t, ht, ((oneLoopsOf_spec t).2 x he a).mp hab⟩
    · rintro ⟨t, ht, h⟩
      cases he : oneLoopsOf t with
      | none => rw [h1.mpr ⟨t, ht, he⟩] at hl; cases hl
      | some x => exact ⟨x, (h2 l hl x).mpr ⟨t, ht, he⟩, ((oneLoopsOf_spec t).2 x he a).mpr h⟩

/-- C112c: the classes that come directly after themselves, which Alpha+ takes out, and the triangles are exact; they are computed
iff no trace has less than one or two events, otherwise the backend panics. -/
theorem C112_loops_and_triangles (log : List (List String)) :
    (oneLoops log = none ↔ [] ∈ log) ∧
    (∀ r, oneLoops log = some r → r.Nodup ∧ ∀ a, a ∈ r ↔ Directly log a a) ∧
    (triangles log = none ↔ ∃ t ∈ log, t.length < 2) ∧
    (∀ r, triangles log = some r → ∀ a b, (a, b) ∈ r ↔ Triangle log a b) :=
  ⟨(oneLoops_spec log).1, (oneLoops_spec log).2, (triangles_spec log).1, (triangles_spec log).2⟩

example : oneLoops [["a", "b", "b", "a"], ["c"]] = some ["b"] ∧ triangles [["a", "b", "b", "a"], ["c"]] = none ∧
    triangles [["a", "b", "a", "b", "c"]] = some [("a", "b"), ("b", "a")] := by decide

/-- C112d: the sets of Alpha+ are the maximal pairs for the log without the given classes (those that come directly after
themselves, C112c), where a class is also causal for another one if both triangles of them occur in the whole log. Missing: hashes that
collide. -/
theorem C112_alpha_plus_sets_partial (it : Iter) (hash : List String → Nat) (log : List (List E)) (loops : List String)
    (tri : List (String × String)) (h2 : triangles (namesOf log) = some tri)
    (hh : TellsApart hash (withoutLoops (namesOf log) loops).flatten.dedup) (fuel : Nat)
    (hf : (withoutLoops (namesOf log) loops).flatten.dedup.length < fuel) :
    ∃ sets, alphaSets it hash fuel (createInfo it log (some loops)) (alphaPlusRelations (createInfo it log (some loops)) tri) =
        some sets ∧
      (∀ x ∈ sets, x.left.Pairwise (· < ·) ∧ x.right.Pairwise (· < ·)) ∧
      (sets.map (fun x => (x.left.toFinset, x.right.toFinset))).Nodup ∧
      ∀ p, p ∈ sets.map (fun x => (x.left.toFinset, x.right.toFinset)) ↔
        MaximalPair
          (fun a b => Directly (withoutLoops (namesOf log) loops) a b ∧
            (¬ Directly (withoutLoops (namesOf log) loops) b a ∨ (Triangle (namesOf log) a b ∧ Triangle (namesOf log) b a)))
          (Unrelated (withoutLoops (namesOf log) loops)) p := by
  have hfol : ∀ a b, (createInfo it log (some loops)).follows a b = true ↔ Directly (withoutLoops (namesOf log) loops) a b := by
    intro a b
    rw [(C110_pairs it log (some loops) false a b).2]
    exact directly_without_iff log loops a b
  have hl : Lawful (createInfo it log (some loops)) (alphaPlusRelations (createInfo it log (some loops)) tri) := by
    refine lawful_of it log (some loops) _ ?_ ?_
    · intro a b h; simp only [alphaPlusRelations, Bool.and_eq_true] at h; exact h.1
    · intro a b h; simp only [alphaPlusRelations, Bool.and_eq_true, Bool.not_eq_true'] at h; exact h.1
  have hperm := classes_perm it log (some loops)
  have hk : keptNamesOf loops log = (withoutLoops (namesOf log) loops).flatten := by
    unfold keptNamesOf namesOf withoutLoops
    rw [List.flatMap_def, List.map_map]
    congr 1
  rw [Option.getD_some, hk] at hperm
  obtain ⟨r, g1, g2, g3, g4⟩ := alphaSets_spec hl it (tellsApart_of_perm hh hperm) fuel (by rw [← hperm.length_eq]; exact hf)
  have ht := (triangles_spec (namesOf log)).2 tri h2
  refine ⟨r, g1, fun x hx => ⟨(g3 x hx).left, (g3 x hx).right⟩, ?_, ?_⟩
  · exact (List.nodup_map_iff_inj_on g2).mpr (fun x hx y hy h => pair_inj (g3 x hx) (g3 y hy) h)
  · intro p
    have : p ∈ r.map (fun x => (x.left.toFinset, x.right.toFinset)) ↔ pairsIn r p := by
      unfold pairsIn; rw [List.mem_map]; rfl
    rw [this, g4 p]
    apply maximal_congr
    · intro a b
      unfold Relations.C
      simp only [alphaPlusRelations, Bool.and_eq_true, Bool.or_eq_true, Bool.not_eq_true', hfol, ← Bool.not_eq_true,
        decide_eq_true_eq, ht]
    · intro a b
      unfold Relations.U Unrelated
      simp only [alphaPlusRelations, Bool.and_eq_true, Bool.not_eq_true', ← Bool.not_eq_true, hfol]

example : oneLoops (namesOf [["a", "b", "c", "b", "c", "l", "l", "d"]]) = some ["l"] ∧
    triangles (namesOf [["a", "b", "c", "b", "c", "l", "l", "d"]]) = some [("b", "c"), ("c", "b")] ∧
    alphaSets .plain exHash 6 (createInfo .plain [["a", "b", "c", "b", "c", "l", "l", "d"]] (some ["l"]))
      (alphaPlusRelations (createInfo .plain [["a", "b", "c", "b", "c", "l", "l", "d"]] (some ["l"])) [("b", "c"), ("c", "b")]) =
      some [⟨["a", "c"], ["b"]⟩, ⟨["c"], ["b", "d"]⟩, ⟨["b"], ["c"]⟩] := by decide +kernel

end Ficus.Rs
