import Verif.Proofs.RsAlpha
import Verif.Spec.RsEnds
import Mathlib.Data.Multiset.DershowitzManna
import Mathlib.Data.Finset.Image

/-! `maximize` ends whatever the hashes are: each round takes away some elements and puts only unions in their place that are larger than
one of them. -/

namespace Ficus.Rs.Nfc
open Spec Spec.Ends

theorem insertBy_tail {α : Type} (same : α → α → Bool) (l s : List α) : ∃ l', l'.Sublist l ∧ l.foldl (insertBy same) s = s ++ l' := by
  induction l generalizing s with
  | nil => exact ⟨[], List.Sublist.refl _, by simp⟩
  | cons x l ih =>
    obtain ⟨l', h1, h2⟩ := ih (insertBy same s x)
    rw [List.foldl_cons, h2]
    unfold insertBy
    split
    · exact ⟨l', h1.cons x, rfl⟩
    · exact ⟨x :: l', h1.cons_cons x, by simp⟩

theorem insertBy_nodup {α : Type} (same : α → α → Bool) (hs : ∀ x, same x x = true) (l s : List α) (h : s.Nodup) :
    (l.foldl (insertBy same) s).Nodup := by
  induction l generalizing s with
  | nil => exact h
  | cons x l ih =>
    rw [List.foldl_cons]
    refine ih _ ?_
    unfold insertBy
    split
    · exact h
    · rename_i hn
      refine List.nodup_append.mpr ⟨h, List.nodup_singleton x, ?_⟩
      rintro a ha b hb rfl
      rw [List.mem_singleton] at hb
      subst hb
      exact hn (List.any_eq_true.mpr ⟨_, ha, hs _⟩)

/-- One round: `kept` are the elements that stay; all elements that were merged are gone. -/
theorem round_shape {α : Type} [DecidableEq α] (same : α → α → Bool) (hs : ∀ x, same x x = true) (merger : α → α → Option α)
    (vec r : List α) (hn : vec.Nodup) (h : maximizeRound same merger vec = some r) :
    ∃ new kept : List α, r = new ++ kept ∧ r.Nodup ∧ kept.Sublist vec ∧ new ≠ [] ∧
      ∀ m ∈ new, ∃ x y, x ∈ vec ∧ y ∈ vec ∧ x ≠ y ∧ merger x y = some m ∧ x ∉ kept ∧ y ∉ kept := by
  unfold maximizeRound at h
  simp only at h
  split at h
  · cases h
  rename_i hne
  cases h
  generalize hmg : roundMerges merger vec = merges at hne
  have hnew := insertBy_tail same (merges.map Prod.fst) []
  rw [List.foldl_map] at hnew
  obtain ⟨new, n1, n2⟩ := hnew
  have hnn := insertBy_nodup same hs (merges.map Prod.fst) [] List.nodup_nil
  rw [List.foldl_map] at hnn
  have hfil := foldl_if_filter (fun (b : α × Nat) => !decide (b.2 ∈ merges.flatMap (fun m => [m.2.1, m.2.2])))
    (fun s (b : α × Nat) => insertBy same s b.1) (fun b => decide (b.2 ∈ merges.flatMap (fun m => [m.2.1, m.2.2]))) vec.zipIdx
    (merges.foldl (fun s m => insertBy same s m.1) []) (fun b => rfl)
  simp only [decide_eq_true_eq] at hfil
  rw [hfil]
  generalize hrest : (vec.zipIdx.filter (fun b => !decide (b.2 ∈ merges.flatMap (fun m => [m.2.1, m.2.2])))) = rest
  have hk := insertBy_tail same (rest.map Prod.fst) (merges.foldl (fun s m => insertBy same s m.1) [])
  have hkn := insertBy_nodup same hs (rest.map Prod.fst) _ hnn
  rw [List.foldl_map] at hk hkn
  obtain ⟨kept, k1, k2⟩ := hk
  have hsub : (rest.map Prod.fst).Sublist vec := by
    have h1 : rest.Sublist vec.zipIdx := by rw [← hrest]; exact List.filter_sublist
    have h2 := h1.map Prod.fst
    rwa [List.zipIdx_map_fst] at h2
  have hgone : ∀ (i : Nat) (x : α), vec[i]? = some x → i ∈ merges.flatMap (fun m => [m.2.1, m.2.2]) → x ∉ kept := by
    intro i x hx hi hxk
    obtain ⟨⟨x', j⟩, hj, he⟩ := List.mem_map.mp (k1.subset hxk)
    simp only at he
    subst he
    rw [← hrest, List.mem_filter] at hj
    obtain ⟨j1, j2⟩ := hj
    rw [List.mem_zipIdx_iff_getElem?] at j1
    simp only at j1 j2
    have hij : i = j := by
      obtain ⟨hi', _⟩ := List.getElem?_eq_some_iff.mp hx
      exact (List.getElem?_inj hi' hn).mp (hx.trans j1.symm)
    subst hij
    simp [hi] at j2
  rw [List.nil_append] at n2
  refine ⟨new, kept, by rw [k2, n2], hkn, k1.trans hsub, ?_, ?_⟩
  · rintro rfl
    cases hm : merges with
    | nil => rw [hm] at hne; exact hne rfl
    | cons m ms =>
      have hany : ∀ (l : List (α × Nat × Nat)) (s : List α), s ≠ [] → l.foldl (fun s m => insertBy same s m.1) s ≠ [] := by
        intro l
        induction l with
        | nil => intro s h; exact h
        | cons a l ih =>
          intro s h
          rw [List.foldl_cons]
          refine ih _ ?_
          unfold insertBy
          split
          · exact h
          · simp
      rw [hm, List.foldl_cons] at n2
      exact hany ms _ (by simp [insertBy]) n2
  · intro m hm
    obtain ⟨⟨m', i, j⟩, hmem, he⟩ := List.mem_map.mp (n1.subset hm)
    simp only at he
    subst he
    have hmem' := hmem
    rw [← hmg, mem_roundMerges] at hmem
    obtain ⟨x, y, hx, hy, hij, hxy⟩ := hmem
    refine ⟨x, y, List.mem_of_getElem? hx, List.mem_of_getElem? hy, ?_, hxy, hgone i x hx ?_, hgone j y hy ?_⟩
    · rintro rfl
      obtain ⟨hi', _⟩ := List.getElem?_eq_some_iff.mp hx
      exact hij ((List.getElem?_inj hi' hn).mp (hx.trans hy.symm))
    · exact List.mem_flatMap.mpr ⟨_, hmem', by simp⟩
    · exact List.mem_flatMap.mpr ⟨_, hmem', by simp⟩

theorem maximize_ends {α β : Type} [DecidableEq α] [DecidableEq β] (it : Iter) (same : α → α → Bool) (hs : ∀ x, same x x = true)
    (merger : α → α → Option α) (P : α → Prop) (val : α → Finset β) (U : Finset β) (hU : ∀ x, P x → val x ⊆ U)
    (hinj : ∀ x y, P x → P y → val x = val y → x = y)
    (hm : ∀ x y m, P x → P y → merger x y = some m → P m ∧ val m = val x ∪ val y) (first : List α) (hn : first.Nodup)
    (hP : ∀ x ∈ first, P x) (round : Nat) :
    ∃ n, ∀ fuel, n ≤ fuel → ∃ r, maximize it same merger fuel round first = some r ∧ ∀ x ∈ r, P x := by
  have wf : WellFounded (Multiset.IsDershowitzMannaLT (α := Nat)) := Multiset.wellFounded_isDershowitzMannaLT
  generalize hM : (first.map (fun x => U.card - (val x).card) : Multiset Nat) = M
  induction M using wf.induction generalizing first round with
  | _ M ih =>
    have hperm := it.perm "current" round first
    have hvn : (it.order "current" round first).Nodup := hperm.nodup_iff.mpr hn
    cases hr : maximizeRound same merger (it.order "current" round first) with
    | none =>
      refine ⟨1, fun fuel hf => ?_⟩
      obtain ⟨f, rfl⟩ : ∃ f, fuel = f + 1 := ⟨fuel - 1, by omega⟩
      exact ⟨first, by rw [maximize, hr], hP⟩
    | some r =>
      obtain ⟨new, kept, e, rn, ks, nne, hnew⟩ := round_shape same hs merger _ _ hvn hr
      have hvP : ∀ x ∈ it.order "current" round first, P x := fun x hx => hP x (hperm.mem_iff.mp hx)
      have hlt : ∀ x y m, P x → P y → x ≠ y → merger x y = some m →
          U.card - (val m).card < U.card - (val x).card ∨ U.card - (val m).card < U.card - (val y).card := by
        intro x y m hx hy hxy h
        obtain ⟨hPm, hval⟩ := hm x y m hx hy h
        have hle := Finset.card_le_card (hU m hPm)
        by_cases hsub : val x ⊆ val y
        · have hss : val x ⊂ val m := by
            rw [hval, Finset.union_eq_right.mpr hsub]
            exact Finset.ssubset_iff_subset_ne.mpr ⟨hsub, fun h => hxy (hinj x y hx hy h)⟩
          have := Finset.card_lt_card hss
          exact Or.inl (by omega)
        · have hss : val y ⊂ val m := by
            rw [hval]
            refine Finset.ssubset_iff_subset_ne.mpr ⟨Finset.subset_union_right, fun h => hsub ?_⟩
            rw [h]; exact Finset.subset_union_left
          have := Finset.card_lt_card hss
          exact Or.inr (by omega)
      have hrP : ∀ x ∈ r, P x := by
        intro x hx
        rw [e] at hx
        rcases List.mem_append.mp hx with hx | hx
        · obtain ⟨a, b, ha, hb, _, hab, _⟩ := hnew x hx
          exact (hm a b x (hvP a ha) (hvP b hb) hab).1
        · exact hvP x (ks.subset hx)
      have hdm : Multiset.IsDershowitzMannaLT (r.map (fun x => U.card - (val x).card) : Multiset Nat) M := by
        obtain ⟨gone, hg⟩ := List.Sublist.exists_perm_append ks
        have hin : ∀ x, x ∈ it.order "current" round first → x ∉ kept → x ∈ gone := by
          intro x hx hk
          rcases List.mem_append.mp (hg.mem_iff.mp hx) with h | h
          · exact absurd h hk
          · exact h
        refine ⟨(kept.map (fun x => U.card - (val x).card) : Multiset Nat), (new.map (fun x => U.card - (val x).card) : Multiset Nat),
          (gone.map (fun x => U.card - (val x).card) : Multiset Nat), ?_, ?_, ?_, ?_⟩
        · obtain ⟨m, hmn⟩ := List.exists_mem_of_ne_nil _ nne
          obtain ⟨a, _, ha, _, _, _, hk, _⟩ := hnew m hmn
          intro h0
          have : U.card - (val a).card ∈ (gone.map (fun x => U.card - (val x).card) : Multiset Nat) :=
            Multiset.mem_coe.mpr (List.mem_map_of_mem (hin a ha hk))
          rw [h0] at this
          exact absurd this (Multiset.notMem_zero _)
        · rw [e, List.map_append, ← Multiset.coe_add, add_comm]
        · rw [← hM, Multiset.coe_add, ← List.map_append]
          exact Multiset.coe_eq_coe.mpr ((hperm.symm.trans hg).map _)
        · intro v hv
          obtain ⟨m, hmn, rfl⟩ := List.mem_map.mp (Multiset.mem_coe.mp hv)
          obtain ⟨a, b, ha, hb, hab, hmerge, hka, hkb⟩ := hnew m hmn
          rcases hlt a b m (hvP a ha) (hvP b hb) hab hmerge with h | h
          · exact ⟨_, Multiset.mem_coe.mpr (List.mem_map_of_mem (hin a ha hka)), h⟩
          · exact ⟨_, Multiset.mem_coe.mpr (List.mem_map_of_mem (hin b hb hkb)), h⟩
      obtain ⟨n, hn'⟩ := ih _ hdm r rn hrP (round + 1) rfl
      refine ⟨n + 1, fun fuel hf => ?_⟩
      obtain ⟨f, rfl⟩ : ∃ f, fuel = f + 1 := ⟨fuel - 1, by omega⟩
      obtain ⟨q, h1, h2⟩ := hn' f (by omega)
      exact ⟨q, by rw [maximize, hr]; exact h1, h2⟩

/-- A column of names. -/
def column (n : Nat) (l : List String) : Finset (Nat × String) := l.toFinset.image (fun a => (n, a))

theorem mem_column (n m : Nat) (l : List String) (a : String) : (m, a) ∈ column n l ↔ m = n ∧ a ∈ l := by
  simp only [column, Finset.mem_image, List.mem_toFinset, Prod.mk.injEq]
  constructor
  · rintro ⟨b, h1, h2, rfl⟩; exact ⟨h2.symm, h1⟩
  · rintro ⟨rfl, h⟩; exact ⟨a, h, rfl, rfl⟩

theorem sorted_of_mem {l m : List String} (hl : l.Pairwise (· < ·)) (hm : m.Pairwise (· < ·)) (h : ∀ a, a ∈ l ↔ a ∈ m) : l = m :=
  sorted_ext hl hm (by ext a; simp [h a])

theorem mem_sortedSet (l : List String) (a : String) : a ∈ sortedSet l ↔ a ∈ l := (sortedSet_spec l).2 a

theorem sides_extend {names : List String} {x y : ASet} (hx : Sides names x) (hy : Sides names y) : Sides names (x.extend y) := by
  refine ⟨(sortedSet_spec _).1, (sortedSet_spec _).1, fun a ha => ?_, fun a ha => ?_⟩
  · rcases List.mem_append.mp ((mem_sortedSet _ a).mp ha) with h | h
    · exact hx.2.2.1 a h
    · exact hy.2.2.1 a h
  · rcases List.mem_append.mp ((mem_sortedSet _ a).mp ha) with h | h
    · exact hx.2.2.2 a h
    · exact hy.2.2.2 a h

theorem sides_new {names : List String} {a b : String} (ha : a ∈ names) (hb : b ∈ names) : Sides names (ASet.new a b) := by
  simp [Sides, ASet.new, ha, hb]

/-- Sets are maximized in finitely many rounds if they are merged to their union. -/
theorem asets_end (it : Iter) (hash : List String → Nat) (merger : ASet → ASet → Option ASet) (Q : ASet → Prop)
    (hm : ∀ x y m, Q x → Q y → merger x y = some m → m = x.extend y ∧ Q m) (names : List String) (first : List ASet)
    (hP : ∀ x ∈ first, Sides names x ∧ Q x) :
    ∃ n, ∀ fuel, n ≤ fuel → ∃ r, maximize it (ASet.same hash) merger fuel 0 (first.foldl (insertBy (ASet.same hash)) []) = some r ∧
      ∀ x ∈ r, Sides names x ∧ Q x := by
  have hs : ∀ x, ASet.same hash x x = true := by intro x; simp [ASet.same]
  refine maximize_ends it (ASet.same hash) hs merger (fun x => Sides names x ∧ Q x) (fun x => column 0 x.left ∪ column 1 x.right)
    (column 0 names ∪ column 1 names) ?_ ?_ ?_ _ (insertBy_nodup _ hs _ _ List.nodup_nil) ?_ 0
  · rintro x ⟨⟨_, _, h1, h2⟩, _⟩ ⟨n, a⟩ h
    simp only [Finset.mem_union, mem_column] at h ⊢
    rcases h with ⟨h, ha⟩ | ⟨h, ha⟩
    · exact Or.inl ⟨h, h1 a ha⟩
    · exact Or.inr ⟨h, h2 a ha⟩
  · rintro x y ⟨⟨x1, x2, _, _⟩, _⟩ ⟨⟨y1, y2, _, _⟩, _⟩ h
    have e : ∀ n a, (n, a) ∈ column 0 x.left ∪ column 1 x.right ↔ (n, a) ∈ column 0 y.left ∪ column 1 y.right := by intro n a; rw [h]
    simp only [Finset.mem_union, mem_column] at e
    have e1 := sorted_of_mem x1 y1 (fun a => by simpa using e 0 a)
    have e2 := sorted_of_mem x2 y2 (fun a => by simpa using e 1 a)
    cases x; cases y; simp_all
  · intro x y m hx hy h
    obtain ⟨e, hq⟩ := hm x y m hx.2 hy.2 h
    subst e
    refine ⟨⟨sides_extend hx.1 hy.1, hq⟩, ?_⟩
    ext ⟨n, a⟩
    simp only [Finset.mem_union, mem_column, ASet.extend, mem_sortedSet, List.mem_append]
    tauto
  · intro x hx
    obtain ⟨l', h1, h2⟩ := insertBy_tail (ASet.same hash) first []
    rw [h2, List.nil_append] at hx
    exact hP x (h1.subset hx)

theorem maximize_more {α : Type} (it : Iter) (same : α → α → Bool) (merger : α → α → Option α) (fuel fuel' round : Nat) (c r : List α)
    (h : maximize it same merger fuel round c = some r) (hf : fuel ≤ fuel') : maximize it same merger fuel' round c = some r := by
  induction fuel generalizing fuel' round c with
  | zero => rw [maximize] at h; cases h
  | succ fuel ih =>
    obtain ⟨f, rfl⟩ : ∃ f, fuel' = f + 1 := ⟨fuel' - 1, by omega⟩
    rw [maximize] at h ⊢
    split at h
    · exact h
    · exact ih f _ _ h (by omega)

theorem alphaSets_end (it : Iter) (hash : List String → Nat) (info : Info) (rel : Relations) :
    ∃ r, EndsWith (fun fuel => alphaSets it hash fuel info rel) r ∧ ∀ x ∈ r, Sides info.classes.keys x ∧ x.Good rel := by
  have hk : ∀ n c, c ∈ info.allClasses it n → c ∈ info.classes.keys := fun n c h => (it.perm _ _ _).mem_iff.mp h
  obtain ⟨n, hn⟩ := asets_end it hash (mergeSets rel) (fun x => x.Good rel) (fun x y m hx _ h => by
      obtain ⟨h1, h2⟩ := (mergeSets_iff hx m).mp h
      subst h2
      exact ⟨rfl, extend_good h1.2⟩) info.classes.keys
    ((((info.allClasses it 0).filter (fun c => (info.followed.get? c).isSome && rel.unrelated c c)).flatMap (fun c =>
      ((info.allClasses it 1).filter (fun d => rel.causal c d && rel.unrelated d d)).map (ASet.new c))).filter
        (fun s => decide (0 < s.left.length) && decide (0 < s.right.length)))
    (fun x hx => by
      obtain ⟨hx, _⟩ := List.mem_filter.mp hx
      obtain ⟨c, hc, hx⟩ := List.mem_flatMap.mp hx
      obtain ⟨d, hd, rfl⟩ := List.mem_map.mp hx
      obtain ⟨hc, hc'⟩ := List.mem_filter.mp hc
      obtain ⟨hd, hd'⟩ := List.mem_filter.mp hd
      simp only [Bool.and_eq_true] at hc' hd'
      refine ⟨sides_new (hk _ _ hc) (hk _ _ hd), by simp [ASet.new], by simp [ASet.new], ?_⟩
      refine ⟨by simp [ASet.new, ASet.pair], by simp [ASet.new, ASet.pair], ?_, ?_, ?_⟩ <;>
        simp [ASet.new, ASet.pair, Relations.C, Relations.U, hc', hd'])
  obtain ⟨r, h1, h2⟩ := hn n le_rfl
  refine ⟨onlyMaximal it hash r, ⟨n, fun fuel hf => ?_⟩, fun x hx => ?_⟩
  · unfold alphaSets initialSets
    simp only
    rw [maximize_more it _ _ _ _ _ _ _ h1 hf]; rfl
  · unfold onlyMaximal at hx
    exact h2 x ((it.perm _ _ _).mem_iff.mp (List.mem_filter.mp hx).1)

theorem zw_end (it : Iter) (hash : List String → Nat) (classes : List String) (w3 : List (String × String))
    (unrelated : String → String → Bool) :
    ∃ r, EndsWith (fun fuel => zw it hash fuel classes w3 unrelated) r ∧ ∀ x ∈ r, Sides classes x ∧ pairValid w3 unrelated x = true := by
  obtain ⟨n, hn⟩ := asets_end it hash (pairMerge w3 unrelated) (fun x => pairValid w3 unrelated x = true) (fun x y m _ _ h => by
      unfold pairMerge at h
      split at h
      · rename_i hv; cases h; exact ⟨rfl, hv⟩
      · cases h) classes (pairCandidates it classes w3 unrelated) (fun x hx => by
    unfold pairCandidates at hx
    obtain ⟨a, ha, hx⟩ := List.mem_flatMap.mp hx
    obtain ⟨b, hb, hx⟩ := List.mem_filterMap.mp hx
    split at hx
    · rename_i hv
      cases hx
      exact ⟨sides_new ((it.perm _ _ _).mem_iff.mp ha) ((it.perm _ _ _).mem_iff.mp hb), hv⟩
    · cases hx)
  obtain ⟨r, h1, h2⟩ := hn n le_rfl
  exact ⟨r, ⟨n, fun fuel hf => maximize_more it _ _ _ _ _ _ _ h1 hf⟩, h2⟩

theorem lw_end (it : Iter) (hash : String → Nat) (rel : TripleRel) (classes loops : List String) :
    ∃ r, EndsWith (fun fuel => lw it hash fuel rel classes loops) r ∧ ∀ x ∈ r, Columns (classes ++ loops) x := by
  have hs : ∀ x, Triple.same hash x x = true := by intro x; simp [Triple.same]
  suffices h : ∃ n, ∀ fuel, n ≤ fuel → ∃ r, lw it hash fuel rel classes loops = some r ∧ ∀ x ∈ r, Columns (classes ++ loops) x by
    obtain ⟨n, hn⟩ := h
    obtain ⟨r, h1, h2⟩ := hn n le_rfl
    exact ⟨r, ⟨n, fun fuel hf => maximize_more it _ _ _ _ _ _ _ h1 hf⟩, h2⟩
  refine maximize_ends it (Triple.same hash) hs (tripleMerge rel) (Columns (classes ++ loops))
    (fun x => column 0 x.a ∪ (column 1 x.b ∪ column 2 x.c))
    (column 0 (classes ++ loops) ∪ (column 1 (classes ++ loops) ∪ column 2 (classes ++ loops))) ?_ ?_ ?_ _
    (insertBy_nodup _ hs _ _ List.nodup_nil) ?_ 0
  · rintro x ⟨_, _, _, h1⟩ ⟨n, a⟩ h
    simp only [Finset.mem_union, mem_column] at h ⊢
    rcases h with ⟨h, ha⟩ | ⟨h, ha⟩ | ⟨h, ha⟩
    · exact Or.inl ⟨h, h1 a (Or.inl ha)⟩
    · exact Or.inr (Or.inl ⟨h, h1 a (Or.inr (Or.inl ha))⟩)
    · exact Or.inr (Or.inr ⟨h, h1 a (Or.inr (Or.inr ha))⟩)
  · rintro x y ⟨x1, x2, x3, _⟩ ⟨y1, y2, y3, _⟩ h
    have e : ∀ n a, (n, a) ∈ column 0 x.a ∪ (column 1 x.b ∪ column 2 x.c) ↔ (n, a) ∈ column 0 y.a ∪ (column 1 y.b ∪ column 2 y.c) := by
      intro n a; rw [h]
    simp only [Finset.mem_union, mem_column] at e
    have e1 := sorted_of_mem x1 y1 (fun a => by simpa using e 0 a)
    have e2 := sorted_of_mem x2 y2 (fun a => by simpa using e 1 a)
    have e3 := sorted_of_mem x3 y3 (fun a => by simpa using e 2 a)
    cases x; cases y; simp_all
  · intro x y m hx hy h
    have : m = x.join y := by
      unfold tripleMerge at h
      split at h
      · cases h; rfl
      · cases h
    rw [this]
    refine ⟨⟨(sortedSet_spec _).1, (sortedSet_spec _).1, (sortedSet_spec _).1, fun a ha => ?_⟩, ?_⟩
    · simp only [Triple.join, mem_sortedSet, List.mem_append] at ha
      have h1 := hx.2.2.2 a
      have h2 := hy.2.2.2 a
      tauto
    · ext ⟨n, a⟩
      simp only [Finset.mem_union, mem_column, Triple.join, mem_sortedSet, List.mem_append]
      tauto
  · intro x hx
    obtain ⟨l', h1, h2⟩ := insertBy_tail (Triple.same hash) (tripleCandidates it rel classes loops) []
    rw [h2, List.nil_append] at hx
    have hx := h1.subset hx
    unfold tripleCandidates at hx
    obtain ⟨a, ha, hx⟩ := List.mem_flatMap.mp hx
    obtain ⟨b, hb, hx⟩ := List.mem_flatMap.mp hx
    obtain ⟨c, hc, hx⟩ := List.mem_filterMap.mp hx
    have ha := (it.perm _ _ _).mem_iff.mp ha
    have hb := (it.perm _ _ _).mem_iff.mp hb
    have hc := (it.perm _ _ _).mem_iff.mp hc
    split at hx
    · cases hx
      simp only [Columns, Triple.new, List.pairwise_singleton, List.mem_singleton, List.mem_append, true_and]
      rintro d (rfl | rfl | rfl)
      · exact Or.inl ha
      · exact Or.inl hb
      · exact Or.inr hc
    · cases hx

theorem yw_end (it : Iter) (hashBase : List String → Nat) (hash : List String → String → Nat) (rel : ESetRel) (classes : List String)
    (bases : List ASet) (hb : ∀ x ∈ bases, Sides classes x) :
    ∃ r, EndsWith (fun fuel => yw it hashBase hash fuel rel classes bases) r ∧ ∀ x ∈ r, Extended classes x := by
  have hs : ∀ x, ESet.same hash x x = true := by intro x; simp [ESet.same]
  suffices h : ∃ n, ∀ fuel, n ≤ fuel → ∃ r, yw it hashBase hash fuel rel classes bases = some r ∧ ∀ x ∈ r, Extended classes x by
    obtain ⟨n, hn⟩ := h
    obtain ⟨r, h1, h2⟩ := hn n le_rfl
    exact ⟨r, ⟨n, fun fuel hf => maximize_more it _ _ _ _ _ _ _ h1 hf⟩, h2⟩
  refine maximize_ends it (ESet.same hash) hs (esetMerge hashBase rel) (Extended classes)
    (fun x => column 0 x.base.left ∪ (column 1 x.base.right ∪ (column 2 x.left ∪ column 3 x.right)))
    (column 0 classes ∪ (column 1 classes ∪ (column 2 classes ∪ column 3 classes))) ?_ ?_ ?_ _
    (insertBy_nodup _ hs _ _ List.nodup_nil) ?_ 0
  · rintro x ⟨⟨_, _, h1, h2⟩, _, _, h3⟩ ⟨n, a⟩ h
    simp only [Finset.mem_union, mem_column] at h ⊢
    rcases h with ⟨h, ha⟩ | ⟨h, ha⟩ | ⟨h, ha⟩ | ⟨h, ha⟩
    · exact Or.inl ⟨h, h1 a ha⟩
    · exact Or.inr (Or.inl ⟨h, h2 a ha⟩)
    · exact Or.inr (Or.inr (Or.inl ⟨h, h3 a (Or.inl ha)⟩))
    · exact Or.inr (Or.inr (Or.inr ⟨h, h3 a (Or.inr ha)⟩))
  · rintro x y ⟨⟨x1, x2, _, _⟩, x3, x4, _⟩ ⟨⟨y1, y2, _, _⟩, y3, y4, _⟩ h
    have e : ∀ n a, (n, a) ∈ column 0 x.base.left ∪ (column 1 x.base.right ∪ (column 2 x.left ∪ column 3 x.right)) ↔
        (n, a) ∈ column 0 y.base.left ∪ (column 1 y.base.right ∪ (column 2 y.left ∪ column 3 y.right)) := by
      intro n a; rw [h]
    simp only [Finset.mem_union, mem_column] at e
    have e1 := sorted_of_mem x1 y1 (fun a => by simpa using e 0 a)
    have e2 := sorted_of_mem x2 y2 (fun a => by simpa using e 1 a)
    have e3 := sorted_of_mem x3 y3 (fun a => by simpa using e 2 a)
    have e4 := sorted_of_mem x4 y4 (fun a => by simpa using e 3 a)
    obtain ⟨⟨_, _⟩, _, _⟩ := x
    obtain ⟨⟨_, _⟩, _, _⟩ := y
    simp_all
  · intro x y m hx hy h
    have : m = x.join y := by
      unfold esetMerge at h
      split at h
      · cases h
      · split at h
        · cases h; rfl
        · cases h
    rw [this]
    refine ⟨⟨sides_extend hx.1 hy.1, (sortedSet_spec _).1, (sortedSet_spec _).1, fun a ha => ?_⟩, ?_⟩
    · simp only [ESet.join, mem_sortedSet, List.mem_append] at ha
      have h1 := hx.2.2.2 a
      have h2 := hy.2.2.2 a
      tauto
    · ext ⟨n, a⟩
      simp only [Finset.mem_union, mem_column, ESet.join, ASet.extend, mem_sortedSet, List.mem_append]
      tauto
  · intro x hx
    obtain ⟨l', h1, h2⟩ := insertBy_tail (ESet.same hash) (esetCandidates it rel classes bases) []
    rw [h2, List.nil_append] at hx
    have hx := h1.subset hx
    have htried : ∀ x y, ESet.tried rel x = some y → y = x := by
      intro x y h
      unfold ESet.tried at h
      split at h
      · cases h; rfl
      · cases h
    unfold esetCandidates esetsOf at hx
    simp only [List.mem_append, List.mem_flatMap, List.mem_filterMap, (it.perm _ _ _).mem_iff, List.mem_map, Option.mem_toList] at hx
    rcases hx with (⟨b, hbm, (⟨a, ha, c, hc, h⟩ | ⟨a, ha, (h | h)⟩)⟩ | ⟨b, hbm, rfl⟩)
    · rw [htried _ _ h]
      refine ⟨hb b hbm, by simp, by simp, ?_⟩
      simp only [List.mem_singleton]
      rintro d (rfl | rfl)
      · exact ha
      · exact hc
    · rw [htried _ _ h]
      exact ⟨hb b hbm, by simp, by simp, by simpa using ha⟩
    · rw [htried _ _ h]
      exact ⟨hb b hbm, by simp, by simp, by simpa using ha⟩
    · exact ⟨hb b hbm, by simp, by simp, by simp⟩

end Ficus.Rs.Nfc
