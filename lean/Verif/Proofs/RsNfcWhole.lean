import Verif.Spec.RsNfcWhole
import Verif.Props.RsNfcNets
import Verif.Props.RsNfcSets

/-! Proofs about the discovery of Alpha++ NFC as a whole. -/

namespace Ficus.Rs.Nfc
open Spec Spec.Ends Spec.Nfc

variable {E : Type} [HasName E]

theorem alphaSets_more {it : Iter} {hash : List String → Nat} {f f' : Nat} (h : f ≤ f') {info : Info} {rel : Relations} {r : List ASet}
    (e : alphaSets it hash f info rel = some r) : alphaSets it hash f' info rel = some r := by
  unfold alphaSets at e ⊢
  obtain ⟨m, hm, rfl⟩ := Option.map_eq_some_iff.mp e
  rw [maximize_more it _ _ _ _ _ _ _ hm h]
  rfl

theorem plusNet_more {it : Iter} {hash : List String → Nat} {f f' : Nat} (h : f ≤ f') {next : Nat} {log : List (List E)}
    {ignored : Option (List String)} {loops : List String} {rel : Relations} {s : Building}
    (e : plusNet it hash f next log ignored loops rel = some s) : plusNet it hash f' next log ignored loops rel = some s := by
  unfold plusNet at e ⊢
  obtain ⟨sets, h1, h2⟩ := Option.bind_eq_some_iff.mp e
  rw [alphaSets_more h h1]
  exact h2

/-- More fuel does not change what the searches find. -/
theorem searches_more {it : Iter} {hash : List String → Nat} {f f' : Nat} (h : f ≤ f') {next : Nat} {log : List (List E)}
    {questions : List (String × String) → List (String × String) → List (String × String)} {r : Stages}
    (e : searches it hash f next log questions = some r) : searches it hash f' next log questions = some r := by
  unfold searches at e ⊢
  obtain ⟨loops, e1, e⟩ := Option.bind_eq_some_iff.mp e
  obtain ⟨tri, e2, e⟩ := Option.bind_eq_some_iff.mp e
  obtain ⟨first, e3, e⟩ := Option.bind_eq_some_iff.mp e
  obtain ⟨⟨r', s⟩, e4, e⟩ := Option.bind_eq_some_iff.mp e
  obtain ⟨n1, e5, e⟩ := Option.bind_eq_some_iff.mp e
  obtain ⟨n2, e6, e⟩ := Option.map_eq_some_iff.mp e
  dsimp only at e5 e6 e
  subst e
  have e3' : firstNet it hash f' next log loops tri = some first := plusNet_more h e3
  have e5' : laterNet it hash f' next log loops tri r'.w1 = some n1 := plusNet_more h e5
  have e6' : laterNet it hash f' next log loops tri (r'.w1 ++ r'.kept) = some n2 := plusNet_more h e6
  have e4' := stages_congr (netOf' := fun l => viewOr it (laterNet it hash f' next log loops tri l)) e4 (by simp only [e5, e5'])
    (by simp only [e6, e6'])
  rw [e1, e2, Option.bind_some, Option.bind_some, e3', Option.bind_some, e4', Option.bind_some, e5', Option.bind_some, e6', Option.map_some]

theorem closureStep_more {next : String → List String} {f f' : Nat} (h : f ≤ f') {d e : Dict String (List String)} {p : String × String}
    (hs : closureStep next f d p = some e) : closureStep next f' d p = some e := by
  unfold closureStep at hs ⊢
  split at hs
  · rename_i h1; rw [if_pos h1]; exact hs
  · rename_i h1
    rw [if_neg h1]
    obtain ⟨b, hb, rfl⟩ := Option.map_eq_some_iff.mp hs
    obtain ⟨n, rfl⟩ := Nat.exists_eq_add_of_le h
    rw [search_mono _ _ f _ b hb n]
    rfl

theorem closureFold_more {next : String → List String} {f f' : Nat} (h : f ≤ f') (ps : List (String × String))
    {d e : Dict String (List String)} (hs : ps.foldlM (closureStep next f) d = some e) : ps.foldlM (closureStep next f') d = some e := by
  induction ps generalizing d with
  | nil => exact hs
  | cons p ps ih =>
    rw [List.foldlM_cons] at hs ⊢
    obtain ⟨d1, h1, h2⟩ := Option.bind_eq_some_iff.mp hs
    exact Option.bind_eq_some_iff.mpr ⟨d1, closureStep_more h h1, ih h2⟩

theorem closure_end (it : Iter) (rels : List (String × String)) :
    (ClosureEnds rels → ∃ c, EndsWith (fun fuel => closureCache it fuel rels) c) ∧
    (¬ ClosureEnds rels → ∀ fuel, closureCache it fuel rels = none) := by
  constructor
  · intro h
    obtain ⟨f, hf⟩ := (C161_ends_iff it rels).mpr h
    obtain ⟨c, hc⟩ := Option.isSome_iff_exists.mp hf
    exact ⟨c, f, fun fuel hfu => closureFold_more hfu _ hc⟩
  · intro h fuel
    by_contra hn
    exact h ((C161_ends_iff it rels).mp ⟨fuel, Option.isSome_iff_ne_none.mpr hn⟩)

theorem bases_end (it : Iter) (hash : List String → Nat) (next : Nat) (log : List (List E)) (loops : List String)
    (tri extra : List (String × String)) (hl : ∀ c, c ∈ loops ↔ Directly (namesOf log) c c) (h : ¬ LoopAtEnd (namesOf log)) :
    ∃ bases, EndsWith (fun fuel => alphaBases it hash fuel next log loops tri extra) bases ∧
      ∀ x ∈ bases, Sides (createInfo it log (some loops)).classes.keys x ∧
        x.Good ((providerOf it log (some loops) tri).relations extra) := by
  obtain ⟨sets, ⟨n, hn⟩, hs⟩ := alphaSets_end it hash (createInfo it log (some loops)) ((providerOf it log (some loops) tri).relations extra)
  have hok : ¬ ∃ c ∈ (some loops).getD [], IsFirst (namesOf log) c ∨ IsLast (namesOf log) c :=
    fun ⟨c, hc, hfl⟩ => h ⟨c, (hl c).mp hc, hfl⟩
  obtain ⟨base, hcn⟩ := Option.ne_none_iff_exists'.mp
    (fun h => hok ((createNet_none it next log (some loops) sets (fun x hx => (hs x hx).1)).mp h))
  obtain ⟨_, _, hn1, hn2⟩ := C110_starts_ends it log (some loops) false ""
  obtain ⟨pids, st, en, hlen, _, hpl, _⟩ := (createNet_spec it next (createInfo it log (some loops)) sets (classes_WF it log (some loops))
    (fun x hx => sides_net (hs x hx).1) hn1 hn2).2 base hcn
  refine ⟨base.net.places.filterMap Place.set, ⟨n, fun fuel hf => ?_⟩, fun x hx => ?_⟩
  · have := hn fuel hf
    simp only at this
    simp only [alphaBases, this, Option.bind_some, hcn, Option.map_some]
  · obtain ⟨p, hp, hx⟩ := List.mem_filterMap.mp hx
    rw [hpl] at hp
    rcases List.mem_append.mp hp with hp | hp
    · have hm : (p.name, p.set) ∈ (setPlaces pids sets).map (fun p : Place => (p.name, p.set)) := List.mem_map_of_mem hp
      rw [(setPlaces_ids pids sets hlen).2] at hm
      obtain ⟨y, hy, he⟩ := List.mem_map.mp hm
      have : some y = p.set := congrArg Prod.snd he
      rw [hx] at this
      cases this
      exact hs x hy
    · simp only [List.mem_cons, List.not_mem_nil, or_false] at hp
      rcases hp with rfl | rfl <;> cases hx

/-- What holds for all that is there in the beginning and for all that is merged, holds for all that is found. -/
theorem maximize_keeps {α : Type} [DecidableEq α] (it : Iter) (same : α → α → Bool) (hs : ∀ x, same x x = true)
    (merger : α → α → Option α) (Q : α → Prop) (hm : ∀ x y m, Q x → Q y → merger x y = some m → Q m) (fuel round : Nat) (first r : List α)
    (hn : first.Nodup) (hf : ∀ x ∈ first, Q x) (h : maximize it same merger fuel round first = some r) : ∀ x ∈ r, Q x := by
  induction fuel generalizing round first with
  | zero => cases h
  | succ fuel ih =>
    unfold maximize at h
    have hperm := it.perm "current" round first
    cases hr : maximizeRound same merger (it.order "current" round first) with
    | none =>
      rw [hr] at h
      cases h
      exact hf
    | some new =>
      rw [hr] at h
      obtain ⟨a, b, rfl, n1, n2, _, n3⟩ := round_shape same hs merger _ new (hperm.nodup_iff.mpr hn) hr
      refine ih (round + 1) _ n1 (fun x hx => ?_) h
      rcases List.mem_append.mp hx with hx | hx
      · obtain ⟨y, z, hy, hz, _, h1, _⟩ := n3 x hx
        exact hm _ _ _ (hf y (hperm.mem_iff.mp hy)) (hf z (hperm.mem_iff.mp hz)) h1
      · exact hf x (hperm.mem_iff.mp (n2.subset hx))

theorem lw_valid (it : Iter) (hash : String → Nat) (fuel : Nat) (rel : TripleRel) (classes loops : List String) (r : List Triple)
    (h : lw it hash fuel rel classes loops = some r) : ∀ x ∈ r, x.valid rel = true := by
  have hs : ∀ x, Triple.same hash x x = true := by intro x; simp [Triple.same]
  refine maximize_keeps it _ hs (tripleMerge rel) _ (fun x y m _ _ e => ?_) fuel 0 _ r (insertBy_nodup _ hs _ _ List.nodup_nil) (fun x hx => ?_) h
  · unfold tripleMerge at e
    split at e
    · rename_i hv; cases e; exact hv
    · cases e
  · obtain ⟨l', h1, h2⟩ := insertBy_tail (Triple.same hash) (tripleCandidates it rel classes loops) []
    rw [h2, List.nil_append] at hx
    have hx := h1.subset hx
    unfold tripleCandidates at hx
    obtain ⟨a, ha, hx⟩ := List.mem_flatMap.mp hx
    obtain ⟨b, hb, hx⟩ := List.mem_flatMap.mp hx
    obtain ⟨c, hc, hx⟩ := List.mem_filterMap.mp hx
    split at hx
    · rename_i hv; cases hx; exact hv
    · cases hx

theorem yw_valid (it : Iter) (hashBase : List String → Nat) (hash : List String → String → Nat) (fuel : Nat) (rel : ESetRel)
    (classes : List String) (bases : List ASet) (r : List ESet) (h : yw it hashBase hash fuel rel classes bases = some r) :
    ∀ x ∈ r, x.valid rel = true := by
  have hs : ∀ x, ESet.same hash x x = true := by intro x; simp [ESet.same]
  refine maximize_keeps it _ hs (esetMerge hashBase rel) _ (fun x y m _ _ e => ?_) fuel 0 _ r (insertBy_nodup _ hs _ _ List.nodup_nil)
    (fun x hx => ?_) h
  · unfold esetMerge at e
    split at e
    · cases e
    · split at e
      · rename_i hv; cases e; exact hv
      · cases e
  · obtain ⟨l', h1, h2⟩ := insertBy_tail (ESet.same hash) (esetCandidates it rel classes bases) []
    rw [h2, List.nil_append] at hx
    have hx := h1.subset hx
    have htried : ∀ x y, ESet.tried rel x = some y → y.valid rel = true := by
      intro x y h
      unfold ESet.tried at h
      split at h
      · rename_i hv; cases h; exact hv
      · cases h
    unfold esetCandidates esetsOf at hx
    simp only [List.mem_append, List.mem_flatMap, List.mem_filterMap, (it.perm _ _ _).mem_iff, List.mem_map, Option.mem_toList] at hx
    rcases hx with (⟨b, hbm, (⟨a, ha, c, hc, h⟩ | ⟨a, ha, (h | h)⟩)⟩ | ⟨b, hbm, rfl⟩)
    · exact htried _ _ h
    · exact htried _ _ h
    · exact htried _ _ h
    · simp [ESet.valid]

theorem yw_made (it : Iter) (hashBase : List String → Nat) (hash : List String → String → Nat) (fuel : Nat) (rel : ESetRel)
    (classes : List String) (bases : List ASet) (r : List ESet) (h : yw it hashBase hash fuel rel classes bases = some r)
    {C U : String → String → Prop} (hb : ∀ b ∈ bases, IsPair C U (sides b)) : ∀ x ∈ r, MadeOf C U x.base := by
  have hs : ∀ x, ESet.same hash x x = true := by intro x; simp [ESet.same]
  refine maximize_keeps it _ hs (esetMerge hashBase rel) (fun x => MadeOf C U x.base) (fun x y m hx hy e => ?_) fuel 0 _ r
    (insertBy_nodup _ hs _ _ List.nodup_nil) (fun x hx => ?_) h
  · unfold esetMerge at e
    split at e
    · cases e
    · split at e
      · cases e
        obtain ⟨l1, a1, a2, a3, a4⟩ := hx
        obtain ⟨l2, b1, b2, b3, b4⟩ := hy
        refine ⟨l1 ++ l2, by simp [a1], fun b hb => (List.mem_append.mp hb).elim (a2 b) (b2 b), fun a => ?_, fun a => ?_⟩
        · simp only [ESet.join, ASet.extend, mem_sortedSet, List.mem_append, a3, b3, or_and_right, exists_or]
        · simp only [ESet.join, ASet.extend, mem_sortedSet, List.mem_append, a4, b4, or_and_right, exists_or]
      · cases e
  · obtain ⟨l', h1, h2⟩ := insertBy_tail (ESet.same hash) (esetCandidates it rel classes bases) []
    rw [h2, List.nil_append] at hx
    have hx := h1.subset hx
    have htried : ∀ x y, ESet.tried rel x = some y → y.base = x.base := by
      intro x y h
      unfold ESet.tried at h
      split at h
      · cases h; rfl
      · cases h
    have hmade : ∀ b ∈ bases, MadeOf C U b := fun b hbm => ⟨[b], by simp, by simpa using hb b hbm, by simp, by simp⟩
    unfold esetCandidates esetsOf at hx
    simp only [List.mem_append, List.mem_flatMap, List.mem_filterMap, (it.perm _ _ _).mem_iff, List.mem_map, Option.mem_toList] at hx
    rcases hx with (⟨b, hbm, (⟨a, ha, c, hc, h⟩ | ⟨a, ha, (h | h)⟩)⟩ | ⟨b, hbm, rfl⟩)
    · rw [htried _ _ h]; exact hmade b hbm
    · rw [htried _ _ h]; exact hmade b hbm
    · rw [htried _ _ h]; exact hmade b hbm
    · exact hmade b hbm

theorem zw_filled (it : Iter) (hash : List String → Nat) (fuel : Nat) (classes : List String) (w3 : List (String × String))
    (unrelated : String → String → Bool) (r : List ASet) (h : zw it hash fuel classes w3 unrelated = some r) :
    ∀ x ∈ r, (∃ a, a ∈ x.left) ∧ ∃ a, a ∈ x.right := by
  have hs : ∀ x, ASet.same hash x x = true := by intro x; simp [ASet.same]
  refine maximize_keeps it _ hs (pairMerge w3 unrelated) _ (fun x y m hx _ e => ?_) fuel 0 _ r (insertBy_nodup _ hs _ _ List.nodup_nil)
    (fun x hx => ?_) h
  · unfold pairMerge at e
    split at e
    · cases e
      obtain ⟨⟨a, ha⟩, b, hb⟩ := hx
      exact ⟨⟨a, by simp [ASet.extend, mem_sortedSet, ha]⟩, b, by simp [ASet.extend, mem_sortedSet, hb]⟩
    · cases e
  · obtain ⟨l', h1, h2⟩ := insertBy_tail (ASet.same hash) (pairCandidates it classes w3 unrelated) []
    rw [h2, List.nil_append] at hx
    have hx := h1.subset hx
    unfold pairCandidates at hx
    obtain ⟨a, _, hx⟩ := List.mem_flatMap.mp hx
    obtain ⟨b, _, hx⟩ := List.mem_filterMap.mp hx
    split at hx
    · cases hx; exact ⟨⟨a, by simp [ASet.new]⟩, b, by simp [ASet.new]⟩
    · cases hx

theorem triple_between (it : Iter) (log : List (List E)) (tri : List (String × String))
    (ht : ∀ a b, (a, b) ∈ tri ↔ Triangle (namesOf log) a b) (t : Triple) (h : t.valid (providerOf it log none tri).tripleRel = true) :
    NfcTriple (namesOf log) t := by
  intro a ha b hb c hc
  have hd : ∀ x y, (providerOf it log none tri).direct x y = true ↔ Directly (namesOf log) x y := fun x y => by
    rw [(C171_provider it log none tri ht x y).1, Option.getD_none, without_nil]
  have hu : ∀ x y, (providerOf it log none tri).unrelated x y = true ↔ Unrelated (namesOf log) x y := fun x y => by
    rw [(C171_provider it log none tri ht x y).2.1, Option.getD_none, without_nil]
  have htr : ∀ x y, (providerOf it log none tri).triangle x y = true ↔ Triangle (namesOf log) x y := fun x y =>
    (C171_provider it log none tri ht x y).2.2.1
  simp only [Triple.valid, List.all_eq_true] at h
  have h := h a ha b hb c hc
  simp only [TripleRel.ok, Provider.tripleRel, Bool.and_eq_true, Bool.not_eq_true', ← Bool.not_eq_true, Bool.or_eq_true, hd, hu, htr] at h
  obtain ⟨⟨⟨⟨h1, h2⟩, h3, h4⟩, h5⟩, h6, h7⟩ := h
  exact ⟨h1, h2, h3, h4, fun hp => h5 ⟨⟨hp.1, hp.2.1⟩, hp.2.2⟩, h6, h7⟩

theorem eset_extension (it : Iter) (log : List (List E)) (loops : List String) (tri : List (String × String))
    (ht : ∀ a b, (a, b) ∈ tri ↔ Triangle (namesOf log) a b) (r : Stages) (distant : String → String → Bool) (x : ESet)
    (h : x.valid ((providerOf it log (some loops) tri).esetRel r distant) = true) :
    NfcExtension r (fun a b => Unrelated (withoutLoops (namesOf log) loops) a b ∧ distant a b = false) x := by
  have hu : ∀ x y, (providerOf it log (some loops) tri).unrelated x y = true ↔ Unrelated (withoutLoops (namesOf log) loops) x y :=
    fun x y => (C171_provider it log (some loops) tri ht x y).2.1
  simp only [ESet.valid, Provider.esetRel, Bool.and_eq_true, List.all_eq_true, decide_eq_true_eq, Bool.or_eq_true, Bool.not_eq_true', hu] at h
  obtain ⟨⟨⟨⟨⟨h1, h2⟩, h3⟩, h4⟩, h5⟩, h6⟩ := h
  exact ⟨h1, h2, h3, fun a ha b hb => h4 b hb a ha, fun a ha c hc => h5 c hc a ha, fun c hc b hb => h6 c hc b hb⟩

end Ficus.Rs.Nfc
