import Verif.Proofs.RsNfcWhole

/-! C172: the discovery of Alpha++ NFC as a whole. -/

namespace Ficus.Rs
open Spec Spec.Ends Spec.Nfc Rs.Nfc

variable {E : Type} [HasName E]

/-- **C172** (the net). For any log and any hashes, if no trace has fewer than two events and no class that comes directly after itself begins
or ends a trace, the searches end. If the closure of the third kind of dependencies can be computed, Alpha++ NFC then ends with a
net with exactly one transition for each class of the log, without markings; its places stand for the triples, and for the pairs and
extended sets that are not those of a triple. Otherwise it never ends. -/
theorem C172_net (it : Iter) (hash : List String → Nat) (hashText : String → Nat) (hashBoth : List String → String → Nat) (next : Nat)
    (log : List (List E)) (questions : List (String × String) → List (String × String) → List (String × String))
    (distant : Stages → String → String → Bool) (h1 : ¬ ShortTrace (namesOf log)) (h2 : ¬ LoopAtEnd (namesOf log)) :
    ∃ (r : Stages) (loops : List String), EndsWith (fun fuel => searches it hash fuel next log questions) r ∧
      (∀ c, c ∈ loops ↔ Directly (namesOf log) c c) ∧
      (ClosureEnds r.w3 → ∃ (s : Building) (l : List Triple) (z : List ASet) (y : List ESet),
        EndsWith (fun fuel => discoverNfc it hash hashText hashBoth fuel next log questions distant) s ∧
        NfcNet (namesOf log) (PlaceSource l z (y.map ESet.twoSets)) s ∧
        (∀ x ∈ l, Columns (namesOf log).flatten x ∧ NfcTriple (namesOf log) x) ∧
        (∀ x ∈ z, Sides (namesOf log).flatten x ∧ IsPair (fun a b => (a, b) ∈ r.w3) (Unrelated (withoutLoops (namesOf log) loops)) (sides x)) ∧
        ∀ x ∈ y, Extended (namesOf log).flatten x ∧
          MadeOf (NfcCausal (namesOf log) loops (Listed r.w1)) (Unrelated (withoutLoops (namesOf log) loops)) x.base ∧
          NfcExtension r (fun a b => Unrelated (withoutLoops (namesOf log) loops) a b ∧ distant r a b = false) x) ∧
      (¬ ClosureEnds r.w3 → ∀ fuel, discoverNfc it hash hashText hashBoth fuel next log questions distant = none) := by
  obtain ⟨o1, o2⟩ := oneLoops_spec (namesOf log)
  obtain ⟨t1, t2⟩ := triangles_spec (namesOf log)
  obtain ⟨tri, htri⟩ := Option.ne_none_iff_exists'.mp (fun h => h1 (t1.mp h))
  obtain ⟨loops, hloops⟩ := Option.ne_none_iff_exists'.mp (fun h => h1 ⟨[], o1.mp h, by simp⟩)
  obtain ⟨ln, lm⟩ := o2 loops hloops
  have ht := t2 tri htri
  have g1 : oneLoops (log.map (fun t => t.map name)) = some loops := hloops
  have g2 : triangles (log.map (fun t => t.map name)) = some tri := htri
  obtain ⟨r, _, _, _, _, hr, _⟩ := C171_searches it hash next log questions h1 h2
  have hall : ∀ c, c ∈ (providerOf it log none tri).classes ↔ c ∈ (namesOf log).flatten := fun c => by
    rw [(C171_provider it log none tri ht c c).2.2.2.1, Option.getD_none, without_nil]
  have hcl : ∀ c, c ∈ (providerOf it log (some loops) tri).classes ↔ c ∈ (namesOf log).flatten ∧ c ∉ loops := fun c => by
    rw [(C171_provider it log (some loops) tri ht c c).2.2.2.1, Option.getD_some, mem_without]
  have hcn := (C171_provider it log (some loops) tri ht "" "").2.2.2.2.1
  have hlf : ∀ c ∈ loops, c ∈ (namesOf log).flatten := by
    intro c hc
    obtain ⟨t, htm, p, q, rfl⟩ := (lm c).mp hc
    exact List.mem_flatten.mpr ⟨_, htm, by simp⟩
  obtain ⟨l, hl, hlc⟩ := lw_end it hashText (providerOf it log none tri).tripleRel (providerOf it log none tri).classes loops
  obtain ⟨bases, hb, hbs⟩ := bases_end it hash next log loops tri r.w1 lm h2
  have hbs' : ∀ x ∈ bases, Sides (providerOf it log (some loops) tri).classes x := by
    intro x hx
    obtain ⟨s1, s2, s3, s4⟩ := (hbs x hx).1
    exact ⟨s1, s2, fun a ha => (it.perm _ _ _).mem_iff.mpr (s3 a ha), fun a ha => (it.perm _ _ _).mem_iff.mpr (s4 a ha)⟩
  have hpair : ∀ x ∈ bases, IsPair (NfcCausal (namesOf log) loops (Listed r.w1)) (Unrelated (withoutLoops (namesOf log) loops)) (sides x) := by
    intro x hx
    have h := (hbs x hx).2.pair
    rw [provider_C it log (some loops) tri r.w1 ht, provider_U] at h
    exact h
  obtain ⟨y, hy, hye⟩ := yw_end it hash hashBoth ((providerOf it log (some loops) tri).esetRel r (distant r))
    (providerOf it log (some loops) tri).classes bases hbs'
  obtain ⟨c1, c2⟩ := closure_end it r.w3
  refine ⟨r, loops, hr, lm, fun hc => ?_, fun hc => ?_⟩
  · obtain ⟨cl, hcl'⟩ := c1 hc
    obtain ⟨z, hz, hze⟩ := zw_end it hash (providerOf it log (some loops) tri).classes r.w3 (providerOf it log (some loops) tri).unrelated
    obtain ⟨n1, e1⟩ := hl
    obtain ⟨n2, e2⟩ := hr
    obtain ⟨n3, e3⟩ := hb
    obtain ⟨n4, e4⟩ := hy
    obtain ⟨n5, e5⟩ := hcl'
    obtain ⟨n6, e6⟩ := hz
    dsimp only at e1 e2 e3 e4 e5 e6
    have hrule : rule2 r.w3 cl = r.w3 := C160_rule2_removes_nothing it n5 r.w3 cl (e5 n5 le_rfl)
    have hnd : ((providerOf it log (some loops) tri).classes ++ loops).Nodup :=
      List.nodup_append.mpr ⟨hcn, ln, fun a ha b hb hab => ((hcl a).mp ha).2 (hab ▸ hb)⟩
    have hmem : ∀ c, c ∈ (providerOf it log (some loops) tri).classes ++ loops ↔ c ∈ (namesOf log).flatten := by
      intro c
      rw [List.mem_append, hcl]
      by_cases h : c ∈ loops
      · simp [h, hlf c h]
      · simp [h]
    have hlc' : ∀ x ∈ l, Columns (namesOf log).flatten x := by
      intro x hx
      obtain ⟨k1, k2, k3, k4⟩ := hlc x hx
      refine ⟨k1, k2, k3, fun a ha => ?_⟩
      rcases List.mem_append.mp (k4 a ha) with h | h
      · exact (hall a).mp h
      · exact hlf a h
    have hz' : ∀ x ∈ z, Sides (namesOf log).flatten x := by
      intro x hx
      obtain ⟨s1, s2, s3, s4⟩ := (hze x hx).1
      exact ⟨s1, s2, fun a ha => ((hcl a).mp (s3 a ha)).1, fun a ha => ((hcl a).mp (s4 a ha)).1⟩
    have hy' : ∀ x ∈ y, Extended (namesOf log).flatten x := by
      intro x hx
      obtain ⟨⟨s1, s2, s3, s4⟩, k1, k2, k3⟩ := hye x hx
      exact ⟨⟨s1, s2, fun a ha => ((hcl a).mp (s3 a ha)).1, fun a ha => ((hcl a).mp (s4 a ha)).1⟩, k1, k2,
        fun a ha => ((hcl a).mp (k3 a ha)).1⟩
    have hsrc : ∀ x, PlaceSource l z (y.map ESet.twoSets) x → Sides (namesOf log).flatten x := by
      rintro x (⟨hx | hx, _⟩ | ⟨s1, s2, t, htl, hleft, hright⟩)
      · exact hz' x hx
      · obtain ⟨w, hw, rfl⟩ := List.mem_map.mp hx
        obtain ⟨q1, q2, q3, q4⟩ := C165_two_sets w
        obtain ⟨⟨_, _, b1, b2⟩, _, _, b3⟩ := hy' w hw
        exact ⟨q3, q4, fun a ha => ((q1 a).mp ha).elim (b1 a) (fun h => b3 a (Or.inl h)),
          fun a ha => ((q2 a).mp ha).elim (b2 a) (fun h => b3 a (Or.inr h))⟩
      · have k4 := (hlc' t htl).2.2.2
        exact ⟨s1, s2, fun a ha => ((hleft a).mp ha).elim (fun h => k4 a (Or.inl h)) (fun h => k4 a (Or.inr (Or.inr h))),
          fun a ha => ((hright a).mp ha).elim (fun h => k4 a (Or.inr (Or.inl h))) (fun h => k4 a (Or.inr (Or.inr h)))⟩
    have hpw := (C164_places it hash l z (y.map ESet.twoSets)).1
    obtain ⟨m1, m2⟩ := C164_net it next (providerOf it log (some loops) tri).classes loops (pw it hash l z (y.map ESet.twoSets)) hnd
      (fun x hx => ⟨(hsrc x (hpw x hx)).1.imp (fun h => ne_of_lt h), (hsrc x (hpw x hx)).2.1.imp (fun h => ne_of_lt h)⟩)
    obtain ⟨s, hs⟩ := Option.ne_none_iff_exists'.mp (fun h => by
      obtain ⟨x, hx, c, hcx, hcn⟩ := m1.mp h
      obtain ⟨_, _, s3, s4⟩ := hsrc x (hpw x hx)
      rcases List.mem_append.mp hcx with h | h
      · exact hcn ((hmem c).mpr (s3 c h))
      · exact hcn ((hmem c).mpr (s4 c h)))
    obtain ⟨w1, _, w3, w4, w5, w6, sets, w7, w8, w9⟩ := m2 s hs
    refine ⟨s, l, z, y, ⟨max n1 (max n2 (max n3 (max n4 (max n5 n6)))), fun fuel hf => ?_⟩, ⟨w1, w3, w4, ?_, w6, ?_⟩,
      fun x hx => ⟨hlc' x hx, triple_between it log tri ht x (lw_valid it hashText n1 _ _ _ l (e1 n1 le_rfl) x hx)⟩, ?_,
      fun x hx => ⟨hy' x hx, yw_made it hash hashBoth n4 _ _ _ y (e4 n4 le_rfl) hpair x hx, eset_extension it log loops tri ht r (distant r) x (yw_valid it hash hashBoth n4 _ _ _ y (e4 n4 le_rfl) x hx)⟩⟩
    · show discoverNfc it hash hashText hashBoth fuel next log questions distant = some s
      unfold discoverNfc
      rw [g1, g2, Option.bind_some, Option.bind_some]
      dsimp only
      rw [e1 fuel (by omega), Option.bind_some, e2 fuel (by omega), Option.bind_some, e3 fuel (by omega), Option.bind_some,
        e4 fuel (by omega), Option.bind_some, e5 fuel (by omega), Option.bind_some, hrule, e6 fuel (by omega), Option.bind_some]
      exact hs
    · refine w5.trans ((List.perm_ext_iff_of_nodup hnd (List.nodup_dedup _)).mpr (fun c => ?_))
      rw [hmem, List.mem_dedup]
    · intro p hp
      obtain ⟨i, hi, rfl⟩ := List.mem_iff_getElem.mp hp
      have hi' : i < sets.length := w8 ▸ hi
      obtain ⟨v1, v2⟩ := w9 i _ sets[i] (List.getElem?_eq_getElem hi) (List.getElem?_eq_getElem hi')
      exact ⟨sets[i], hpw _ (w7.mem_iff.mp (List.getElem_mem hi')), v1, v2⟩
    · intro x hx
      refine ⟨hz' x hx, ?_⟩
      have hv := (hze x hx).2
      simp only [pairValid, Bool.and_eq_true, List.all_eq_true, decide_eq_true_eq] at hv
      obtain ⟨⟨a, ha⟩, b, hb⟩ := zw_filled it hash n6 _ _ _ z (e6 n6 le_rfl) x hx
      have hu : ∀ u v, (providerOf it log (some loops) tri).unrelated u v = true ↔ Unrelated (withoutLoops (namesOf log) loops) u v :=
        fun u v => (C171_provider it log (some loops) tri ht u v).2.1
      simp only [hu] at hv
      exact ⟨⟨a, by simpa [sides] using ha⟩, ⟨b, by simpa [sides] using hb⟩, by simpa [sides] using hv.1.1, by simpa [sides] using hv.1.2,
        by simpa [sides] using hv.2⟩
  · intro fuel
    unfold discoverNfc
    rw [g1, g2]
    cases e : searches it hash fuel next log questions with
    | none => simp only [Option.bind_some, Option.bind_none, Option.bind_eq_none_iff, implies_true]
    | some r' =>
      obtain ⟨n2, e2⟩ := hr
      have e3 := e2 (max n2 fuel) (le_max_left _ _)
      dsimp only at e3
      rw [searches_more (le_max_right _ _) e] at e3
      cases e3
      simp only [Option.bind_some, c2 hc fuel, Option.bind_none, Option.bind_eq_none_iff, implies_true]

/-- The choice after `c` depends on that before it: two places without it in between. -/
example : ((discoverNfc .plain exHash (fun s => exHash [s]) (fun l s => exHash (s :: l)) 9 0 [["a", "c", "d"], ["b", "c", "e"]] (fun _ _ => [])
    (fun _ _ _ => false)).map (fun s => s.net.places.map Place.name)) = some ["({a}, {d})", "({b}, {e})", "({a,b}, {c})", "({c}, {d,e})"] := by
  decide +kernel

/-- A class that follows itself gives a triple; it has one transition. -/
example : ((discoverNfc .plain exHash (fun s => exHash [s]) (fun l s => exHash (s :: l)) 9 0 [["a", "l", "l", "b"], ["a", "l", "b"]]
    (fun _ _ => []) (fun _ _ _ => false)).map (fun s => (s.net.transitions.map Trans.name, s.net.places.map Place.name))) =
    some (["a", "b", "l"], ["({a,l}, {b,l})"]) := by decide +kernel

/-- **C172** (panics). Otherwise it panics. -/
theorem C172_panics (it : Iter) (hash : List String → Nat) (hashText : String → Nat) (hashBoth : List String → String → Nat) (next : Nat)
    (log : List (List E)) (questions : List (String × String) → List (String × String) → List (String × String))
    (distant : Stages → String → String → Bool) (h : ShortTrace (namesOf log) ∨ LoopAtEnd (namesOf log)) (fuel : Nat) :
    discoverNfc it hash hashText hashBoth fuel next log questions distant = none := by
  unfold discoverNfc
  rw [C171_searches_panic it hash next log questions h fuel]
  simp only [Option.bind_none, Option.bind_eq_none_iff, implies_true]

example : discoverNfc .plain exHash (fun s => exHash [s]) (fun l s => exHash (s :: l)) 9 0 [["a", "a", "b"]] (fun _ _ => [])
    (fun _ _ _ => false) = none := C172_panics .plain exHash _ _ 0 _ _ _ (Or.inr
  ⟨"a", ⟨["a", "a", "b"], by simp [namesOf, HasName.name], [], ["b"], rfl⟩,
    Or.inl ⟨["a", "a", "b"], by simp [namesOf, HasName.name], rfl⟩⟩) 9

/-- A log of two traces. -/
def exCycles : List (List String) := [["b", "c", "b", "a", "d"], ["d", "a", "d", "c", "b", "a"]]

theorem exCycles_searches : searches .plain exHash 8 0 exCycles (fun _ _ => []) =
    some ⟨[("c", "d"), ("a", "b")], [], [], [("b", "d"), ("c", "a"), ("a", "c"), ("d", "b")]⟩ := by decide +kernel

/-- **C172** (a log without end). There is a log of two traces without short traces and without classes that follow themselves for which
Alpha++ NFC never ends: the third kind of dependencies has two cycles that are not connected. -/
theorem C172_endless : ∃ log : List (List String), (∀ t ∈ log, 5 ≤ t.length) ∧ (¬ ∃ c, Directly log c c) ∧
    ∀ hashText hashBoth distant fuel, discoverNfc .plain exHash hashText hashBoth fuel 0 log (fun _ _ => []) distant = none := by
  have hn : namesOf exCycles = exCycles := by simp [namesOf, HasName.name]
  have hloop : ¬ ∃ c, Directly exCycles c c := by
    rintro ⟨c, hc⟩
    obtain ⟨o1, o2⟩ := oneLoops_spec exCycles
    have : oneLoops exCycles = some [] := by decide +kernel
    have := ((o2 [] this).2 c).mpr hc
    cases this
  refine ⟨exCycles, by decide, hloop, fun hashText hashBoth distant => ?_⟩
  have h1 : ¬ ShortTrace (namesOf exCycles) := fun h => by
    have := C171_searches_panic .plain exHash 0 exCycles (fun _ _ => []) (Or.inl h) 8
    rw [exCycles_searches] at this
    cases this
  have h2 : ¬ LoopAtEnd (namesOf exCycles) := by
    rw [hn]
    rintro ⟨c, hc, _⟩
    exact hloop ⟨c, hc⟩
  obtain ⟨r, _, ⟨n, hr⟩, _, _, h⟩ := C172_net .plain exHash hashText hashBoth 0 exCycles (fun _ _ => []) distant h1 h2
  have e := hr (max n 8) (le_max_left _ _)
  dsimp only at e
  rw [searches_more (le_max_right _ _) exCycles_searches] at e
  cases e
  refine h (fun hc => ?_)
  have hreach : ∀ y, Reaches [("b", "d"), ("c", "a"), ("a", "c"), ("d", "b")] "a" y → y = "a" ∨ y = "c" := by
    intro y hy
    induction hy with
    | single h => simp at h; exact Or.inr h
    | tail _ h ih =>
      rcases ih with rfl | rfl
      · simp at h; exact Or.inr h
      · simp at h; exact Or.inl h
  have hac : Reaches [("b", "d"), ("c", "a"), ("a", "c"), ("d", "b")] "a" "a" :=
    Relation.TransGen.tail (Relation.TransGen.single (by simp : ("a", "c") ∈ _)) (by simp)
  have := hreach "b" (hc "a" "b" ⟨"c", by simp⟩ ⟨"d", by simp⟩ ⟨"a", Or.inl rfl, hac⟩)
  simp at this

end Ficus.Rs
