import Verif.Props.RsEnds
import Verif.Props.RsNfcStages

/-! C171: the nets that the discovery of Alpha++ NFC looks at on its way, and its searches with them. -/

namespace Ficus.Rs
open Spec Spec.Ends Spec.Nfc Rs.Nfc

variable {E : Type} [HasName E]

theorem provider_C (it : Iter) (log : List (List E)) (ignored : Option (List String)) (tri extra : List (String × String))
    (ht : ∀ a b, (a, b) ∈ tri ↔ Triangle (namesOf log) a b) :
    ((providerOf it log ignored tri).relations extra).C = NfcCausal (namesOf log) (ignored.getD []) (Listed extra) := by
  funext a b
  refine propext ?_
  show (providerOf it log ignored tri).causal extra a b = true ↔ _
  rw [causal_iff]
  unfold Causes NfcCausal
  simp only [providerOf, ← Bool.not_eq_true, follows_iff, decide_eq_true_eq, ht]
  rfl

theorem provider_U (it : Iter) (log : List (List E)) (ignored : Option (List String)) (tri extra : List (String × String)) :
    ((providerOf it log ignored tri).relations extra).U = Unrelated (withoutLoops (namesOf log) (ignored.getD [])) := by
  funext a b
  refine propext ?_
  unfold Relations.U Unrelated
  simp only [Provider.relations, providerOf, Bool.and_eq_true, Bool.not_eq_true', ← Bool.not_eq_true, follows_iff]

/-- **C171** (the relations). The provider that the searches ask says what the log without the classes that are left out says: which class
comes directly after which, which are not related, which form a triangle in the whole log, and which there are. -/
theorem C171_provider (it : Iter) (log : List (List E)) (ignored : Option (List String)) (tri : List (String × String))
    (ht : ∀ a b, (a, b) ∈ tri ↔ Triangle (namesOf log) a b) (a b : String) :
    ((providerOf it log ignored tri).direct a b = true ↔ Directly (withoutLoops (namesOf log) (ignored.getD [])) a b) ∧
    ((providerOf it log ignored tri).unrelated a b = true ↔ Unrelated (withoutLoops (namesOf log) (ignored.getD [])) a b) ∧
    ((providerOf it log ignored tri).triangle a b = true ↔ Triangle (namesOf log) a b) ∧
    (a ∈ (providerOf it log ignored tri).classes ↔ a ∈ (withoutLoops (namesOf log) (ignored.getD [])).flatten) ∧
    (providerOf it log ignored tri).classes.Nodup ∧
    ((providerOf it log ignored tri).known a = true ↔ a ∈ (withoutLoops (namesOf log) (ignored.getD [])).flatten) ∧
    (providerOf it log ignored tri).log = namesOf log := by
  have hk : a ∈ (createInfo it log ignored).classes.keys ↔ a ∈ (withoutLoops (namesOf log) (ignored.getD [])).flatten :=
    (kept_keys it log ignored a).trans (mem_without _ _ _).symm
  refine ⟨follows_iff it log ignored a b, ?_, ?_, ((it.perm _ _ _).mem_iff).trans hk, ?_, ?_, rfl⟩
  · exact iff_of_eq (congrFun (congrFun (provider_U it log ignored tri []) a) b)
  · simp only [providerOf, decide_eq_true_eq, ht]
  · refine ((it.perm _ _ _).nodup_iff).mpr ?_
    exact (classes_perm it log ignored).nodup_iff.mp (List.nodup_dedup _)
  · rw [← hk]
    have hc := (C110_counts it log ignored false).2.2.1 a
    have hm : a ∈ (createInfo it log ignored).classes.keys ↔ a ∈ keptNamesOf (ignored.getD []) log := by
      rw [← (classes_perm it log ignored).mem_iff, List.mem_dedup]
    rw [hm, ← List.count_pos_iff, ← hc]
    simp only [providerOf, decide_eq_true_eq, Info.eventCount, Nat.pos_iff_ne_zero]

/-- **C171** (what is seen of a net). Of a class the places before and after some transition of that name, and around a place the names of
the transitions. -/
theorem C171_view (it : Iter) (net : Net) :
    (∀ n, (viewOf it net).find n = none ↔ ∀ t ∈ net.transitions, t.name ≠ n) ∧
    (∀ n i o, (viewOf it net).find n = some (i, o) → ∃ t ∈ net.transitions, t.name = n ∧ i = t.incoming.map Arc.place ∧
      o = t.outgoing.map Arc.place) ∧
    (∀ p n, n ∈ (viewOf it net).pre p ↔ ∃ t ∈ net.transitions, t.name = n ∧ p ∈ t.outgoing.map Arc.place) ∧
    ∀ p n, n ∈ (viewOf it net).post p ↔ ∃ t ∈ net.transitions, t.name = n ∧ p ∈ t.incoming.map Arc.place := by
  refine ⟨fun n => ?_, fun n i o h => ?_, fun p n => ?_, fun p n => ?_⟩
  · simp only [viewOf, findTransition, Option.map_eq_none_iff, List.find?_eq_none, decide_eq_true_eq, (it.perm _ _ _).mem_iff, ne_eq]
  · simp only [viewOf, findTransition, Option.map_eq_some_iff, Prod.mk.injEq] at h
    obtain ⟨t, ht, rfl, rfl⟩ := h
    exact ⟨t, (it.perm _ _ _).mem_iff.mp (List.mem_of_find?_eq_some ht), by simpa using List.find?_some ht, rfl, rfl⟩
  · simp only [viewOf, List.mem_map, List.mem_filter, decide_eq_true_eq]
    exact ⟨fun ⟨t, ⟨h1, h2⟩, h3⟩ => ⟨t, h1, h3, h2⟩, fun ⟨t, h1, h3, h2⟩ => ⟨t, ⟨h1, h2⟩, h3⟩⟩
  · simp only [viewOf, List.mem_map, List.mem_filter, decide_eq_true_eq]
    exact ⟨fun ⟨t, ⟨h1, h2⟩, h3⟩ => ⟨t, h1, h3, h2⟩, fun ⟨t, h1, h3, h2⟩ => ⟨t, ⟨h1, h2⟩, h3⟩⟩

/-- The class `l` is left out, but its triangle is not. -/
example : (providerOf .plain [["a", "l", "l", "b"], ["a", "l", "a"]] (some ["l"]) [("a", "l")]).direct "a" "b" = true ∧
    (providerOf .plain [["a", "l", "l", "b"]] (some ["l"]) []).known "l" = false := by decide +kernel

/-- In the first net of the trace `a l l b` the class `l` has a transition without places and one around the place with the number 8. -/
example : ((firstNet .plain exHash 8 0 [["a", "l", "l", "b"]] ["l"] []).map (fun s =>
    ((viewOf .plain s.net).find "l", (viewOf .plain s.net).pre 8, (viewOf .plain s.net).post 8))) = some (some ([], []), ["l"], ["l"]) := by
  decide +kernel

/-- **C171** (the first net). For any log and any hash the first net can be made. It has two transitions for each class that comes
directly after itself. -/
theorem C171_first (it : Iter) (hash : List String → Nat) (next : Nat) (log : List (List E)) (loops : List String)
    (tri : List (String × String)) (ht : ∀ a b, (a, b) ∈ tri ↔ Triangle (namesOf log) a b) :
    ∃ s, EndsWith (fun fuel => firstNet it hash fuel next log loops tri) s ∧
      PlusNet (namesOf log) [] loops (NfcCausal (namesOf log) [] Nothing) (Unrelated (namesOf log)) s.net := by
  rcases plusNet_ends it hash next log none loops ((providerOf it log none tri).relations []) with ⟨s, h1, h2, _⟩ | ⟨_, c, hc, _⟩
  · refine ⟨s, h1, ?_⟩
    rw [provider_C it log none tri [] ht, provider_U, Option.getD_none, without_nil] at h2
    have hl : Listed [] = Nothing := by funext x y; exact propext (by simp [Listed, Nothing])
    rwa [hl] at h2
  · cases hc

/-- A class that follows itself has two transitions of the same name in the first net. -/
example : ((firstNet .plain constHash 8 0 [["a", "l", "l", "b"]] ["l"] []).map (fun s => s.net.transitions.map Trans.name)) =
    some ["a", "l", "b", "l"] := by decide +kernel

/-- **C171** (the other nets). For any log, hash and added relations, if no class that comes directly after itself begins or ends a trace,
the net can be made. -/
theorem C171_later (it : Iter) (hash : List String → Nat) (next : Nat) (log : List (List E)) (loops : List String)
    (tri extra : List (String × String)) (hl : ∀ c, c ∈ loops ↔ Directly (namesOf log) c c)
    (ht : ∀ a b, (a, b) ∈ tri ↔ Triangle (namesOf log) a b) (h : ¬ LoopAtEnd (namesOf log)) :
    ∃ s, EndsWith (fun fuel => laterNet it hash fuel next log loops tri extra) s ∧
      PlusNet (namesOf log) loops loops (NfcCausal (namesOf log) loops (Listed extra)) (Unrelated (withoutLoops (namesOf log) loops))
        s.net := by
  rcases plusNet_ends it hash next log (some loops) loops ((providerOf it log (some loops) tri).relations extra) with
    ⟨s, h1, h2, _⟩ | ⟨_, c, hc, hfl⟩
  · refine ⟨s, h1, ?_⟩
    rw [provider_C it log (some loops) tri extra ht, provider_U] at h2
    exact h2
  · exact absurd ⟨c, (hl c).mp hc, hfl⟩ h

/-- An added relation gives a place although the classes are not related otherwise. -/
example : ((laterNet .plain exHash 8 0 [["a", "c", "d"], ["b", "c", "e"]] [] [] [("a", "d")]).map
    (fun s => (s.net.places.filterMap Place.set).map (fun x => (x.left, x.right)))) =
    some [(["a", "b"], ["c"]), (["c"], ["d", "e"]), (["a"], ["d"])] := by decide +kernel

/-- **C171** (panics). Otherwise it panics. -/
theorem C171_later_panics (it : Iter) (hash : List String → Nat) (next : Nat) (log : List (List E)) (loops : List String)
    (tri extra : List (String × String)) (hl : ∀ c, c ∈ loops ↔ Directly (namesOf log) c c) (h : LoopAtEnd (namesOf log)) (fuel : Nat) :
    laterNet it hash fuel next log loops tri extra = none := by
  obtain ⟨c, hc, hfl⟩ := h
  rcases plusNet_ends it hash next log (some loops) loops ((providerOf it log (some loops) tri).relations extra) with
    ⟨_, _, _, hno⟩ | ⟨hn, _⟩
  · exact absurd ⟨c, (hl c).mpr hc, hfl⟩ hno
  · exact hn fuel

/-- The answers of the searches depend only on the nets they look at. -/
theorem stages_congr {it : Iter} {p : Provider} {first : NetView} {netOf netOf' : List (String × String) → NetView}
    {questions : List (String × String) → List (String × String) → List (String × String)} {s s' : AllState} {r : Stages}
    (e : stages it p first netOf questions s = some (r, s')) (h1 : netOf' r.w1 = netOf r.w1)
    (h2 : netOf' (r.w1 ++ r.kept) = netOf (r.w1 ++ r.kept)) : stages it p first netOf' questions s = some (r, s') := by
  obtain ⟨w1, s1, e1, e⟩ := bind_some e
  obtain ⟨u2, s2, e2, e⟩ := bind_some e
  obtain ⟨w2, s3, e3, e⟩ := bind_some e
  obtain ⟨kept, s4, e4, e⟩ := bind_some e
  obtain ⟨u5, s5, e5, e⟩ := bind_some e
  obtain ⟨u6, s6, e6, e⟩ := bind_some e
  obtain ⟨w3, s7, e7, e⟩ := bind_some e
  cases e
  dsimp only at h1 h2
  rw [← h1] at e3 e4
  rw [← h2] at e7
  simp only [stages, askBind, e1, e2, e3, e4, e5, e6, e7, askPure]

theorem view_find (it : Iter) {log : List (List String)} {ignored loops : List String} {C U : String → String → Prop} {net : Net}
    (h : PlusNet log ignored loops C U net) {c : String} (hc : c ∈ (withoutLoops log ignored).flatten) : ((viewOf it net).find c).isSome := by
  have hm : c ∈ net.transitions.map Trans.name := h.names.mem_iff.mpr (List.mem_append_left _ (List.mem_dedup.mpr hc))
  obtain ⟨t, ht, rfl⟩ := List.mem_map.mp hm
  unfold viewOf findTransition
  simp only [Option.isSome_map, List.find?_isSome, decide_eq_true_eq]
  exact ⟨t, (it.perm _ _ _).mem_iff.mpr ht, rfl⟩

/-- **C171** (the searches). For any log and any hash, if no trace has fewer than two events and no class that comes directly after itself
begins or ends a trace, all nets can be made and the searches end; they find the implicit dependencies by the log and these nets. -/
theorem C171_searches (it : Iter) (hash : List String → Nat) (next : Nat) (log : List (List E))
    (questions : List (String × String) → List (String × String) → List (String × String)) (h1 : ¬ ShortTrace (namesOf log))
    (h2 : ¬ LoopAtEnd (namesOf log)) :
    ∃ (r : Stages) (loops : List String) (tri : List (String × String)) (first : Building) (later : List (String × String) → Building),
      EndsWith (fun fuel => searches it hash fuel next log questions) r ∧
      (∀ c, c ∈ loops ↔ Directly (namesOf log) c c) ∧ (∀ a b, (a, b) ∈ tri ↔ Triangle (namesOf log) a b) ∧
      EndsWith (fun fuel => firstNet it hash fuel next log loops tri) first ∧
      (∀ l, EndsWith (fun fuel => laterNet it hash fuel next log loops tri l) (later l)) ∧
      Found (providerOf it log (some loops) tri) (viewOf it first.net) (fun l => viewOf it (later l).net) r := by
  obtain ⟨o1, o2⟩ := oneLoops_spec (namesOf log)
  obtain ⟨t1, t2⟩ := triangles_spec (namesOf log)
  obtain ⟨tri, htri⟩ := Option.ne_none_iff_exists'.mp (fun h => h1 (t1.mp h))
  obtain ⟨loops, hloops⟩ := Option.ne_none_iff_exists'.mp (fun h => h1 ⟨[], o1.mp h, by simp⟩)
  have lm := (o2 loops hloops).2
  have ht := t2 tri htri
  obtain ⟨first, hfirst, _⟩ := C171_first it hash next log loops tri ht
  choose later hlater hplus using fun l => C171_later it hash next log loops tri l lm ht h2
  have hfind : ∀ l, ∀ c ∈ (providerOf it log (some loops) tri).classes, ((viewOf it (later l).net).find c).isSome := by
    intro l c hc
    refine view_find it (hplus l) ?_
    exact (mem_without _ _ _).mpr ((kept_keys it log (some loops) c).mp ((it.perm _ _ _).mem_iff.mp hc))
  obtain ⟨r, s', e⟩ := C169_answers it (providerOf it log (some loops) tri) (viewOf it first.net) (fun l => viewOf it (later l).net) questions
    hfind .new
  refine ⟨r, loops, tri, first, later, ?_, lm, ht, hfirst, hlater, C169_found it _ _ _ questions r s' e⟩
  obtain ⟨n1, hn1⟩ := hfirst
  obtain ⟨n2, hn2⟩ := hlater r.w1
  obtain ⟨n3, hn3⟩ := hlater (r.w1 ++ r.kept)
  refine ⟨max n1 (max n2 n3), fun fuel hf => ?_⟩
  have f1 := hn1 fuel (by omega)
  have f2 := hn2 fuel (by omega)
  have f3 := hn3 fuel (by omega)
  dsimp only at f1 f2 f3
  have e' := stages_congr (netOf' := fun l => viewOr it (laterNet it hash fuel next log loops tri l)) e (by simp only [f2, viewOr])
    (by simp only [f3, viewOr])
  have g1 : oneLoops (log.map (fun t => t.map name)) = some loops := hloops
  have g2 : triangles (log.map (fun t => t.map name)) = some tri := htri
  show searches it hash fuel next log questions = some r
  unfold searches
  rw [g1, g2, Option.bind_some, Option.bind_some, f1, Option.bind_some]
  rw [e', Option.bind_some, f2, Option.bind_some, f3, Option.map_some]

/-- The searches for the log with the traces `a c d` and `b c e`. -/
example : searches .plain exHash 8 0 [["a", "c", "d"], ["b", "c", "e"]] (fun _ _ => []) = some ⟨[], [], [], [("a", "d"), ("b", "e")]⟩ := by
  decide +kernel

/-- **C171** (panics of the searches). Otherwise they panic. -/
theorem C171_searches_panic (it : Iter) (hash : List String → Nat) (next : Nat) (log : List (List E))
    (questions : List (String × String) → List (String × String) → List (String × String))
    (h : ShortTrace (namesOf log) ∨ LoopAtEnd (namesOf log)) (fuel : Nat) : searches it hash fuel next log questions = none := by
  obtain ⟨o1, o2⟩ := oneLoops_spec (namesOf log)
  obtain ⟨t1, _⟩ := triangles_spec (namesOf log)
  unfold searches
  change (oneLoops (namesOf log)).bind _ = none
  cases hloops : oneLoops (namesOf log) with
  | none => rfl
  | some loops =>
    rw [Option.bind_some]
    change (triangles (namesOf log)).bind _ = none
    cases htri : triangles (namesOf log) with
    | none => rfl
    | some tri =>
      rw [Option.bind_some]
      have hs : ¬ ShortTrace (namesOf log) := fun hs => by rw [t1.mpr hs] at htri; cases htri
      have hl := C171_later_panics it hash next log loops tri (hl := (o2 loops hloops).2) (h := h.resolve_left hs) (fuel := fuel)
      simp only [hl, Option.bind_none, Option.bind_eq_none_iff, implies_true]

/-- A log whose class `a` follows itself and begins a trace, and one with a trace of one event. -/
example : searches .plain exHash 8 0 [["a", "a", "b"]] (fun _ _ => []) = none ∧
    searches .plain exHash 8 0 [["a", "b"], ["a"]] (fun _ _ => []) = none := by decide +kernel

end Ficus.Rs
