import Verif.Proofs.RsNarrow
import Verif.Props.Extract

/-! Property C132: narrowing of activities and extraction of their instances in the backend. -/

namespace Ficus.Rs
open Spec

theorem nodup_of_graph {log : List (List Nat)} {repeats : List RepeatSet} {level : Nat} {nameOf : RepeatSet → String}
    (hi : ∀ r ∈ repeats, InsideLog log r) (hd : repeats.Pairwise (fun x y => ¬ SameSet (wordAt log x) (wordAt log y)))
    {nodes : List RNode} {tops : List Nat} (h : buildGraph log repeats level nameOf = some (nodes, tops)) :
    ∀ n ∈ nodes, n.classes.Nodup := by
  obtain ⟨nodes', tops', rs, h3, h4, -⟩ := C131_nodes log repeats level nameOf hi hd
  rw [h] at h3
  cases h3
  intro n hn
  obtain ⟨k, hk, rfl⟩ := List.mem_iff_getElem.1 hn
  exact ((List.forall₂_iff_get.1 h4).2 k (by rw [(List.forall₂_iff_get.1 h4).1]; exact hk) hk).nodup

/-- C132a: the condition of the theorems below holds for every graph of C131. -/
theorem C132_graphs_are_nested (log : List (List Nat)) (repeats : List RepeatSet) (level : Nat) (nameOf : RepeatSet → String)
    (hi : ∀ r ∈ repeats, InsideLog log r) (hd : repeats.Pairwise (fun x y => ¬ SameSet (wordAt log x) (wordAt log y)))
    (nodes : List RNode) (tops : List Nat) (h : buildGraph log repeats level nameOf = some (nodes, tops)) :
    NestedIn (heapOf nodes) := by
  have hnd := nodup_of_graph hi hd h
  obtain ⟨-, h2⟩ := C131_edges log repeats level nameOf hi hd nodes tops h
  constructor
  · intro p
    unfold heapOf
    cases hp : nodes[p]? with
    | none => simp
    | some n => simpa using hnd n (List.mem_of_getElem? hp)
  · intro p c hc
    unfold heapOf at hc ⊢
    cases hp : nodes[p]? with
    | none => rw [hp] at hc; simp at hc
    | some n =>
      rw [hp] at hc
      obtain ⟨b, hb, hpar⟩ := ((h2 p n hp).2 c).1 hc
      rw [hb]
      exact hpar.1

/-- C132b: narrowing always ends, and gives the node itself or one below it that has all the classes seen, and when asked to narrow one
with as few classes as possible. -/
theorem C132_narrowing (h : Heap) (hn : NestedIn h) (kind : Narrowing) (p : Nat) (seen : List Nat) (hp : HasAll h p seen) :
    ∃ n q, (∀ fuel, n ≤ fuel → narrow h fuel kind p seen = some q) ∧ NarrowedTo h kind seen p q :=
  ⟨weight h p, narrowed h kind p seen, narrow_spec h hn kind p seen hp⟩

/-- C132c: the two kinds `NarrowUp` and `NarrowDown` do the same, and so do `DontNarrow` and `StayTheSame`. -/
theorem C132_kinds_coincide (h : Heap) (fuel p : Nat) (seen : List Nat) :
    narrow h fuel .narrowUp p seen = narrow h fuel .narrowDown p seen ∧
    narrow h fuel .dontNarrow p seen = narrow h fuel .stayTheSame p seen := ⟨rfl, rfl⟩

theorem suitable_iff (h : Heap) (m : Nat) (i : RInstance) :
    suitable h m .defaultFilter i = decide (KeptByDefault h m i) := by
  unfold suitable KeptByDefault
  simp only [RNode.size]
  by_cases hlt : (h i.node).classes.length < m
  · have : ¬ (m ≤ (h i.node).classes.length ∧ (h i.node).classes.length < 2 * i.length) := by omega
    simp only [hlt, if_true, this, decide_false]
  · simp only [hlt, if_false]
    have : (i.length > (h i.node).classes.length / 2) ↔
        (m ≤ (h i.node).classes.length ∧ (h i.node).classes.length < 2 * i.length) := by omega
    simp only [this]

theorem narrowedTo_congr {h : Heap} {kind : Narrowing} {u v : List Nat} (huv : ∀ e, e ∈ u ↔ e ∈ v) {p q : Nat}
    (hq : NarrowedTo h kind u p q) : NarrowedTo h kind v p q :=
  ⟨hq.below, fun e he => hq.hasAll e ((huv e).2 he), hq.same,
    fun hk x hb hx => hq.least hk x hb (fun e he => hx e ((huv e).1 he))⟩

theorem keep_all (h : Heap) (m : Nat) (l : List RInstance) : l.filter (suitable h m .noFilter) = l :=
  List.filter_eq_self.2 (fun _ _ => rfl)

theorem traceInstances_greedy (h : Heap) (kind : Narrowing) (m : Nat) (acts t : List Nat) :
    Greedy (acts.map (fun p => (h p).classes)) t ((traceInstances h kind m .noFilter acts t).map spanOf) := by
  have ok := segments_segsOk h acts t
  have hspans : (traceInstances h kind m .noFilter acts t).map spanOf =
      (segments h (bySize h acts) t 0 none).map (fun g => (g.start, g.length)) := by
    unfold traceInstances
    rw [keep_all, List.map_map]
    rfl
  rw [hspans]
  have hmem : ∀ p, p ∈ (segments h (bySize h acts) t 0 none).map (fun g => (g.start, g.length)) ↔
      ∃ g ∈ segments h (bySize h acts) t 0 none, (g.start, g.length) = p := by intro p; rw [List.mem_map]
  refine ⟨⟨?_, ?_⟩, ?_, ?_, ?_⟩
  · intro p hp
    obtain ⟨g, hg, rfl⟩ := (hmem p).1 hp
    exact ⟨(ok.each g hg).pos, (ok.each g hg).bound⟩
  · rw [List.pairwise_map]; exact ok.order
  · intro i e he
    have hc := ok.cover i e (Nat.zero_le _) he
    unfold Covered Known
    constructor
    · rintro ⟨p, hp, h1, h2⟩
      obtain ⟨g, hg, rfl⟩ := (hmem p).1 hp
      obtain ⟨b, hb, hbe⟩ := hc.1 ⟨g, hg, h1, h2⟩
      exact ⟨_, List.mem_map.2 ⟨b, hb, rfl⟩, by simpa using hbe⟩
    · rintro ⟨s, hs, hse⟩
      obtain ⟨b, hb, rfl⟩ := List.mem_map.1 hs
      obtain ⟨g, hg, h1⟩ := hc.2 ⟨b, hb, hse e (by simp)⟩
      exact ⟨_, (hmem _).2 ⟨g, hg, rfl⟩, h1⟩
  · intro p hp
    obtain ⟨g, hg, rfl⟩ := (hmem p).1 hp
    have og := ok.each g hg
    exact ⟨_, List.mem_map.2 ⟨g.node, og.mem, rfl⟩, fun e he => og.sub e ((og.seen e).2 he)⟩
  · intro p hp e he hk
    obtain ⟨g, hg, rfl⟩ := (hmem p).1 hp
    have og := ok.each g hg
    obtain ⟨s, hs, hse⟩ := hk
    obtain ⟨b, hb, rfl⟩ := List.mem_map.1 hs
    refine og.max e he ⟨b, hb, ?_, hse e (by simp)⟩
    intro x hx
    exact hse x (List.mem_append.2 (Or.inl ((og.seen x).1 hx)))

/-- C132d: extraction always ends, with one list of instances per trace. Without filtering, the intervals of a trace are the greedy
segmentation for the sets of classes of the given activities, and the node of an instance comes by narrowing from a given activity
that has all classes of the interval and as few classes as possible. The default filter only selects. -/
theorem C132_extraction (h : Heap) (hn : NestedIn h) (kind : Narrowing) (log : List (List Nat)) (acts : List Nat) :
    ∃ n r, (∀ fuel, n ≤ fuel → ∀ m,
        extractInstances h ⟨fuel, kind, m, .noFilter⟩ log acts = some r ∧
        extractInstances h ⟨fuel, kind, m, .defaultFilter⟩ log acts =
          some (r.map (fun is => is.filter (fun i => decide (KeptByDefault h m i))))) ∧
      List.Forall₂ (fun t is => Greedy (acts.map (fun p => (h p).classes)) t (is.map spanOf) ∧
        ∀ i ∈ is, ∃ p ∈ acts, HasAll h p ((t.drop i.startPos).take i.length) ∧
          (∀ b ∈ acts, HasAll h b ((t.drop i.startPos).take i.length) → (h p).classes.length ≤ (h b).classes.length) ∧
          NarrowedTo h kind ((t.drop i.startPos).take i.length) p i.node) log r := by
  refine ⟨(acts.map (weight h)).sum, log.map (traceInstances h kind 0 .noFilter acts), ?_, ?_⟩
  · intro fuel hf m
    rw [extractInstances_eq h hn _ log acts hf, extractInstances_eq h hn _ log acts hf]
    refine ⟨rfl, ?_⟩
    rw [List.map_map]
    congr 1
    refine List.map_congr_left (fun t _ => ?_)
    unfold traceInstances
    simp only [Function.comp_apply]
    rw [keep_all]
    refine List.filter_congr (fun i _ => suitable_iff h m i)
  · rw [List.forall₂_map_right_iff, List.forall₂_same]
    intro t _
    refine ⟨traceInstances_greedy h kind 0 acts t, ?_⟩
    intro i hi
    unfold traceInstances at hi
    rw [keep_all] at hi
    obtain ⟨g, hg, rfl⟩ := List.mem_map.1 hi
    have og := (segments_segsOk h acts t).each g hg
    have hseen : ∀ e, e ∈ g.seen ↔ e ∈ (t.drop g.start).take g.length := og.seen
    refine ⟨g.node, og.mem, fun e he => og.sub e ((hseen e).2 he), ?_, ?_⟩
    · intro b hb hbs
      exact og.min b hb (fun e he => hbs e ((hseen e).1 he))
    · exact narrowedTo_congr hseen (narrow_spec h hn kind g.node g.seen og.sub).2

theorem sort_pairwise (h : Heap) (acts : List Nat) :
    (sortActivities h acts).Pairwise (fun a b => (h a).classes.length ≤ (h b).classes.length) := by
  have : Std.Total (fun a b : Nat => (h a).size ≤ (h b).size) := ⟨fun a b => by omega⟩
  have : IsTrans Nat (fun a b : Nat => (h a).size ≤ (h b).size) := ⟨fun a b c h1 h2 => by omega⟩
  exact List.pairwise_insertionSort (fun a b : Nat => (h a).size ≤ (h b).size) acts

/-- C132e: extraction sorts the vector of activities of its caller by size; it loses and adds none, and extracting again with the
sorted vector gives the same intervals. -/
theorem C132_sorts_activities (h : Heap) (acts : List Nat) :
    (sortActivities h acts).Perm acts ∧
    (sortActivities h acts).Pairwise (fun a b => (h a).classes.length ≤ (h b).classes.length) ∧
    ∀ t (l m : List (Nat × Nat)), Greedy (acts.map (fun p => (h p).classes)) t l →
      Greedy ((sortActivities h acts).map (fun p => (h p).classes)) t m → l = m := by
  have hp : (sortActivities h acts).Perm acts := List.perm_insertionSort _ _
  refine ⟨hp, sort_pairwise h acts, ?_⟩
  intro t l m hl hm
  have hk : ∀ es, Known ((sortActivities h acts).map (fun p => (h p).classes)) es ↔ Known (acts.map (fun p => (h p).classes)) es := by
    intro es
    unfold Known
    simp only [List.mem_map]
    constructor
    · rintro ⟨s, ⟨p, hp', rfl⟩, hs⟩; exact ⟨_, ⟨p, hp.mem_iff.1 hp', rfl⟩, hs⟩
    · rintro ⟨s, ⟨p, hp', rfl⟩, hs⟩; exact ⟨_, ⟨p, hp.mem_iff.2 hp', rfl⟩, hs⟩
  refine C30_segmentation_unique _ t l m hl ⟨hm.placed, ?_, ?_, ?_⟩
  · intro i e he; rw [hm.cover i e he, hk]
  · intro p hp'; exact (hk _).1 (hm.known p hp')
  · intro p hp' e he hc; exact hm.maximal p hp' e he ((hk _).2 hc)

theorem known_map {α β : Type} (g : α → β) (fam : List (List α)) (es : List α)
    (hg : Set.InjOn g {x | x ∈ fam.flatten ∨ x ∈ es}) : Known (fam.map (List.map g)) (es.map g) ↔ Known fam es := by
  unfold Known
  simp only [List.mem_map]
  constructor
  · rintro ⟨s, ⟨u, hu, rfl⟩, hs⟩
    refine ⟨u, hu, ?_⟩
    intro e he
    obtain ⟨x, hx, hxe⟩ := List.mem_map.1 (hs (g e) ⟨e, he, rfl⟩)
    rwa [← hg (Or.inl (List.mem_flatten.2 ⟨u, hu, hx⟩)) (Or.inr he) hxe]
  · rintro ⟨s, hs, h⟩
    refine ⟨s.map g, ⟨s, hs, rfl⟩, ?_⟩
    rintro _ ⟨e, he, rfl⟩
    exact List.mem_map.2 ⟨e, h e he, rfl⟩

theorem greedy_map {α β : Type} (g : α → β) (fam : List (List α)) (t : List α) (l : List (Nat × Nat))
    (hg : Set.InjOn g {x | x ∈ fam.flatten ∨ x ∈ t}) :
    Greedy (fam.map (List.map g)) (t.map g) l ↔ Greedy fam t l := by
  have hk : ∀ es : List α, (∀ e ∈ es, e ∈ t) → (Known (fam.map (List.map g)) (es.map g) ↔ Known fam es) := by
    intro es hes
    exact known_map g fam es (hg.mono (fun x hx => hx.imp id (hes x)))
  have hfac : ∀ a b : Nat, ∀ e ∈ (t.drop a).take b, e ∈ t := fun a b e he => List.mem_of_mem_drop (List.mem_of_mem_take he)
  have hw : ∀ a b : Nat, ((t.map g).drop a).take b = ((t.drop a).take b).map g := by
    intro a b; rw [List.map_take, List.map_drop]
  constructor
  · intro h
    refine ⟨by simpa using h.placed, ?_, ?_, ?_⟩
    · intro i e he
      have := h.cover i (g e) (by rw [List.getElem?_map, he]; rfl)
      rw [this, ← hk [e] (by simpa using List.mem_of_getElem? he)]
      rfl
    · intro p hp
      have := h.known p hp
      rw [hw] at this
      exact (hk _ (hfac _ _)).1 this
    · intro p hp e he hc
      refine h.maximal p hp (g e) (by rw [List.getElem?_map, he]; rfl) ?_
      rw [hw, ← List.map_singleton, ← List.map_append]
      refine (hk _ ?_).2 hc
      intro x hx
      rcases List.mem_append.1 hx with hx | hx
      · exact hfac _ _ x hx
      · rw [List.mem_singleton.1 hx]; exact List.mem_of_getElem? he
  · intro h
    refine ⟨by simpa using h.placed, ?_, ?_, ?_⟩
    · intro i e' he'
      rw [List.getElem?_map] at he'
      cases he : t[i]? with
      | none => rw [he] at he'; cases he'
      | some e =>
        rw [he] at he'
        cases he'
        rw [h.cover i e he, ← hk [e] (by simpa using List.mem_of_getElem? he)]
        rfl
    · intro p hp
      rw [hw]
      exact (hk _ (hfac _ _)).2 (h.known p hp)
    · intro p hp e' he' hc
      rw [List.getElem?_map] at he'
      cases he : t[p.1 + p.2]? with
      | none => rw [he] at he'; cases he'
      | some e =>
        rw [he] at he'
        cases he'
        refine h.maximal p hp e he ?_
        rw [hw, ← List.map_singleton, ← List.map_append] at hc
        refine (hk _ ?_).1 hc
        intro x hx
        rcases List.mem_append.1 hx with hx | hx
        · exact hfac _ _ x hx
        · rw [List.mem_singleton.1 hx]; exact List.mem_of_getElem? he

theorem greedy_congr {α : Type} (fam fam' : List (List α)) (t : List α) (l : List (Nat × Nat))
    (hf : List.Forall₂ SameSet fam fam') (h : Greedy fam t l) : Greedy fam' t l := by
  have hk : ∀ es, Known fam' es ↔ Known fam es := by
    intro es
    unfold Known
    constructor
    · rintro ⟨s, hs, hse⟩
      obtain ⟨k, hk, rfl⟩ := List.mem_iff_getElem.1 hs
      obtain ⟨hl, hget⟩ := List.forall₂_iff_get.1 hf
      refine ⟨fam[k]'(by omega), List.getElem_mem _, fun e he => (hget k (by omega) hk e).2 (hse e he)⟩
    · rintro ⟨s, hs, hse⟩
      obtain ⟨k, hk, rfl⟩ := List.mem_iff_getElem.1 hs
      obtain ⟨hl, hget⟩ := List.forall₂_iff_get.1 hf
      refine ⟨fam'[k]'(by omega), List.getElem_mem _, fun e he => (hget k hk (by omega) e).1 (hse e he)⟩
  refine ⟨h.placed, ?_, ?_, ?_⟩
  · intro i e he; rw [h.cover i e he, hk]
  · intro p hp; exact (hk _).2 (h.known p hp)
  · intro p hp e he hc; exact h.maximal p hp e he ((hk _).1 hc)

theorem local_length {E : Type} (log : Log E) (nodes : List ActTree) (ext : E → String) (pred : Instance → Bool) (sn : Bool)
    (r : List (List Instance)) (hr : extractActivities log nodes ext pred sn = some r) : r.length = log.traces.length := by
  unfold extractActivities at hr
  rw [extractFromHashes_eq] at hr
  simp only [Option.some.injEq] at hr
  rw [← hr]
  simp [hashTraces, Log.evs]

/-- C132f (partial: the hashes on both sides have to tell the events apart): for the same activities, given by their sets of event
classes, the backend and the local library (C29, C30) find the same intervals in every trace, if neither filters. -/
theorem C132_same_as_local_partial (hash : String → Nat) (h : Heap) (hn : NestedIn h) (kind : Narrowing) (m : Nat) (acts : List Nat)
    {E : Type} (log : Log E) (nodes : List ActTree) (ext : E → String) (sn : Bool) (r : List (List Instance))
    (hr : extractActivities log nodes ext (fun _ => true) sn = some r) (fam : List (List String))
    (ha : List.Forall₂ SameSet (acts.map (fun p => (h p).classes)) (fam.map (List.map hash)))
    (hl : List.Forall₂ SameSet (nodes.map ActTree.events) (fam.map (List.map stringHash)))
    (h1 : Set.InjOn hash {x | x ∈ fam.flatten ∨ x ∈ (wordsOf ext log).flatten})
    (h2 : Set.InjOn stringHash {x | x ∈ fam.flatten ∨ x ∈ (wordsOf ext log).flatten}) :
    ∃ n, ∀ fuel, n ≤ fuel → ∃ r', extractInstances h ⟨fuel, kind, m, .noFilter⟩ ((wordsOf ext log).map (List.map hash)) acts = some r' ∧
      r'.map (List.map spanOf) = r.map (List.map span) := by
  refine ⟨(acts.map (weight h)).sum, fun fuel hf => ⟨_, extractInstances_eq h hn ⟨fuel, kind, m, .noFilter⟩ _ acts hf, ?_⟩⟩
  have hlen := local_length log nodes ext _ sn r hr
  refine List.ext_getElem (by simp [wordsOf, hlen]) (fun k hk1 hk2 => ?_)
  have hk : k < log.traces.length := by simpa [wordsOf] using hk1
  have hk' : k < r.length := by omega
  have ht : log.traces[k]? = some log.traces[k] := List.getElem?_eq_getElem hk
  have hsub : ∀ x, (x ∈ fam.flatten ∨ x ∈ log.traces[k].events.map ext) → x ∈ fam.flatten ∨ x ∈ (wordsOf ext log).flatten := by
    rintro x (hx | hx)
    · exact Or.inl hx
    · exact Or.inr (List.mem_flatten.2 ⟨_, List.mem_map.2 ⟨_, List.getElem_mem hk, rfl⟩, hx⟩)
  have g1 := greedy_congr _ _ _ _ ha (traceInstances_greedy h kind m acts ((log.traces[k].events.map ext).map hash))
  rw [greedy_map hash fam _ _ (h1.mono hsub)] at g1
  have g2 := greedy_congr _ _ _ _ hl (C30_greedy_segmentation log nodes ext sn r hr k _ ht r[k] (List.getElem?_eq_getElem hk'))
  have hc : classHashes ext log.traces[k].events = (log.traces[k].events.map ext).map stringHash := by
    unfold classHashes; rw [List.map_map]; rfl
  rw [hc, greedy_map stringHash fam _ _ (h2.mono hsub)] at g2
  have := C30_segmentation_unique fam _ _ _ g1 g2
  simpa [wordsOf] using this

/-! ### Concrete cases -/

/-- The graph of `C131_redundant_edges` and the one of `C131_inside_but_not_below`. -/
def exChainNodes : List RNode := ((buildGraph [[1, 2, 3, 4]] exChain 0 (fun _ => "")).map Prod.fst).getD []

theorem exChain_nested : NestedIn (heapOf exChainNodes) := by
  obtain ⟨nodes, tops, rs, h1, -⟩ := C131_nodes [[1, 2, 3, 4]] exChain 0 (fun _ => "") exChain_ok.1 exChain_ok.2
  have : exChainNodes = nodes := by unfold exChainNodes; rw [h1]; rfl
  rw [this]
  exact C132_graphs_are_nested _ _ _ _ exChain_ok.1 exChain_ok.2 nodes tops h1

/-- Narrowing goes down to the smallest node with the classes seen. -/
example : HasAll (heapOf exChainNodes) 0 [2] ∧ narrow (heapOf exChainNodes) 10 .narrowUp 0 [2] = some 2 ∧
    narrow (heapOf exChainNodes) 10 .narrowDown 0 [1] = some 3 ∧ narrow (heapOf exChainNodes) 10 .stayTheSame 0 [1] = some 0 := by
  refine ⟨?_, by decide +kernel, by decide +kernel, by decide +kernel⟩
  have : ∀ e ∈ [2], e ∈ (heapOf exChainNodes 0).classes := by decide +kernel
  exact this

example : ∃ n q, (∀ fuel, n ≤ fuel → narrow (heapOf exChainNodes) fuel .narrowUp 0 [2] = some q) ∧
    NarrowedTo (heapOf exChainNodes) .narrowUp [2] 0 q :=
  C132_narrowing _ exChain_nested _ _ _ (by
    have : ∀ e ∈ [2], e ∈ (heapOf exChainNodes 0).classes := by decide +kernel
    exact this)

/-- Extraction with the two smaller sets of `exChain`: the open instance moves to the larger set when 2 comes, and ends at 7. -/
example : extractInstances (heapOf exChainNodes) ⟨20, .dontNarrow, 0, .noFilter⟩ [[1, 1, 2, 7, 1], []] [2, 3] =
      some [[⟨2, 0, 3⟩, ⟨3, 4, 1⟩], []] ∧
    extractInstances (heapOf exChainNodes) ⟨20, .dontNarrow, 2, .defaultFilter⟩ [[1, 1, 2, 7, 1], []] [2, 3] =
      some [[⟨2, 0, 3⟩], []] ∧
    extractInstances (heapOf exChainNodes) ⟨20, .narrowUp, 0, .noFilter⟩ [[1, 1, 7, 2]] [1] = some [[⟨3, 0, 2⟩, ⟨2, 3, 1⟩]] := by
  decide +kernel

example : ∃ n r, (∀ fuel, n ≤ fuel → ∀ m,
    extractInstances (heapOf exChainNodes) ⟨fuel, .narrowUp, m, .noFilter⟩ [[1, 1, 7, 2]] [1] = some r ∧
    extractInstances (heapOf exChainNodes) ⟨fuel, .narrowUp, m, .defaultFilter⟩ [[1, 1, 7, 2]] [1] =
      some (r.map (fun is => is.filter (fun i => decide (KeptByDefault (heapOf exChainNodes) m i))))) := by
  obtain ⟨n, r, h, -⟩ := C132_extraction (heapOf exChainNodes) exChain_nested .narrowUp [[1, 1, 7, 2]] [1]
  exact ⟨n, r, h⟩

/-- The hypotheses of C132f hold for the activity with `a`, `b` and a log with other events. -/
theorem single_nested : NestedIn (heapOf [⟨none, [97, 98], [], 0, "AB"⟩]) := by
  constructor
  · intro p
    match p with
    | 0 => decide
    | p + 1 => simp [heapOf]
  · intro p c hc
    match p with
    | 0 => simp [heapOf] at hc
    | p + 1 => simp [heapOf] at hc

example (r : List (List Instance))
    (hr : extractActivities exExtractLog [ActTree.node (exAct 0 "AB" ["a", "b"]) []] id (fun _ => true) false = some r) :
    ∃ n, ∀ fuel, n ≤ fuel → ∃ r', extractInstances (heapOf [⟨none, [97, 98], [], 0, "AB"⟩]) ⟨fuel, .narrowUp, 0, .noFilter⟩
      ((wordsOf id exExtractLog).map (List.map exFirst)) [0] = some r' ∧ r'.map (List.map spanOf) = r.map (List.map span) := by
  have hin : ∀ x, (x ∈ [["a", "b"]].flatten ∨ x ∈ (wordsOf id exExtractLog).flatten) → x ∈ ["a", "b", "c", "x"] := by
    have : ∀ x ∈ [["a", "b"]].flatten ++ (wordsOf id exExtractLog).flatten, x ∈ ["a", "b", "c", "x"] := by decide
    intro x hx
    exact this x (List.mem_append.2 hx)
  refine C132_same_as_local_partial exFirst _ single_nested .narrowUp 0 [0] exExtractLog _ id false r hr [["a", "b"]] ?_ ?_ ?_ ?_
  · exact List.Forall₂.cons (by
      have h1 : (heapOf [⟨none, [97, 98], [], 0, "AB"⟩] 0).classes = ["a", "b"].map exFirst := by decide
      intro x; exact (by rw [h1] : x ∈ (heapOf [⟨none, [97, 98], [], 0, "AB"⟩] 0).classes ↔ _)) List.Forall₂.nil
  · exact List.Forall₂.cons (fun x => Iff.rfl) List.Forall₂.nil
  · intro x hx y hy
    have : ∀ x ∈ ["a", "b", "c", "x"], ∀ y ∈ ["a", "b", "c", "x"], exFirst x = exFirst y → x = y := by decide +kernel
    exact this x (hin x hx) y (hin y hy)
  · intro x hx y hy
    have : ∀ x ∈ ["a", "b", "c", "x"], ∀ y ∈ ["a", "b", "c", "x"], stringHash x = stringHash y → x = y := by decide +kernel
    exact this x (hin x hx) y (hin y hy)

end Ficus.Rs
