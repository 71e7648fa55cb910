import Verif.Proofs.RsHLoops
import Verif.Props.RsMarking

/-! C119 to C122: the relations and the nets of the heuristic miner of the backend. -/

namespace Ficus.Rs
open Spec
variable {E : Type} [HasName E]

/-- The thresholds of the examples. -/
def exThresholds : Thresholds := ⟨1 / 4, 1, 1 / 20, 1 / 10, 3 / 5⟩

/-- The defaults of the python class, /repo/src/python/ficus/grpc_pipelines/discovery_parts.py:36-60. -/
def defaultThresholds : Thresholds := ⟨1 / 2, 1, 1, 1 / 10, 1 / 2⟩

/-- C119a: a class depends on another one exactly if it comes after it often enough, strongly enough and not too much weaker than the
strongest follower, whatever the order of iteration. -/
theorem C119_dependency (it : Iter) (th : Thresholds) (log : List (List E)) (a b : String) :
    dependsOn it th (createInfo it log) a b = true ↔ Depends th (namesOf log) a b := dependsOn_iff it th log a b

example : dependsOn .plain exThresholds (createInfo .plain [["a", "b", "c"], ["a", "c", "b"], ["a", "b", "c"]]) "a" "b" = true ∧
    dependsOn .reversed exThresholds (createInfo .plain [["a", "b", "c"], ["a", "c", "b"], ["a", "b", "c"]]) "a" "c" = false ∧
    dependsOn .plain ⟨1 / 4, 1, 1 / 2, 1 / 10, 1⟩ (createInfo .plain [["a", "b", "c"], ["a", "c", "b"], ["a", "b", "c"]]) "a" "c" = true := by
  decide +kernel

/-- C119b: with a threshold that is not negative two classes never depend on each other. -/
theorem C119_one_way (it : Iter) (th : Thresholds) (hd : 0 ≤ th.dependency) (log : List (List E)) (a b : String) (hab : a ≠ b)
    (h : dependsOn it th (createInfo it log) a b = true) : dependsOn it th (createInfo it log) b a = false := by
  rw [Bool.eq_false_iff, Ne, dependsOn_iff]
  rw [dependsOn_iff] at h
  intro h2
  have h1 := lt_of_le_of_lt hd h.1.2.2.2
  have h2 := lt_of_le_of_lt hd h2.1.2.2.2
  unfold strength at h1 h2
  rw [if_neg hab] at h1
  rw [if_neg (Ne.symm hab)] at h2
  have p1 : (0 : ℚ) < directCount (namesOf log) a b + directCount (namesOf log) b a + 1 := by positivity
  have p2 : (0 : ℚ) < directCount (namesOf log) b a + directCount (namesOf log) a b + 1 := by positivity
  rw [div_pos_iff_of_pos_right p1] at h1
  rw [div_pos_iff_of_pos_right p2] at h2
  linarith

example : 0 ≤ exThresholds.dependency ∧ "a" ≠ "b" ∧
    dependsOn .plain exThresholds (createInfo .plain [["a", "b"], ["a", "b"], ["b", "a"]]) "a" "b" = false ∧
    dependsOn .plain exThresholds (createInfo .plain [["a", "b"], ["a", "b"], ["a", "b"], ["b", "a"]]) "a" "b" = true := by
  decide +kernel

/-- C119c: whether two classes are taken for parallel after a third one, which does not depend on their order. -/
theorem C119_parallel (it : Iter) (th : Thresholds) (log : List (List E)) (a b c : String) :
    (isParallel th (createInfo it log) a b c = true ↔ ParallelAfter th (namesOf log) a b c) ∧
    isParallel th (createInfo it log) a b c = isParallel th (createInfo it log) a c b := by
  refine ⟨isParallel_iff it th log a b c, ?_⟩
  rw [Bool.eq_iff_iff, isParallel_iff, isParallel_iff]
  exact ⟨parallelAfter_symm, parallelAfter_symm⟩

example : isParallel exThresholds (createInfo .plain [["a", "b", "c"], ["a", "c", "b"]]) "a" "b" "c" = true ∧
    isParallel exThresholds (createInfo .plain [["a", "b"], ["a", "c"]]) "a" "b" "c" = false := by decide +kernel

/-- C119d: whether two classes are in a loop of length two is counted over the whole log, each place as often as it occurs, and does
not depend on their order. -/
theorem C119_two_loop (th : Thresholds) (log : List (List String)) (tri : List (String × String)) (h : triangles log = some tri) (a b : String) :
    (isTwoLoop th tri a b = true ↔ TwoLoop th log a b) ∧ isTwoLoop th tri a b = isTwoLoop th tri b a := by
  refine ⟨isTwoLoop_iff th log tri h a b, ?_⟩
  unfold isTwoLoop
  rw [add_comm (tri.count (a, b) : ℚ)]

example : triangles [["a", "b", "a", "b", "a"]] = some [("a", "b"), ("b", "a"), ("a", "b")] ∧
    isTwoLoop exThresholds [("a", "b"), ("b", "a"), ("a", "b")] "b" "a" = true ∧
    isTwoLoop exThresholds [("a", "b")] "a" "b" = false := by decide +kernel

/-- C120: the groups of parallel followers of a class are exactly the maximal sets of at least two classes that depend on it and are
taken for parallel after it, each once, with its names in order, and the search for them ends. Missing: hashes that do not tell apart
sets of names. -/
theorem C120_groups_partial (it : Iter) (hash : List String → Nat) (th : Thresholds) (log : List (List E)) (a : String)
    (hh : TellsApart hash (namesOf log).flatten.dedup) (fuel : Nat) (hf : (namesOf log).flatten.dedup.length < fuel) :
    ∃ groups, parallelGroups it hash th (createInfo it log) fuel a = some groups ∧ (groups.map List.toFinset).Nodup ∧
      (∀ g ∈ groups, g.Pairwise (· < ·)) ∧
      ∀ s, s ∈ groups.map List.toFinset ↔ MaximalGroup (Depends th (namesOf log) a) (ParallelAfter th (namesOf log) a) s := by
  obtain ⟨r, h1, h2, h3, h4⟩ := parallelGroups_spec it th log a hh fuel hf
  refine ⟨r, h1, ?_, fun g hg => (h3 g hg).sorted, fun s => ?_⟩
  · exact h2.map_on (fun x hx y hy h => goodGroup_ext (h3 x hx) (h3 y hy) h)
  · rw [List.mem_map]; exact h4 s

/-- A log with three parallel classes. -/
def exParallel : List (List String) := [["a", "b", "c", "d", "e"], ["a", "c", "d", "b", "e"], ["a", "d", "b", "c", "e"],
  ["a", "b", "d", "c", "e"], ["a", "c", "b", "d", "e"], ["a", "d", "c", "b", "e"]]

example : parallelGroups .plain exHash exThresholds (createInfo .plain exParallel) 6 "a" = some [["b", "c", "d"]] ∧
    parallelGroups .reversed exHash exThresholds (createInfo .plain exParallel) 6 "b" = some [] ∧
    TellsApart exHash (namesOf exParallel).flatten.dedup ∧ (namesOf exParallel).flatten.dedup.length < 6 := by
  refine ⟨by decide +kernel, by decide +kernel, exHash_apart _, by decide +kernel⟩

theorem find_some {α : Type} (p : α → Bool) (l : List α) (h : ∃ x ∈ l, p x = true) : ∃ y, l.find? p = some y := by
  obtain ⟨x, hx, hp⟩ := h
  cases hy : l.find? p with
  | some y => exact ⟨y, rfl⟩
  | none => exact absurd hp (by simpa using List.find?_eq_none.mp hy x hx)

theorem view_of_transition {s : Building} {v : View} (h : v ∈ s.views) : ∃ t ∈ s.net.transitions, t.view = v := List.mem_map.mp h

theorem all_found (it : Iter) {s : Building} {plan : List Step} {start : List View} {extra : List View} {names : List String}
    (hv : s.views = start.map (growAll plan) ++ extra) (hn : (start.map View.name).Perm names.dedup) :
    ∀ c ∈ names, ∃ t, findTransition it 0 s.net c = some t := by
  intro c hc
  have := hn.mem_iff.mpr (List.mem_dedup.mpr hc)
  obtain ⟨v, hvs, rfl⟩ := List.mem_map.mp this
  have hm : growAll plan v ∈ s.views := by rw [hv]; exact List.mem_append.mpr (Or.inl (List.mem_map_of_mem hvs))
  obtain ⟨t, ht, he⟩ := view_of_transition hm
  refine find_some _ _ ⟨t, (it.perm _ _ _).mem_iff.mpr ht, ?_⟩
  have : t.name = (growAll plan v).name := by rw [← he]; rfl
  rw [decide_eq_true_eq, this]
  unfold growAll; split <;> rfl

/-- C121a: the discovery panics exactly if some trace has fewer than two events. -/
theorem C121_panics_iff (it : Iter) (hash : List String → Nat) (th : Thresholds) (next : Nat) (log : List (List E))
    (hh : TellsApart hash (namesOf log).flatten.dedup) (fuel : Nat) (hf : (namesOf log).flatten.dedup.length < fuel) :
    discoverHeuristic it hash th fuel next log = none ↔ ∃ t ∈ log, t.length < 2 := by
  have hlen : (∃ t ∈ namesOf log, t.length < 2) ↔ ∃ t ∈ log, t.length < 2 := by
    unfold namesOf
    simp only [List.mem_map, exists_exists_and_eq_and, List.length_map]
  rw [← hlen, ← (triangles_spec (namesOf log)).1]
  unfold discoverHeuristic
  show Option.bind (triangles (namesOf log)) _ = none ↔ _
  cases ht : triangles (namesOf log) with
  | none => simp
  | some tri =>
    obtain ⟨s, plan, start, h1, h2, _, _, _, _, _, _, h9, _, h11⟩ := heuristicNet_spec it th log hh fuel next hf
    have hfound := all_found it h11 h9
    have : Nonempty Trans := ⟨⟨0, "", false, [], []⟩⟩
    choose! f hfind using hfound
    obtain ⟨s', h, _⟩ := addTwoLoops_spec it th tri log h2 f hfind
    simp only [Option.bind_some, h1, h]
    simp

example : discoverHeuristic .plain exHash exThresholds 6 0 [["a", "b"], ["a"]] = none ∧
    (discoverHeuristic .plain exHash exThresholds 6 0 exParallel).isSome = true := by decide +kernel

theorem step_cls_mem {th : Thresholds} {log : List (List String)} {plan : List Step}
    (hall : ∀ a, a ∈ plan.map Step.cls ↔ ∃ b, Depends th log a b) {r : Step} (hr : r ∈ plan) : r.cls ∈ log.flatten := by
  obtain ⟨b, hb⟩ := (hall r.cls).mp (List.mem_map_of_mem hr)
  exact hb.1.1

/-- The silent transitions with their steps. -/
def silentIndex (plan : List Step) : List (Step × Nat × List (String × Nat)) := plan.flatMap (fun r => r.groups.map (fun g => (r, g)))

theorem silents_index (plan : List Step) :
    plan.flatMap Step.silents = (silentIndex plan).map (fun x => silentView x.1.cls x.1.post x.2) := by
  unfold silentIndex
  rw [List.map_flatMap]
  refine List.flatMap_congr (fun r _ => ?_)
  rw [List.map_map]; rfl

/-- What a silent transition stands for. -/
def labelOf (x : Step × Nat × List (String × Nat)) : String × Finset String := (x.1.cls, (x.2.2.map Prod.fst).toFinset)

theorem labels_nodup {th : Thresholds} {log : List (List String)} {plan : List Step} (hgood : ∀ r ∈ plan, GoodStep th log r)
    (hcls : (plan.map Step.cls).Nodup) : ((silentIndex plan).map labelOf).Nodup := by
  unfold silentIndex
  rw [List.map_flatMap]
  induction plan with
  | nil => simp
  | cons r plan ih =>
    rw [List.map_cons, List.nodup_cons] at hcls
    rw [List.flatMap_cons, List.nodup_append]
    refine ⟨?_, ih (fun r hr => hgood r (by simp [hr])) hcls.2, ?_⟩
    · rw [List.map_map]
      have hr := hgood r (by simp)
      have h1 : ((r.groups.map (fun g => g.2.map Prod.fst)).map List.toFinset).Nodup :=
        hr.nodup.map_on (fun x hx y hy h => by
          obtain ⟨g, hg, rfl⟩ := List.mem_map.mp hx
          obtain ⟨g', hg', rfl⟩ := List.mem_map.mp hy
          exact sorted_ext (hr.sorted g hg) (hr.sorted g' hg') h)
      have h2 := h1.map (fun a b h => (Prod.mk.inj h).2 : Function.Injective (fun s : Finset String => (r.cls, s)))
      rw [List.map_map, List.map_map] at h2
      exact h2
    · intro x hx y hy he
      obtain ⟨z, hz, rfl⟩ := List.mem_map.mp hx
      obtain ⟨g, _, rfl⟩ := List.mem_map.mp hz
      obtain ⟨r', hr', hy⟩ := List.mem_flatMap.mp hy
      obtain ⟨z', hz', rfl⟩ := List.mem_map.mp hy
      obtain ⟨g', _, rfl⟩ := List.mem_map.mp hz'
      have : r.cls = r'.cls := congrArg Prod.fst he
      exact hcls.1 (this ▸ List.mem_map_of_mem hr')

theorem mem_labels {th : Thresholds} {log : List (List String)} {plan : List Step} (hgood : ∀ r ∈ plan, GoodStep th log r)
    (hall : ∀ a, a ∈ plan.map Step.cls ↔ ∃ b, Depends th log a b) (l : String × Finset String) :
    l ∈ (silentIndex plan).map labelOf ↔ MaximalGroup (Depends th log l.1) (ParallelAfter th log l.1) l.2 := by
  unfold silentIndex
  simp only [List.mem_map, List.mem_flatMap]
  constructor
  · rintro ⟨x, ⟨r, hr, g, hg, rfl⟩, rfl⟩
    exact ((hgood r hr).groups _).mp ⟨g, hg, rfl⟩
  · intro h
    obtain ⟨b, hb⟩ := Finset.card_pos.mp (by have := h.1.two; omega : 0 < l.2.card)
    obtain ⟨r, hr, he⟩ := List.mem_map.mp ((hall l.1).mpr ⟨b, h.1.among b hb⟩)
    rw [← he] at h
    obtain ⟨g, hg, hs⟩ := ((hgood r hr).groups _).mpr h
    exact ⟨(r, g), ⟨r, hr, g, hg, rfl⟩, Prod.ext he hs⟩

theorem trans_of_view {s : Building} {lo : Nat} (hf : Fresh lo s) {t u : Trans} (ht : t ∈ s.net.transitions) (hu : u ∈ s.net.transitions)
    (h : t.id = u.id) : t = u := List.inj_on_of_nodup_map (ids_nodup_of_fresh hf) ht hu h

theorem growAll_name (plan : List Step) (v : View) : (growAll plan v).name = v.name ∧ (growAll plan v).id = v.id ∧ (growAll plan v).silent = v.silent := by
  unfold growAll; split <;> exact ⟨rfl, rfl, rfl⟩

/-- C121b: the net of the heuristic miner, if no class is named like a silent transition: the visible transitions are the classes, the
silent ones are the groups of parallel followers, and the places and arcs are as specified. There are no markings. Missing: hashes that
do not tell apart sets of names, and classes named like silent transitions. -/
theorem C121_net_partial (it : Iter) (hash : List String → Nat) (th : Thresholds) (next : Nat) (log : List (List E))
    (hh : TellsApart hash (namesOf log).flatten.dedup) (fuel : Nat) (hf : (namesOf log).flatten.dedup.length < fuel)
    (hlen : ∀ t ∈ log, 2 ≤ t.length) (hname : ∀ a ∈ (namesOf log).flatten, ∀ c ∈ (namesOf log).flatten, c ≠ "silent_start_" ++ a) :
    ∃ (s : Building) (labels : List (String × Finset String)), discoverHeuristic it hash th fuel next log = some s ∧ WellFormed s.net ∧
      Drawn s ∧ s.net.initial = none ∧ s.net.final = none ∧ PlacesOf th (namesOf log) s.net ∧
      ((s.net.transitions.filter (fun t => !t.silent)).map Trans.name).Perm (namesOf log).flatten.dedup ∧
      (∀ t ∈ s.net.transitions, t.silent = false → ClassArcs th (namesOf log) s.net t) ∧
      labels.Nodup ∧
      (∀ l, l ∈ labels ↔ MaximalGroup (Depends th (namesOf log) l.1) (ParallelAfter th (namesOf log) l.1) l.2) ∧
      List.Forall₂ (fun t l => SilentArcs s.net t l.1 l.2) (s.net.transitions.filter Trans.silent) labels := by
  obtain ⟨b, plan, start, h1, hfr, hgood, hcls, hall, hpl, hin, hfi, hnm, hst, hv⟩ := heuristicNet_spec it th log hh fuel next hf
  have htri : triangles (namesOf log) ≠ none := by
    rw [Ne, (triangles_spec (namesOf log)).1]
    rintro ⟨t, ht, h⟩
    unfold namesOf at ht
    obtain ⟨u, hu, rfl⟩ := List.mem_map.mp ht
    have := hlen u hu
    rw [List.length_map] at h
    omega
  obtain ⟨tri, htri⟩ := Option.ne_none_iff_exists'.mp htri
  have : Nonempty Trans := ⟨⟨0, "", false, [], []⟩⟩
  have hfound := all_found it hv hnm
  choose! f hfind using hfound
  obtain ⟨s, h2, hfs, hspl, hsin, hsfi, hsv⟩ := addTwoLoops_spec it th tri log hfr f hfind
  have hdisc : discoverHeuristic it hash th fuel next log = some s := by
    unfold discoverHeuristic
    show Option.bind (triangles (namesOf log)) _ = _
    rw [htri]
    simp only [Option.bind_some, h1]
    exact h2
  have hids : ((plan.flatMap Step.places).map Place.id).Nodup := by
    rw [← hpl]; exact (List.nodup_append.mp hfr.1).1
  have hstn : (start.map View.name).Nodup := hnm.nodup_iff.mpr (List.nodup_dedup _)
  -- the transitions found by name
  have hfv : ∀ c ∈ (namesOf log).flatten, f c ∈ b.net.transitions ∧ ∃ v ∈ start, v.name = c ∧ (f c).view = growAll plan v := by
    intro c hc
    have hm := (it.perm _ _ _).mem_iff.mp (List.mem_of_find?_eq_some (hfind c hc))
    have hn : (f c).name = c := by simpa using List.find?_some (hfind c hc)
    refine ⟨hm, ?_⟩
    have hview : (f c).view ∈ b.views := List.mem_map_of_mem hm
    rw [hv] at hview
    rcases List.mem_append.mp hview with h | h
    · obtain ⟨v, hvs, he⟩ := List.mem_map.mp h
      refine ⟨v, hvs, ?_, he.symm⟩
      rw [← (growAll_name plan v).1, he]; exact hn
    · obtain ⟨r, hr, h⟩ := List.mem_flatMap.mp h
      obtain ⟨g, _, he⟩ := List.mem_map.mp h
      have : (f c).name = "silent_start_" ++ r.cls := by
        have := congrArg View.name he; exact this.symm
      exact absurd (hn.symm.trans this) (hname r.cls (step_cls_mem hall hr) c hc)
  have hidf : ∀ c ∈ (namesOf log).flatten, ∀ d ∈ (namesOf log).flatten, ((f c).id = (f d).id ↔ c = d) := by
    intro c hc d hd
    refine ⟨fun h => ?_, fun h => by rw [h]⟩
    have := trans_of_view hfr (hfv c hc).1 (hfv d hd).1 h
    have hn1 : (f c).name = c := by simpa using List.find?_some (hfind c hc)
    have hn2 : (f d).name = d := by simpa using List.find?_some (hfind d hd)
    rw [← hn1, ← hn2, this]
  have harcs : ∀ c ∈ (namesOf log).flatten,
      (f c).incoming.map Arc.place = (plan.flatMap (fun r => r.before c)).map Place.id ∧
      (f c).outgoing.map Arc.place = (plan.flatMap (fun r => r.after c)).map Place.id := by
    intro c hc
    obtain ⟨_, v, hvs, hvn, he⟩ := hfv c hc
    obtain ⟨k1, k2, k3⟩ := hst v hvs
    have e1 : (f c).view.ins = (growAll plan v).ins := by rw [he]
    have e2 : (f c).view.outs = (growAll plan v).outs := by rw [he]
    unfold growAll at e1 e2
    rw [k1] at e1 e2
    simp only [Bool.false_eq_true, if_false, k2, k3, List.nil_append, hvn] at e1 e2
    exact ⟨e1, e2⟩
  have hPmem : ∀ p ∈ loopPairs it th tri (createInfo it log), p.1 ∈ (namesOf log).flatten ∧ p.2 ∈ (namesOf log).flatten := by
    intro p hp
    unfold loopPairs at hp
    obtain ⟨a, ha, hp⟩ := List.mem_flatMap.mp hp
    obtain ⟨b, hb, rfl⟩ := List.mem_map.mp hp
    exact ⟨(mem_allClasses it it 4 log a).mp ha, (mem_allClasses it _ 5 log b).mp (List.mem_filter.mp hb).1⟩
  -- silent transitions get nothing
  have hbid : (b.views.map View.id).Nodup := by rw [views_ids]; exact ids_nodup_of_fresh hfr
  have hsilent : ∀ w ∈ plan.flatMap Step.silents, (∀ c ∈ (namesOf log).flatten, (f c).id ≠ w.id) ∧ w.silent = true := by
    intro w hw
    have hws : w.silent = true := by
      obtain ⟨r, _, h⟩ := List.mem_flatMap.mp hw
      obtain ⟨g, _, rfl⟩ := List.mem_map.mp h
      rfl
    refine ⟨fun c hc h => ?_, hws⟩
    obtain ⟨hm, v, hvs, _, he⟩ := hfv c hc
    have hwb : w ∈ b.views := by rw [hv]; exact List.mem_append.mpr (Or.inr hw)
    have := List.inj_on_of_nodup_map hbid (List.mem_map_of_mem hm : (f c).view ∈ b.views) hwb h
    rw [he] at this
    have h3 := (growAll_name plan v).2.2
    rw [this, (hst v hvs).1, hws] at h3
    cases h3
  have hupdS : ∀ w ∈ plan.flatMap Step.silents,
      ({ w with
        ins := w.ins ++ ((loopIns f (loopPairs it th tri (createInfo it log))).filter (fun c => decide (c.2 = w.id))).map Prod.fst,
        outs := w.outs ++ ((loopOuts f (loopPairs it th tri (createInfo it log))).filter (fun c => decide (c.1 = w.id))).map Prod.snd } : View) = w := by
    intro w hw
    have e1 : (loopIns f (loopPairs it th tri (createInfo it log))).filter (fun c => decide (c.2 = w.id)) = [] := by
      rw [List.filter_eq_nil_iff]
      intro c hc
      obtain ⟨p, hp, hc⟩ := List.mem_flatMap.mp hc
      obtain ⟨arc, _, rfl⟩ := List.mem_map.mp hc
      simpa using (hsilent w hw).1 p.1 (hPmem p hp).1
    have e2 : (loopOuts f (loopPairs it th tri (createInfo it log))).filter (fun c => decide (c.1 = w.id)) = [] := by
      rw [List.filter_eq_nil_iff]
      intro c hc
      obtain ⟨p, hp, hc⟩ := List.mem_flatMap.mp hc
      obtain ⟨arc, _, rfl⟩ := List.mem_map.mp hc
      simpa using (hsilent w hw).1 p.1 (hPmem p hp).1
    rw [e1, e2]
    apply view_ext <;> simp
  rw [hv, List.map_append, List.map_map] at hsv
  have hsil2 : (plan.flatMap Step.silents).map (fun w : View => ({ w with
        ins := w.ins ++ ((loopIns f (loopPairs it th tri (createInfo it log))).filter (fun c => decide (c.2 = w.id))).map Prod.fst,
        outs := w.outs ++ ((loopOuts f (loopPairs it th tri (createInfo it log))).filter (fun c => decide (c.1 = w.id))).map Prod.snd } : View)) =
      plan.flatMap Step.silents := by
    conv_rhs => rw [← List.map_id (plan.flatMap Step.silents)]
    exact List.map_congr_left (fun w hw => hupdS w hw)
  rw [hsil2] at hsv
  -- the visible transitions
  have hvis : ∀ t ∈ s.net.transitions, t.silent = false → ∃ c ∈ (namesOf log).flatten, t.name = c ∧ t.id = (f c).id ∧
      t.incoming.map Arc.place = (f c).incoming.map Arc.place ++
        ((loopIns f (loopPairs it th tri (createInfo it log))).filter (fun x => decide (x.2 = (f c).id))).map Prod.fst ∧
      t.outgoing.map Arc.place = (f c).outgoing.map Arc.place ++
        ((loopOuts f (loopPairs it th tri (createInfo it log))).filter (fun x => decide (x.1 = (f c).id))).map Prod.snd := by
    intro t ht hts
    have hview : t.view ∈ s.views := List.mem_map_of_mem ht
    rw [hsv] at hview
    rcases List.mem_append.mp hview with h | h
    · obtain ⟨v, hvs, he⟩ := List.mem_map.mp h
      simp only [Function.comp_apply] at he
      have hc : v.name ∈ (namesOf log).flatten := List.mem_dedup.mp (hnm.mem_iff.mp (List.mem_map_of_mem hvs))
      obtain ⟨_, v', hvs', hvn', he'⟩ := hfv v.name hc
      have hvv : v' = v := List.inj_on_of_nodup_map hstn hvs' hvs hvn'
      rw [hvv] at he'
      rw [← he'] at he
      refine ⟨v.name, hc, ?_, (congrArg View.id he).symm, (congrArg View.ins he).symm, (congrArg View.outs he).symm⟩
      have hn1 : (f v.name).name = v.name := by simpa using List.find?_some (hfind v.name hc)
      exact (congrArg View.name he).symm.trans hn1
    · exact absurd ((hsilent _ h).2 : t.silent = true) (by show ¬ t.silent = true; rw [hts]; simp)
  have hplaces : s.net.places = plan.flatMap Step.places := hspl.trans hpl
  have hclass : ∀ t ∈ s.net.transitions, t.silent = false → ClassArcs th (namesOf log) s.net t := by
    intro t ht hts
    obtain ⟨c, hc, hn, _, e1, e2⟩ := hvis t ht hts
    refine ⟨fun p hp => ?_, fun p hp => ?_⟩
    · rw [hplaces] at hp
      unfold arcsInto
      rw [hn, e1, List.count_append, (harcs c hc).1, count_before hgood hcls hall hids hp, count_loopIns]
      congr 1
      rw [← sum_partners it th tri log htri c hc (fun d => ind (p.name = "post_" ++ d))]
      congr 1
      refine List.map_congr_left (fun q hq => ?_)
      obtain ⟨q1, q2⟩ := hPmem q hq
      by_cases hqc : q.1 = c
      · rw [if_pos hqc, if_pos ((hidf _ q1 _ hc).mpr hqc), (harcs q.2 q2).2, count_after hcls hids hp]
      · rw [if_neg hqc, if_neg (fun h => hqc ((hidf _ q1 _ hc).mp h))]
    · rw [hplaces] at hp
      unfold arcsOutOf
      rw [hn, e2, List.count_append, (harcs c hc).2, count_after hcls hids hp, count_loopOuts]
      congr 1
      rw [← sum_partners it th tri log htri c hc (fun d => ind (TakesFrom th (namesOf log) p d))]
      congr 1
      refine List.map_congr_left (fun q hq => ?_)
      obtain ⟨q1, q2⟩ := hPmem q hq
      by_cases hqc : q.1 = c
      · rw [if_pos hqc, if_pos ((hidf _ q1 _ hc).mpr hqc), (harcs q.2 q2).1, count_before hgood hcls hall hids hp]
      · rw [if_neg hqc, if_neg (fun h => hqc ((hidf _ q1 _ hc).mp h))]
  -- arcs end at places
  have hins : ∀ c ∈ (namesOf log).flatten, ∀ i ∈ (f c).incoming.map Arc.place ++ (f c).outgoing.map Arc.place, ∃ p ∈ s.net.places, p.id = i := by
    intro c hc i hi
    rw [(harcs c hc).1, (harcs c hc).2, ← List.map_append] at hi
    obtain ⟨p, hp, rfl⟩ := List.mem_map.mp hi
    refine ⟨p, ?_, rfl⟩
    rw [hplaces]
    rcases List.mem_append.mp hp with hp | hp
    · obtain ⟨r, hr, hp⟩ := List.mem_flatMap.mp hp
      exact List.mem_flatMap.mpr ⟨r, hr, before_sub r c p hp⟩
    · obtain ⟨r, hr, hp⟩ := List.mem_flatMap.mp hp
      unfold Step.after at hp
      split at hp
      · rw [List.mem_singleton] at hp; exact (mem_places p).mpr (Or.inl ⟨r, hr, hp⟩)
      · cases hp
  have hsview : ∀ t ∈ s.net.transitions, t.silent = true → t.view ∈ plan.flatMap Step.silents := by
    intro t ht hts
    have hview : t.view ∈ s.views := List.mem_map_of_mem ht
    rw [hsv] at hview
    rcases List.mem_append.mp hview with h | h
    · obtain ⟨v, hvs, he⟩ := List.mem_map.mp h
      have h3 : (growAll plan v).silent = t.silent := congrArg View.silent he
      rw [(growAll_name plan v).2.2, (hst v hvs).1, hts] at h3
      cases h3
    · exact h
  have hwf : WellFormed s.net := by
    refine ⟨distinct_of_fresh hfs, fun t ht a ha => ?_⟩
    have ha' : a.place ∈ t.incoming.map Arc.place ++ t.outgoing.map Arc.place := by
      rw [← List.map_append]; exact List.mem_map_of_mem ha
    by_cases hts : t.silent = true
    · obtain ⟨r, hr, h⟩ := List.mem_flatMap.mp (hsview t ht hts)
      obtain ⟨g, hg, he⟩ := List.mem_map.mp h
      have e1 : t.incoming.map Arc.place = [r.post] := (congrArg View.ins he).symm
      have e2 : t.outgoing.map Arc.place = g.2.map Prod.snd := (congrArg View.outs he).symm
      rw [e1, e2] at ha'
      rw [hplaces]
      rcases List.mem_append.mp ha' with h | h
      · exact ⟨r.postPlace, (mem_places _).mpr (Or.inl ⟨r, hr, rfl⟩), (List.mem_singleton.mp h).symm⟩
      · obtain ⟨q, hq, he⟩ := List.mem_map.mp h
        exact ⟨prePlace q, (mem_places _).mpr (Or.inr ⟨r, hr, g, hg, q, hq, rfl⟩), he⟩
    · obtain ⟨c, hc, _, _, e1, e2⟩ := hvis t ht (by simpa using hts)
      rw [e1, e2] at ha'
      simp only [List.mem_append] at ha'
      rcases ha' with (h | h) | (h | h)
      · exact hins c hc _ (List.mem_append.mpr (Or.inl h))
      · obtain ⟨x, hx, he⟩ := List.mem_map.mp h
        obtain ⟨q, hq, hx⟩ := List.mem_flatMap.mp (List.mem_filter.mp hx).1
        obtain ⟨arc, harc, rfl⟩ := List.mem_map.mp hx
        exact hins q.2 (hPmem q hq).2 _ (List.mem_append.mpr (Or.inr (he ▸ List.mem_map_of_mem harc)))
      · exact hins c hc _ (List.mem_append.mpr (Or.inr h))
      · obtain ⟨x, hx, he⟩ := List.mem_map.mp h
        obtain ⟨q, hq, hx⟩ := List.mem_flatMap.mp (List.mem_filter.mp hx).1
        obtain ⟨arc, harc, rfl⟩ := List.mem_map.mp hx
        exact hins q.2 (hPmem q hq).2 _ (List.mem_append.mpr (Or.inl (he ▸ List.mem_map_of_mem harc)))
  -- the silent transitions
  have hnp := places_nodup hids
  have hpre : ∀ r ∈ plan, ∀ g ∈ r.groups, (g.2.map prePlace).Nodup ∧ ∀ q ∈ g.2, prePlace q ∈ plan.flatMap Step.places := by
    intro r hr g hg
    have h3 := (List.nodup_cons.mp (step_places_nodup hids hr)).2
    exact ⟨(List.nodup_flatMap.mp h3).1 g hg, fun q hq => (mem_places _).mpr (Or.inr ⟨r, hr, g, hg, q, hq, rfl⟩)⟩
  have hpreid : ∀ r ∈ plan, ∀ g ∈ r.groups, (g.2.map Prod.snd).Nodup := by
    intro r hr g hg
    have h3 := (hpre r hr g hg).1.map_on (f := Place.id) (fun x hx y hy h => by
      obtain ⟨q, hq, rfl⟩ := List.mem_map.mp hx
      obtain ⟨q', hq', rfl⟩ := List.mem_map.mp hy
      exact List.inj_on_of_nodup_map hids ((hpre r hr g hg).2 q hq) ((hpre r hr g hg).2 q' hq') h)
    rw [List.map_map] at h3
    exact h3
  have hout : ∀ r ∈ plan, ∀ g ∈ r.groups, ∀ t : Trans, t.view = silentView r.cls r.post g → ∀ p ∈ plan.flatMap Step.places,
      (arcsOutOf t p = ind (p ∈ g.2.map prePlace)) := by
    intro r hr g hg t he p hp
    have e2 : t.outgoing.map Arc.place = g.2.map Prod.snd := congrArg View.outs he
    unfold arcsOutOf
    rw [e2, count_ind (hpreid r hr g hg)]
    refine ind_congr ?_
    have h4 : g.2.map Prod.snd = (g.2.map prePlace).map Place.id := by rw [List.map_map]; rfl
    rw [h4]
    exact mem_id_iff hids hp (fun q hq => by
      obtain ⟨x, hx, rfl⟩ := List.mem_map.mp hq
      exact (hpre r hr g hg).2 x hx)
  have hind : ∀ P : Prop, ind P ≠ 0 ↔ P := by
    intro P; unfold ind; split <;> simp_all
  have hind1 : ∀ P : Prop, P → ind P = 1 := by
    intro P h; unfold ind; rw [if_pos h]
  have harcsS : ∀ r ∈ plan, ∀ g ∈ r.groups, ∀ t ∈ s.net.transitions, t.view = silentView r.cls r.post g →
      SilentArcs s.net t r.cls ((g.2.map Prod.fst).toFinset) := by
    intro r hr g hg t ht he
    have e1 : t.incoming.map Arc.place = [r.post] := congrArg View.ins he
    have e2 : t.outgoing.map Arc.place = g.2.map Prod.snd := congrArg View.outs he
    refine ⟨congrArg View.name he, ?_, ?_, ?_, ?_, ?_⟩
    · intro p hp
      rw [hplaces] at hp
      unfold arcsInto
      rw [e1, count_ind (by simp)]
      refine ind_congr ?_
      rw [List.mem_singleton]
      constructor
      · intro h
        rw [List.inj_on_of_nodup_map hids hp ((mem_places _).mpr (Or.inl ⟨r, hr, rfl⟩)) (h : p.id = r.postPlace.id)]; rfl
      · intro h; rw [post_unique hcls hr hp h]; rfl
    · rw [List.toFinset_card_of_nodup (nodup_of_sorted ((hgood r hr).sorted g hg)), List.length_map]
      have := congrArg List.length e2
      rwa [List.length_map, List.length_map] at this
    · intro c hc
      obtain ⟨q, hq, rfl⟩ := List.mem_map.mp (List.mem_toFinset.mp hc)
      refine ⟨prePlace q, by rw [hplaces]; exact (hpre r hr g hg).2 q hq, rfl, ?_⟩
      rw [hout r hr g hg t he _ ((hpre r hr g hg).2 q hq)]
      exact hind1 _ (List.mem_map_of_mem hq)
    · intro p hp hne
      rw [hplaces] at hp
      rw [hout r hr g hg t he p hp, hind] at hne
      obtain ⟨q, hq, rfl⟩ := List.mem_map.mp hne
      exact ⟨q.1, List.mem_toFinset.mpr (List.mem_map_of_mem hq), rfl⟩
    · intro p hp hne u hu hus hune
      rw [hplaces] at hp
      obtain ⟨r', hr', h⟩ := List.mem_flatMap.mp (hsview u hu hus)
      obtain ⟨g', hg', he'⟩ := List.mem_map.mp h
      rw [hout r hr g hg t he p hp, hind] at hne
      rw [hout r' hr' g' hg' u he'.symm p hp, hind] at hune
      have hrr : r = r' := flatMap_owner Step.places plan hnp hr hr'
        (List.mem_cons.mpr (Or.inr (List.mem_flatMap.mpr ⟨g, hg, hne⟩)))
        (List.mem_cons.mpr (Or.inr (List.mem_flatMap.mpr ⟨g', hg', hune⟩)))
      subst hrr
      have h3 := (List.nodup_cons.mp (step_places_nodup hids hr)).2
      have hgg : g = g' := flatMap_owner _ r.groups h3 hg hg' hne hune
      subst hgg
      refine trans_of_view hfs hu ht ?_
      have h5 : u.view = t.view := he'.symm.trans he.symm
      exact congrArg View.id h5
  -- together
  have hfilter : (s.net.transitions.filter Trans.silent).map Trans.view = plan.flatMap Step.silents := by
    have h3 : (s.net.transitions.filter Trans.silent).map Trans.view = s.views.filter View.silent := by
      unfold Building.views; rw [List.filter_map]; rfl
    rw [h3, hsv, List.filter_append, List.filter_eq_nil_iff.mpr, List.filter_eq_self.mpr, List.nil_append]
    · intro w hw; exact (hsilent w hw).2
    · intro w hw
      obtain ⟨v, hvs, rfl⟩ := List.mem_map.mp hw
      simp only [Function.comp_apply, (growAll_name plan v).2.2, (hst v hvs).1]
      simp
  refine ⟨s, (silentIndex plan).map labelOf, hdisc, hwf, drawn_of_fresh hfs, hsin.trans hin, hsfi.trans hfi, ⟨?_, ?_⟩, ?_, hclass,
    labels_nodup hgood hcls, mem_labels hgood hall, ?_⟩
  · intro a; rw [hplaces]; exact posts_count hcls hall hids a
  · intro p hp
    rw [hplaces] at hp
    rcases (mem_places p).mp hp with ⟨r, hr, rfl⟩ | ⟨r, hr, g, hg, q, hq, rfl⟩
    · exact Or.inl ⟨r.cls, rfl⟩
    · refine Or.inr ⟨⟨q.1, rfl⟩, ?_⟩
      have hw : silentView r.cls r.post g ∈ plan.flatMap Step.silents := List.mem_flatMap.mpr ⟨r, hr, List.mem_map_of_mem hg⟩
      rw [← hfilter] at hw
      obtain ⟨t, ht, he⟩ := List.mem_map.mp hw
      obtain ⟨ht, hts⟩ := List.mem_filter.mp ht
      refine ⟨t, ht, hts, ?_⟩
      rw [hout r hr g hg t he _ hp]
      exact hind1 _ (List.mem_map_of_mem hq)
  · have h3 : (s.net.transitions.filter (fun t => !t.silent)).map Trans.name = (s.views.filter (fun v => !v.silent)).map View.name := by
      unfold Building.views; rw [List.filter_map, List.map_map]; rfl
    rw [h3, hsv, List.filter_append, List.filter_eq_self.mpr, List.filter_eq_nil_iff.mpr, List.append_nil, List.map_map]
    · refine List.Perm.trans (List.Perm.of_eq ?_) hnm
      refine List.map_congr_left (fun v _ => ?_)
      exact (growAll_name plan v).1
    · intro w hw; simp [(hsilent w hw).2]
    · intro w hw
      obtain ⟨v, hvs, rfl⟩ := List.mem_map.mp hw
      simp only [Function.comp_apply, (growAll_name plan v).2.2, (hst v hvs).1]
      simp
  · rw [List.forall₂_map_right_iff]
    rw [silents_index] at hfilter
    have h3 : List.Forall₂ (fun t v => t.view = v ∧ t ∈ s.net.transitions) (s.net.transitions.filter Trans.silent)
        ((s.net.transitions.filter Trans.silent).map Trans.view) := by
      rw [List.forall₂_map_right_iff]
      have : ∀ l : List Trans, (∀ t ∈ l, t ∈ s.net.transitions) →
          List.Forall₂ (fun t c => t.view = c.view ∧ t ∈ s.net.transitions) l l := by
        intro l
        induction l with
        | nil => intro _; exact List.Forall₂.nil
        | cons t l ih => intro h; exact List.Forall₂.cons ⟨rfl, h t (by simp)⟩ (ih (fun x hx => h x (by simp [hx])))
      exact this _ (fun t ht => (List.mem_filter.mp ht).1)
    rw [hfilter, List.forall₂_map_right_iff] at h3
    have hmem : ∀ x ∈ silentIndex plan, x.1 ∈ plan ∧ x.2 ∈ x.1.groups := by
      intro x hx
      obtain ⟨r, hr, hx⟩ := List.mem_flatMap.mp hx
      obtain ⟨g, hg, rfl⟩ := List.mem_map.mp hx
      exact ⟨hr, hg⟩
    have h4 : ∀ (ts : List Trans) (xs : List (Step × Nat × List (String × Nat))),
        List.Forall₂ (fun t x => t.view = silentView x.1.cls x.1.post x.2 ∧ t ∈ s.net.transitions) ts xs →
        (∀ x ∈ xs, x.1 ∈ plan ∧ x.2 ∈ x.1.groups) →
        List.Forall₂ (fun t x => SilentArcs s.net t (labelOf x).1 (labelOf x).2) ts xs := by
      intro ts xs h
      induction h with
      | nil => intro _; exact List.Forall₂.nil
      | cons hx _ ih =>
        intro hm
        exact List.Forall₂.cons (harcsS _ (hm _ (by simp)).1 _ (hm _ (by simp)).2 _ hx.2 hx.1) (ih (fun x hx => hm x (by simp [hx])))
    exact h4 _ _ h3 hmem

/-- The hypotheses hold for the log with three parallel classes, whose net has one silent transition. -/
example : TellsApart exHash (namesOf exParallel).flatten.dedup ∧ (namesOf exParallel).flatten.dedup.length < 6 ∧
    (∀ t ∈ exParallel, 2 ≤ t.length) ∧
    (∀ a ∈ (namesOf exParallel).flatten, ∀ c ∈ (namesOf exParallel).flatten, c ≠ "silent_start_" ++ a) ∧
    (discoverHeuristic .plain exHash exThresholds 6 0 exParallel).map (fun s => s.net.places.map (fun p => (p.id, p.name))) =
      some [(5, "post_a"), (9, "pre_b"), (12, "pre_c"), (15, "pre_d"), (18, "post_b"), (21, "post_c"), (24, "post_d")] ∧
    (discoverHeuristic .plain exHash exThresholds 6 0 exParallel).map (fun s => s.net.transitions.map (fun t =>
      (t.name, t.incoming.map Arc.place, t.outgoing.map Arc.place))) =
      some [("a", [], [5]), ("b", [9], [18]), ("c", [12], [21]), ("d", [15], [24]), ("e", [18, 21, 24], []),
        ("silent_start_a", [5], [9, 12, 15])] := by
  refine ⟨exHash_apart _, by decide +kernel, by decide +kernel, by decide +kernel, by decide +kernel, by decide +kernel⟩

theorem fires_count {net : Net} {a c : String} {p : Nat}
    (hg : ∀ t ∈ net.transitions, gives t p ≤ if t.silent = false ∧ t.name = a then 1 else 0)
    (hn : ∀ t ∈ net.transitions, t.silent = false → t.name = c → 1 ≤ needs t p) {ts : List Trans} {m m' : Tokens} (h : Fires net m ts m') :
    ∀ k, ((visible ts).take k).count c ≤ m p + ((visible ts).take k).count a := by
  induction h with
  | nil => intro k; simp [visible]
  | @cons m m' t ts ht he hr ih =>
    intro k
    have h1 := hg t ht
    have h2 := hn t ht
    have h3 := he p
    have ha : after m t p = m p - needs t p + gives t p := rfl
    by_cases hs : t.silent = true
    · have hv : visible (t :: ts) = visible ts := by simp [visible, hs]
      rw [hv]
      have := ih k
      rw [if_neg (by simp [hs])] at h1
      omega
    · have hs : t.silent = false := by simpa using hs
      have hv : visible (t :: ts) = t.name :: visible ts := by simp [visible, hs]
      rw [hv]
      cases k with
      | zero => simp
      | succ k =>
        have := ih k
        rw [List.take_succ_cons, List.count_cons, List.count_cons]
        simp only [beq_iff_eq]
        simp only [hs, true_and] at h1
        split_ifs at h1 ⊢ <;> first | omega | (have := h2 hs (by assumption); omega)

/-- C122a: a class waits for all classes it depends on, also where they exclude each other in the log: in every trace that the net with
the marking of the next part can replay, a class that depends on another one and is not parallel to another follower of it never
has come more often than the other one. Missing: logs with loops of length two, for which see C122c, hashes that do not tell apart sets
of names, and classes named like silent transitions. -/
theorem C122_waits_for_all_partial (it : Iter) (hash : List String → Nat) (th : Thresholds) (next : Nat) (log : List (List E))
    (hh : TellsApart hash (namesOf log).flatten.dedup) (fuel : Nat) (hf : (namesOf log).flatten.dedup.length < fuel)
    (hlen : ∀ t ∈ log, 2 ≤ t.length) (hname : ∀ a ∈ (namesOf log).flatten, ∀ c ∈ (namesOf log).flatten, c ≠ "silent_start_" ++ a)
    (hloops : ∀ x ∈ (namesOf log).flatten, ∀ y ∈ (namesOf log).flatten, x ≠ y → ¬ TwoLoop th (namesOf log) x y) :
    ∃ s s' initial, discoverHeuristic it hash th fuel next log = some s ∧ ensureMarking it log s = some s' ∧ s'.net.initial = some initial ∧
      ∀ a c, Depends th (namesOf log) a c → (∀ b, Depends th (namesOf log) a b → b ≠ c → ¬ ParallelAfter th (namesOf log) a b c) →
        ∀ w, Replayable s'.net (tokensOf initial) w → ∀ k, (w.take k).count c ≤ (w.take k).count a := by
  obtain ⟨s, labels, h1, hw, hd, _, _, hpl, hperm, hcl, _, _, hsil⟩ := C121_net_partial it hash th next log hh fuel hf hlen hname
  have hnil : [] ∉ log := fun h => by have := hlen _ h; simp at this
  obtain ⟨s', st, en, pick, e, hw', _, hp', hi, _, hpick, hnone, hts⟩ := (C118_ensure_marking_partial it log s hw hd).2 hnil
  refine ⟨s, s', _, h1, e, hi, ?_⟩
  rintro a c hac halone w ⟨ts, m', hfires, rfl⟩ k
  have hpost : "post_" ++ a ∈ s.net.places.map Place.name := by
    rw [← List.count_pos_iff, hpl.posts a]
    unfold ind; rw [if_pos ⟨c, hac⟩]; exact Nat.one_pos
  obtain ⟨p0, hp0, hpn⟩ := List.mem_map.mp hpost
  have hids : (s'.net.places.map Place.id).Nodup := (List.nodup_append.mp (List.nodup_append.mp hw'.distinct).1).1
  rw [hp', List.map_append, List.nodup_append] at hids
  have hne : ∀ q ∈ [st, en], p0.id ≠ q := fun q hq => hids.2.2 _ (List.mem_map_of_mem hp0) q (by simpa using hq)
  obtain ⟨hl, hg⟩ := List.forall₂_iff_get.mp hts
  have hback : ∀ t' ∈ s'.net.transitions, ∃ t ∈ s.net.transitions, t'.name = t.name ∧ t'.silent = t.silent ∧
      gives t' p0.id = arcsOutOf t p0 ∧ arcsInto p0 t ≤ needs t' p0.id := by
    intro t' ht'
    obtain ⟨i, hk, rfl⟩ := List.getElem_of_mem ht'
    have hk' : i < s.net.transitions.length := by omega
    obtain ⟨_, g2, g3, g4, g5, g6, g7⟩ := hg i hk' hk
    rw [List.get_eq_getElem, List.get_eq_getElem] at g2 g3
    simp only [List.get_eq_getElem] at g4 g5 g6 g7
    refine ⟨_, List.getElem_mem hk', g2, g3, ?_, ?_⟩
    · unfold gives arcsOutOf
      by_cases h : ∃ c, IsLast (namesOf log) c ∧ pick c = some s.net.transitions[i]
      · rw [g6 h, List.count_append, List.count_eq_zero (l := [en]).mpr (by simpa using hne en (by simp)), Nat.add_zero]
      · rw [g7 h]
    · unfold needs arcsInto
      by_cases h : ∃ c, IsFirst (namesOf log) c ∧ pick c = some s.net.transitions[i]
      · rw [g4 h, List.count_append]; omega
      · rw [g5 h]
  have hpart : ∀ t ∈ s.net.transitions, t.silent = false → loopPartners th (namesOf log) t.name = ∅ := by
    intro t ht hts
    have hm : t.name ∈ (namesOf log).flatten := by
      rw [← List.mem_dedup, ← hperm.mem_iff]
      exact List.mem_map_of_mem (List.mem_filter.mpr ⟨ht, by simp [hts]⟩)
    unfold loopPartners
    classical
    refine Finset.filter_eq_empty_iff.mpr ?_
    rintro b hb ⟨hbc, h⟩
    exact hloops _ hm b (List.mem_toFinset.mp hb) (Ne.symm hbc) h
  have h0 : tokensOf [(st, 1)] p0.id = 0 := by simp [tokensOf, (hne st (by simp)).symm]
  have := fires_count (net := s'.net) (a := a) (c := c) (p := p0.id) ?_ ?_ hfires k
  · rwa [h0, Nat.zero_add] at this
  · intro t' ht'
    obtain ⟨t, ht, e1, e2, e3, _⟩ := hback t' ht'
    rw [e1, e2, e3]
    by_cases hs : t.silent = true
    · obtain ⟨i, hi, hti⟩ := List.getElem_of_mem (List.mem_filter.mpr ⟨ht, hs⟩ : t ∈ s.net.transitions.filter Trans.silent)
      obtain ⟨hl2, hg2⟩ := List.forall₂_iff_get.mp hsil
      have hsa := hg2 i hi (by omega)
      rw [List.get_eq_getElem, hti] at hsa
      have : arcsOutOf t p0 = 0 := by
        by_contra hc
        obtain ⟨x, _, hx⟩ := hsa.only p0 hp0 hc
        rw [hpn] at hx
        exact post_ne_pre _ _ hx
      omega
    · have hs : t.silent = false := by simpa using hs
      rw [(hcl t ht hs).outOf p0 hp0, hpart t ht hs, Finset.sum_empty, Nat.add_zero, hpn]
      by_cases hta : t.name = a
      · rw [if_pos ⟨hs, hta⟩]; unfold ind; split <;> omega
      · unfold ind; rw [if_neg (fun h => hta (append_inj_right' _ _ _ h).symm)]; omega
  · intro t' ht' hs hc
    obtain ⟨t, ht, e1, e2, _, e4⟩ := hback t' ht'
    rw [e2] at hs
    rw [e1] at hc
    refine le_trans ?_ e4
    rw [(hcl t ht hs).into p0 hp0, hpart t ht hs, Finset.sum_empty, Nat.add_zero]
    have htake : TakesFrom th (namesOf log) p0 t.name := by
      rw [hc]; exact Or.inr ⟨a, hpn, hac, halone⟩
    unfold ind
    rw [if_pos htake]

/-- A log in which a class comes either after one class or after another one. -/
def exJoin : List (List String) := [["a", "c"], ["a", "c"], ["b", "c"], ["b", "c"]]

/-- The hypotheses hold for this log, with the default thresholds. -/
example : TellsApart exHash (namesOf exJoin).flatten.dedup ∧ (namesOf exJoin).flatten.dedup.length < 6 ∧ (∀ t ∈ exJoin, 2 ≤ t.length) ∧
    (∀ a ∈ (namesOf exJoin).flatten, ∀ c ∈ (namesOf exJoin).flatten, c ≠ "silent_start_" ++ a) ∧
    (∀ x ∈ (namesOf exJoin).flatten, ∀ y ∈ (namesOf exJoin).flatten, x ≠ y → ¬ TwoLoop defaultThresholds (namesOf exJoin) x y) ∧
    dependsOn .plain defaultThresholds (createInfo .plain exJoin) "a" "c" = true ∧
    dependsOn .plain defaultThresholds (createInfo .plain exJoin) "b" "c" = true := by
  refine ⟨exHash_apart _, by decide +kernel, by decide +kernel, by decide +kernel, ?_, by decide +kernel, by decide +kernel⟩
  intro x hx y hy hxy
  rw [← (C119_two_loop defaultThresholds (namesOf exJoin) [] (by decide +kernel) x y).1]
  simp [isTwoLoop, defaultThresholds]

/-- C122b: so there is a log, here with the default thresholds, none of whose traces the net discovered from it can replay, although
the log has no noise, loops or parallel classes. -/
theorem C122_join_unfit (it : Iter) (next : Nat) :
    ∃ s s' initial, discoverHeuristic it exHash defaultThresholds 6 next exJoin = some s ∧ ensureMarking it exJoin s = some s' ∧
      s'.net.initial = some initial ∧ ∀ w ∈ exJoin, ¬ Replayable s'.net (tokensOf initial) w := by
  have hl : ∀ x ∈ (namesOf exJoin).flatten, ∀ y ∈ (namesOf exJoin).flatten, x ≠ y → ¬ TwoLoop defaultThresholds (namesOf exJoin) x y := by
    intro x hx y hy hxy
    rw [← (C119_two_loop defaultThresholds (namesOf exJoin) [] (by decide +kernel) x y).1]
    simp [isTwoLoop, defaultThresholds]
  obtain ⟨s, s', initial, h1, h2, h3, h4⟩ := C122_waits_for_all_partial it exHash defaultThresholds next exJoin (exHash_apart _) 6 (by decide +kernel)
    (by decide +kernel) (by decide +kernel) hl
  refine ⟨s, s', initial, h1, h2, h3, fun w hw hr => ?_⟩
  have hac : Depends defaultThresholds (namesOf exJoin) "a" "c" := (C119_dependency .plain _ exJoin _ _).mp (by decide +kernel)
  have hbc : Depends defaultThresholds (namesOf exJoin) "b" "c" := (C119_dependency .plain _ exJoin _ _).mp (by decide +kernel)
  have hcand : ∀ x b, Depends defaultThresholds (namesOf exJoin) x b → b ≠ "c" → False := by
    intro x b h hb
    have hm : b ∈ ["a", "b", "c"] := by
      have : b ∈ (namesOf exJoin).flatten := h.1.2.1
      simp only [namesOf, exJoin, name, HasName.name, List.map_cons, List.map_nil, List.flatten_cons, List.flatten_nil, List.append_nil,
        List.cons_append, List.nil_append, List.mem_cons, List.not_mem_nil, or_false] at this ⊢
      rcases this with h | h | h | h | h | h | h | h <;> simp [h]
    have hx : x ∈ ["a", "b", "c"] := by
      have : x ∈ (namesOf exJoin).flatten := h.1.1
      simp only [namesOf, exJoin, name, HasName.name, List.map_cons, List.map_nil, List.flatten_cons, List.flatten_nil, List.append_nil,
        List.cons_append, List.nil_append, List.mem_cons, List.not_mem_nil, or_false] at this ⊢
      rcases this with h | h | h | h | h | h | h | h <;> simp [h]
    rw [← C119_dependency .plain] at h
    fin_cases hx <;> fin_cases hm <;> first | exact hb rfl | exact absurd h (by decide +kernel)
  have ka := h4 "a" "c" hac (fun b hb hne => (hcand _ _ hb hne).elim) w hr 2
  have kb := h4 "b" "c" hbc (fun b hb hne => (hcand _ _ hb hne).elim) w hr 2
  simp only [exJoin, List.mem_cons, List.not_mem_nil, or_false] at hw
  rcases hw with rfl | rfl | rfl | rfl
  · exact absurd kb (by decide)
  · exact absurd kb (by decide)
  · exact absurd ka (by decide)
  · exact absurd ka (by decide)

/-- A log with two loops of length two that share a class. -/
def exTwoLoops : List (List String) := List.replicate 8 ["b", "a"] ++ [["b", "a", "b", "a"], ["c", "a", "c"], ["c", "a", "c"]]

/-- Whether a computation panicked. -/
def isPanic {α : Type} : Except Stop α → Bool
  | .error .panic => true
  | _ => false

theorem isPanic_iff {α : Type} {x : Except Stop α} (h : isPanic x = true) : x = .error .panic := by
  unfold isPanic at h
  split at h
  · rfl
  · cases h

/-- C122c: for loops of length two the miner adds a second arc between the same place and transition, for which the replay is not
made: there is a log, here with the default thresholds, on which the replay of the log on its own net panics. -/
theorem C122_two_loops_panic :
    (discoverHeuristic .plain exHash defaultThresholds 6 0 exTwoLoops).map (fun s => s.net.transitions.map (fun t =>
      (t.name, t.incoming.map Arc.place, t.outgoing.map Arc.place))) =
      some [("b", [], [3, 3]), ("a", [3, 3], []), ("c", [], [3])] ∧
    ∃ s, (discoverHeuristic .plain exHash defaultThresholds 6 0 exTwoLoops).bind (ensureMarking .plain exTwoLoops) = some s ∧
      ¬ SingleArcs s.net ∧ annotateCounts .plain s.net 1000 false exTwoLoops = .error .panic := by
  refine ⟨by decide +kernel, ?_⟩
  have h : ((discoverHeuristic .plain exHash defaultThresholds 6 0 exTwoLoops).bind (ensureMarking .plain exTwoLoops)).map (fun s =>
      (s.net.transitions.all (fun t => decide (t.incoming.map Arc.place).Nodup), isPanic (annotateCounts .plain s.net 1000 false exTwoLoops))) =
      some (false, true) := by decide +kernel
  obtain ⟨s, hs, he⟩ := Option.map_eq_some_iff.mp h
  obtain ⟨h1, h2⟩ := Prod.mk.injEq .. ▸ he
  refine ⟨s, hs, fun hc => ?_, isPanic_iff h2⟩
  rw [List.all_eq_true.mpr (fun t ht => decide_eq_true (hc t ht))] at h1
  cases h1

end Ficus.Rs
