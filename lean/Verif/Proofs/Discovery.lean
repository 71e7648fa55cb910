import Verif.Spec.Discovery
import Verif.Props.Repeats
import Verif.Props.RepeatSets
import Verif.Props.Forest
import Verif.Props.Extract
import Verif.Props.Tandem
import Mathlib.Data.List.NodupEquivFin

/-! Lemmas for the discovery of activities as a whole. -/

namespace Ficus
open Spec
variable {E : Type}

mutual
theorem acts_below_root (t : ActTree) (h : ∀ p c, (p, c) ∈ links t → ∀ e ∈ c.events, e ∈ p.events) :
    ∀ a ∈ acts t, ∀ e ∈ a.events, e ∈ t.events := by
  match t, h with
  | .node a cs, h =>
    intro b hb e he
    simp only [acts, List.mem_cons] at hb
    rcases hb with rfl | hb
    · exact he
    · obtain ⟨c, hc, hce⟩ := actsL_below_root cs (fun p c hpc => h p c (by simp [links, hpc])) b hb
      exact h a c.act (by simp only [links, List.mem_append, List.mem_map]; exact .inl ⟨c, hc, rfl⟩) e (hce e he)
theorem actsL_below_root (f : List ActTree) (h : ∀ p c, (p, c) ∈ linksL f → ∀ e ∈ c.events, e ∈ p.events) :
    ∀ a ∈ actsL f, ∃ t ∈ f, ∀ e ∈ a.events, e ∈ t.events := by
  match f, h with
  | [], _ => intro a ha; simp [actsL] at ha
  | t :: ts, h =>
    intro a ha
    simp only [actsL, List.mem_append] at ha
    rcases ha with ha | ha
    · exact ⟨t, by simp, acts_below_root t (fun p c hpc => h p c (by simp [linksL, hpc])) a ha⟩
    · obtain ⟨u, hu, h'⟩ := actsL_below_root ts (fun p c hpc => h p c (by simp [linksL, hpc])) a ha
      exact ⟨u, by simp [hu], h'⟩
end

/-- Which sets of classes are inside of one activity of a forest. -/
theorem forest_known (log : Log E) (rs : List RepeatSet) (nameOf : RepeatSet → String) (level : Nat) (ext : E → String)
    (uid : Nat) (forest : List ActTree) (h : buildRepeatSetTree log rs nameOf level ext uid = .ok forest) (es : List Int) :
    Known (forest.map ActTree.events) es ↔
      ∃ r ∈ rs, ∀ e ∈ es, ∃ w ∈ coveredBy (wordsOf ext log) r, stringHash w = e := by
  obtain ⟨hp, _, hall⟩ := C28_each_repeat_set_once log rs nameOf level ext uid forest h
  constructor
  · rintro ⟨s, hs, hse⟩
    obtain ⟨t, ht, rfl⟩ := List.mem_map.1 hs
    have hta : t.act ∈ actsL forest := mem_roots_actsL forest t.act (List.mem_map.2 ⟨t, ht, rfl⟩)
    refine ⟨t.act.repeatSet, hp.subset (List.mem_map.2 ⟨_, hta, rfl⟩), fun e he => ?_⟩
    exact ((hall _ hta).2.2.2 e).1 (hse e he)
  · rintro ⟨r, hr, hre⟩
    obtain ⟨a, ha, rfl⟩ := List.mem_map.1 (hp.symm.subset hr)
    obtain ⟨t, ht, hte⟩ := actsL_below_root forest
      (fun p c hpc => C28_children_contained log rs nameOf level ext uid forest h p c hpc) a ha
    refine ⟨t.events, List.mem_map.2 ⟨t, ht, rfl⟩, fun e he => hte e ?_⟩
    exact ((hall a ha).2.2.2 e).2 (hre e he)

theorem mem_indexedSubArrays (subs : List (List SubArray)) (x : RepeatSet) :
    x ∈ indexedSubArrays subs ↔ ∃ l, subs[x.traceIndex]? = some l ∧ (⟨x.firstPos, x.length⟩ : SubArray) ∈ l := by
  unfold indexedSubArrays
  simp only [List.mem_flatMap, List.mem_map]
  constructor
  · rintro ⟨⟨l, n⟩, hln, s, hs, rfl⟩
    exact ⟨l, List.mem_zipIdx_iff_getElem?.1 hln, hs⟩
  · rintro ⟨l, hl, hx⟩
    exact ⟨(l, x.traceIndex), List.mem_zipIdx_iff_getElem?.2 hl, _, hx, rfl⟩

/-- The words of the sub arrays that were found, per sequence, are the ones with a property. -/
def Described (Q : List String → List String → Prop) (ts : List (List String)) (ps : List (List SubArray)) : Prop :=
  List.Forall₂ (fun t subs => ∀ w, w ∈ words t subs ↔ Q t w) ts ps

theorem described_covered {Q : List String → List String → Prop} {ts : List (List String)} {ps : List (List SubArray)}
    (h : Described Q ts ps) (w : List String) :
    (∃ x ∈ indexedSubArrays ps, coveredBy ts x = w) ↔ ∃ t ∈ ts, Q t w := by
  unfold Described at h
  rw [List.forall₂_iff_get] at h
  obtain ⟨hlen, hq⟩ := h
  constructor
  · rintro ⟨x, hx, rfl⟩
    obtain ⟨l, hl, hm⟩ := (mem_indexedSubArrays ps x).1 hx
    obtain ⟨hn, rfl⟩ := List.getElem?_eq_some_iff.1 hl
    have hn' : x.traceIndex < ts.length := by omega
    refine ⟨ts[x.traceIndex], List.getElem_mem _, ?_⟩
    have := (hq x.traceIndex hn' hn (coveredBy ts x)).1 (by
      unfold words coveredBy
      refine List.mem_map.2 ⟨_, hm, ?_⟩
      simp [List.getElem?_eq_getElem hn'])
    simpa using this
  · rintro ⟨t, ht, hw⟩
    obtain ⟨n, hn, rfl⟩ := List.getElem_of_mem ht
    have hn' : n < ps.length := by omega
    have := (hq n hn hn' w).2 (by simpa using hw)
    obtain ⟨s, hs, he⟩ := List.mem_map.1 this
    refine ⟨⟨s.firstPos, s.length, n⟩, (mem_indexedSubArrays ps _).2 ⟨ps[n], by simp, by simpa using hs⟩, ?_⟩
    unfold coveredBy
    simpa [List.getElem?_eq_getElem hn] using he

/-- Every covered word is a factor of a sequence. -/
theorem coveredBy_factor {ts : List (List String)} {ps : List (List SubArray)} (hl : ps.length = ts.length) {x : RepeatSet}
    (hx : x ∈ indexedSubArrays ps) : ∃ t ∈ ts, coveredBy ts x = factor t x.firstPos x.length := by
  obtain ⟨l, hl', hm⟩ := (mem_indexedSubArrays ps x).1 hx
  obtain ⟨hn, rfl⟩ := List.getElem?_eq_some_iff.1 hl'
  have hn' : x.traceIndex < ts.length := by omega
  exact ⟨ts[x.traceIndex], List.getElem_mem _, by unfold coveredBy factor; simp [List.getElem?_eq_getElem hn']⟩

theorem coveredBy_mem_flatten {ts : List (List String)} {ps : List (List SubArray)} (hl : ps.length = ts.length)
    {x : RepeatSet} (hx : x ∈ indexedSubArrays ps) {e : String} (he : e ∈ coveredBy ts x) : e ∈ ts.flatten := by
  obtain ⟨t, ht, hc⟩ := coveredBy_factor hl hx
  rw [hc] at he
  exact List.mem_flatten.2 ⟨t, ht, List.mem_of_mem_drop (List.mem_of_mem_take he)⟩

theorem faithful_of_noCollisions {ts : List (List String)} (hn : NoCollisions ts) {ps : List (List SubArray)}
    (hl : ps.length = ts.length) : FaithfulSetHash ts (indexedSubArrays ps) := by
  intro x hx y hy he
  obtain ⟨u, hu, hcu⟩ := coveredBy_factor hl hx
  obtain ⟨v, hv, hcv⟩ := coveredBy_factor hl hy
  rw [hcu, hcv] at he ⊢
  exact hn.sets u hu v hv _ _ _ _ he

theorem wordsOf_length (ext : E → String) (log : Log E) : (wordsOf ext log).length = log.traces.length := by
  simp [wordsOf]

theorem wordsOf_evs (ext : E → String) (log : Log E) : wordsOf ext log = log.evs.map (·.map ext) := by
  simp [wordsOf, Log.evs]

/-- Which classes of the searched log are together in one activity: those that are letters of one of the described words. -/
theorem known_classes {Q : List String → List String → Prop} (log : Log E) (ext : E → String) (ps : List (List SubArray))
    (hd : Described Q (wordsOf ext log) ps) (hn : NoCollisions (wordsOf ext log)) (nameOf : RepeatSet → String)
    (level uid : Nat) (forest : List ActTree)
    (h : buildRepeatSetTree log (createRepeatSets log ps ext) nameOf level ext uid = .ok forest) (es : List String)
    (hes : ∀ e ∈ es, e ∈ (wordsOf ext log).flatten) :
    Known (forest.map ActTree.events) (es.map stringHash) ↔ ∃ w, (∃ t ∈ wordsOf ext log, Q t w) ∧ ∀ e ∈ es, e ∈ w := by
  have hlen : ps.length = (wordsOf ext log).length := (List.Forall₂.length_eq hd).symm
  have hle : ps.length ≤ log.traces.length := by rw [hlen, wordsOf_length]
  rw [forest_known log _ nameOf level ext uid forest h]
  constructor
  · rintro ⟨r, hr, hre⟩
    have hri := (C27_result_is_selection log ps ext hle).subset hr
    refine ⟨_, (described_covered hd _).1 ⟨r, hri, rfl⟩, fun e he => ?_⟩
    obtain ⟨x, hx, hxe⟩ := hre _ (List.mem_map_of_mem he)
    rw [← hn.classes x (coveredBy_mem_flatten hlen hri hx) e (hes e he) hxe]
    exact hx
  · rintro ⟨w, hw, hwe⟩
    obtain ⟨x, hx, rfl⟩ := (described_covered hd w).2 hw
    obtain ⟨y, hy, hs⟩ := C27_every_set_represented log ps ext hle (faithful_of_noCollisions hn hlen) x hx
    refine ⟨y, hy, fun e he => ?_⟩
    obtain ⟨c, hc, rfl⟩ := List.mem_map.1 he
    exact ⟨c, (hs c).2 (hwe c hc), rfl⟩

/-- The instances segment every trace according to the described words. -/
theorem segmentation_of_forest {P : List String → Prop} (log : Log E) (forest : List ActTree) (ext : E → String) (sn : Bool)
    (insts : List (List Instance)) (hx : extractActivities log forest ext (fun _ => true) sn = some insts)
    (hk : ∀ es : List String, (∀ e ∈ es, e ∈ (wordsOf ext log).flatten) →
      (Known (forest.map ActTree.events) (es.map stringHash) ↔ ∃ w, P w ∧ ∀ e ∈ es, e ∈ w)) :
    List.Forall₂ (fun trace is => Segmentation P (trace.map ext) (is.map span)) log.evs insts := by
  obtain ⟨r', h1, h2⟩ := C29_terminates log forest ext (fun _ => true) sn
  rw [hx] at h1
  obtain rfl := Option.some.inj h1
  rw [List.forall₂_iff_get]
  refine ⟨by simp [Log.evs, h2], ?_⟩
  intro n hn hn'
  have hnt : n < log.traces.length := by simpa [Log.evs] using hn
  have ht : log.traces[n]? = some log.traces[n] := List.getElem?_eq_getElem hnt
  have hg := C30_greedy_segmentation log forest ext sn insts hx n _ ht _ (List.getElem?_eq_getElem hn')
  have hev : log.evs.get ⟨n, hn⟩ = log.traces[n].events := by simp [Log.evs]
  rw [hev, List.get_eq_getElem]
  generalize insts[n] = is at hg
  have hmem : log.traces[n] ∈ log.traces := List.getElem_mem _
  generalize log.traces[n] = t at hg hmem
  have hcl : classHashes ext t.events = (t.events.map ext).map stringHash := by simp [classHashes]
  rw [hcl] at hg
  have hsub : ∀ e ∈ t.events.map ext, e ∈ (wordsOf ext log).flatten := fun e he =>
    List.mem_flatten.2 ⟨t.events.map ext, List.mem_map.2 ⟨t, hmem, rfl⟩, he⟩
  generalize t.events.map ext = v at hg hsub
  have hfac : ∀ i l, ((v.map stringHash).drop i).take l = (factor v i l).map stringHash := by
    intro i l; simp [factor, List.map_drop, List.map_take]
  have hfs : ∀ i l, ∀ e ∈ factor v i l, e ∈ (wordsOf ext log).flatten := fun i l e he =>
    hsub e (List.mem_of_mem_drop (List.mem_of_mem_take he))
  refine ⟨by simpa using hg.placed, ?_, ?_, ?_⟩
  · intro i e he
    rw [hg.cover i (stringHash e) (by rw [List.getElem?_map, he]; rfl)]
    have := hk [e] (by intro x hx; obtain rfl := List.mem_singleton.1 hx; exact hsub _ (List.mem_of_getElem? he))
    simpa using this
  · intro p hp
    have := hg.known p hp
    rw [hfac] at this
    exact (hk _ (hfs _ _)).1 this
  · intro p hp e he hw
    refine hg.maximal p hp (stringHash e) (by rw [List.getElem?_map, he]; rfl) ?_
    rw [hfac]
    have := (hk (factor v p.1 p.2 ++ [e]) (by
      intro x hx
      rcases List.mem_append.1 hx with hx | hx
      · exact hfs _ _ x hx
      · obtain rfl := List.mem_singleton.1 hx; exact hsub _ (List.mem_of_getElem? he))).2 hw
    simpa using this

/-! ### The patterns -/

theorem hashesDiffer_of_noCollisions {log : Log E} {ext : E → String} (hn : NoCollisions (wordsOf ext log)) :
    ∀ trace ∈ log.evs, HashesDiffer ext trace := by
  intro trace ht a ha b hb he
  rw [wordsOf_evs] at hn
  exact hn.classes _ (List.mem_flatten.2 ⟨_, List.mem_map.2 ⟨trace, ht, rfl⟩, List.mem_map_of_mem ha⟩)
    _ (List.mem_flatten.2 ⟨_, List.mem_map.2 ⟨trace, ht, rfl⟩, List.mem_map_of_mem hb⟩) he

theorem described_of_reports {K : List String → List String → Prop} {log : Log E} {ext : E → String}
    {ps : List (List SubArray)} (hd : ∀ trace ∈ log.evs, HashesDiffer ext trace)
    (h : List.Forall₂ (fun trace subs => HashesDiffer ext trace → Reports K (trace.map ext) subs) log.evs ps) :
    Described K (wordsOf ext log) ps := by
  unfold Described
  rw [wordsOf_evs, List.forall₂_map_left_iff]
  generalize log.evs = ts at hd h
  induction h with
  | nil => exact .nil
  | cons a _ ih =>
    exact .cons (fun w => (a (hd _ (by simp))).2.2 w) (ih (fun t ht => hd t (by simp [ht])))

theorem repeats_two_iff (t : List String) (i l k : Nat) (hk : 2 ≤ k) (h : Repeats t i l k) : Repeats t i l 2 :=
  Repeats_mono _ _ _ _ 2 hk h

theorem maximal_count_exists (t : List String) (i l : Nat) (hl : 0 < l) (k : Nat) (h : Repeats t i l k) :
    ∃ m, k ≤ m ∧ Repeats t i l m ∧ ¬ Repeats t i l (m + 1) := by
  have hbound : ∀ m, Repeats t i l m → m ≤ t.length := by
    intro m hm
    have h1 := hm.1
    have : m ≤ m * l := Nat.le_mul_of_pos_right m hl
    omega
  have : ∀ d m, k ≤ m → Repeats t i l m → t.length ≤ m + d →
      ∃ m, k ≤ m ∧ Repeats t i l m ∧ ¬ Repeats t i l (m + 1) := by
    intro d
    induction d with
    | zero => exact fun m h1 h2 h3 => ⟨m, h1, h2, fun h4 => by have := hbound _ h4; omega⟩
    | succ d ih =>
      intro m h1 h2 h3
      by_cases h4 : Repeats t i l (m + 1)
      · exact ih (m + 1) (by omega) h4 (by omega)
      · exact ⟨m, h1, h2, h4⟩
  exact this t.length k (le_refl _) h (by omega)

theorem described_of_tandems {log : Log E} {ext : E → String} (hn : NoCollisions (wordsOf ext log))
    (hb : ∀ t ∈ wordsOf ext log, FaithfulHash (t.map stringHash)) (n : Nat) (r : List (List Tandem))
    (h : findMaximalTandem log n ext = .ok r) :
    Described (PatternOf (.tandems .maximal n)) (wordsOf ext log) (r.map (·.map Tandem.sub)) := by
  have hlen : r.length = log.traces.length := by
    obtain ⟨r', h1, h2⟩ := C24_one_report_list_per_trace log n ext
    rw [h] at h1
    obtain rfl := Except.ok.inj h1
    exact h2
  unfold Described
  rw [List.forall₂_iff_get]
  refine ⟨by rw [wordsOf_length, List.length_map, hlen], ?_⟩
  intro k hk hk'
  have hkt : k < log.traces.length := by rw [← wordsOf_length ext]; exact hk
  have hkr : k < r.length := by omega
  have hget : (wordsOf ext log).get ⟨k, hk⟩ = log.traces[k].events.map ext := by simp [wordsOf]
  have hmem : log.traces[k].events.map ext ∈ wordsOf ext log := by rw [← hget]; exact List.get_mem _ _
  have hd : DistinctHashes (log.traces[k].events.map ext) := by
    intro x hx y hy
    exact hn.classes x (List.mem_flatten.2 ⟨_, hmem, hx⟩) y (List.mem_flatten.2 ⟨_, hmem, hy⟩)
  have hex := C25_reports_exactly_first_occurrences log n ext r h k _ (List.getElem?_eq_getElem hkt) hd (hb _ hmem) _
    (List.getElem?_eq_getElem hkr)
  rw [hget]
  simp only [List.get_eq_getElem, List.getElem_map]
  intro w
  constructor
  · intro hw
    simp only [words, List.map_map, List.mem_map, Function.comp_apply] at hw
    obtain ⟨a, ha, rfl⟩ := hw
    obtain ⟨h1, h2, h3, h4, _, h6⟩ := (hex a).1 ha
    exact ⟨a.firstPos, a.length, rfl, h1, h2, Repeats_mono _ _ _ _ 2 h3 h4, h6⟩
  · rintro ⟨i, l, rfl, h1, h2, h3, h4⟩
    obtain ⟨m, hm1, hm2, hm3⟩ := maximal_count_exists _ i l (by omega) 2 h3
    have := (hex ⟨i, l, m⟩).2 ⟨h1, h2, hm1, hm2, hm3, h4⟩
    simp only [words, List.map_map, List.mem_map, Function.comp_apply]
    exact ⟨_, this, rfl⟩

theorem described_of_primitive {log : Log E} {ext : E → String} (hn : NoCollisions (wordsOf ext log))
    (hb : ∀ t ∈ wordsOf ext log, FaithfulHash (t.map stringHash)) (n : Nat) (p : List (List Tandem))
    (h' : findPrimitiveTandem log n ext = .ok p) :
    Described (PatternOf (.tandems .primitive n)) (wordsOf ext log) (p.map (·.map Tandem.sub)) := by
  obtain ⟨r, p', h, hp, hsub⟩ := C24_primitive_reports_are_maximal_reports log n ext
  rw [h'] at hp
  obtain rfl := Except.ok.inj hp
  have hlen : r.length = log.traces.length := by
    obtain ⟨r', h1, h2⟩ := C24_one_report_list_per_trace log n ext
    rw [h] at h1
    obtain rfl := Except.ok.inj h1
    exact h2
  have hplen : p.length = r.length := hsub.length_eq
  unfold Described
  rw [List.forall₂_iff_get]
  refine ⟨by rw [wordsOf_length, List.length_map, hplen, hlen], ?_⟩
  intro k hk hk'
  have hkt : k < log.traces.length := by rw [← wordsOf_length ext]; exact hk
  have hkr : k < r.length := by omega
  have hkp : k < p.length := by omega
  have hget : (wordsOf ext log).get ⟨k, hk⟩ = log.traces[k].events.map ext := by simp [wordsOf]
  have hmem : log.traces[k].events.map ext ∈ wordsOf ext log := by rw [← hget]; exact List.get_mem _ _
  have hd : DistinctHashes (log.traces[k].events.map ext) := by
    intro x hx y hy
    exact hn.classes x (List.mem_flatten.2 ⟨_, hmem, hx⟩) y (List.mem_flatten.2 ⟨_, hmem, hy⟩)
  have hex := C25_reports_exactly_first_occurrences log n ext r h k _ (List.getElem?_eq_getElem hkt) hd (hb _ hmem) _
    (List.getElem?_eq_getElem hkr)
  have hpr := C26_primitive_reports_exactly log n ext r p h h' k _ (List.getElem?_eq_getElem hkt) hd _ _
    (List.getElem?_eq_getElem hkr) (List.getElem?_eq_getElem hkp)
  rw [hget]
  simp only [List.get_eq_getElem, List.getElem_map]
  intro w
  constructor
  · intro hw
    simp only [words, List.map_map, List.mem_map, Function.comp_apply] at hw
    obtain ⟨a, ha, rfl⟩ := hw
    obtain ⟨ha', hq⟩ := (hpr a).1 ha
    obtain ⟨h1, h2, h3, h4, _, h6⟩ := (hex a).1 ha'
    exact ⟨a.firstPos, a.length, rfl, h1, h2, Repeats_mono _ _ _ _ 2 h3 h4, h6, hq⟩
  · rintro ⟨i, l, rfl, h1, h2, h3, h4, h5⟩
    obtain ⟨m, hm1, hm2, hm3⟩ := maximal_count_exists _ i l (by omega) 2 h3
    have := (hpr ⟨i, l, m⟩).2 ⟨(hex ⟨i, l, m⟩).2 ⟨h1, h2, hm1, hm2, hm3, h4⟩, h5⟩
    simp only [words, List.map_map, List.mem_map, Function.comp_apply]
    exact ⟨_, this, rfl⟩

/-- The search never raises and finds exactly the patterns. -/
theorem findPatterns_described {lib : TreeLib} (hl : LawfulTrees lib) (source : PatternsSource) (ext : E → String)
    (log : Log E) (hn : NoCollisions (wordsOf ext log)) (hb : BlocksDiffer source (wordsOf ext log)) :
    ∃ ps, findPatterns lib source ext log = .ok ps ∧ Described (PatternOf source) (wordsOf ext log) ps := by
  have hd := hashesDiffer_of_noCollisions hn
  match source, hb with
  | .repeats .maximal, _ => exact ⟨_, rfl, described_of_reports hd (C82_classes hl ext log)⟩
  | .repeats .superMaximal, _ =>
    refine ⟨_, rfl, described_of_reports hd ?_⟩
    refine (C83_hashes hl ext log).imp (fun _ _ hr hd => ?_)
    exact (reports_classes hd).2.1 hr
  | .repeats .nearSuperMaximal, _ =>
    obtain ⟨out, h1, h2⟩ := C84_classes hl ext log
    exact ⟨out, h1, described_of_reports hd h2⟩
  | .tandems .maximal n, hb =>
    obtain ⟨r, h1, _⟩ := C24_one_report_list_per_trace log n ext
    exact ⟨_, by simp only [findPatterns, h1]; rfl, described_of_tandems hn hb n r h1⟩
  | .tandems .primitive n, hb =>
    obtain ⟨_, p, _, h1, _⟩ := C24_primitive_reports_are_maximal_reports log n ext
    exact ⟨_, by simp only [findPatterns, h1]; rfl, described_of_primitive hn hb n p h1⟩

/-! ### Repeats of the three kinds -/

theorem IsRepeat.super {t : List String} : ∀ (n : Nat) (w : List String), t.length - w.length ≤ n → IsRepeat t w →
    ∃ w', SuperMaximal t w' ∧ w <:+: w' := by
  intro n
  induction n with
  | zero =>
    intro w hn hw
    refine ⟨w, superMaximal_iff.2 ⟨hw, fun w' hw' hin => ?_⟩, List.infix_rfl⟩
    obtain ⟨_, i, j, hij, hi, hj⟩ := hw'
    have h1 := hi.le
    have h2 := hj.le
    have := hin.length_le
    exact (hin.eq_of_length (by omega)).symm
  | succ n ih =>
    intro w hn hw
    by_cases hs : ∃ w', IsRepeat t w' ∧ w <:+: w' ∧ w' ≠ w
    · obtain ⟨w', hw', hin, hne⟩ := hs
      have hlt : w.length < w'.length := by
        rcases Nat.lt_or_ge w.length w'.length with h | h
        · exact h
        · exact absurd (hin.eq_of_length (by have := hin.length_le; omega)).symm hne
      obtain ⟨w'', h1, h2⟩ := ih w' (by omega) hw'
      exact ⟨w'', h1, hin.trans h2⟩
    · refine ⟨w, superMaximal_iff.2 ⟨hw, fun w' hw' hin => ?_⟩, List.infix_rfl⟩
      by_contra hne
      exact hs ⟨w', hw', hin, hne⟩

/-- Letters that are together in a repeated word are together in a pattern of every kind of repeats, and conversely. -/
theorem letters_of_kind (kind : RepeatKind) (ts : List (List String)) (es : List String) :
    (∃ w, PatternIn (.repeats kind) ts w ∧ ∀ e ∈ es, e ∈ w) ↔ ∃ w, RepeatIn ts w ∧ ∀ e ∈ es, e ∈ w := by
  constructor
  · rintro ⟨w, ⟨t, ht, hw⟩, hes⟩
    refine ⟨w, ⟨t, ht, ?_⟩, hes⟩
    cases kind with
    | maximal => exact MaximalRepeat.isRepeat hw
    | superMaximal => exact MaximalRepeat.isRepeat hw.1
    | nearSuperMaximal => exact MaximalRepeat.isRepeat hw.1
  · rintro ⟨w, ⟨t, ht, hw⟩, hes⟩
    obtain ⟨w', hs, hin⟩ := IsRepeat.super _ w (le_refl _) hw
    refine ⟨w', ⟨t, ht, ?_⟩, fun e he => hin.subset (hes e he)⟩
    cases kind with
    | maximal => exact hs.1
    | superMaximal => exact hs
    | nearSuperMaximal => exact hs.near

theorem isRepeat_letter {t w : List String} (h : IsRepeat t w) {x : String} (hx : x ∈ w) : 2 ≤ t.count x := by
  obtain ⟨_, i, j, hij, hi, hj⟩ := h
  obtain ⟨k, hk, rfl⟩ := List.getElem_of_mem hx
  have hg : ∀ {i}, OccursAt w t i → t[i + k]? = some w[k] := by
    rintro i ⟨pre, post, rfl, rfl⟩
    rw [List.append_assoc, List.getElem?_append_right (by omega), Nat.add_sub_cancel_left,
      List.getElem?_append_left hk, List.getElem?_eq_getElem hk]
  have hi' := hg hi
  have hj' := hg hj
  obtain ⟨h1, e1⟩ := List.getElem?_eq_some_iff.1 hi'
  obtain ⟨h2, e2⟩ := List.getElem?_eq_some_iff.1 hj'
  rw [← List.duplicate_iff_two_le_count]
  rcases Nat.lt_or_gt_of_ne hij with h | h
  · exact List.duplicate_iff_exists_distinct_get.2 ⟨⟨i + k, h1⟩, ⟨j + k, h2⟩, by simpa using h, by simp [e1], by simp [e2]⟩
  · exact List.duplicate_iff_exists_distinct_get.2 ⟨⟨j + k, h2⟩, ⟨i + k, h1⟩, by simpa using h, by simp [e2], by simp [e1]⟩

theorem isRepeat_of_count {t : List String} {x : String} (h : 2 ≤ t.count x) : IsRepeat t [x] := by
  rw [← List.duplicate_iff_two_le_count, List.duplicate_iff_exists_distinct_get] at h
  obtain ⟨n, m, hnm, h1, h2⟩ := h
  have hg : ∀ n : Fin t.length, x = t.get n → OccursAt [x] t n := by
    intro n hn
    refine occursAt_iff.2 ⟨by simp; omega, ?_⟩
    rw [List.length_singleton, List.take_one, List.head?_drop, List.getElem?_eq_getElem n.2]
    simp [hn]
  exact ⟨by simp, n, m, by have : (n : Nat) < m := hnm; omega, hg n h1, hg m h2⟩

/-- The letters of repeated words are the classes that occur twice in one sequence. -/
theorem letter_of_repeat (ts : List (List String)) (x : String) :
    (∃ w, RepeatIn ts w ∧ x ∈ w) ↔ ∃ t ∈ ts, 2 ≤ t.count x := by
  constructor
  · rintro ⟨w, ⟨t, ht, hw⟩, hx⟩
    exact ⟨t, ht, isRepeat_letter hw hx⟩
  · rintro ⟨t, ht, hc⟩
    exact ⟨[x], ⟨t, ht, isRepeat_of_count hc⟩, by simp⟩

theorem segmentation_unique {P : List String → Prop} {t : List String} {l m : List (Nat × Nat)} (hl : Segmentation P t l)
    (hm : Segmentation P t m) : l = m := by
  refine greedy_unique_aux (fun es => ∃ w, P w ∧ ∀ e ∈ es, e ∈ w)
    (fun _ _ hs ⟨w, hw, hv⟩ => ⟨w, hw, fun e he => hv e (hs e he)⟩) t 0 l m hl.placed hm.placed
    (fun _ _ => Nat.zero_le _) (fun _ _ => Nat.zero_le _) ?_ ?_ hl.together hm.together hl.maximal hm.maximal
  · intro i e _ he
    simpa using hl.cover i e he
  · intro i e _ he
    simpa using hm.cover i e he

theorem mergeLoop_classes {A : Type} (sep : Nat → E) (f : E → A) (n : Nat) (ts : List (List E)) :
    ∀ x ∈ ts.flatten.map f, x ∈ (mergeLoop sep n ts).map f := by
  induction ts generalizing n with
  | nil => simp
  | cons t ts ih =>
    intro x hx
    simp only [List.flatten_cons, List.map_append, List.mem_append] at hx
    simp only [mergeLoop, List.map_append, List.mem_append]
    rcases hx with hx | hx
    · exact .inl (.inl hx)
    · exact .inr (ih (n + 1) x hx)

theorem mergeLoop_class_count (sep : Nat → E) (ext : E → String) (n : Nat) (ts : List (List E)) (x : String)
    (h : ∀ i, n ≤ i → i < n + ts.length → ext (sep i) ≠ x) :
    ((mergeLoop sep n ts).map ext).count x = (ts.flatten.map ext).count x := by
  induction ts generalizing n with
  | nil => simp [mergeLoop]
  | cons t ts ih =>
    simp only [mergeLoop, List.map_append, List.count_append, List.flatten_cons, List.map_cons, List.map_nil]
    rw [ih (n + 1) (fun i h1 h2 => h i (by omega) (by simp only [List.length_cons]; omega))]
    have := h n (le_refl _) (by simp)
    simp [this]

theorem searched_classes (merged : Bool) (sep : Nat → E) (ext : E → String) (log : Log E) :
    ∀ x ∈ (wordsOf ext log).flatten, x ∈ (wordsOf ext (searchedLog merged sep log)).flatten := by
  intro x hx
  cases merged with
  | false => exact hx
  | true =>
    rw [wordsOf_evs] at hx ⊢
    have h1 : (searchedLog true sep log).evs = [mergeLoop sep 0 log.evs] := by
      simp [searchedLog, mergeAllTraces, Log.ofEvs, Log.evs]
    rw [h1]
    have hx' : x ∈ log.evs.flatten.map ext := by rw [List.map_flatten]; exact hx
    simpa using mergeLoop_classes sep ext 0 log.evs x hx'

/-- Discovery succeeds, the activities come from the patterns and the instances segment the traces. -/
theorem discover_spec {lib : TreeLib} (hl : LawfulTrees lib) (source : PatternsSource) (merged : Bool) (sep : Nat → E)
    (ext : E → String) (nameOf : Log E → RepeatSet → String) (level uid : Nat) (log : Log E)
    (hn : NoCollisions (wordsOf ext (searchedLog merged sep log)))
    (hb : BlocksDiffer source (wordsOf ext (searchedLog merged sep log))) :
    ∃ forest insts ps,
      discoverInstances lib source merged sep ext nameOf (fun _ => true) level uid log = .ok (forest, insts) ∧
      Described (PatternOf source) (wordsOf ext (searchedLog merged sep log)) ps ∧
      buildRepeatSetTree (searchedLog merged sep log) (createRepeatSets (searchedLog merged sep log) ps ext)
        (nameOf (searchedLog merged sep log)) level ext uid = .ok forest ∧
      extractActivities log forest ext (fun _ => true) true = some insts := by
  obtain ⟨ps, hp, hd⟩ := findPatterns_described hl source ext (searchedLog merged sep log) hn hb
  have hlen : ps.length = (searchedLog merged sep log).traces.length := by
    rw [← wordsOf_length ext]; exact (List.Forall₂.length_eq hd).symm
  obtain ⟨forest, hf⟩ := C28_succeeds (searchedLog merged sep log)
    (createRepeatSets (searchedLog merged sep log) ps ext) (nameOf (searchedLog merged sep log)) level ext uid (by
      intro r hr
      have := (C27_result_is_selection _ ps ext (le_of_eq hlen)).subset hr
      obtain ⟨l, h1, _⟩ := (mem_indexedSubArrays ps r).1 this
      have := (List.getElem?_eq_some_iff.1 h1).1
      omega)
  obtain ⟨insts, hx, _⟩ := C29_terminates log forest ext (fun _ => true) true
  refine ⟨forest, insts, ps, ?_, hd, hf, hx⟩
  simp only [discoverInstances, discoverActivities, hp, hf, hx, bind, Except.bind]
  rfl

end Ficus
