import Verif.Props.Discovery

/-! Lemmas on the last round of the repeated discovery of activities. -/

namespace Ficus
open Spec

theorem mapM_ok_eq {α β : Type} (f : α → β) (l : List α) : l.mapM (fun a => (.ok (f a) : Except PyErr β)) = .ok (l.map f) := by
  induction l with
  | nil => rfl
  | cons a l ih => rw [List.mapM_cons, ih]; rfl

theorem forall₂_mem_left {α β : Type} {R : α → β → Prop} {l : List α} {m : List β} (h : List.Forall₂ R l m) {a : α}
    (ha : a ∈ l) : ∃ b ∈ m, R a b := by
  induction h with
  | nil => cases ha
  | cons h1 _ ih =>
    rcases List.mem_cons.1 ha with rfl | ha
    · exact ⟨_, by simp, h1⟩
    · obtain ⟨b, hb, hr⟩ := ih ha; exact ⟨b, by simp [hb], hr⟩

/-- The patterns, activities and instances of a round, for maximal repeats. -/
theorem finds_described {lib : TreeLib} (hl : LawfulTrees lib) {cfg : RoundsConfig}
    (hr : cfg.repeats = fun t => .ok (maximalRepeatsOf lib t)) {level uid : Nat} {log : Log NEvent} {acts : List ActTree}
    {insts : List (List Instance)} (h : Finds cfg level uid log acts insts)
    (hn : NoCollisions (wordsOf cfg.ext (searchedLog cfg.merged cfg.separator log))) :
    ∃ ps nameOf, Described MaximalRepeat (wordsOf cfg.ext (searchedLog cfg.merged cfg.separator log)) ps ∧
      (∀ r, nameOf r = ((activityNameFromLog (searchedLog cfg.merged cfg.separator log) r cfg.ext).toOption).getD "") ∧
      buildRepeatSetTree (searchedLog cfg.merged cfg.separator log)
        (createRepeatSets (searchedLog cfg.merged cfg.separator log) ps cfg.ext) nameOf level cfg.ext uid = .ok acts ∧
      extractActivities log acts cfg.ext cfg.filter true = some insts := by
  obtain ⟨source, ps, hs, hp, hb, hx⟩ := h
  have hs' : searchedLog cfg.merged cfg.separator log = source := hs.symm
  rw [hs'] at hn ⊢
  rw [hr, mapM_ok_eq] at hp
  have hp' : ps = findMaximalRepeats lib cfg.ext source := by
    rw [← Except.ok.inj hp]; rfl
  refine ⟨ps, _, ?_, fun r => rfl, hb, hx⟩
  rw [hp']
  exact described_of_reports (hashesDiffer_of_noCollisions hn) (C82_classes hl cfg.ext source)

theorem finds_segmentation {lib : TreeLib} (hl : LawfulTrees lib) {cfg : RoundsConfig}
    (hr : cfg.repeats = fun t => .ok (maximalRepeatsOf lib t)) (hf : cfg.filter = fun _ => true) {level uid : Nat}
    {log : Log NEvent} {acts : List ActTree} {insts : List (List Instance)} (h : Finds cfg level uid log acts insts)
    (hn : NoCollisions (wordsOf cfg.ext (searchedLog cfg.merged cfg.separator log))) :
    List.Forall₂ (fun es is =>
        Segmentation (RepeatIn (wordsOf cfg.ext (searchedLog cfg.merged cfg.separator log))) (es.map cfg.ext) (is.map span))
      log.evs insts := by
  obtain ⟨ps, nameOf, hd, _, hb, hx⟩ := finds_described hl hr h hn
  rw [hf] at hx
  refine segmentation_of_forest log acts cfg.ext true insts hx (fun es hes => ?_)
  rw [known_classes _ cfg.ext ps hd hn nameOf level uid acts hb es
    (fun e he => searched_classes _ _ cfg.ext log e (hes e he))]
  exact letters_of_kind .maximal _ es

/-- If all intervals are single, no two neighbours are letters of a common word. -/
theorem segmentation_singles {P : List String → Prop} {t : List String} {l : List (Nat × Nat)} (hs : Segmentation P t l)
    (h1 : ∀ p ∈ l, p.2 = 1) (i : Nat) (x y : String) (hx : t[i]? = some x) (hy : t[i + 1]? = some y) :
    ¬ ∃ w, P w ∧ x ∈ w ∧ y ∈ w := by
  rintro ⟨w, hw, hxw, hyw⟩
  obtain ⟨p, hp, hpi, hpi'⟩ := (hs.cover i x hx).2 ⟨w, hw, hxw⟩
  have h2 := h1 p hp
  have h3 : p.1 = i := by omega
  refine hs.maximal p hp y (by rw [h2, h3]; exact hy) ⟨w, hw, fun z hz => ?_⟩
  rw [h2, h3] at hz
  have : factor t i 1 = [x] := by
    unfold factor
    rw [List.take_one, List.head?_drop, hx]; rfl
  rw [this] at hz
  simp only [List.cons_append, List.nil_append, List.mem_cons, List.not_mem_nil, or_false] at hz
  rcases hz with rfl | rfl
  · exact hxw
  · exact hyw

/-- A word occurring in a merged trace that has no separator among its first two letters begins inside of a trace. -/
theorem mergeLoop_pair {A : Type} (sep : Nat → A) (n : Nat) (ts : List (List A)) (i : Nat) (x y : A)
    (hx : (mergeLoop sep n ts)[i]? = some x) (hy : (mergeLoop sep n ts)[i + 1]? = some y)
    (hsx : ∀ k, n ≤ k → k < n + ts.length → sep k ≠ x) (hsy : ∀ k, n ≤ k → k < n + ts.length → sep k ≠ y) :
    ∃ t ∈ ts, ∃ j, t[j]? = some x ∧ t[j + 1]? = some y := by
  induction ts generalizing n i with
  | nil => simp [mergeLoop] at hx
  | cons t ts ih =>
    unfold mergeLoop at hx hy
    rw [List.append_assoc] at hx hy
    have hlast : ∀ z, (t ++ ([sep n] ++ mergeLoop sep (n + 1) ts))[t.length]? = some z → sep n = z := by
      intro z hz
      rw [List.getElem?_append_right (le_refl _), Nat.sub_self] at hz
      simpa using hz
    rcases Nat.lt_trichotomy (i + 1) t.length with hlt | heq | hgt
    · rw [List.getElem?_append_left (by omega)] at hx
      rw [List.getElem?_append_left hlt] at hy
      exact ⟨t, by simp, i, hx, hy⟩
    · rw [heq] at hy
      exact absurd (hlast y hy) (hsy n (le_refl _) (by simp))
    · by_cases hi : i = t.length
      · rw [hi] at hx
        exact absurd (hlast x hx) (hsx n (le_refl _) (by simp))
      · rw [List.getElem?_append_right (by omega), List.getElem?_append_right (by simp; omega)] at hx hy
        simp only [List.length_singleton] at hx hy
        obtain ⟨u, hu, j, h1, h2⟩ := ih (n + 1) (i - t.length - 1) hx
          (by rw [← hy]; congr 1; omega) (fun k h1 h2 => hsx k (by omega) (by simp only [List.length_cons]; omega))
          (fun k h1 h2 => hsy k (by omega) (by simp only [List.length_cons]; omega))
        exact ⟨u, by simp [hu], j, h1, h2⟩

theorem map_mergeLoop {A B : Type} (f : A → B) (sep : Nat → A) (n : Nat) (ts : List (List A)) :
    (mergeLoop sep n ts).map f = mergeLoop (fun i => f (sep i)) n (ts.map (·.map f)) := by
  induction ts generalizing n with
  | nil => rfl
  | cons t ts ih => simp [mergeLoop, ih]

/-- The words of the searched log depend only on the words of the log. -/
theorem wordsOf_searched {E : Type} (merged : Bool) (sep : Nat → E) (ext : E → String) (log : Log E) :
    wordsOf ext (searchedLog merged sep log) =
      if merged then [mergeLoop (fun i => ext (sep i)) 0 (wordsOf ext log)] else wordsOf ext log := by
  cases merged with
  | false => rfl
  | true =>
    have : wordsOf ext (searchedLog true sep log) = [(mergeLoop sep 0 log.evs).map ext] := by
      simp [searchedLog, mergeAllTraces, wordsOf_evs, Log.ofEvs, Log.evs]
    rw [this, map_mergeLoop, wordsOf_evs]
    rfl

theorem mergeLoop_seps_nodup (sep : Nat → String) (n : Nat) (ts : List (List String))
    (h1 : ∀ i, n ≤ i → i < n + ts.length → sep i ∉ ts.flatten)
    (h2 : ∀ i j, n ≤ i → i < n + ts.length → n ≤ j → j < n + ts.length → sep i = sep j → i = j)
    (k : Nat) (hk : n ≤ k) (hk' : k < n + ts.length) : (mergeLoop sep n ts).count (sep k) = 1 := by
  have hz : ∀ (m : Nat) (us : List (List String)), (∀ i, m ≤ i → i < m + us.length → sep i ≠ sep k) → sep k ∉ us.flatten →
      (mergeLoop sep m us).count (sep k) = 0 := by
    intro m us
    induction us generalizing m with
    | nil => intro _ _; rfl
    | cons u us ih =>
      intro hne hnot
      simp only [List.flatten_cons, List.mem_append, not_or] at hnot
      simp only [mergeLoop, List.count_append]
      rw [List.count_eq_zero.2 hnot.1, ih (m + 1) (fun i a b => hne i (by omega) (by simp only [List.length_cons]; omega)) hnot.2]
      have := hne m (le_refl _) (by simp)
      simp [this]
  induction ts generalizing n with
  | nil => simp only [List.length_nil] at hk'; omega
  | cons t ts ih =>
    have hk1 := h1 k hk hk'
    simp only [List.flatten_cons, List.mem_append, not_or] at hk1
    simp only [mergeLoop, List.count_append]
    rw [List.count_eq_zero.2 hk1.1]
    simp only [List.length_cons] at hk' h1 h2
    by_cases he : k = n
    · subst he
      rw [hz (k + 1) ts (fun i a b hc => by have := h2 i k (by omega) (by omega) (by omega) (by omega) hc; omega) hk1.2]
      simp
    · have hne : sep n ≠ sep k := fun hc => he (h2 n k (le_refl _) (by omega) hk (by omega) hc).symm
      rw [ih (n + 1) (fun i a b hm => h1 i (by omega) (by omega) (by simp [List.flatten_cons, hm]))
        (fun i j a b c d => h2 i j (by omega) (by omega) (by omega) (by omega)) (by omega) (by omega)]
      simp [hne]

/-- After a round with single instances only, every word that occurs twice in the searched log has one letter. -/
theorem singles_short {lib : TreeLib} (hl : LawfulTrees lib) {cfg : RoundsConfig}
    (hr : cfg.repeats = fun t => .ok (maximalRepeatsOf lib t)) (hf : cfg.filter = fun _ => true) {level uid : Nat}
    {log : Log NEvent} {acts : List ActTree} {insts : List (List Instance)} (h : Finds cfg level uid log acts insts)
    (hs : OnlySingles insts) (hn : NoCollisions (wordsOf cfg.ext (searchedLog cfg.merged cfg.separator log)))
    (hsep : cfg.merged = true → FreshSeparators cfg.ext cfg.separator log) (w : List String)
    (hw : RepeatIn (wordsOf cfg.ext (searchedLog cfg.merged cfg.separator log)) w) : w.length = 1 := by
  have hseg := finds_segmentation hl hr hf h hn
  have hpairs : ∀ es ∈ wordsOf cfg.ext log, ∀ i x y, es[i]? = some x → es[i + 1]? = some y →
      ¬ ∃ w, RepeatIn (wordsOf cfg.ext (searchedLog cfg.merged cfg.separator log)) w ∧ x ∈ w ∧ y ∈ w := by
    intro es hes i x y hx hy
    rw [wordsOf_evs] at hes
    obtain ⟨t, ht, rfl⟩ := List.mem_map.1 hes
    obtain ⟨is, his, hs'⟩ := forall₂_mem_left hseg ht
    exact segmentation_singles hs' (by
      intro p hp
      obtain ⟨j, hj, rfl⟩ := List.mem_map.1 hp
      exact hs is his j hj) i x y hx hy
  by_contra hne
  obtain ⟨t, ht, hrep⟩ := hw
  have hnil := hrep.1
  obtain ⟨x, y, w', rfl⟩ : ∃ x y w', w = x :: y :: w' := by
    match w, hnil, hne with
    | [], h, _ => exact absurd rfl h
    | [x], _, h => exact absurd rfl h
    | x :: y :: w', _, _ => exact ⟨x, y, w', rfl⟩
  have hw : RepeatIn (wordsOf cfg.ext (searchedLog cfg.merged cfg.separator log)) (x :: y :: w') := ⟨t, ht, hrep⟩
  have hcx := isRepeat_letter hrep (show x ∈ x :: y :: w' by simp)
  have hcy := isRepeat_letter hrep (show y ∈ x :: y :: w' by simp)
  obtain ⟨_, i, _, _, ⟨pre, post, he, rfl⟩, _⟩ := hrep
  have hx : t[pre.length]? = some x := by rw [he, List.append_assoc, List.getElem?_append_right (le_refl _)]; simp
  have hy : t[pre.length + 1]? = some y := by rw [he, List.append_assoc, List.getElem?_append_right (by omega)]; simp
  cases hm : cfg.merged with
  | false =>
    rw [hm] at ht
    exact hpairs t ht _ x y hx hy ⟨_, hw, by simp, by simp⟩
  | true =>
    rw [wordsOf_searched, hm, if_pos rfl, List.mem_singleton] at ht
    subst ht
    obtain ⟨f1, f2⟩ := hsep hm
    rw [← wordsOf_length cfg.ext log] at f1 f2
    have hone := mergeLoop_seps_nodup (fun i => cfg.ext (cfg.separator i)) 0 (wordsOf cfg.ext log)
      (fun i _ hi => f1 i (by omega)) (fun i j _ hi _ hj he => f2 i j (by omega) (by omega) he)
    obtain ⟨u, hu, j, hj1, hj2⟩ := mergeLoop_pair _ 0 _ _ x y hx hy
      (fun k a b hc => by have := hone k a b; rw [hc] at this; omega)
      (fun k a b hc => by have := hone k a b; rw [hc] at this; omega)
    exact hpairs u hu j x y hj1 hj2 ⟨_, hw, by simp, by simp⟩

/-- The name of an activity made from a single letter. -/
theorem name_of_single {E : Type} (log : Log E) (ext : E → String) (r : RepeatSet) (x : String)
    (h : coveredBy (wordsOf ext log) r = [x]) : ((activityNameFromLog log r ext).toOption).getD "" = x := by
  unfold activityNameFromLog
  unfold coveredBy wordsOf at h
  rw [List.getElem?_map] at h
  cases ht : log.traces[r.traceIndex]? with
  | none => rw [ht] at h; simp at h
  | some t =>
    rw [ht] at h
    simp only [Option.map_some, Option.getD_some] at h
    have : (slice t.events r.firstPos r.length).map ext = [x] := by
      rw [← h]; simp [slice, List.map_drop, List.map_take]
    simp only [Except.toOption, Option.getD_some, activityNameFromTrace, this]
    simp [List.dedup, List.pwFilter, List.intercalate]

theorem singles_names {lib : TreeLib} (hl : LawfulTrees lib) {cfg : RoundsConfig}
    (hr : cfg.repeats = fun t => .ok (maximalRepeatsOf lib t)) (hf : cfg.filter = fun _ => true) {level uid : Nat}
    {log next : Log NEvent} {acts : List ActTree} {insts : List (List Instance)} (h : Finds cfg level uid log acts insts)
    (hs : OnlySingles insts) (hn : NoCollisions (wordsOf cfg.ext (searchedLog cfg.merged cfg.separator log)))
    (hsep : cfg.merged = true → FreshSeparators cfg.ext cfg.separator log) (hrn : ReadsNames cfg.ext)
    (hnames : cfg.hashesAsNames = false)
    (hc : createNewLog log insts cfg.hashesAsNames .insertAllEvents = .ok next) :
    wordsOf cfg.ext next = wordsOf cfg.ext log := by
  have hshort := singles_short hl hr hf h hs hn hsep
  have hfit := finds_fits h
  obtain ⟨ps, nameOf, hd, hname, hb, hx⟩ := finds_described hl hr h hn
  have hlen : ps.length = (wordsOf cfg.ext (searchedLog cfg.merged cfg.separator log)).length :=
    (List.Forall₂.length_eq hd).symm
  have hle : ps.length ≤ (searchedLog cfg.merged cfg.separator log).traces.length := by rw [hlen, wordsOf_length]
  obtain ⟨hp, _, hall⟩ := C28_each_repeat_set_once _ _ _ level cfg.ext uid acts hb
  -- every activity has one class, which is its name
  have hact : ∀ a ∈ actsL acts, a.name ∈ (wordsOf cfg.ext (searchedLog cfg.merged cfg.separator log)).flatten ∧
      ∀ e, e ∈ a.events → e = stringHash a.name := by
    intro a ha
    have hri := (C27_result_is_selection _ ps cfg.ext hle).subset (hp.subset (List.mem_map.2 ⟨a, ha, rfl⟩))
    obtain ⟨t, ht, hm⟩ := (described_covered hd _).1 ⟨_, hri, rfl⟩
    obtain ⟨x, hxx⟩ := List.length_eq_one_iff.1 (hshort _ ⟨t, ht, MaximalRepeat.isRepeat hm⟩)
    have hnx : a.name = x := by rw [(hall a ha).1, hname, name_of_single _ _ _ x hxx]
    rw [hnx]
    refine ⟨coveredBy_mem_flatten hlen hri (by rw [hxx]; simp), fun e he => ?_⟩
    obtain ⟨z, hz, rfl⟩ := ((hall a ha).2.2.2 e).1 he
    rw [hxx, List.mem_singleton] at hz
    rw [hz]
  rw [createNewLog_all log insts _ hfit] at hc
  obtain rfl := Except.ok.inj hc
  have hinst : ∀ (n : Nat) is (t : Trace NEvent), insts[n]? = some is → log.traces[n]? = some t → ∀ i ∈ is,
      (visitImage false .insertAllEvents t.events (.act i)).map cfg.ext =
        (pick t.events (Visit.act i).positions).map cfg.ext := by
    intro n is t his ht i hi
    obtain ⟨h1, h2, _⟩ := C29_instances_homogeneous log acts cfg.ext cfg.filter true insts hx n t ht is his i hi
    rw [if_pos rfl] at h2
    obtain ⟨hnm, hev⟩ := hact _ (act_mem_actsL acts _ h2)
    have hlen1 : i.length = 1 := hs is (List.mem_of_getElem? his) i hi
    have hpk : pick t.events (Visit.act i).positions = slice t.events i.startPos i.length := pick_range' _ _ _
    have hw := (C29_instances_well_placed log acts cfg.ext cfg.filter true insts hx n t ht is his).1 (span i)
      (List.mem_map.2 ⟨i, hi, rfl⟩)
    simp only [span] at hw
    have hlt : i.startPos < t.events.length := by omega
    rw [hpk]
    have hget : t.events[i.startPos]? = some t.events[i.startPos] := List.getElem?_eq_getElem (by omega)
    have hsl : slice t.events i.startPos i.length = [t.events[i.startPos]] := by
      unfold slice
      rw [hlen1, List.take_one, List.head?_drop, hget]; rfl
    have hsl' : (t.events.drop i.startPos).take i.length = [t.events[i.startPos]] := hsl
    rw [hsl'] at h1
    have he := hev _ (h1 (t.events[i.startPos]) (by simp))
    have hin : cfg.ext t.events[i.startPos] ∈ (wordsOf cfg.ext (searchedLog cfg.merged cfg.separator log)).flatten :=
      searched_classes _ _ cfg.ext log _ (List.mem_flatten.2
        ⟨t.events.map cfg.ext, List.mem_map.2 ⟨t, List.mem_of_getElem? ht, rfl⟩, List.mem_map_of_mem (List.getElem_mem _)⟩)
    have hcl := hn.classes _ hin _ hnm he
    rw [hsl]
    simp only [visitImage, List.map_cons, List.map_nil, activityEvent]
    rw [hrn _ _ _ i.node.act.name (by rfl), hcl]
  -- trace by trace
  unfold wordsOf Log.ofEvs
  rw [hnames]
  simp only [List.map_map]
  unfold FitsLog at hfit
  have key : ∀ (is : List (List Instance)) (ts : List (Trace NEvent)),
      List.Forall₂ (fun is (t : Trace NEvent) => WellPlaced t.events.length (is.map span)) is ts →
      (∀ (n : Nat) js (t : Trace NEvent), is[n]? = some js → ts[n]? = some t → ∀ i ∈ js,
        (visitImage false .insertAllEvents t.events (.act i)).map cfg.ext =
          (pick t.events (Visit.act i).positions).map cfg.ext) →
      (List.zipWith (fun is (t : Trace NEvent) =>
        (visitsFrom t.events.length 0 is).flatMap (visitImage false .insertAllEvents t.events)) is ts).map (·.map cfg.ext) =
        ts.map (fun t => t.events.map cfg.ext) := by
    intro is ts hfit
    induction hfit with
    | nil => intro _; rfl
    | @cons js t iss ts hw _ ih =>
      intro hi
      simp only [List.zipWith_cons_cons, List.map_cons]
      rw [ih (fun n js t h1 h2 => hi (n + 1) js t h1 h2)]
      congr 1
      have hd := decomposition t.events.length js hw
      have hv : ∀ v ∈ visitsFrom t.events.length 0 js, (visitImage false .insertAllEvents t.events v).map cfg.ext =
          (pick t.events v.positions).map cfg.ext := by
        intro v hv
        cases v with
        | gap s e =>
          have hp : pick t.events (Visit.gap s e).positions = slice t.events s (e - s) := pick_range' _ _ _
          rw [hp]; rfl
        | act i =>
          refine hi 0 js t rfl rfl i ?_
          rw [← hd.instances]
          exact List.mem_filterMap.2 ⟨_, hv, rfl⟩
      rw [List.map_flatMap, List.flatMap_congr hv, ← List.map_flatMap, ← pick_flatMap, hd.tiles, pick_range]
  exact key _ _ hfit hinst

theorem lastSearched_of_run {cfg : RoundsConfig} {level uid k : Nat} {log final : Log NEvent}
    (h : RoundRun cfg level uid log k final) : ∀ start, Rounds start log → ∃ prev, LastSearched cfg start prev final := by
  induction h with
  | nothing hf hz => exact fun _ hs => ⟨_, hs, _, _, _, _, hf, .inl ⟨hz, rfl⟩⟩
  | singles hf _ hs hn => exact fun _ hr => ⟨_, hr, _, _, _, _, hf, .inr ⟨hs, hn⟩⟩
  | more hf _ hn _ ih => exact fun s hr => ih s (.round _ _ hr (finds_fits hf) hn)

end Ficus
