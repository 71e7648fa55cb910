import Verif.Proofs.RsTables

/-! Helpers for the data set of activities. -/

namespace Ficus.Rs.Cl

variable {E : Type} [HasName E]

theorem countNames_pos (names : List String) (c : String) : c ∈ (countNames names).keys ↔ 0 < countIn (countNames names) c := by
  have : ∀ (l : List String) (d : Dict String Nat), (∀ c v, d.get? c = some v → 0 < v) →
      ∀ c v, (l.foldl increaseInMap d).get? c = some v → 0 < v := by
    intro l
    induction l with
    | nil => intro d h; exact h
    | cons k l ih =>
      intro d h
      rw [List.foldl_cons]
      refine ih _ (fun c v hv => ?_)
      unfold increaseInMap at hv
      split at hv <;> rw [Dict.get?_set] at hv <;> split at hv
      · cases hv; omega
      · exact h c v hv
      · cases hv; omega
      · exact h c v hv
  have hp := this names [] (by simp [Dict.get?])
  rw [Dict.mem_keys_iff, countIn]
  constructor
  · rintro ⟨v, hv⟩
    rw [countNames] at hv ⊢
    rw [hv]; exact hp c v hv
  · intro h
    rcases hv : (countNames names).get? c with _ | v
    · rw [hv] at h; simp at h
    · exact ⟨v, rfl⟩

theorem ones_get? (l : List String) (c : String) :
    Dict.get? (l.map (fun x => (x, 1))) c = if c ∈ l then some 1 else none := by
  induction l with
  | nil => rfl
  | cons x l ih =>
    rw [List.map_cons, Dict.get?_cons, ih]
    by_cases h : x = c
    · subst h; simp
    · simp [h, Ne.symm h]

theorem repeatEvents_ok {log : List (List (Nested E))} {node : RNode} {r : RepeatSet} (hr : node.repeatSet = some r)
    {events : List (Nested E)} (h : repeatEvents log r = .ok events) : RepeatOf log node events := by
  unfold repeatEvents at h
  rcases ht : log[r.traceIndex]? with _ | t
  · rw [ht] at h; cases h
  · rw [ht] at h
    change (if r.firstPos + r.length ≤ t.length then _ else _) = _ at h
    split at h
    · rename_i hle
      cases h
      exact ⟨r, t, hr, ht, hle, rfl⟩
    · cases h

theorem repeatEvents_of {log : List (List (Nested E))} {node : RNode} {events : List (Nested E)} (h : RepeatOf log node events) :
    ∃ r, node.repeatSet = some r ∧ repeatEvents log r = .ok events := by
  obtain ⟨r, t, hr, ht, hb, rfl⟩ := h
  refine ⟨r, hr, ?_⟩
  unfold repeatEvents
  rw [ht]
  exact if_pos hb

/-- What `activityCounts` gives. -/
theorem activityCounts_ok {find : Option (String → Option (Option Match))} {source : ActivitySource} {log : List (List (Nested E))}
    {node : RNode} {cs : Dict String Nat} (h : activityCounts find source log node = .ok cs) :
    (∀ c, c ∈ cs.keys ↔ 0 < countIn cs c) ∧
    ((∃ events, RepeatOf log node events ∧ ∀ c, countIn cs c = occurrences find source events c) ∨
      node.repeatSet = none ∧ source ≠ .eventClasses ∧ ∀ c, countIn cs c = 0) := by
  unfold activityCounts at h
  rcases hr : node.repeatSet with _ | r
  · rw [hr] at h
    cases source with
    | eventClasses => cases h
    | subTraces | deepest =>
      cases h
      refine ⟨fun c => by simp [Dict.keys, countIn, Dict.get?], .inr ⟨rfl, by simp, fun c => by simp [countIn, Dict.get?]⟩⟩
  · rw [hr] at h
    rcases he : repeatEvents log r with f | events
    · cases source <;> simp only [he] at h <;> cases h
    · have hre := repeatEvents_ok hr he
      cases source with
      | eventClasses =>
        simp only [he] at h
        cases h
        have hc : ∀ c, countIn (((events.map (fun e => transformName find (name (own e)))).dedup).map (fun c => (c, 1))) c =
            occurrences find .eventClasses events c := by
          intro c
          rw [countIn, ones_get?, occurrences, classOf_eq, topOf_eq]
          simp only [List.mem_dedup]
          split <;> rfl
        refine ⟨fun c => ?_, .inl ⟨events, hre, hc⟩⟩
        rw [Dict.mem_keys_iff, countIn, ones_get?]
        split <;> simp
      | subTraces =>
        simp only [he] at h
        cases h
        refine ⟨countNames_pos _, .inl ⟨events, hre, fun c => ?_⟩⟩
        rw [occurrences, classOf_eq, topOf_eq]
        exact countIn_countNames _ _
      | deepest =>
        simp only [he] at h
        cases h
        refine ⟨countNames_pos _, .inl ⟨events, hre, fun c => ?_⟩⟩
        rw [occurrences, classOf_eq, innermostAll_eq]
        exact countIn_countNames _ _

theorem activityCounts_total {find : Option (String → Option (Option Match))} {source : ActivitySource}
    {log : List (List (Nested E))} {node : RNode} {events : List (Nested E)} (h : RepeatOf log node events) :
    ∃ cs, activityCounts find source log node = .ok cs := by
  obtain ⟨r, hr, he⟩ := repeatEvents_of h
  unfold activityCounts
  rw [hr]
  cases source with
  | eventClasses => exact ⟨_, by simp only [he]; rfl⟩
  | subTraces => exact ⟨_, by simp only [he]; rfl⟩
  | deepest => exact ⟨_, by simp only [he]; rfl⟩

/-- The first instance of a name with the level. -/
def firstWith (level : Nat) (l : List Held) (n : String) : Option Held :=
  l.find? (fun a => decide (a.node.name = n) && decide (a.node.level = level))

theorem process_fold {find : Option (String → Option (Option Match))} {source : ActivitySource} {log : List (List (Nested E))}
    {level : Nat} : ∀ (l : List Held) (d d' : Dict String (RNode × Dict String Nat)), d.WF →
    l.foldlM (processActivity find source log level) d = .ok d' → d'.WF ∧ ∀ n,
      (∀ x, d.get? n = some x → d'.get? n = some x) ∧
      (d.get? n = none → (firstWith level l n = none ∧ d'.get? n = none) ∨
        ∃ a cs, firstWith level l n = some a ∧ activityCounts find source log a.node = .ok cs ∧ d'.get? n = some (a.node, cs))
  | [], d, d', hd, h => by
    cases h
    exact ⟨hd, fun n => ⟨fun _ => id, fun k => .inl ⟨rfl, k⟩⟩⟩
  | a :: l, d, d', hd, h => by
    rw [List.foldlM_cons] at h
    rcases hs : processActivity find source log level d a with f | d₁
    · rw [hs] at h; cases h
    · rw [hs] at h
      replace h : l.foldlM (processActivity find source log level) d₁ = .ok d' := h
      unfold processActivity at hs
      by_cases hc : d.contains a.node.name = true
      · rw [if_pos hc] at hs
        cases hs
        obtain ⟨h1, h2⟩ := process_fold l d d' hd h
        refine ⟨h1, fun n => ⟨(h2 n).1, fun k => ?_⟩⟩
        have hne : a.node.name ≠ n := by
          rintro rfl
          exact ((Dict.get?_eq_none_iff d _).1 k) ((Dict.contains_iff d _).1 hc)
        have : firstWith level (a :: l) n = firstWith level l n := by simp [firstWith, hne]
        rw [this]
        exact (h2 n).2 k
      · rw [if_neg hc] at hs
        by_cases hl : a.node.level ≠ level
        · change (if a.node.level ≠ level then _ else _) = _ at hs
          rw [if_pos hl] at hs
          cases hs
          obtain ⟨h1, h2⟩ := process_fold l d d' hd h
          refine ⟨h1, fun n => ⟨(h2 n).1, fun k => ?_⟩⟩
          have : firstWith level (a :: l) n = firstWith level l n := by simp [firstWith, hl]
          rw [this]
          exact (h2 n).2 k
        · change (if a.node.level ≠ level then _ else _) = _ at hs
          rw [if_neg hl] at hs
          rcases hcs : activityCounts find source log a.node with f | cs
          · rw [hcs] at hs; cases hs
          · rw [hcs] at hs
            cases hs
            obtain ⟨h1, h2⟩ := process_fold l _ d' (Dict.WF_set hd a.node.name (a.node, cs)) h
            have hn : d.get? a.node.name = none := by
              rw [Dict.get?_eq_none_iff]
              exact fun k => hc ((Dict.contains_iff d _).2 k)
            refine ⟨h1, fun n => ⟨fun x hx => ?_, fun k => ?_⟩⟩
            · refine (h2 n).1 x ?_
              rw [Dict.get?_set, if_neg]
              · exact hx
              · rintro rfl; rw [hn] at hx; cases hx
            · by_cases hne : a.node.name = n
              · subst hne
                refine .inr ⟨a, cs, ?_, hcs, (h2 _).1 _ (by rw [Dict.get?_set, if_pos rfl])⟩
                simp [firstWith, not_not.1 hl]
              · have : firstWith level (a :: l) n = firstWith level l n := by simp [firstWith, hne]
                rw [this]
                refine (h2 n).2 ?_
                rw [Dict.get?_set, if_neg hne]
                exact k

theorem process_total {find : Option (String → Option (Option Match))} {source : ActivitySource} {log : List (List (Nested E))}
    {level : Nat} : ∀ (l : List Held) (d : Dict String (RNode × Dict String Nat)),
    (∀ a ∈ l, a.node.level = level → ∃ cs, activityCounts find source log a.node = .ok cs) →
    ∃ d', l.foldlM (processActivity find source log level) d = .ok d'
  | [], d, _ => ⟨d, rfl⟩
  | a :: l, d, h => by
    have ih := fun d₁ => process_total l d₁ (fun b hb => h b (by simp [hb]))
    have : ∃ d₁, processActivity find source log level d a = .ok d₁ := by
      unfold processActivity
      by_cases hc : d.contains a.node.name = true
      · rw [if_pos hc]; exact ⟨d, rfl⟩
      · rw [if_neg hc]
        by_cases hl : a.node.level ≠ level
        · refine ⟨d, ?_⟩
          rw [if_pos hl]; rfl
        · obtain ⟨cs, hcs⟩ := h a (by simp) (not_not.1 hl)
          refine ⟨d.set a.node.name (a.node, cs), ?_⟩
          rw [if_neg hl, hcs]; rfl
    obtain ⟨d₁, e⟩ := this
    obtain ⟨d', e'⟩ := ih d₁
    exact ⟨d', by rw [List.foldlM_cons, e]; exact e'⟩

theorem activitiesTable_spec (it : Iter) {find : Option (String → Option (Option Match))} {source : ActivitySource}
    {log : List (List (Nested E))} {level : Nat} {instances : List (List Held)}
    {d : Dict String (RNode × Dict String Nat)}
    (h : instances.flatten.foldlM (processActivity find source log level) [] = .ok d) :
    ∃ t nodes counts, activitiesTable it find source log level instances = .ok (t, nodes) ∧
      (nodes.map (fun n => n.name)).Pairwise (· < ·) ∧
      (∀ n node, (∃ a, firstWith level instances.flatten n = some a ∧ a.node = node) ↔ node ∈ nodes ∧ node.name = n) ∧
      List.Forall₂ (fun node f => ∃ cs, activityCounts find source log node = .ok cs ∧ f = countIn cs) nodes counts ∧
      IsCountTable t (nodes.map (fun n => n.name)) counts := by
  obtain ⟨hwf, hget⟩ := process_fold instances.flatten [] d Dict.WF_nil h
  have hentry : ∀ n x, d.get? n = some x → ∃ a, firstWith level instances.flatten n = some a ∧ a.node = x.1 ∧ x.1.name = n ∧
      activityCounts find source log x.1 = .ok x.2 := by
    intro n x hx
    rcases (hget n).2 rfl with ⟨_, k⟩ | ⟨a, cs, ha, hcs, k⟩
    · rw [k] at hx; cases hx
    · rw [k] at hx
      cases hx
      refine ⟨a, ha, rfl, ?_, hcs⟩
      have := List.find?_some ha
      simp at this
      exact this.1
  let le := fun a b : RNode × Dict String Nat => a.1.name ≤ b.1.name
  let rows := ((it.order "processed" 0 d).map Prod.snd).insertionSort le
  have hperm : rows.Perm (d.map Prod.snd) := (List.perm_insertionSort _ _).trans ((it.perm _ _ _).map _)
  have hmem : ∀ x, x ∈ rows ↔ d.get? x.1.name = some x := by
    intro x
    rw [hperm.mem_iff, List.mem_map]
    constructor
    · rintro ⟨⟨n, y⟩, hy, rfl⟩
      have := Dict.get?_of_mem hwf hy
      obtain ⟨_, _, _, e, _⟩ := hentry n y this
      rw [e]; exact this
    · intro k
      exact ⟨_, Dict.mem_of_get? k, rfl⟩
  have hnames : (d.map Prod.snd).map (fun x : RNode × Dict String Nat => x.1.name) = d.keys := by
    rw [List.map_map, Dict.keys]
    refine List.map_congr_left (fun p hp => ?_)
    obtain ⟨_, _, _, e, _⟩ := hentry p.1 p.2 (Dict.get?_of_mem hwf hp)
    exact e
  have hnd : (rows.map (fun x => x.1.name)).Nodup := by
    have := (hperm.map (fun x : RNode × Dict String Nat => x.1.name)).nodup_iff
    rw [hnames] at this
    exact this.2 hwf
  have hsorted : (rows.map (fun x => x.1.name)).Pairwise (· < ·) := by
    have : Std.Total le := ⟨fun a b => le_total a.1.name b.1.name⟩
    have : IsTrans _ le := ⟨fun _ _ _ => le_trans⟩
    have h1 : rows.Pairwise le := List.pairwise_insertionSort le _
    have h2 : (rows.map (fun x => x.1.name)).Pairwise (· ≤ ·) := List.pairwise_map.2 h1
    exact (h2.and hnd).imp (fun k => lt_of_le_of_ne k.1 k.2)
  have hcls : ∀ c, c ∈ sortedNames it (d.flatMap (fun e => e.2.2.keys)) ↔
      ∃ r ∈ rows.map (fun r => (r.1.name, r.2)), 0 < countIn r.2 c := by
    intro c
    rw [sortedNames_mem, List.mem_flatMap]
    constructor
    · rintro ⟨⟨n, x⟩, hx, hc⟩
      have hg := Dict.get?_of_mem hwf hx
      obtain ⟨_, _, _, e, hcs⟩ := hentry n x hg
      refine ⟨(x.1.name, x.2), List.mem_map.2 ⟨x, (hmem x).2 (by rw [e]; exact hg), rfl⟩, ?_⟩
      exact ((activityCounts_ok hcs).1 c).1 hc
    · rintro ⟨r, hr, hc⟩
      obtain ⟨x, hx, rfl⟩ := List.mem_map.1 hr
      have hg := (hmem x).1 hx
      obtain ⟨_, _, _, _, hcs⟩ := hentry _ x hg
      exact ⟨(x.1.name, x), Dict.mem_of_get? hg, ((activityCounts_ok hcs).1 c).2 hc⟩
  obtain ⟨t, ht, hct⟩ := countsTable_spec _ (rows.map (fun r => (r.1.name, r.2))) (sortedNames_sorted it _) hcls
  refine ⟨t, rows.map Prod.fst, rows.map (fun r => countIn r.2), ?_, ?_, ?_, ?_, ?_⟩
  · unfold activitiesTable
    rw [h]
    show ((countsTable (sortedNames it (d.flatMap (fun e => e.2.2.keys))) (rows.map (fun r => (r.1.name, r.2)))).bind
      (fun t => .ok (t, rows.map Prod.fst))) = _
    rw [ht]; rfl
  · rw [List.map_map]; exact hsorted
  · intro n node
    constructor
    · rintro ⟨a, ha, rfl⟩
      rcases (hget n).2 rfl with ⟨k, _⟩ | ⟨b, cs, hb, _, k⟩
      · rw [k] at ha; cases ha
      · rw [hb] at ha
        cases ha
        obtain ⟨_, _, _, e, _⟩ := hentry _ _ k
        refine ⟨List.mem_map.2 ⟨(a.node, cs), (hmem _).2 ?_, rfl⟩, e⟩
        show d.get? a.node.name = _
        rw [show a.node.name = n from e]; exact k
    · rintro ⟨hn, rfl⟩
      obtain ⟨x, hx, rfl⟩ := List.mem_map.1 hn
      obtain ⟨a, ha, e, _, _⟩ := hentry _ x ((hmem x).1 hx)
      exact ⟨a, ha, e⟩
  · rw [List.forall₂_map_left_iff, List.forall₂_map_right_iff, List.forall₂_same]
    intro x hx
    obtain ⟨_, _, _, _, hcs⟩ := hentry _ x ((hmem x).1 hx)
    exact ⟨x.2, hcs, rfl⟩
  · simpa [List.map_map, Function.comp_def] using hct

end Ficus.Rs.Cl
