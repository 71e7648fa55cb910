import Verif.Spec.RsTables
import Verif.Proofs.Dict
import Verif.Proofs.RsMutations
import Verif.Proofs.RsInfo
import Mathlib.Tactic.Linarith
import Mathlib.Tactic.FieldSimp

/-! Helpers for the data sets of the backend. -/

namespace Ficus.Rs.Cl

theorem extreme_max : ∀ (l : List ℚ), l ≠ [] → ∃ h, extreme max l = some h ∧ h ∈ l ∧ ∀ z ∈ l, z ≤ h
  | [], h => absurd rfl h
  | x :: xs, h => by
    clear h
    refine ⟨xs.foldl max x, rfl, ?_⟩
    induction xs generalizing x with
    | nil => simp
    | cons y ys ih =>
      rw [List.foldl_cons]
      obtain ⟨h1, h2⟩ := ih (max x y)
      constructor
      · rcases List.mem_cons.1 h1 with h | h
        · rw [h]
          rcases max_choice x y with e | e <;> rw [e] <;> simp
        · simp [h]
      · intro z hz
        have hm := h2 (max x y) (by simp)
        rcases List.mem_cons.1 hz with rfl | hz
        · exact (le_max_left _ _).trans hm
        · rcases List.mem_cons.1 hz with rfl | hz
          · exact (le_max_right _ _).trans hm
          · exact h2 z (by simp [hz])

theorem extreme_min : ∀ (l : List ℚ), l ≠ [] → ∃ h, extreme min l = some h ∧ h ∈ l ∧ ∀ z ∈ l, h ≤ z
  | [], h => absurd rfl h
  | x :: xs, h => by
    clear h
    refine ⟨xs.foldl min x, rfl, ?_⟩
    induction xs generalizing x with
    | nil => simp
    | cons y ys ih =>
      rw [List.foldl_cons]
      obtain ⟨h1, h2⟩ := ih (min x y)
      constructor
      · rcases List.mem_cons.1 h1 with h | h
        · rw [h]
          rcases min_choice x y with e | e <;> rw [e] <;> simp
        · simp [h]
      · intro z hz
        have hm := h2 (min x y) (by simp)
        rcases List.mem_cons.1 hz with rfl | hz
        · exact hm.trans (min_le_left _ _)
        · rcases List.mem_cons.1 hz with rfl | hz
          · exact hm.trans (min_le_right _ _)
          · exact h2 z (by simp [hz])

/-- The index of an entry. -/
def at_ (width row column : Nat) : Nat := column + row * width

theorem at_inj {width r c r' c' : Nat} (hc : c < width) (hc' : c' < width) (h : at_ width r c = at_ width r' c') : r = r' ∧ c = c' := by
  unfold at_ at h
  have h1 : (c + r * width) % width = c := by rw [Nat.add_mul_mod_self_right, Nat.mod_eq_of_lt hc]
  have h2 : (c' + r' * width) % width = c' := by rw [Nat.add_mul_mod_self_right, Nat.mod_eq_of_lt hc']
  have e : c = c' := by rw [← h1, ← h2, h]
  subst e
  have : r * width = r' * width := by omega
  exact ⟨Nat.eq_of_mul_eq_mul_right (by omega) this, rfl⟩

theorem at_lt {height width r c : Nat} (hr : r < height) (hc : c < width) : at_ width r c < height * width := by
  unfold at_
  have : (r + 1) * width ≤ height * width := Nat.mul_le_mul_right _ hr
  rw [Nat.add_mul] at this
  omega

/-- An entry of a vector. -/
def entry (v : List ℚ) (width row column : Nat) : ℚ := (v[at_ width row column]?).getD 0

/-- A column of a vector. -/
def columnOf (v : List ℚ) (height width column : Nat) : List ℚ := (List.range height).map (fun r => entry v width r column)

/-- The scaled value. -/
def scaleBy (low high x : ℚ) : ℚ := if high = low then 1 else (x - low) / (high - low)

theorem getElem?_entry {v : List ℚ} {width r c : Nat} (h : at_ width r c < v.length) :
    v[at_ width r c]? = some (entry v width r c) := by
  rw [entry, List.getElem?_eq_getElem h]; rfl

theorem scaleEntries (width column : Nat) (low high : ℚ) (hw : column < width) : ∀ (rs : List Nat) (v : List ℚ), rs.Nodup →
    (∀ r ∈ rs, at_ width r column < v.length) → ∃ w, rs.foldlM (scaleEntry width column low high) v = some w ∧
      w.length = v.length ∧ (∀ r ∈ rs, entry w width r column = scaleBy low high (entry v width r column)) ∧
      ∀ idx, (∀ r ∈ rs, idx ≠ at_ width r column) → w[idx]? = v[idx]?
  | [], v, _, _ => ⟨v, rfl, rfl, by simp, by simp⟩
  | r :: rs, v, hn, hlt => by
    obtain ⟨hr, hn⟩ := List.nodup_cons.1 hn
    have hlt0 := hlt r (by simp)
    let v' := v.set (at_ width r column) (scaleBy low high (entry v width r column))
    have hstep : scaleEntry width column low high v r = some v' := by
      show (v[at_ width r column]?).bind (fun x => some (v.set (at_ width r column) (scaleBy low high x))) = _
      rw [getElem?_entry hlt0]; rfl
    have hlen : v'.length = v.length := by simp [v']
    obtain ⟨w, e, hl, h1, h2⟩ := scaleEntries width column low high hw rs v' hn
      (fun r' h' => by rw [hlen]; exact hlt r' (by simp [h']))
    have hne : ∀ r' ∈ rs, at_ width r column ≠ at_ width r' column := fun r' h' k => hr ((at_inj hw hw k).1 ▸ h')
    refine ⟨w, ?_, by rw [hl, hlen], ?_, ?_⟩
    · rw [List.foldlM_cons, hstep]; exact e
    · intro r' h'
      rcases List.mem_cons.1 h' with rfl | h'
      · rw [entry, h2 _ hne]
        simp [v', hlt0]
      · rw [h1 r' h']
        have : entry v' width r' column = entry v width r' column := by
          rw [entry, entry, List.getElem?_set_ne (hne r' h')]
        rw [this]
    · intro idx hidx
      rw [h2 idx (fun r' h' => hidx r' (by simp [h']))]
      exact List.getElem?_set_ne (hidx r (by simp)).symm

theorem columnValues {v : List ℚ} {height width column : Nat} (hw : column < width) (hl : v.length = height * width) :
    (List.range height).mapM (fun row => v[column + row * width]?) = some (columnOf v height width column) := by
  have : ∀ rs : List Nat, (∀ r ∈ rs, r < height) →
      rs.mapM (fun row => v[column + row * width]?) = some (rs.map (fun r => entry v width r column)) := by
    intro rs
    induction rs with
    | nil => intro _; rfl
    | cons r rs ih =>
      intro h
      have h0 : v[column + r * width]? = some (entry v width r column) :=
        getElem?_entry (hl ▸ at_lt (h r (by simp)) hw)
      rw [List.mapM_cons, h0, ih (fun r' h' => h r' (by simp [h']))]; rfl
  exact this _ (fun r hr => List.mem_range.1 hr)

theorem scaleColumn_spec {v : List ℚ} {height width column : Nat} (hw : column < width) (hl : v.length = height * width) :
    ∃ w, scaleColumn height width v column = some w ∧ w.length = v.length ∧
      (∀ r < height, Scaled (columnOf v height width column) (entry v width r column) (entry w width r column)) ∧
      ∀ c < width, c ≠ column → ∀ r, entry w width r c = entry v width r c := by
  rcases Nat.eq_zero_or_pos height with rfl | hh
  · refine ⟨v, ?_, rfl, by simp, by simp⟩
    rw [scaleColumn, columnValues hw hl]; rfl
  · have hne : columnOf v height width column ≠ [] := by
      intro k
      have := congrArg List.length k
      simp [columnOf] at this
      omega
    obtain ⟨high, e1, m1, b1⟩ := extreme_max _ hne
    obtain ⟨low, e2, m2, b2⟩ := extreme_min _ hne
    obtain ⟨w, e, hlen, h1, h2⟩ := scaleEntries width column low high hw (List.range height) v List.nodup_range
      (fun r hr => hl ▸ at_lt (List.mem_range.1 hr) hw)
    refine ⟨w, ?_, hlen, ?_, ?_⟩
    · rw [scaleColumn, columnValues hw hl]
      show (match extreme max (columnOf v height width column), extreme min (columnOf v height width column) with
        | some high, some low => (List.range height).foldlM (scaleEntry width column low high) v
        | _, _ => some v) = some w
      rw [e1, e2]; exact e
    · intro r hr
      exact ⟨low, m2, high, m1, fun z hz => ⟨b2 z hz, b1 z hz⟩, h1 r (List.mem_range.2 hr)⟩
    · intro c hc hne r
      rw [entry, entry, h2 _ (fun r' _ k => hne (at_inj hc hw k).2)]

theorem columnOf_congr {v w : List ℚ} {height width c : Nat} (h : ∀ r, entry w width r c = entry v width r c) :
    columnOf w height width c = columnOf v height width c := by
  rw [columnOf, columnOf]
  exact List.map_congr_left (fun r _ => h r)

theorem scaleColumns {height width : Nat} : ∀ (cs : List Nat) (v : List ℚ), cs.Nodup → (∀ c ∈ cs, c < width) →
    v.length = height * width → ∃ w, cs.foldlM (scaleColumn height width) v = some w ∧ w.length = v.length ∧
      (∀ c ∈ cs, ∀ r < height, Scaled (columnOf v height width c) (entry v width r c) (entry w width r c)) ∧
      ∀ c < width, c ∉ cs → ∀ r, entry w width r c = entry v width r c
  | [], v, _, _, _ => ⟨v, rfl, rfl, by simp, by simp⟩
  | c :: cs, v, hn, hlt, hl => by
    obtain ⟨hc, hn⟩ := List.nodup_cons.1 hn
    obtain ⟨v', e, hl', h1, h2⟩ := scaleColumn_spec (hlt c (by simp)) hl
    obtain ⟨w, e', hl'', h1', h2'⟩ := scaleColumns cs v' hn (fun c' h => hlt c' (by simp [h])) (hl'.trans hl)
    refine ⟨w, ?_, hl''.trans hl', ?_, ?_⟩
    · rw [List.foldlM_cons, e]; exact e'
    · intro c' h' r hr
      rcases List.mem_cons.1 h' with rfl | h'
      · rw [h2' c' (hlt c' (by simp)) hc r]
        exact h1 r hr
      · have hne : c' ≠ c := fun k => hc (k ▸ h')
        have := h1' c' h' r hr
        have hc' := h2 c' (hlt c' (by simp [h'])) hne
        rwa [columnOf_congr hc', hc' r] at this
    · intro c' hc' hn' r
      rw [List.mem_cons, not_or] at hn'
      rw [h2' c' hc' hn'.2 r, h2 c' hc' hn'.1 r]

theorem scaleDataset_spec {v : List ℚ} {height width : Nat} (hl : v.length = height * width) :
    ∃ w, scaleDataset v height width = some w ∧ w.length = v.length ∧
      ∀ c < width, ∀ r < height, Scaled (columnOf v height width c) (entry v width r c) (entry w width r c) := by
  obtain ⟨w, e, h, h1, _⟩ := scaleColumns (List.range width) v List.nodup_range (fun c hc => List.mem_range.1 hc) hl
  exact ⟨w, e, h, fun c hc => h1 c (List.mem_range.2 hc)⟩

theorem mapM_range {A : Type} (f : Nat → Option A) (g : Nat → A) (n : Nat) (h : ∀ i < n, f i = some (g i)) :
    (List.range n).mapM f = some ((List.range n).map g) := by
  have : ∀ l : List Nat, (∀ i ∈ l, f i = some (g i)) → l.mapM f = some (l.map g) := by
    intro l
    induction l with
    | nil => intro _; rfl
    | cons i l ih =>
      intro k
      rw [List.mapM_cons, k i (by simp), ih (fun j hj => k j (by simp [hj]))]; rfl
  exact this _ (fun i hi => h i (List.mem_range.1 hi))

theorem tableOf_spec {v : List ℚ} {rows columns : List String} (hl : v.length = rows.length * columns.length) :
    tableOf v rows columns = .ok
      { values := (List.range rows.length).map (fun i => (List.range columns.length).map (fun j => entry v columns.length i j)),
        columns := columns, rows := rows } := by
  have hm : (List.range rows.length).mapM (fun i =>
      (List.range columns.length).mapM (fun j => v[i * columns.length + j]?)) =
      some ((List.range rows.length).map (fun i => (List.range columns.length).map (fun j => entry v columns.length i j))) := by
    refine mapM_range _ _ _ (fun i hi => mapM_range _ _ _ (fun j hj => ?_))
    have := at_lt hi hj
    rw [← hl] at this
    rw [← getElem?_entry this, at_, Nat.add_comm]
  unfold tableOf
  rw [if_neg (by simp [hl]), hm]
  rfl

theorem flatMap_at {A : Type} (f : A → List ℚ) (width : Nat) : ∀ (rows : List A), (∀ r ∈ rows, (f r).length = width) →
    (rows.flatMap f).length = rows.length * width ∧
      ∀ (i : Nat) (r : A), rows[i]? = some r → ∀ c < width, (rows.flatMap f)[at_ width i c]? = (f r)[c]?
  | [], _ => by simp
  | a :: rows, h => by
    obtain ⟨hl, hi⟩ := flatMap_at f width rows (fun r hr => h r (by simp [hr]))
    have ha := h a (by simp)
    constructor
    · simp only [List.flatMap_cons, List.length_append, ha, hl, List.length_cons]; rw [Nat.add_mul]; omega
    · intro i r hr c hc
      rw [List.flatMap_cons]
      cases i with
      | zero =>
        simp only [List.getElem?_cons_zero, Option.some.injEq] at hr
        subst hr
        rw [at_, Nat.zero_mul, Nat.add_zero, List.getElem?_append_left (by omega)]
      | succ i =>
        simp only [List.getElem?_cons_succ] at hr
        rw [List.getElem?_append_right (by unfold at_; rw [Nat.add_mul]; omega), ha]
        have : at_ width (i + 1) c - width = at_ width i c := by unfold at_; rw [Nat.add_mul]; omega
        rw [this, hi i r hr c hc]

/-- The count of a class. -/
def countIn (counts : Dict String Nat) (c : String) : Nat := (counts.get? c).getD 0

theorem countsTable_spec (classes : List String) (rows : List (String × Dict String Nat)) (hs : classes.Pairwise (· < ·))
    (hc : ∀ c, c ∈ classes ↔ ∃ r ∈ rows, 0 < countIn r.2 c) :
    ∃ t, countsTable classes rows = .ok t ∧ IsCountTable t (rows.map Prod.fst) (rows.map (fun r => countIn r.2)) := by
  obtain ⟨hl, hat⟩ := flatMap_at (fun r : String × Dict String Nat => rawRow classes r.2) classes.length rows
    (fun r _ => by simp [rawRow])
  obtain ⟨w, e, hw, hsc⟩ := scaleDataset_spec hl
  have hentry : ∀ (i : Nat) (r : String × Dict String Nat) (j : Nat) (c : String), rows[i]? = some r → classes[j]? = some c →
      entry (rows.flatMap (fun r => rawRow classes r.2)) classes.length i j = (countIn r.2 c : ℚ) := by
    intro i r j c hi hj
    have hjl : j < classes.length := (List.getElem?_eq_some_iff.1 hj).1
    rw [entry, hat i r hi j hjl]
    simp [rawRow, hj, countIn]
  have htab := tableOf_spec (v := w) (rows := rows.map Prod.fst) (columns := classes) (by rw [hw, hl, List.length_map])
  refine ⟨_, by unfold countsTable; rw [e]; exact htab, ⟨rfl, hs, ?_, ?_, ?_⟩⟩
  · intro c
    rw [hc c]
    simp
  · simp
  · intro i f hf
    rw [List.getElem?_map] at hf
    obtain ⟨r, hr, rfl⟩ := Option.map_eq_some_iff.1 hf
    have hil : i < rows.length := (List.getElem?_eq_some_iff.1 hr).1
    refine ⟨(List.range classes.length).map (fun j => entry w classes.length i j), by simp [hil], by simp, ?_⟩
    intro j c hj
    have hjl : j < classes.length := (List.getElem?_eq_some_iff.1 hj).1
    refine ⟨entry w classes.length i j, by simp [hjl], ?_⟩
    have := hsc j hjl i hil
    rw [hentry i r j c hr hj] at this
    have hcol : columnOf (rows.flatMap (fun r => rawRow classes r.2)) rows.length classes.length j =
        (rows.map (fun r => countIn r.2)).map (fun g => (g c : ℚ)) := by
      rw [columnOf, List.map_map]
      refine List.ext_getElem? (fun k => ?_)
      rw [List.getElem?_map, List.getElem?_map]
      rcases hk : rows[k]? with _ | q
      · have : rows.length ≤ k := List.getElem?_eq_none_iff.1 hk
        simp [this]
      · have hkl : k < rows.length := (List.getElem?_eq_some_iff.1 hk).1
        simp [hkl, hentry k q j c hk hj]
    rwa [hcol] at this

theorem countIn_increase (d : Dict String Nat) (k c : String) :
    countIn (increaseInMap d k) c = countIn d c + if k = c then 1 else 0 := by
  unfold increaseInMap countIn
  split
  · rename_i v hv
    rw [Dict.get?_set]
    by_cases h : k = c
    · subst h; simp [hv]
    · simp [h]
  · rename_i hv
    rw [Dict.get?_set]
    by_cases h : k = c
    · subst h; simp [hv]
    · simp [h]

theorem countIn_countNames (names : List String) (c : String) : countIn (countNames names) c = names.count c := by
  have : ∀ (l : List String) (d : Dict String Nat), countIn (l.foldl increaseInMap d) c = countIn d c + l.count c := by
    intro l
    induction l with
    | nil => intro d; simp
    | cons k l ih =>
      intro d
      rw [List.foldl_cons, ih, countIn_increase, List.count_cons]
      by_cases h : k = c <;> simp [h]; omega
  rw [countNames, this]
  simp [countIn, Dict.get?]

theorem sortedNames_mem (it : Iter) (names : List String) (c : String) : c ∈ sortedNames it names ↔ c ∈ names := by
  rw [sortedNames, List.mem_insertionSort, (it.perm _ _ _).mem_iff, List.mem_dedup]

theorem sortedNames_sorted (it : Iter) (names : List String) : (sortedNames it names).Pairwise (· < ·) := by
  have h1 := List.pairwise_insertionSort (fun a b : String => a ≤ b) (it.order "all_event_classes" 0 names.dedup)
  have h2 : (sortedNames it names).Nodup :=
    ((List.perm_insertionSort _ _).trans (it.perm _ _ _)).nodup_iff.2 (List.nodup_dedup _)
  exact (h1.and h2).imp (fun h => lt_of_le_of_ne h.1 h.2)

/-- The words as the model makes them. -/
def modelWords {E : Type} [HasName E] (find : Option (String → Option (Option Match))) (source : TraceSource)
    (log : List (List (Nested E))) : List (List String) :=
  log.map (fun t => (representation source t).map (fun e => transformName find (name e)))

theorem classOf_eq (find : Option (String → Option (Option Match))) : classOf find = transformName find := by
  funext n
  unfold classOf transformName
  cases find with
  | none => rfl
  | some f =>
    rcases h : f n with _ | _ | ⟨start, stop⟩
    · simp [h]
    · simp [h]
    · cases start with
      | zero => simp [h, upTo]
      | succ k => simp [h]

theorem topOf_eq {E : Type} : (topOf : Nested E → E) = own := by
  funext e
  cases e <;> rfl

mutual
theorem substitute_innermost {E : Type} (e : Nested E) (trace : List E) : substitute trace e = trace ++ innermost e := by
  cases e with
  | atom e => rfl
  | over e u =>
    rw [substitute, innermost]
    exact substituteAll_innermost u trace
theorem substituteAll_innermost {E : Type} (l : List (Nested E)) (trace : List E) :
    substituteAll trace l = trace ++ innermostAll l := by
  cases l with
  | nil => simp [substituteAll, innermostAll]
  | cons e l => rw [substituteAll, substituteAll_innermost l, substitute_innermost e, innermostAll, List.append_assoc]
end

theorem innermostAll_eq {E : Type} (l : List (Nested E)) : innermostAll l = l.flatMap (substitute []) := by
  induction l with
  | nil => rfl
  | cons e l ih => rw [innermostAll, List.flatMap_cons, ih, substitute_innermost e [], List.nil_append]

theorem eventsOf_eq {E : Type} (trace : List (Nested E)) (source : TraceSource) : eventsOf trace source = representation source trace := by
  cases source with
  | events => rw [eventsOf, topOf_eq]; rfl
  | underlying =>
    rw [eventsOf, representation]
    refine congrArg (fun f => trace.flatMap f) (funext (fun e => ?_))
    cases e with
    | atom e => rfl
    | over e u => rw [topOf_eq]; rfl
  | deepest => exact innermostAll_eq trace

theorem wordsOf_eq {E : Type} [HasName E] (find : Option (String → Option (Option Match))) (source : TraceSource)
    (log : List (List (Nested E))) : wordsOf find source log = modelWords find source log := by
  unfold wordsOf modelWords
  simp only [classOf_eq, eventsOf_eq]

theorem tracesTable_spec {E : Type} [HasName E] (it : Iter) (find : Option (String → Option (Option Match))) (source : TraceSource)
    (log : List (List (Nested E))) : ∃ t, tracesTable it find source log = .ok t ∧
      IsCountTable t ((List.range log.length).map (fun i => "Trace_" ++ Nat.repr i))
        ((wordsOf find source log).map (fun w c => w.count c)) := by
  rw [wordsOf_eq]
  have hr : ((modelWords find source log).zipIdx.map (fun w => ("Trace_" ++ Nat.repr w.2, countNames w.1))).map Prod.fst =
      (List.range log.length).map (fun i => "Trace_" ++ Nat.repr i) := by
    rw [List.map_map]
    have := List.zipIdx_map_snd 0 (modelWords find source log)
    have h2 : (List.range log.length) = (modelWords find source log).zipIdx.map Prod.snd := by
      rw [this, modelWords, List.length_map, List.range_eq_range']
    rw [h2, List.map_map]; rfl
  have hcnt : ((modelWords find source log).zipIdx.map (fun w => ("Trace_" ++ Nat.repr w.2, countNames w.1))).map
      (fun r => countIn r.2) = (modelWords find source log).map (fun w c => w.count c) := by
    rw [List.map_map]
    have h2 : (modelWords find source log) = (modelWords find source log).zipIdx.map Prod.fst := (List.zipIdx_map_fst 0 _).symm
    conv_rhs => rw [h2, List.map_map]
    refine List.map_congr_left (fun p _ => ?_)
    funext c
    exact countIn_countNames _ _
  rw [← hr, ← hcnt]
  refine countsTable_spec _ _ (sortedNames_sorted it _) (fun c => ?_)
  rw [sortedNames_mem]
  change c ∈ (modelWords find source log).flatten ↔
    ∃ r ∈ (modelWords find source log).zipIdx.map (fun w => ("Trace_" ++ Nat.repr w.2, countNames w.1)), 0 < countIn r.2 c
  have : (∃ r ∈ (modelWords find source log).zipIdx.map (fun w => ("Trace_" ++ Nat.repr w.2, countNames w.1)), 0 < countIn r.2 c) ↔
      ∃ f ∈ ((modelWords find source log).zipIdx.map (fun w => ("Trace_" ++ Nat.repr w.2, countNames w.1))).map
      (fun r => countIn r.2), 0 < f c := by simp
  rw [this, hcnt]
  simp [List.mem_flatten]

end Ficus.Rs.Cl
