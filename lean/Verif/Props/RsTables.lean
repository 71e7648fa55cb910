import Verif.Proofs.RsWords
import Verif.Proofs.RsActivityTables
import Verif.Props.RsDistance

/-! Properties C150 to C152: the data sets of traces and of activities. -/

namespace Ficus.Rs

open Cl

theorem Cl.Scaled.range {column : List ℚ} {x y : ℚ} (hx : x ∈ column) (h : Scaled column x y) : 0 ≤ y ∧ y ≤ 1 := by
  obtain ⟨low, hlow, high, hhigh, hb, rfl⟩ := h
  split
  · simp
  · rename_i hne
    have h1 := hb x hx
    have : low < high := lt_of_le_of_ne (h1.1.trans h1.2) (Ne.symm hne)
    constructor
    · exact div_nonneg (by linarith) (by linarith)
    · rw [div_le_one (by linarith)]; linarith

theorem Cl.Scaled.inj {column : List ℚ} {x y x' y' : ℚ} (hx : x ∈ column) (hx' : x' ∈ column) (h : Scaled column x y)
    (h' : Scaled column x' y') : y = y' ↔ x = x' := by
  obtain ⟨low, hlow, high, hhigh, hb, rfl⟩ := h
  obtain ⟨low', hlow', high', hhigh', hb', rfl⟩ := h'
  have e1 : low' = low := le_antisymm (hb' low hlow).1 (hb low' hlow').1
  have e2 : high' = high := le_antisymm (hb high' hhigh').2 (hb' high hhigh).2
  subst e1 e2
  by_cases hne : high' = low'
  · simp only [hne, if_true, true_iff]
    have h1 := hb x hx
    have h2 := hb x' hx'
    rw [hne] at h1 h2
    linarith [h1.1, h1.2, h2.1, h2.2]
  · simp only [hne, if_false]
    have : high' - low' ≠ 0 := sub_ne_zero.2 hne
    constructor
    · intro k
      have := (div_left_inj' this).1 k
      linarith
    · rintro rfl; rfl

/-! ### C150: the data set of counts -/

/-- C150: for a distance other than that of edits the data set of the traces has the classes of the log as columns and the scaled
numbers of their events as values, whatever the order of iteration over sets is; a panic or an error is not possible. -/
theorem C150_traces {E : Type} [HasName E] (it : Iter) {distance : Distance} (hd : distance ≠ .levenshtein)
    (find : Option (String → Option (Option Match))) (source : TraceSource) (log : List (List (Nested E))) :
    ∃ t, createTracesTable it distance find source log = .ok t ∧
      IsCountTable t ((List.range log.length).map (fun i => "Trace_" ++ Nat.repr i))
        ((wordsOf find source log).map (fun w c => w.count c)) := by
  cases distance with
  | levenshtein => exact absurd rfl hd
  | cosine | l1 | l2 => exact tracesTable_spec it find source log

/-- A log for examples. -/
def exTraces : List (List (Nested String)) :=
  [[.atom "b", .atom "a", .atom "b"], [.over "x" [.atom "b"], .atom "b"], [.atom "a", .atom "b", .atom "b", .atom "b"]]

example : ((createTracesTable Iter.plain .cosine none .deepest exTraces).toOption.map Table.columns) = some ["a", "b"] := by
  decide +kernel
example : ((createTracesTable Iter.reversed .cosine none .deepest exTraces).toOption.map Table.values) =
    some [[1, 0], [0, 0], [1, 1]] := by decide +kernel
example : ((createTracesTable Iter.plain .l1 none .events exTraces).toOption.map Table.values) =
    some [[1, 1 / 2, 0], [0, 0, 1], [1, 1, 0]] := by decide +kernel

/-- C150: the values are between zero and one. -/
theorem C150_range {t : Table} {names : List String} {counts : List (String → Nat)} (h : IsCountTable t names counts) :
    ∀ row ∈ t.values, row.length = t.columns.length ∧ ∀ y ∈ row, 0 ≤ y ∧ y ≤ 1 := by
  intro row hrow
  obtain ⟨i, hi⟩ := List.getElem?_of_mem hrow
  have hil : i < counts.length := h.height ▸ (List.getElem?_eq_some_iff.1 hi).1
  obtain ⟨row', hr, hl, hv⟩ := h.values i _ (List.getElem?_eq_getElem hil)
  rw [hi] at hr
  cases hr
  refine ⟨hl, fun y hy => ?_⟩
  obtain ⟨j, hj⟩ := List.getElem?_of_mem hy
  have hjl : j < t.columns.length := hl ▸ (List.getElem?_eq_some_iff.1 hj).1
  obtain ⟨y', hy', hs⟩ := hv j _ (List.getElem?_eq_getElem hjl)
  rw [hj] at hy'
  cases hy'
  exact hs.range (List.mem_map.2 ⟨counts[i], List.getElem_mem hil, rfl⟩)

/-- C150: two rows are equal exactly if all counts are, and the same for the single values. -/
theorem C150_faithful {t : Table} {names : List String} {counts : List (String → Nat)} (h : IsCountTable t names counts)
    {i j : Nat} {f g : String → Nat} (hi : counts[i]? = some f) (hj : counts[j]? = some g) :
    t.values[i]? = t.values[j]? ↔ f = g := by
  obtain ⟨r, hr, hl, hv⟩ := h.values i f hi
  obtain ⟨r', hr', hl', hv'⟩ := h.values j g hj
  rw [hr, hr', Option.some_inj]
  have hf := List.mem_of_getElem? hi
  have hg := List.mem_of_getElem? hj
  constructor
  · rintro rfl
    funext c
    by_cases hc : c ∈ t.columns
    · obtain ⟨k, hk⟩ := List.getElem?_of_mem hc
      obtain ⟨y, hy, hs⟩ := hv k c hk
      obtain ⟨y', hy', hs'⟩ := hv' k c hk
      rw [hy] at hy'
      cases hy'
      have := (Scaled.inj (List.mem_map.2 ⟨f, hf, rfl⟩) (List.mem_map.2 ⟨g, hg, rfl⟩) hs hs').1 rfl
      exact_mod_cast this
    · rw [h.columns c] at hc
      push Not at hc
      have h1 := hc f hf
      have h2 := hc g hg
      omega
  · rintro rfl
    refine List.ext_getElem? (fun k => ?_)
    rcases hk : t.columns[k]? with _ | c
    · have := List.getElem?_eq_none_iff.1 hk
      rw [List.getElem?_eq_none_iff.2 (by omega), List.getElem?_eq_none_iff.2 (by omega)]
    · obtain ⟨y, hy, hs⟩ := hv k c hk
      obtain ⟨y', hy', hs'⟩ := hv' k c hk
      rw [hy, hy', (Scaled.inj (List.mem_map.2 ⟨f, hf, rfl⟩) (List.mem_map.2 ⟨f, hf, rfl⟩) hs hs').2 rfl]

/-- C150: the rows of two traces are equal exactly if the traces have the same classes up to the order. -/
theorem C150_equal_rows {E : Type} [HasName E] (it : Iter) {distance : Distance} (hd : distance ≠ .levenshtein)
    (find : Option (String → Option (Option Match))) (source : TraceSource) (log : List (List (Nested E))) :
    ∃ t, createTracesTable it distance find source log = .ok t ∧ ∀ (i j : Nat) (v w : List String),
      (wordsOf find source log)[i]? = some v → (wordsOf find source log)[j]? = some w →
      (t.values[i]? = t.values[j]? ↔ v.Perm w) := by
  obtain ⟨t, ht, hc⟩ := C150_traces it hd find source log
  refine ⟨t, ht, fun i j v w hi hj => ?_⟩
  rw [C150_faithful hc (i := i) (j := j) (f := fun c => v.count c) (g := fun c => w.count c) (by rw [List.getElem?_map, hi]; rfl)
    (by rw [List.getElem?_map, hj]; rfl), List.perm_iff_count]
  exact ⟨fun k c => congrFun k c, fun k => funext k⟩

/-! ### C151: the data set of words -/

/-- C151: for the distance of edits the data set has the traces as words of numbers, which stand for the classes. -/
theorem C151_words {E : Type} [HasName E] (it : Iter) (find : Option (String → Option (Option Match))) (source : TraceSource)
    (log : List (List (Nested E))) :
    ∃ t, createTracesTable it .levenshtein find source log = .ok t ∧ IsWordTable t (wordsOf find source log) :=
  wordsTable_spec find source log

example : ((createTracesTable Iter.plain .levenshtein none .events exTraces).toOption.map Table.values) =
    some [[1, 2, 1, 0, 0], [3, 1, 0, 0, 0], [2, 1, 1, 1, 0]] := by decide +kernel

theorem Cl.pad_inj {number : String → Nat} {words : List (List String)} {width : Nat}
    (hpos : ∀ c ∈ words.flatten, 1 ≤ number c) (hinj : ∀ c ∈ words.flatten, ∀ c' ∈ words.flatten, number c = number c' → c = c') :
    ∀ (v w : List String), (∀ c ∈ v, c ∈ words.flatten) → (∀ c ∈ w, c ∈ words.flatten) →
      ∀ m n : Nat, v.map (fun c => (number c : ℚ)) ++ List.replicate m 0 = w.map (fun c => (number c : ℚ)) ++ List.replicate n 0 →
      v = w
  | [], [], _, _, _, _, _ => rfl
  | [], c :: w, _, hw, m, n, h => by
    have : (number c : ℚ) = 0 := by
      cases m with
      | zero => simp at h
      | succ m =>
        rw [List.replicate_succ] at h
        simpa using (List.cons.inj h).1.symm
    have h1 := hpos c (hw c (by simp))
    have : number c = 0 := by exact_mod_cast this
    omega
  | c :: v, [], hv, _, m, n, h => by
    have : (number c : ℚ) = 0 := by
      cases n with
      | zero => simp at h
      | succ n =>
        rw [List.replicate_succ] at h
        simpa using (List.cons.inj h).1
    have h1 := hpos c (hv c (by simp))
    have : number c = 0 := by exact_mod_cast this
    omega
  | c :: v, c' :: w, hv, hw, m, n, h => by
    simp only [List.map_cons, List.cons_append] at h
    obtain ⟨e, h⟩ := List.cons.inj h
    have := hinj c (hv c (by simp)) c' (hw c' (by simp)) (by exact_mod_cast e)
    rw [this, Cl.pad_inj (width := width) hpos hinj v w (fun x hx => hv x (by simp [hx])) (fun x hx => hw x (by simp [hx])) m n h]

/-- C151: the rows of two traces are equal exactly if the traces have the same classes in the same order; this is also when their
distance is zero. -/
theorem C151_equal_rows {t : Table} {words : List (List String)} (h : IsWordTable t words) {i j : Nat} {v w : List String}
    (hi : words[i]? = some v) (hj : words[j]? = some w) :
    ∃ a b, t.values[i]? = some a ∧ t.values[j]? = some b ∧ a.length = t.columns.length ∧ b.length = t.columns.length ∧
      (a = b ↔ v = w) ∧ (editDistance a b = some 0 ↔ v = w) := by
  obtain ⟨number, hb, hinj, hv⟩ := h.values
  have hvm := List.mem_of_getElem? hi
  have hwm := List.mem_of_getElem? hj
  have lv := h.longer v hvm
  have lw := h.longer w hwm
  have key : v.map (fun c => (number c : ℚ)) ++ List.replicate (t.columns.length - v.length) 0 =
      w.map (fun c => (number c : ℚ)) ++ List.replicate (t.columns.length - w.length) 0 ↔ v = w := by
    constructor
    · exact Cl.pad_inj (width := t.columns.length) (fun c hc => (hb c hc).1) hinj v w
        (fun c hc => List.mem_flatten.2 ⟨v, hvm, hc⟩) (fun c hc => List.mem_flatten.2 ⟨w, hwm, hc⟩) _ _
    · rintro rfl; rfl
  refine ⟨_, _, by rw [hv, List.getElem?_map, hi]; rfl, by rw [hv, List.getElem?_map, hj]; rfl, ?_, ?_, key, ?_⟩
  · simp only [List.length_append, List.length_map, List.length_replicate]; omega
  · simp only [List.length_append, List.length_map, List.length_replicate]; omega
  · rw [C148_zero (by simp only [List.length_append, List.length_map, List.length_replicate]; omega)]
    exact key

/-! ### C152: the data set of activities -/

/-- C152: if the data set of the activities is made, it has a row for each name of the activities of the level, in alphabetic order,
with the counts of the node of the first of them: of its repeat set, or zeros if there is none. -/
theorem C152_activities {E : Type} [HasName E] {it : Iter} {find : Option (String → Option (Option Match))} {source : ActivitySource}
    {log : List (List (Nested E))} {level : Nat} {instances : List (List Held)} {t : Table} {nodes : List RNode}
    (h : activitiesTable it find source log level instances = .ok (t, nodes)) :
    (nodes.map (fun n => n.name)).Pairwise (· < ·) ∧
    (∀ node, node ∈ nodes ↔ ∃ a, instances.flatten.find? (fun a => decide (a.node.name = node.name) &&
      decide (a.node.level = level)) = some a ∧ a.node = node) ∧
    ∃ counts, IsCountTable t (nodes.map (fun n => n.name)) counts ∧
      List.Forall₂ (fun node f => (∃ events, RepeatOf log node events ∧ ∀ c, f c = occurrences find source events c) ∨
        node.repeatSet = none ∧ source ≠ .eventClasses ∧ ∀ c, f c = 0) nodes counts := by
  have hd : ∃ d, instances.flatten.foldlM (processActivity find source log level) [] = .ok d := by
    unfold activitiesTable at h
    rcases hd : instances.flatten.foldlM (processActivity find source log level) [] with f | d
    · rw [hd] at h; cases h
    · exact ⟨d, rfl⟩
  obtain ⟨d, hd⟩ := hd
  obtain ⟨t', nodes', counts, e, h1, h2, h3, h4⟩ := activitiesTable_spec it hd
  rw [h] at e
  cases e
  refine ⟨h1, fun node => ?_, counts, h4, ?_⟩
  · constructor
    · intro hn
      obtain ⟨a, ha, e⟩ := (h2 node.name node).2 ⟨hn, rfl⟩
      exact ⟨a, ha, e⟩
    · rintro ⟨a, ha, e⟩
      exact ((h2 node.name node).1 ⟨a, ha, e⟩).1
  · refine h3.imp ?_
    rintro node f ⟨cs, hcs, rfl⟩
    exact (activityCounts_ok hcs).2

/-- C152: it is made if the repeat sets of the activities of the level are in the log. -/
theorem C152_total {E : Type} [HasName E] (it : Iter) (find : Option (String → Option (Option Match))) (source : ActivitySource)
    {log : List (List (Nested E))} {level : Nat} {instances : List (List Held)}
    (h : ∀ a ∈ instances.flatten, a.node.level = level → ∃ events, RepeatOf log a.node events) :
    ∃ t nodes, activitiesTable it find source log level instances = .ok (t, nodes) := by
  obtain ⟨d, hd⟩ := process_total (find := find) (source := source) (log := log) (level := level) instances.flatten []
    (fun a ha hl => let ⟨_, he⟩ := h a ha hl; activityCounts_total he)
  obtain ⟨t, nodes, _, e, _⟩ := activitiesTable_spec it hd
  exact ⟨t, nodes, e⟩

/-- A node for examples. -/
def exNode (name : String) (level : Nat) (r : Option RepeatSet) (classes : List Nat := []) : RNode :=
  { repeatSet := r, classes := classes, children := [], level := level, name := name }

/-- Instances for examples. -/
def exHeld : List (List Held) :=
  [[⟨exNode "Y" 0 (some ⟨0, 3, 0⟩), 0, 3⟩], [⟨exNode "X" 0 (some ⟨0, 2, 1⟩), 0, 2⟩, ⟨exNode "Z" 1 none, 0, 2⟩]]

example : ((activitiesTable Iter.plain none .subTraces exTraces 0 exHeld).toOption.map
    (fun r => (r.1.rows, r.1.columns, r.1.values))) = some (["X", "Y"], ["a", "b", "x"], [[0, 0, 1], [1, 1, 0]]) := by
  decide +kernel
example : ((activitiesTable Iter.plain none .eventClasses exTraces 0 exHeld).toOption.map (fun r => r.1.values)) =
    some [[0, 1, 1], [1, 1, 0]] := by decide +kernel

/-- C152: by event classes there is an error if an activity of the level has no repeat set, as those that come from clusters have
none. -/
theorem C152_no_repeat_set {E : Type} [HasName E] (it : Iter) (find : Option (String → Option (Option Match)))
    (log : List (List (Nested E))) (a : Held) (rest : List (List Held)) (h : a.node.repeatSet = none) :
    activitiesTable it find .eventClasses log a.node.level ([a] :: rest) = .error .noRepeatSet := by
  unfold activitiesTable
  have : ([a] :: rest).flatten.foldlM (processActivity find .eventClasses log a.node.level) [] = .error .noRepeatSet := by
    rw [List.flatten_cons, List.cons_append, List.foldlM_cons]
    have : processActivity find .eventClasses log a.node.level [] a = .error .noRepeatSet := by
      unfold processActivity
      rw [if_neg (by simp [Dict.contains, Dict.get?]), if_neg (by simp)]
      unfold activityCounts
      rw [h]; rfl
    rw [this]; rfl
  rw [this]; rfl

end Ficus.Rs
