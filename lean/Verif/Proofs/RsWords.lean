import Verif.Proofs.RsTables
import Verif.Proofs.Info
import Mathlib.Data.List.Nodup

/-! Helpers for the data set of words. -/

namespace Ficus.Rs.Cl

/-- The numbers of classes are one, two and so on. -/
structure Numbered (d : Dict String Nat) : Prop where
  wf : d.WF
  values : d.map Prod.snd = List.range' 1 d.length

theorem numbered_step {d : Dict String Nat} (h : Numbered d) (c : String) : Numbered (numberClass d c) ∧
    ∀ x, x ∈ (numberClass d c).keys ↔ x ∈ d.keys ∨ x = c := by
  unfold numberClass
  by_cases hc : d.contains c = true
  · rw [if_pos hc]
    have := (Dict.contains_iff d c).1 hc
    exact ⟨h, fun x => ⟨.inl, fun k => k.elim id (fun e => e ▸ this)⟩⟩
  · rw [if_neg hc]
    have hn : c ∉ d.keys := fun k => hc ((Dict.contains_iff d c).2 k)
    have e := set_append_of_notMem d c (d.length + 1) hn
    refine ⟨⟨Dict.WF_set h.wf _ _, ?_⟩, fun x => ?_⟩
    · rw [e, List.map_append, h.values, List.length_append]
      simp [List.range'_concat, Nat.add_comm]
    · rw [Dict.mem_keys_set]; tauto

theorem numbered_fold (l : List String) : ∀ {d : Dict String Nat}, Numbered d → Numbered (l.foldl numberClass d) ∧
    ∀ x, x ∈ (l.foldl numberClass d).keys ↔ x ∈ d.keys ∨ x ∈ l := by
  induction l with
  | nil => intro d h; exact ⟨h, by simp⟩
  | cons c l ih =>
    intro d h
    obtain ⟨h1, h2⟩ := numbered_step h c
    obtain ⟨h3, h4⟩ := ih h1
    refine ⟨h3, fun x => ?_⟩
    rw [List.foldl_cons, h4, h2, List.mem_cons]; tauto

theorem Numbered.bounds {d : Dict String Nat} (h : Numbered d) {c : String} {n : Nat} (hc : d.get? c = some n) :
    1 ≤ n ∧ n ≤ d.length := by
  have : n ∈ d.map Prod.snd := List.mem_map.2 ⟨(c, n), Dict.mem_of_get? hc, rfl⟩
  rw [h.values, List.mem_range'_1] at this
  omega

theorem Numbered.inj {d : Dict String Nat} (h : Numbered d) {c c' : String} {n : Nat} (hc : d.get? c = some n)
    (hc' : d.get? c' = some n) : c = c' := by
  have hn : (d.map Prod.snd).Nodup := by rw [h.values]; exact List.nodup_range'
  have := List.inj_on_of_nodup_map hn (Dict.mem_of_get? hc) (Dict.mem_of_get? hc') rfl
  exact congrArg Prod.fst this

theorem wordRow_spec {d : Dict String Nat} {width : Nat} {w : List String} (h : ∀ c ∈ w, c ∈ d.keys) :
    wordRow d width w =
      some (w.map (fun c => ((d.get? c).getD 0 : ℚ)) ++ List.replicate (width - w.length) 0) := by
  have : w.mapM (fun c => do return ((← d.get? c : Nat) : ℚ)) = some (w.map (fun c => ((d.get? c).getD 0 : ℚ))) := by
    induction w with
    | nil => rfl
    | cons c w ih =>
      obtain ⟨n, hn⟩ := (Dict.mem_keys_iff d c).1 (h c (by simp))
      rw [List.mapM_cons, ih (fun x hx => h x (by simp [hx])), hn]
      simp [hn]
  rw [wordRow, this]; rfl

theorem width_spec (words : List (List String)) : ∀ m : Nat,
    (∀ w ∈ words, w.length < words.foldl (fun m w => max m (w.length + 1)) m) ∧
    m ≤ words.foldl (fun m w => max m (w.length + 1)) m ∧
    (words.foldl (fun m w => max m (w.length + 1)) m = m ∨
      ∃ w ∈ words, words.foldl (fun m w => max m (w.length + 1)) m = w.length + 1) := by
  induction words with
  | nil => intro m; simp
  | cons w words ih =>
    intro m
    obtain ⟨h1, h2, h3⟩ := ih (max m (w.length + 1))
    rw [List.foldl_cons]
    refine ⟨?_, by omega, ?_⟩
    · intro x hx
      rcases List.mem_cons.1 hx with rfl | hx
      · omega
      · exact h1 x hx
    · rcases h3 with h3 | ⟨x, hx, h3⟩
      · rw [h3]
        rcases max_choice m (w.length + 1) with e | e
        · exact .inl e
        · exact .inr ⟨w, by simp, e⟩
      · exact .inr ⟨x, by simp [hx], h3⟩

theorem table_rows {rows : List (List ℚ)} {width : Nat} (h : ∀ r ∈ rows, r.length = width) :
    (List.range rows.length).map (fun i => (List.range width).map (fun j => entry rows.flatten width i j)) = rows := by
  have hf := (flatMap_at (fun r : List ℚ => r) width rows h).2
  refine List.ext_getElem? (fun i => ?_)
  rw [List.getElem?_map]
  rcases hi : rows[i]? with _ | r
  · simp [List.getElem?_eq_none_iff.1 hi]
  · have hil : i < rows.length := (List.getElem?_eq_some_iff.1 hi).1
    have hr := h r (List.mem_of_getElem? hi)
    rw [List.getElem?_range hil]
    simp only [Option.map_some, Option.some.injEq]
    refine List.ext_getElem? (fun j => ?_)
    rw [List.getElem?_map]
    rcases hj : r[j]? with _ | x
    · have := List.getElem?_eq_none_iff.1 hj
      simp [hr ▸ this]
    · have hjl : j < width := hr ▸ (List.getElem?_eq_some_iff.1 hj).1
      have := hf i r hi j hjl
      rw [List.flatMap_id'] at this
      rw [List.getElem?_range hjl, Option.map_some, entry, this, hj]; rfl

theorem wordsTable_spec {E : Type} [HasName E] (find : Option (String → Option (Option Match))) (source : TraceSource)
    (log : List (List (Nested E))) : ∃ t, wordsTable find source log = .ok t ∧ IsWordTable t (wordsOf find source log) := by
  rw [wordsOf_eq]
  obtain ⟨hn, hk⟩ := numbered_fold (modelWords find source log).flatten (d := []) ⟨Dict.WF_nil, rfl⟩
  obtain ⟨w1, _, w3⟩ := width_spec (modelWords find source log) 0
  let numbers := (modelWords find source log).flatten.foldl numberClass []
  let width := (modelWords find source log).foldl (fun m w => max m (w.length + 1)) 0
  let rows := (modelWords find source log).map (fun w =>
    w.map (fun c => ((numbers.get? c).getD 0 : ℚ)) ++ List.replicate (width - w.length) 0)
  have hrows : (modelWords find source log).mapM (wordRow numbers width) = some rows := by
    have : ∀ ws : List (List String), (∀ w ∈ ws, ∀ c ∈ w, c ∈ numbers.keys) → ws.mapM (wordRow numbers width) =
        some (ws.map (fun w => w.map (fun c => ((numbers.get? c).getD 0 : ℚ)) ++ List.replicate (width - w.length) 0)) := by
      intro ws
      induction ws with
      | nil => intro _; rfl
      | cons w ws ih =>
        intro h
        rw [List.mapM_cons, wordRow_spec (h w (by simp)), ih (fun x hx => h x (by simp [hx]))]; rfl
    refine this _ (fun w hw c hc => (hk c).2 (.inr (List.mem_flatten.2 ⟨w, hw, hc⟩)))
  have hlen : ∀ r ∈ rows, r.length = width := by
    intro r hr
    obtain ⟨w, hw, rfl⟩ := List.mem_map.1 hr
    have := w1 w hw
    simp only [List.length_append, List.length_map, List.length_replicate]
    omega
  have hfl := (flatMap_at (fun r : List ℚ => r) width rows hlen).1
  rw [List.flatMap_id'] at hfl
  have hrl : rows.length = (modelWords find source log).length := by simp [rows]
  have htab := tableOf_spec (v := rows.flatten)
    (rows := (List.range (modelWords find source log).length).map (fun i => "Trace_" ++ Nat.repr i))
    (columns := (List.range width).map (fun i => "Symbol_" ++ Nat.repr i)) (by simp [hfl, hrl])
  refine ⟨{ values := rows, columns := (List.range width).map (fun i => "Symbol_" ++ Nat.repr i),
            rows := (List.range (modelWords find source log).length).map (fun i => "Trace_" ++ Nat.repr i) }, ?_, ?_⟩
  · show (do
      let rows ← orPanic ((modelWords find source log).mapM (wordRow numbers width))
      tableOf rows.flatten ((List.range (modelWords find source log).length).map (fun i => "Trace_" ++ Nat.repr i))
        ((List.range width).map (fun i => "Symbol_" ++ Nat.repr i))) = _
    rw [hrows]
    refine htab.trans ?_
    have := table_rows hlen
    rw [hrl] at this
    simp only [List.length_map, List.length_range, this]
  · have hkeys : numbers.length = (modelWords find source log).flatten.dedup.length := by
      have hp : numbers.keys.Perm (modelWords find source log).flatten.dedup := by
        refine (List.perm_ext_iff_of_nodup hn.wf (List.nodup_dedup _)).2 (fun x => ?_)
        rw [hk x, List.mem_dedup]
        simp [Dict.keys]
      have := hp.length_eq
      simpa [Dict.keys] using this
    have hget : ∀ c ∈ (modelWords find source log).flatten, ∃ n, numbers.get? c = some n :=
      fun c hc => (Dict.mem_keys_iff _ c).1 ((hk c).2 (.inr hc))
    refine ⟨rfl, by simp, by simpa using w1, by simpa using w3, fun c => (numbers.get? c).getD 0, ?_, ?_, ?_⟩
    · intro c hc
      obtain ⟨n, e⟩ := hget c hc
      have := hn.bounds e
      rw [hkeys.symm]
      simpa [e] using this
    · intro c hc c' hc' e
      obtain ⟨n, en⟩ := hget c hc
      obtain ⟨m, em⟩ := hget c' hc'
      simp only [en, em, Option.getD_some] at e
      subst e
      exact hn.inj en em
    · simp [rows]

end Ficus.Rs.Cl
