import Verif.Proofs.Hash

/-! Properties C01, C02, C03: hashes and hash-based equality. -/

namespace Ficus
open Spec

/-- C01a: the string hash is the polynomial in 31 of the code points plus one, modulo 10^9+7. -/
theorem C01_string_hash_closed_form (s : String) :
    stringHash s = poly31 (s.toList.map (fun c => 1 + (c.toNat : Int))) % 1000000007 := by
  have := stringHashLoop_spec s.toList 0 1 (by decide) (by decide)
  simpa [stringHash, hashMod] using this

example : stringHash "aB" = (98 + 31 * 67) % 1000000007 := by decide

/-- C01b: the string hash lies in [0, 10^9+7). -/
theorem C01_string_hash_range (s : String) : 0 ≤ stringHash s ∧ stringHash s < 10 ^ 9 + 7 := by
  rw [C01_string_hash_closed_form]
  exact ⟨Int.emod_nonneg _ (by decide), Int.emod_lt_of_pos _ (by decide)⟩

/-- C01c: for a window `[start, stop)` inside a non-empty collection the call succeeds and the value is given by the
window's elements alone. -/
theorem C01_window_hash_closed_form {α : Type} (hash : α → Int) (coll : List α) (start stop : Nat)
    (hne : coll ≠ []) (hw : start ≤ stop) (hb : stop ≤ coll.length) :
    collHash hash coll start (some stop) =
      .ok ((1 + poly31 (((coll.drop start).take (stop - start)).map (fun x => 1 + hash x))) % 1000000007) := by
  have : coll.length ≠ 0 := by simpa using hne
  unfold collHash
  simp only [this, if_false, Option.getD_some]
  rw [collHashLoop_spec _ _ _ _ _ _ (by decide) (by decide) (by omega)]
  simp [hashMod]

example : collHash (fun n : Nat => (n : Int)) [7, 8, 9, 10] 1 (some 3) = .ok ((1 + (9 + 31 * 10)) % 1000000007) := by
  decide

/-- C01d: two windows with the same elements, in any two collections and at any positions, have the same hash. -/
theorem C01_window_hash_position_independent {α : Type} (hash : α → Int) (c₁ c₂ : List α) (s₁ e₁ s₂ e₂ : Nat)
    (hw₁ : s₁ ≤ e₁) (hb₁ : e₁ ≤ c₁.length) (hw₂ : s₂ ≤ e₂) (hb₂ : e₂ ≤ c₂.length)
    (hne₁ : c₁ ≠ []) (hne₂ : c₂ ≠ [])
    (heq : (c₁.drop s₁).take (e₁ - s₁) = (c₂.drop s₂).take (e₂ - s₂)) :
    collHash hash c₁ s₁ (some e₁) = collHash hash c₂ s₂ (some e₂) := by
  rw [C01_window_hash_closed_form hash c₁ s₁ e₁ hne₁ hw₁ hb₁, C01_window_hash_closed_form hash c₂ s₂ e₂ hne₂ hw₂ hb₂, heq]

example : collHash (fun n : Nat => (n : Int)) [1, 2, 3, 1, 2] 0 (some 2) =
    collHash (fun n : Nat => (n : Int)) [5, 1, 2] 1 (some 3) :=
  C01_window_hash_position_independent _ _ _ _ _ _ _ (by decide) (by decide) (by decide) (by decide) (by decide)
    (by decide) (by decide)

/-- C01e: whenever the collection hash returns, the value lies in [0, 10^9+7). -/
theorem C01_window_hash_range {α : Type} (hash : α → Int) (coll : List α) (start : Nat) (stop : Option Nat) (h : Int)
    (hr : collHash hash coll start stop = .ok h) : 0 ≤ h ∧ h < 10 ^ 9 + 7 := by
  unfold collHash at hr
  by_cases hl : coll.length = 0
  · simp only [hl, if_true, Except.ok.injEq] at hr; subst hr; decide
  · simp only [hl, if_false] at hr
    by_cases hb : start + (stop.getD coll.length - start) ≤ coll.length
    · rw [collHashLoop_spec _ _ _ _ _ _ (by decide) (by decide) hb] at hr
      simp only [Except.ok.injEq] at hr; subst hr
      exact ⟨Int.emod_nonneg _ (by decide), Int.emod_lt_of_pos _ (by decide)⟩
    · by_cases hn : 0 < stop.getD coll.length - start
      · rw [collHashLoop_oob _ _ _ _ _ _ (by omega) hn] at hr; cases hr
      · have : stop.getD coll.length - start = 0 := by omega
        rw [this] at hr; simp only [collHashLoop, Except.ok.injEq] at hr; subst hr; decide

/-- C01f: a non-empty window reaching past the end of a non-empty collection raises `IndexError`. -/
theorem C01_window_hash_out_of_range {α : Type} (hash : α → Int) (coll : List α) (start stop : Nat)
    (hne : coll ≠ []) (hw : start < stop) (hb : coll.length < stop) :
    collHash hash coll start (some stop) = .error .indexError := by
  have : coll.length ≠ 0 := by simpa using hne
  unfold collHash
  simp only [this, if_false, Option.getD_some]
  exact collHashLoop_oob _ _ _ _ _ _ (by omega) (by omega)

example : collHash (fun n : Nat => (n : Int)) [1, 2] 1 (some 3) = .error .indexError := by decide

/-- C02: events whose payloads are the same mapping (same lookups) have the same hash and compare equal, whatever the
insertion orders. -/
theorem C02_event_hash_insertion_order {K V : Type} [DecidableEq K] (strK : K → String) (strV : V → String)
    (d e : Dict K V) (hd : d.WF) (he : e.WF) (h : ∀ k, d.get? k = e.get? k) :
    dictHash strK strV d = dictHash strK strV e ∧ eventEq strK strV d e = true := by
  have hp := Dict.perm_of_get?_eq hd he h
  have : dictHash strK strV d = dictHash strK strV e := by
    unfold dictHash joinedPairs
    rw [sort_eq_of_perm (hp.map _)]
  exact ⟨this, by simp [eventEq, this]⟩

example : eventEq (fun s : String => s) (fun s : String => s)
    [("concept:name", "a"), ("org:resource", "r")] [("org:resource", "r"), ("concept:name", "a")] = true :=
  (C02_event_hash_insertion_order _ _ _ _ (by decide) (by decide) (by
    intro k; simp only [Dict.get?]
    by_cases h : "concept:name" = k
    · subst h; decide
    · simp [h])).2

/-- C02b: the two hashes also agree after any history of assignments that produces the same mapping: assigning two
different keys in either order gives equal events. -/
theorem C02_assignment_order {K V : Type} [DecidableEq K] (strK : K → String) (strV : V → String)
    (d : Dict K V) (hd : d.WF) (k₁ k₂ : K) (v₁ v₂ : V) (hk : k₁ ≠ k₂) :
    eventEq strK strV ((d.set k₁ v₁).set k₂ v₂) ((d.set k₂ v₂).set k₁ v₁) = true := by
  apply (C02_event_hash_insertion_order strK strV _ _
    (Dict.WF_set (Dict.WF_set hd _ _) _ _) (Dict.WF_set (Dict.WF_set hd _ _) _ _) _).2
  intro k
  simp only [Dict.get?_set]
  by_cases h1 : k₁ = k <;> by_cases h2 : k₂ = k <;> simp [h1, h2]
  exact absurd (h1.trans h2.symm) hk

/-- C03 refuted: two different payloads compare equal, because key and value strings are concatenated before hashing. -/
theorem C03_event_equality_refuted :
    ∃ d e : Dict String String, d.WF ∧ e.WF ∧ (∃ k, d.get? k ≠ e.get? k) ∧
      eventEq (fun s => s) (fun s => s) d e = true :=
  ⟨[("a", "bc")], [("ab", "c")], by decide, by decide, ⟨"a", by decide⟩, by decide⟩

/-- C03 refuted, second cause: even with one key the 31-polynomial of the strings collides. -/
theorem C03_event_equality_refuted_same_key :
    ∃ v w : String, v ≠ w ∧
      eventEq (fun s : String => s) (fun s => s) [("concept:name", v)] [("concept:name", w)] = true :=
  ⟨"aB", "BC", by decide, by decide⟩

/-- C03 partial (what is missing: the converse needs a collision-free hash on the pairs involved). If joining and
hashing is injective on the finite set of sorted pair lists at hand, equal events have equal payloads. -/
theorem C03_event_equality_partial {K V : Type} [DecidableEq K] (strK : K → String) (strV : V → String)
    (d e : Dict K V) (hd : d.WF) (he : e.WF)
    (hinj : ∀ p ∈ d, ∀ q ∈ e, strK p.1 ++ strV p.2 = strK q.1 ++ strV q.2 → p = q)
    (hhash : dictHash strK strV d = dictHash strK strV e → (joinedPairs strK strV d).Perm (joinedPairs strK strV e)) :
    eventEq strK strV d e = true ↔ ∀ k, d.get? k = e.get? k := by
  constructor
  · intro h
    have hp := hhash (by simpa [eventEq] using h)
    have hmem : ∀ p, p ∈ d ↔ p ∈ e := by
      intro p
      constructor
      · intro hpd
        have : strK p.1 ++ strV p.2 ∈ joinedPairs strK strV e :=
          hp.mem_iff.1 (List.mem_map.2 ⟨p, hpd, rfl⟩)
        obtain ⟨q, hq, hqe⟩ := List.mem_map.1 this
        rw [hinj p hpd q hq hqe.symm]; exact hq
      · intro hpe
        have : strK p.1 ++ strV p.2 ∈ joinedPairs strK strV d :=
          hp.mem_iff.2 (List.mem_map.2 ⟨p, hpe, rfl⟩)
        obtain ⟨q, hq, hqe⟩ := List.mem_map.1 this
        rw [← hinj q hq p hpe hqe]; exact hq
    intro k
    apply Option.ext; intro v
    rw [Dict.get?_eq_some_iff hd, Dict.get?_eq_some_iff he, hmem]
  · exact fun h => (C02_event_hash_insertion_order strK strV d e hd he h).2

example : eventEq (fun s : String => s) (fun s : String => s) [("k", "v")] [("k", "w")] = true ↔
    ∀ k, Dict.get? [("k", "v")] k = Dict.get? [("k", "w")] k :=
  C03_event_equality_partial _ _ _ _ (by decide) (by decide) (by decide) (fun h => absurd h (by decide))

/-- C03b: traces whose events have pairwise equal hashes compare equal (the attributes of the traces are not consulted). -/
theorem C03_trace_equality_of_events {K V : Type} (strK : K → String) (strV : V → String)
    (s t : List (Dict K V)) (h : s.map (dictHash strK strV) = t.map (dictHash strK strV)) :
    traceEq strK strV s t = true := by
  unfold traceEq traceHash
  simp only [decide_eq_true_eq, collHashAll_spec]
  have hm : s.map (fun x => 1 + dictHash strK strV x) = t.map (fun x => 1 + dictHash strK strV x) := by
    have := congrArg (List.map (fun x : Int => 1 + x)) h
    rw [List.map_map, List.map_map] at this
    exact this
  have hl : (s = []) ↔ (t = []) := by
    have := congrArg List.length h
    simp only [List.length_map] at this
    rw [← List.length_eq_zero_iff, ← List.length_eq_zero_iff, this]
  by_cases hs : s = []
  · simp [hs, hl.1 hs]
  · simp [hs, mt hl.2 hs, hm]

end Ficus
