import Verif.Proofs.Text

/-! Property C04: the text format round trips. -/

namespace Ficus
variable {E : Type} [HasName E]

/-- The text of a trace: its names joined by the events separator. -/
def traceText (esep : List Char) (t : List E) : List Char := List.intercalate esep (t.map (fun e => (name e).toList))

/-- C04a: the serialised text is the traces' texts joined by the traces separator. -/
theorem C04_serialize_is_join (log : Log E) (tsep esep : List Char) :
    serializeLog log tsep esep = List.intercalate tsep (log.evs.map (traceText esep)) := by
  rw [serializeLog_eq, joinSep_eq_intercalate]
  congr 2; funext t
  rw [joinSep_eq_intercalate]; rfl

example : serializeLog (Log.ofEvs [["a", "b"], ["c"]]) = "a,b\nc".toList := by decide

/-- C04b: splitting the text into lines and parsing them gives back the names, trace by trace. The hypotheses say that no
occurrence of a separator starts inside a name (resp. a line); for one-character separators see C04c. -/
theorem C04_parse_serialize (log : Log E) (tsep esep : List Char) (ht : tsep ≠ []) (he : esep ≠ [])
    (hlog : log.evs ≠ []) (hne : ∀ t ∈ log.evs, t ≠ [])
    (hname : ∀ t ∈ log.evs, ∀ e ∈ t, ¬ esep <:+: ((name e).toList ++ esep.dropLast))
    (hline : ∀ t ∈ log.evs, ¬ tsep <:+: (traceText esep t ++ tsep.dropLast)) :
    ∃ lines, pySplit tsep (serializeLog log tsep esep) = .ok lines ∧
      parseLogFromStrings esep lines = .ok (log.names.map (fun ns => { events := ns })) := by
  have hjoin : ∀ t : List E, joinSep esep (t.map (fun e => (name e).toList)) = traceText esep t := by
    intro t; rw [joinSep_eq_intercalate]; rfl
  refine ⟨log.evs.map (fun t => joinSep esep (t.map (fun e => (name e).toList))), ?_, ?_⟩
  · simp only [pySplit, ht, if_false, serializeLog_eq]
    rw [split_join _ ht]
    · simpa using hlog
    · intro x hx
      obtain ⟨t, htm, rfl⟩ := List.mem_map.1 hx
      rw [hjoin]; exact hline t htm
  · rw [parseLog_ok _ he]
    congr 1
    unfold Log.names
    rw [List.map_map, List.map_map]
    apply List.map_congr_left
    intro t htm
    simp only [Function.comp_apply]
    rw [split_join _ he]
    · simp [List.map_map, Function.comp_def]
    · simpa using hne t htm
    · intro x hx
      obtain ⟨e, hem, rfl⟩ := List.mem_map.1 hx
      exact hname t htm e hem

theorem singleton_infix_iff (c : Char) (l : List Char) : [c] <:+: l ↔ c ∈ l := by
  constructor
  · intro h; exact h.subset (by simp)
  · intro h
    obtain ⟨s, t, rfl⟩ := List.append_of_mem h
    exact ⟨s, t, by simp⟩

theorem mem_intercalate {c : Char} {sep : List Char} {l : List (List Char)} (h : c ∈ List.intercalate sep l) :
    c ∈ sep ∨ ∃ x ∈ l, c ∈ x := by
  rw [← joinSep_eq_intercalate] at h
  induction l with
  | nil => simp [joinSep] at h
  | cons x l ih =>
    cases l with
    | nil => exact Or.inr ⟨x, by simp, by simpa [joinSep] using h⟩
    | cons y r =>
      simp only [joinSep, List.mem_append] at h
      rcases h with (h | h) | h
      · exact Or.inr ⟨x, by simp, h⟩
      · exact Or.inl h
      · rcases ih h with h | ⟨z, hz, hc⟩
        · exact Or.inl h
        · exact Or.inr ⟨z, by simp [hz], hc⟩

/-- C04c: with two different one-character separators that occur in no name, every non-empty log without empty traces
round trips. -/
theorem C04_round_trip_chars (log : Log E) (c d : Char) (hcd : c ≠ d) (hlog : log.evs ≠ [])
    (hne : ∀ t ∈ log.evs, t ≠ [])
    (hname : ∀ t ∈ log.evs, ∀ e ∈ t, c ∉ (name e).toList ∧ d ∉ (name e).toList) :
    ∃ lines, pySplit [d] (serializeLog log [d] [c]) = .ok lines ∧
      parseLogFromStrings [c] lines = .ok (log.names.map (fun ns => { events := ns })) := by
  apply C04_parse_serialize log [d] [c] (by simp) (by simp) hlog hne
  · intro t ht e he
    simp only [List.dropLast_singleton, List.append_nil, singleton_infix_iff]
    exact (hname t ht e he).1
  · intro t ht
    simp only [List.dropLast_singleton, List.append_nil, singleton_infix_iff]
    intro h
    rcases mem_intercalate h with h | ⟨x, hx, hd⟩
    · simp at h; exact hcd h.symm
    · obtain ⟨e, he, rfl⟩ := List.mem_map.1 hx
      exact (hname t ht e he).2 hd

example : ∃ lines, pySplit ['\n'] (serializeLog (Log.ofEvs [["start", "check"], ["check"]]) ['\n'] [',']) = .ok lines ∧
    parseLogFromStrings [','] lines = .ok [{ events := ["start", "check"] }, { events := ["check"] }] :=
  C04_round_trip_chars (Log.ofEvs [["start", "check"], ["check"]]) ',' '\n' (by decide) (by decide) (by decide) (by decide)

/-- C04d: parsing any strings and serialising the result gives the strings joined by the traces separator. -/
theorem C04_serialize_parse (strings : List (List Char)) (tsep esep : List Char) (he : esep ≠ []) :
    ∃ ts, parseLogFromStrings esep strings = .ok ts ∧
      serializeLog { traces := ts } tsep esep = List.intercalate tsep strings := by
  refine ⟨_, parseLog_ok _ he _, ?_⟩
  rw [serializeLog_eq, joinSep_eq_intercalate]
  congr 1
  unfold Log.evs
  rw [List.map_map, List.map_map]
  conv => rhs; rw [← List.map_id strings]
  apply List.map_congr_left
  intro s _
  simp only [Function.comp_apply, List.map_map, id]
  have : ((fun e : String => (name e).toList) ∘ String.ofList) = id := by
    funext l; simp [HasName.name]
  rw [this, List.map_id, join_splitLoop _ he s.length _ _ (le_refl _)]
  rfl

example : ∃ ts, parseLogFromStrings [','] ["a,,b".toList, "".toList] = .ok ts ∧
    serializeLog { traces := ts } ['\n'] [','] = "a,,b\n".toList :=
  C04_serialize_parse _ _ _ (by decide)

/-- C04e: an empty separator is rejected. -/
theorem C04_empty_separator (s : List Char) (ss : List (List Char)) :
    parseLogFromStrings [] (s :: ss) = .error .valueError := rfl

/-- C04f: the hypothesis "no empty trace" is needed: the empty trace is written as the empty line, and every line is read
as at least one event. -/
theorem C04_no_empty_trace_parsed (sep s : List Char) (t : Trace String) (h : parseTraceFromString sep s = .ok t) :
    t.events ≠ [] := by
  unfold parseTraceFromString pySplit at h
  by_cases hs : sep = []
  · simp [hs] at h
  · simp only [hs, if_false] at h
    cases h
    simpa using splitLoop_ne_nil sep 0 [] s

/-- C04g: several logs are written as their texts joined by the logs separator. -/
theorem C04_serialize_logs (logs : List (Log E)) (lsep tsep esep : List Char) :
    serializeLogs logs lsep tsep esep = List.intercalate lsep (logs.map (fun l => serializeLog l tsep esep)) := by
  unfold serializeLogs
  rw [serializeLogsLoop_eq, joinSep_eq_intercalate]; simp

end Ficus
