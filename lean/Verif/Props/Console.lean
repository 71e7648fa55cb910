import Verif.Proofs.Console

/-! Property C99: the facts about a log that are printed on the console or written to a file of names. -/

namespace Ficus
open Spec
variable {E : Type} [HasName E]

/-- A log used in the examples. -/
def consoleLog : Log String := Log.ofEvs [["a", "b", "a"], [], ["b: 1", "a"]]

/-- C99a: the report on a log consists of five lines with the number of traces, of events and of distinct names. -/
theorem C99_report (log : Log E) :
    printLogInfo log = textOf
      ["============================================",
       "Number of traces in log: " ++ toString log.evs.length,
       "Number of events in log: " ++ toString log.evs.flatten.length,
       "Number of low-level event classes in log: " ++ toString (namesInOrder log).length,
       "============================================"] := by
  have hk : (createLogInformation log).eventsCount.length = (namesInOrder log).length := by
    rw [← infoCount_keys]; exact (List.length_map _).symm
  simp only [printLogInfo, printText_eq, ← textOf_append, hk, List.length_flatten, ruleText]
  rfl

example : printLogInfo consoleLog = "============================================\nNumber of traces in log: 3\n\
    Number of events in log: 5\nNumber of low-level event classes in log: 3\n\
    ============================================\n" := by decide +kernel

/-- C99b: two logs have the same report exactly if they have as many traces, events and distinct names. -/
theorem C99_report_same (log log' : Log E) :
    printLogInfo log = printLogInfo log' ↔ log.evs.length = log'.evs.length ∧
      log.evs.flatten.length = log'.evs.flatten.length ∧ (namesInOrder log).length = (namesInOrder log').length := by
  rw [C99_report, C99_report]
  constructor
  · intro h
    have hd : ∀ (p : String) (n : Nat), '\n' ∉ p.toList → OneLine (p ++ toString n) := by
      intro p n hp
      simp only [OneLine, String.toList_append, List.mem_append, not_or]
      exact ⟨hp, natText_oneLine n⟩
    have hall : ∀ l : Log E, ∀ s ∈ ["============================================",
        "Number of traces in log: " ++ toString l.evs.length,
        "Number of events in log: " ++ toString l.evs.flatten.length,
        "Number of low-level event classes in log: " ++ toString (namesInOrder l).length,
        "============================================"], OneLine s := by
      intro l s hs
      simp only [List.mem_cons, List.not_mem_nil, or_false] at hs
      rcases hs with rfl | rfl | rfl | rfl | rfl
      · unfold OneLine; decide
      · exact hd _ _ (by decide)
      · exact hd _ _ (by decide)
      · exact hd _ _ (by decide)
      · unfold OneLine; decide
    have hl := textOf_inj _ _ (hall log) (hall log') h
    have hc : ∀ (p : String) (m n : Nat), p ++ toString m = p ++ toString n → m = n := by
      intro p m n e
      have := congrArg String.toList e
      simp only [String.toList_append, List.append_cancel_left_eq] at this
      exact natText_injective (String.toList_inj.1 this)
    simp only [List.cons.injEq, true_and, and_true] at hl
    exact ⟨hc _ _ _ hl.1, hc _ _ _ hl.2.1, hc _ _ _ hl.2.2⟩
  · rintro ⟨h1, h2, h3⟩; rw [h1, h2, h3]

example : printLogInfo consoleLog = printLogInfo (Log.ofEvs [["z"], ["x", "y", "z"], ["z"]]) ∧
    printLogInfo consoleLog ≠ printLogInfo (Log.ofEvs [["z"], ["x", "y", "z"], ["x", "z"]]) := by decide +kernel

/-- C99c: around an operation that gives a log, the report on the log before and the report on the result are printed, with
what the operation prints between them; the result is passed on unchanged. -/
theorem C99_before_after (operation : String) (inner : Log E → String × Except PyErr (Log E)) (log result : Log E)
    (text : String) (h : inner log = (text, .ok result)) :
    printBeforeAndAfter operation inner log =
      (textOf ["Operation " ++ operation ++ " started"] ++ printLogInfo log ++ text ++ printLogInfo result ++
        textOf ["Operation " ++ operation ++ " finished", ""], .ok result) := by
  simp only [printBeforeAndAfter, h, printText_eq, String.append_assoc, ← textOf_append]
  rfl

/-- C99d: around an operation that raises, the error is passed on and no report on a result is printed. -/
theorem C99_before_raises (operation : String) (inner : Log E → String × Except PyErr (Log E)) (log : Log E)
    (text : String) (e : PyErr) (h : inner log = (text, .error e)) :
    printBeforeAndAfter operation inner log =
      (textOf ["Operation " ++ operation ++ " started"] ++ printLogInfo log ++ text, .error e) := by
  simp only [printBeforeAndAfter, h, printText_eq]

example : (printBeforeAndAfter "drop" (fun l => ("", .ok (Log.ofEvs (l.evs.drop 1)))) consoleLog).2 =
      .ok (Log.ofEvs [[], ["b: 1", "a"]]) ∧
    (printBeforeAndAfter "drop" (fun _ => ("", .error .keyError)) consoleLog).2 = .error .keyError := ⟨rfl, rfl⟩

/-- C99e: the printed graph consists of one block for each selected name that is followed by something, with one line for
each follower and the number of times it follows; the artificial start and end take part. -/
theorem C99_graph (selector : String → Bool) (log : Log E) :
    ∃ blocks : List (String × List (String × Nat)),
      printDfg selector log = textOf (blocks.flatMap (fun b => followerLines b.1 b.2)) ∧
      (blocks.map Prod.fst).Nodup ∧
      (∀ a, a ∈ blocks.map Prod.fst ↔ selector a = true ∧ ∃ b, 0 < followCount log a b) ∧
      ∀ a followers, (a, followers) ∈ blocks → (followers.map Prod.fst).Nodup ∧
        ∀ b n, (b, n) ∈ followers ↔ 0 < n ∧ n = followCount log a b := by
  have hw := (C09_wellformed log none true).1
  set d := (dfgOf (createLogInformation log).pairs).followedEvents with hd
  have hdw : d.WF := followedEvents_WF _
  have hpos : ∀ a b c, (createLogInformation log).pairs.get? (a, b) = some c ↔ 0 < c ∧ c = followCount log a b := by
    intro a b c
    rw [pairs_followCount]
    by_cases h0 : followCount log a b = 0
    · simp only [h0, if_true, reduceCtorEq, false_iff]; omega
    · simp only [h0, if_false, Option.some.injEq]; omega
  have hinv := fun f => (dfg_inv (createLogInformation log).pairs (createLogInformation log).pairs.keys []
    { pairs := (createLogInformation log).pairs } (by rw [List.nil_append]; exact hw) (by simp) (by simp)).1 f
  have hmw : ∀ a m, d.get? a = some m → m.WF := by
    intro a m hm
    have := hinv a
    simp only [List.nil_append] at this
    rw [hd, dfgOf, this] at hm
    split at hm
    · cases hm
    · simp only [Option.some.injEq] at hm
      subst hm
      unfold Dict.WF Dict.keys
      rw [List.map_map]
      refine List.Nodup.map_on ?_ (hw.filter _)
      intro x hx y hy hxy
      simp only [List.mem_filter, decide_eq_true_eq] at hx hy
      exact Prod.ext (hx.2.trans hy.2.symm) hxy
  have hne : ∀ a m, d.get? a = some m → m ≠ [] := by
    intro a m hm
    have := hinv a
    simp only [List.nil_append] at this
    rw [hd, dfgOf, this] at hm
    split at hm
    · cases hm
    · simp only [Option.some.injEq] at hm
      subst hm
      rename_i hnil
      exact fun e => hnil (List.map_eq_nil_iff.1 e)
  have hex : ∀ a m, d.get? a = some m → ∀ b n, (b, n) ∈ m ↔ 0 < n ∧ n = followCount log a b := by
    intro a m hm b n
    rw [← Dict.get?_eq_some_iff (hmw a m hm), ← hpos, ← C11_followed_events_exact _ hw a b n]
    constructor
    · intro h; exact ⟨m, hm, h⟩
    · rintro ⟨m', hm', h⟩
      rw [← hd, hm] at hm'
      cases hm'; exact h
  refine ⟨d.filter (fun b => selector b.1), printFollowed_eq selector d, ?_, ?_, ?_⟩
  · exact List.Nodup.sublist (List.filter_sublist.map _) hdw
  · intro a
    simp only [List.mem_map, List.mem_filter]
    constructor
    · rintro ⟨⟨a', m⟩, ⟨hm, hs⟩, rfl⟩
      have hg := Dict.get?_of_mem hdw hm
      refine ⟨hs, ?_⟩
      obtain ⟨⟨b, n⟩, hb⟩ := List.exists_mem_of_ne_nil _ (hne _ _ hg)
      have := (hex _ _ hg b n).1 hb
      exact ⟨b, this.2 ▸ this.1⟩
    · rintro ⟨hs, b, hb⟩
      obtain ⟨m, hm, _⟩ := (C11_followed_events_exact _ hw a b (followCount log a b)).2 ((hpos _ _ _).2 ⟨hb, rfl⟩)
      exact ⟨(a, m), ⟨Dict.mem_of_get? hm, hs⟩, rfl⟩
  · intro a followers hm
    have hg := Dict.get?_of_mem hdw (List.mem_filter.1 hm).1
    exact ⟨hmw _ _ hg, hex _ _ hg⟩

example : printDfg (fun s => s == "a") consoleLog = "Followers of a:\nb: 1\nFAKE_END: 2\n\n" := by decide +kernel

theorem followCount_mem (log : Log E) (a b : String) (h : 0 < followCount log a b) :
    (a = "FAKE_START" ∨ a ∈ log.evs.flatten.map name) ∧ (b = "FAKE_END" ∨ b ∈ log.evs.flatten.map name) := by
  unfold followCount at h
  rw [List.count_pos_iff, List.mem_flatMap] at h
  obtain ⟨t, ht, hab⟩ := h
  have hsub : ∀ n, n ∈ t.map name → n ∈ log.evs.flatten.map name := by
    intro n hn
    obtain ⟨e, he, rfl⟩ := List.mem_map.1 hn
    exact List.mem_map.2 ⟨e, List.mem_flatten.2 ⟨t, ht, he⟩, rfl⟩
  have ha : a ∈ (framed "FAKE_START" "FAKE_END" (t.map name)).dropLast := by
    rw [← adjacent_map_fst]; exact List.mem_map.2 ⟨_, hab, rfl⟩
  have hb : b ∈ (framed "FAKE_START" "FAKE_END" (t.map name)).tail := by
    rw [← adjacent_map_snd]; exact List.mem_map.2 ⟨_, hab, rfl⟩
  rw [framed_dropLast] at ha
  rw [framed_tail] at hb
  split at ha
  · simp at ha
  · rename_i hne
    rw [if_neg hne] at hb
    simp only [List.mem_cons, List.mem_append, List.not_mem_nil, or_false] at ha hb
    exact ⟨ha.imp id (hsub _), hb.symm.imp id (hsub _)⟩

/-- C99f: the printed graph can be read back: if no name holds an end of line, two logs with the same printed graph agree on
how often what follows each selected name. -/
theorem C99_graph_readable (selector : String → Bool) (log log' : Log E)
    (hn : ∀ e ∈ log.evs.flatten, OneLine (name e)) (hn' : ∀ e ∈ log'.evs.flatten, OneLine (name e))
    (h : printDfg selector log = printDfg selector log') (a b : String) (ha : selector a = true) :
    followCount log a b = followCount log' a b := by
  obtain ⟨bs, ht, hnd, hk, hf⟩ := C99_graph selector log
  obtain ⟨cs, ht', hnd', hk', hf'⟩ := C99_graph selector log'
  have lines : ∀ (l : Log E) (ds : List (String × List (String × Nat))), (∀ e ∈ l.evs.flatten, OneLine (name e)) →
      (∀ a, a ∈ ds.map Prod.fst ↔ selector a = true ∧ ∃ b, 0 < followCount l a b) →
      (∀ a followers, (a, followers) ∈ ds → (followers.map Prod.fst).Nodup ∧
        ∀ b n, (b, n) ∈ followers ↔ 0 < n ∧ n = followCount l a b) →
      ∀ s ∈ ds.flatMap (fun b => followerLines b.1 b.2), OneLine s := by
    intro l ds hl hk hf s hs
    have hname : ∀ n ∈ l.evs.flatten.map name, OneLine n := by
      intro n hn; obtain ⟨e, he, rfl⟩ := List.mem_map.1 hn; exact hl e he
    obtain ⟨⟨x, fs⟩, hx, hs⟩ := List.mem_flatMap.1 hs
    have hxo : OneLine x := by
      obtain ⟨_, y, hy⟩ := (hk x).1 (List.mem_map.2 ⟨_, hx, rfl⟩)
      rcases (followCount_mem l x y hy).1 with rfl | hm
      · unfold OneLine; decide
      · exact hname _ hm
    simp only [followerLines, List.cons_append, List.mem_cons, List.mem_append, List.mem_map, List.not_mem_nil,
      or_false] at hs
    rcases hs with rfl | ⟨⟨y, n⟩, hy, rfl⟩ | rfl
    · simp only [OneLine, String.toList_append, List.mem_append, not_or]
      exact ⟨⟨by decide, hxo⟩, by decide⟩
    · have hp := ((hf x fs hx).2 y n).1 hy
      have hyo : OneLine y := by
        rcases (followCount_mem l x y (by omega)).2 with rfl | hm
        · unfold OneLine; decide
        · exact hname _ hm
      simp only [OneLine, String.toList_append, List.mem_append, not_or]
      exact ⟨⟨hyo, by decide⟩, natText_oneLine n⟩
    · unfold OneLine; decide
  have hbc : bs = cs := by
    apply followerLines_inj
    exact textOf_inj _ _ (lines log bs hn hk hf) (lines log' cs hn' hk' hf') (by rw [← ht, ← ht', h])
  subst hbc
  have key : ∀ n, 0 < n → (n = followCount log a b ↔ n = followCount log' a b) := by
    intro n hn0
    have one : ∀ (l : Log E), (∀ a, a ∈ bs.map Prod.fst ↔ selector a = true ∧ ∃ b, 0 < followCount l a b) →
        (∀ a followers, (a, followers) ∈ bs → (followers.map Prod.fst).Nodup ∧
          ∀ b n, (b, n) ∈ followers ↔ 0 < n ∧ n = followCount l a b) →
        (n = followCount l a b ↔ ∃ fs, (a, fs) ∈ bs ∧ (b, n) ∈ fs) := by
      intro l hk hf
      constructor
      · intro e
        obtain ⟨⟨x, fs⟩, hx, rfl⟩ := List.mem_map.1 ((hk a).2 ⟨ha, b, by omega⟩)
        exact ⟨fs, hx, ((hf _ fs hx).2 b n).2 ⟨hn0, e⟩⟩
      · rintro ⟨fs, hx, hy⟩
        exact (((hf a fs hx).2 b n).1 hy).2
    rw [one log hk hf, one log' hk' hf']
  rcases Nat.eq_zero_or_pos (followCount log a b) with h0 | h0
  · rcases Nat.eq_zero_or_pos (followCount log' a b) with h1 | h1
    · rw [h0, h1]
    · exact ((key _ h1).2 rfl).symm
  · exact (key _ h0).1 rfl

example : ∃ log log' : Log String, log ≠ log' ∧ (∀ e ∈ log.evs.flatten, OneLine (name e)) ∧
    (∀ e ∈ log'.evs.flatten, OneLine (name e)) ∧ printDfg (fun _ => true) log = printDfg (fun _ => true) log' :=
  ⟨Log.ofEvs [["a", "b"], []], Log.ofEvs [[], ["a", "b"]], by decide, by unfold OneLine; decide +kernel,
    by unfold OneLine; decide +kernel, by decide +kernel⟩

/-- C99g: with names over several lines the printed graph cannot be read back. -/
theorem C99_graph_ambiguous : ∃ (log log' : Log String) (a b : String),
    printDfg (fun s => s == "a") log = printDfg (fun s => s == "a") log' ∧ a = "a" ∧
      followCount log a b ≠ followCount log' a b :=
  ⟨Log.ofEvs [["a", "b"], ["a", "c"]], Log.ofEvs [["a", "b: 1\nc"]], "a", "b", by decide +kernel, rfl, by decide +kernel⟩

/-- C99h: the file of names holds every name of the log once, in the order of first occurrence; if no name holds an end of
line, splitting the file at the empty lines gives the names back. -/
theorem C99_names_readable (log : Log E) (h0 : log.evs.flatten ≠ []) (hn : ∀ e ∈ log.evs.flatten, OneLine (name e)) :
    pySplit ['\n', '\n'] (savedEventNames log) = .ok ((namesInOrder log).map String.toList) := by
  unfold savedEventNames
  rw [infoCount_keys, joinTexts_eq, pySplit, if_neg (by decide), split_join _ (by decide)]
  · intro e
    rw [List.map_eq_nil_iff] at e
    obtain ⟨x, hx⟩ := List.exists_mem_of_ne_nil _ h0
    have : name x ∈ namesInOrder log := by
      unfold namesInOrder; rw [List.mem_eraseDups]; exact List.mem_map.2 ⟨x, hx, rfl⟩
    rw [e] at this; cases this
  · intro x hx hi
    obtain ⟨n, hm, rfl⟩ := List.mem_map.1 hx
    unfold namesInOrder at hm
    rw [List.mem_eraseDups] at hm
    obtain ⟨e, he, rfl⟩ := List.mem_map.1 hm
    have h1 := hn e he
    have hc : ['\n', '\n'].count '\n' ≤ ((name e).toList ++ ['\n', '\n'].dropLast).count '\n' := hi.sublist.count_le _
    rw [List.count_append, List.count_eq_zero.2 h1] at hc
    revert hc; decide

example : pySplit ['\n', '\n'] (savedEventNames consoleLog) = .ok [['a'], ['b'], ['b', ':', ' ', '1']] := by
  decide +kernel

/-- C99i: a name with an end of line spoils the file of names: different sets of names give the same file. -/
theorem C99_names_ambiguous : ∃ log log' : Log String, savedEventNames log = savedEventNames log' ∧
    namesInOrder log = ["a", "b"] ∧ namesInOrder log' = ["a\n\nb"] :=
  ⟨Log.ofEvs [["a", "b"]], Log.ofEvs [["a\n\nb"]], by decide +kernel, by decide +kernel, by decide +kernel⟩

end Ficus
