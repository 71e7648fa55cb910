import Verif.Proofs.Library

/-! C81: what the parts of the local pipelines need, put, keep and drop. -/

namespace Ficus
namespace Library
open Library.Spec Ficus.Spec
variable {V S : Type}

theorem outcome_of_obeys {f : Input → Py V S Input} {tot : Prop} {D : Values V → Ends V → Prop} (h : Obeys f tot D)
    {r : Nat} {w : World V S} (hr : r < w.ctxs.length) : Outcome D tot r w (f (some r) w) := by
  have := h r w hr
  unfold wp at this
  revert this
  cases f (some r) w with
  | mk res w' => cases res <;> exact id

/-! Functions for the examples: every function returns the same text, and iteration gives two pairs. -/
def plainExt : Ext String Unit := { call := fun _ _ s => (.ok "x", s), pairs := fun _ _ => [("a", "la"), ("b", "lb")] }

/-- A world with one context that has these values. -/
def worldWith (d : Dict String String) : World String Unit := { ctxs := [d], used := [], rest := () }

/-- The keys of the returned context. -/
def keysOf (res : Except PyErr Input × World String Unit) : Except PyErr (Option (List String)) :=
  match res.1 with
  | .ok (some q) => .ok (some ((res.2.ctx q).map (·.1)))
  | .ok none => .ok none
  | .error e => .error e

/-- C81a: a part of any class, with any functions, on any context does what its line of the table says. -/
theorem C81_table (c : Cls) (x : Ext V S) (w : World V S) (r : Nat) (hr : r < w.ctxs.length) :
    Outcome (row c).Allows (TotalExt x) r w ((c.part x).exec (some r) w) :=
  outcome_of_obeys (obeys_one x c) hr

/-- The discovery of patterns puts patterns into the context; without a log it fails. -/
example : keysOf ((Cls.part plainExt .repeats).exec (some 0) (worldWith [("log", "l")])) = .ok (some ["log", "patterns"]) ∧
    keysOf ((Cls.part plainExt .repeats).exec (some 0) (worldWith [("graph", "g")])) = .error .valueError := by decide

/-- An entropy filter drops the patterns, the original context keeps them. -/
example : keysOf ((Cls.part plainExt .posEntropyDirect).exec (some 0) (worldWith [("log", "l"), ("patterns", "p")])) =
      .ok (some ["log"]) ∧
    ((Cls.part plainExt .posEntropyDirect).exec (some 0) (worldWith [("log", "l"), ("patterns", "p")])).2.ctx 0 =
      [("log", "l"), ("patterns", "p")] := by decide

/-- C81b: a pipeline built from any parts, also nested ones, on any context does what the table says about its parts, one
after another. -/
theorem C81_pipeline (ps : List (LPart V S)) (w : World V S) (r : Nat) (hr : r < w.ctxs.length) :
    Outcome (DoesL ps) (TotalL ps) r w (runPipeline (parts ps) (some r) w) :=
  outcome_of_obeys (obeys_reset (obeys_parts ps)) hr

/-- Activities found on a copy are not in the context afterwards. -/
example : keysOf (runPipeline (parts [.withCopy [.one (.discoverRepeats false false) plainExt],
    .one .printInfo plainExt]) (some 0) (worldWith [("log", "l")])) = .ok (some ["log"]) ∧
    keysOf (runPipeline (parts [.withCopy [.one (.discoverRepeats false false) plainExt],
      .one .printFound plainExt]) (some 0) (worldWith [("log", "l")])) = .error .valueError := by decide +kernel

/-- The values of the returned context. -/
def Ends.last : Ends V → Option (Values V)
  | .stops _ => none
  | .returns own out => some (out.getD own)

theorem last_seenFrom (own : Values V) (e : Ends V) : Ends.last (e.seenFrom own) = Ends.last e := by
  cases e with
  | stops _ => rfl
  | returns o out => cases out <;> rfl

/-- One line of the table, in terms of keys. -/
theorem row_keysAfter (row : Row) {c : Values V} {e : Ends V} {keys : List String} (hk : Exactly keys c)
    (h : row.Allows c e) :
    match Ends.last e with
    | none => row.keysAfter keys = none
    | some o => ∃ keys', row.keysAfter keys = some keys' ∧ Exactly keys' o := by
  have hneed : (∀ k ∈ row.needs, (c k).isSome) ↔ ∀ k ∈ row.needs, k ∈ keys :=
    ⟨fun h k hk' => (hk k).1 (h k hk'), fun h k hk' => (hk k).2 (h k hk')⟩
  have changed : ∀ {ks o}, Changed ks c o → Exactly (keys ++ ks) o := by
    intro ks o h k
    rw [List.mem_append]
    by_cases hk' : k ∈ ks
    · exact ⟨fun _ => Or.inr hk', fun _ => h.2 k hk'⟩
    · rw [h.1 k hk']
      exact ⟨fun h => Or.inl ((hk k).1 h), fun h => (hk k).2 (h.resolve_right hk')⟩
  cases e with
  | stops own =>
    obtain ⟨⟨k, hk1, hk2⟩, _⟩ := h
    show row.keysAfter keys = none
    unfold Row.keysAfter
    rw [if_neg]
    intro h
    have := (hk k).2 (h k hk1)
    rw [hk2] at this
    simp at this
  | returns own out =>
    unfold Row.keysAfter
    cases out with
    | none =>
      obtain ⟨h1, h2⟩ := h
      rw [if_pos (hneed.1 h1)]
      show ∃ keys', _ ∧ Exactly keys' own
      refine ⟨_, rfl, ?_⟩
      cases he : row.effect with
      | shows =>
        rw [he] at h2
        have h2 : own = c := h2
        rw [h2]; exact hk
      | colours => rw [he] at h2; exact changed h2.1
      | puts ks => rw [he] at h2; exact changed h2
      | derives ks => rw [he] at h2; exact h2.elim
      | resets ks => rw [he] at h2; exact h2.elim
    | some o =>
      obtain ⟨h1, _, h2⟩ := h
      rw [if_pos (hneed.1 h1)]
      show ∃ keys', _ ∧ Exactly keys' o
      refine ⟨_, rfl, ?_⟩
      cases he : row.effect with
      | shows => rw [he] at h2; exact h2.elim
      | colours => rw [he] at h2; exact h2.elim
      | puts ks => rw [he] at h2; exact h2.elim
      | derives ks => rw [he] at h2; exact changed h2
      | resets ks => rw [he] at h2; exact h2

/-- A pipeline of parts of these classes, each with its functions. -/
def straight (cs : List (Cls × Ext V S)) : List (LPart V S) := cs.map (fun p => .one p.1 p.2)

theorem straight_keysAfter : ∀ (cs : List (Cls × Ext V S)) {c : Values V} {e : Ends V} {keys : List String},
    Exactly keys c → DoesL (straight cs) c e →
    match Ends.last e with
    | none => keysAfter (cs.map (·.1)) keys = none
    | some o => ∃ keys', keysAfter (cs.map (·.1)) keys = some keys' ∧ Exactly keys' o
  | [], c, e, keys, hk, h => by
    unfold straight DoesL at h
    rw [h]
    exact ⟨keys, rfl, hk⟩
  | p :: cs, c, e, keys, hk, h => by
    unfold straight at h
    rw [List.map_cons] at h
    unfold DoesL at h
    replace h : Then (row p.1).Allows (DoesL (straight cs)) c e :=
      Then.mono (fun _ _ h => by unfold Does at h; exact h) (fun _ _ h => h) h
    rcases h with ⟨own, h, rfl⟩ | ⟨own, h, h'⟩ | ⟨own, out, e', h, h', rfl⟩
    · have := row_keysAfter _ hk h
      show keysAfter (p.1 :: cs.map (·.1)) keys = none
      unfold keysAfter
      rw [show (row p.1).keysAfter keys = none from this]
      rfl
    · obtain ⟨keys1, h1, h2⟩ := row_keysAfter _ hk h
      have := straight_keysAfter cs (show Exactly keys1 own from h2) h'
      rw [List.map_cons, keysAfter, h1]
      exact this
    · obtain ⟨keys1, h1, h2⟩ := row_keysAfter _ hk h
      have := straight_keysAfter cs (show Exactly keys1 out from h2) h'
      rw [List.map_cons, keysAfter, h1, last_seenFrom]
      exact this

theorem totalL_straight : ∀ (cs : List (Cls × Ext V S)), (∀ p ∈ cs, TotalExt p.2) → TotalL (straight cs)
  | [], _ => by unfold straight TotalL; trivial
  | p :: cs, h => by
    unfold straight
    rw [List.map_cons]
    unfold TotalL TotalPart
    exact ⟨h p (by simp), totalL_straight cs (fun q hq => h q (by simp [hq]))⟩

/-- C81c: whether a straight pipeline of parts whose functions do not raise runs to the end can be computed from the table
and the keys of the first context alone: if so, the returned context has exactly the computed keys; if not, the run ends
with `ValueError`. -/
theorem C81_check (cs : List (Cls × Ext V S)) (hx : ∀ p ∈ cs, TotalExt p.2) (w : World V S) (r : Nat)
    (hr : r < w.ctxs.length) (keys : List String) (hk : Exactly keys (vals w r)) :
    match keysAfter (cs.map (·.1)) keys with
    | some keys' => ∃ q w', runPipeline (parts (straight cs)) (some r) w = (.ok (some q), w') ∧ Exactly keys' (vals w' q)
    | none => ∃ w', runPipeline (parts (straight cs)) (some r) w = (.error .valueError, w') := by
  have h := C81_pipeline (straight cs) w r hr
  cases hrun : runPipeline (parts (straight cs)) (some r) w with
  | mk res w' =>
    rw [hrun] at h
    cases res with
    | error e =>
      obtain ⟨_, h⟩ := h
      obtain ⟨rfl, h'⟩ := h (totalL_straight cs hx)
      have := straight_keysAfter cs hk h'
      rw [show keysAfter (cs.map (·.1)) keys = none from this]
      exact ⟨w', rfl⟩
    | ok v =>
      obtain ⟨_, h⟩ := h
      rcases h with ⟨rfl, h⟩ | ⟨q, rfl, _, _, h⟩
      · obtain ⟨keys', h1, h2⟩ := straight_keysAfter cs hk h
        rw [h1]
        exact ⟨r, w', rfl, h2⟩
      · obtain ⟨keys', h1, h2⟩ := straight_keysAfter cs hk h
        rw [h1]
        exact ⟨q, w', rfl, h2⟩

example : TotalExt plainExt := fun _ _ _ => ⟨"x", rfl⟩

/-- The usual order of the discovery works, and without the repeat sets it does not. -/
example : keysAfter [.repeats, .repeatSets, .activities, .inTraces, .logFromActivities, .petriInductive] ["log"] =
      some ["log", "patterns", "repeat_sets", "activities", "traces_activities", "log", "petri_net"] ∧
    keysAfter [.repeats, .activities] ["log"] = none ∧
    keysAfter [.discoverRepeats true false, .dfgEntropyDirect, .printFound] ["log"] = none := by decide

/-- The classes that replace the context by a new one with the log only. -/
def forgets (c : Cls) : Prop :=
  c ∈ [.posEntropyDirect, .posEntropyIndirect, .dfgEntropyDirect, .dfgEntropyIndirect, .removeByName, .removeByNames,
    .preprocessNames]

theorem keysAfter_append : ∀ (a b : List Cls) (keys : List String),
    keysAfter (a ++ b) keys = (keysAfter a keys).bind (keysAfter b)
  | [], _, _ => rfl
  | c :: a, b, keys => by
    rw [List.cons_append, keysAfter, keysAfter]
    cases (row c).keysAfter keys with
    | none => rfl
    | some k => exact keysAfter_append a b k

theorem Row.keysAfter_nodup {row : Row} {keys keys' : List String} (h : row.keysAfter keys = some keys') {k : String}
    (hk : k ∈ keys') : k ∈ keys ∨ (match row.effect with
      | .shows => False | .colours => k = "cached_colors" | .puts ks => k ∈ ks | .derives ks => k ∈ ks
      | .resets ks => k ∈ ks) := by
  unfold Row.keysAfter at h
  split at h
  · simp only [Option.some.injEq] at h
    subst h
    cases he : row.effect <;> rw [he] at hk <;> simp at hk ⊢ <;> tauto
  · simp at h

/-- The keys for which a class of parts puts values. -/
def makes (c : Cls) : List String :=
  match (row c).effect with
  | .shows => []
  | .colours => ["cached_colors"]
  | .puts ks => ks
  | .derives ks => ks
  | .resets ks => ks

theorem not_mem_keysAfter : ∀ (cs : List Cls) {keys keys' : List String} {k : String}, keysAfter cs keys = some keys' →
    k ∉ keys → (∀ c ∈ cs, k ∉ makes c) → k ∉ keys'
  | [], keys, keys', k, h, hk, _ => by
    simp only [keysAfter, Option.some.injEq] at h
    subst h; exact hk
  | c :: cs, keys, keys', k, h, hk, hc => by
    rw [keysAfter] at h
    cases h1 : (row c).keysAfter keys with
    | none => rw [h1] at h; simp at h
    | some k1 =>
      rw [h1] at h
      refine not_mem_keysAfter cs (keys := k1) h ?_ (fun c' hc' => hc c' (by simp [hc']))
      intro hk1
      have hc := hc c (by simp)
      rcases Row.keysAfter_nodup h1 hk1 with h | h
      · exact hk h
      · unfold makes at hc
        revert h hc
        cases (row c).effect <;> simp

/-- C81d: the entropy filters, the removal of events by name and the preprocessing of names make the pipeline forget all
values but the log: if a later part needs another value that no part in between puts, the pipeline fails with
`ValueError`, whatever was computed before. -/
theorem C81_forgets (before between after : List (Cls × Ext V S)) (z p : Cls × Ext V S) (hz : forgets z.1)
    (k : String) (hk : k ≠ "log") (hp : k ∈ (row p.1).needs) (hb : ∀ c ∈ between, k ∉ makes c.1)
    (hx : ∀ c ∈ before ++ z :: between ++ p :: after, TotalExt c.2) (w : World V S) (r : Nat) (hr : r < w.ctxs.length) :
    ∃ w', runPipeline (parts (straight (before ++ z :: between ++ p :: after))) (some r) w = (.error .valueError, w') := by
  have hex : Exactly ((w.ctx r).map (·.1)) (vals w r) := by
    intro k
    exact Dict.contains_iff (w.ctx r) k
  have h := C81_check _ hx w r hr _ hex
  suffices hn : keysAfter ((before ++ z :: between ++ p :: after).map (·.1)) ((w.ctx r).map (·.1)) = none by
    rw [hn] at h; exact h
  rw [List.map_append, List.map_append, List.map_cons, List.map_cons, keysAfter_append, keysAfter_append]
  cases keysAfter (before.map (·.1)) ((w.ctx r).map (·.1)) with
  | none => rfl
  | some k0 =>
    show ((keysAfter (z.1 :: between.map (·.1)) k0).bind _) = none
    rw [keysAfter]
    have hz' : row z.1 = { needs := ["log"], effect := .resets ["log"] } := by
      unfold forgets at hz
      simp only [List.mem_cons, List.not_mem_nil, or_false] at hz
      rcases hz with h | h | h | h | h | h | h <;> rw [h] <;> rfl
    rw [hz']
    unfold Row.keysAfter
    split
    · show ((keysAfter (between.map (·.1)) ["log"]).bind _) = none
      cases h1 : keysAfter (between.map (·.1)) ["log"] with
      | none => rfl
      | some k1 =>
        have hk1 : k ∉ k1 := by
          refine not_mem_keysAfter _ h1 (by simpa using hk) ?_
          intro c hc
          obtain ⟨c', hc', rfl⟩ := List.mem_map.1 hc
          exact hb c' hc'
        show keysAfter (p.1 :: after.map (·.1)) k1 = none
        rw [keysAfter]
        unfold Row.keysAfter
        rw [if_neg (fun h => hk1 (h k hp))]
        rfl
    · rfl

/-- Activities found before an entropy filter cannot be printed after it. -/
example : forgets .dfgEntropyDirect ∧ "activities" ∈ (row .printFound).needs ∧ "activities" ∉ makes .printInfo ∧
    keysOf (runPipeline (parts (straight ([(.discoverRepeats true false, plainExt)] ++ (.dfgEntropyDirect, plainExt) ::
      [(.printInfo, plainExt)] ++ [(.printFound, plainExt)]))) (some 0) (worldWith [("log", "l")])) = .error .valueError := by
  refine ⟨by unfold forgets; simp, by decide, by decide, by decide +kernel⟩

/-- C81e: `ClearActivities` on a context without a log fails, but the activities of the context have been replaced. -/
theorem C81_clear_early (x : Ext V S) (hx : TotalExt x) (w : World V S) (r : Nat) (hr : r < w.ctxs.length)
    (hl : vals w r "log" = none) :
    ∃ w', (Cls.part x .clear).exec (some r) w = (.error .valueError, w') ∧ (vals w' r "activities").isSome ∧
      ∀ k, k ≠ "activities" → vals w' r k = vals w r k := by
  have h := C81_table .clear x w r hr
  cases hrun : (Cls.part x .clear).exec (some r) w with
  | mk res w' =>
    rw [hrun] at h
    cases res with
    | error e =>
      obtain ⟨_, h⟩ := h
      obtain ⟨rfl, _, h1, h2⟩ := h hx
      exact ⟨w', rfl, h2 "activities" (by simp [row]), fun k hk => h1 k (by simpa [row] using hk)⟩
    | ok v =>
      obtain ⟨_, h⟩ := h
      have : (vals w r "log").isSome := by
        rcases h with ⟨_, h, _⟩ | ⟨q, _, _, _, h, _⟩ <;> exact h "log" (by simp [row])
      rw [hl] at this
      simp at this

example : ((Cls.part plainExt .clear).exec (some 0) (worldWith [("activities", "old")])).2.ctx 0 = [("activities", "x")] := by
  decide

/-- C81f: pipelines that start with a path or a log get a new context with exactly a log, and no other context is
touched. Anything else given to the starting parts is refused: `ReadLogFromXes` by `TypeError`, `UseExistingLog` by
`ValueError`, and then nothing changes. -/
theorem C81_start (x : Ext V S) (g : Given V) (w : World V S) :
    (match useExistingLog g w with
      | (.ok v, w') => ∃ l, g = .log l ∧ v = some w.ctxs.length ∧ Keeps (fun _ => False) w w' ∧
          ∀ k, vals w' w.ctxs.length k = if k = "log" then some l else none
      | (.error e, w') => (∀ l, g ≠ .log l) ∧ e = .valueError ∧ w' = w) ∧
    (match readLogFromXes x g w with
      | (.ok v, w') => (∃ p, g = .text p) ∧ v = some w.ctxs.length ∧ Keeps (fun _ => False) w w' ∧
          Exactly ["log"] (vals w' w.ctxs.length)
      | (.error e, w') => ((∀ p, g ≠ .text p) ∧ e = .typeError ∧ w' = w) ∨
          (∃ p, g = .text p) ∧ ¬ TotalExt x ∧ Keeps (fun _ => False) w w') := by
  have keep : ∀ {q : Nat} {w1 w2 w3 : World V S} {a : V}, Creates (fun _ => none) q w w1 → w2.ctxs = w1.ctxs →
      Puts q "log" a w2 w3 → Keeps (fun _ => False) w w3 := by
    intro q w1 w2 w3 a h1 h2 h3
    refine ⟨?_, fun q' hq' _ => ?_⟩
    · rw [h3.length, h2, h1.length]; omega
    · have hq1 : q' < w1.ctxs.length := Nat.lt_of_lt_of_le hq' h1.keeps.1
      rw [h3.keeps.2 q' (by rw [h2]; exact hq1) (fun h => by rw [h, h1.ref] at hq'; omega), h2]
      exact h1.keeps.2 q' hq' (by simp)
  constructor
  · cases g with
    | log l =>
      have : wp (useExistingLog (.log l) : Py V S Input) w (fun v w' => v = some w.ctxs.length ∧ Keeps (fun _ => False) w w' ∧
          ∀ k, vals w' w.ctxs.length k = if k = "log" then some l else none) (fun _ _ => False) := by
        unfold useExistingLog
        rw [wp_bind]
        refine wp_fresh (fun q w1 h1 => ?_)
        refine wp_put (by rw [h1.length, h1.ref]; omega) (fun w2 h2 => ⟨by rw [h1.ref], keep h1 rfl h2, fun k => ?_⟩)
        rw [← h1.ref, h2.own, h1.own]
      unfold wp at this
      revert this
      cases (useExistingLog (.log l) : Py V S Input) w with
      | mk res w' =>
        cases res with
        | ok v => exact fun h => ⟨l, rfl, h⟩
        | error e => exact fun h => h.elim
    | text p => exact ⟨fun l h => (by simp at h), rfl, rfl⟩
    | other => exact ⟨fun l h => (by simp at h), rfl, rfl⟩
  · cases g with
    | text p =>
      have : wp (readLogFromXes x (.text p) : Py V S Input) w (fun v w' => v = some w.ctxs.length ∧
          Keeps (fun _ => False) w w' ∧ Exactly ["log"] (vals w' w.ctxs.length))
          (fun _ w' => ¬ TotalExt x ∧ Keeps (fun _ => False) w w') := by
        unfold readLogFromXes
        rw [wp_bind]
        refine wp_fresh (fun q w1 h1 => ?_)
        rw [wp_bind]
        refine wp_run (fun a w2 h2 => ?_) (fun e w2 h2 ht => ⟨ht, h1.keeps.trans (keeps_of_ctxs _ h2) (fun _ _ h => h)⟩)
        refine wp_put (by rw [h2, h1.length, h1.ref]; omega) (fun w3 h3 => ⟨by rw [h1.ref], keep h1 h2 h3, fun k => ?_⟩)
        rw [← h1.ref, h3.own, vals_eq_of_ctxs h2, h1.own]
        by_cases hk : k = "log" <;> simp [hk]
      unfold wp at this
      revert this
      cases (readLogFromXes x (.text p) : Py V S Input) w with
      | mk res w' =>
        cases res with
        | ok v => exact fun h => ⟨⟨p, rfl⟩, h⟩
        | error e => exact fun h => Or.inr ⟨⟨p, rfl⟩, h⟩
    | log l => exact Or.inl ⟨fun l h => (by simp at h), rfl, rfl⟩
    | other => exact Or.inl ⟨fun l h => (by simp at h), rfl, rfl⟩

example : keysOf (readLogFromXes plainExt (.text "log.xes") (worldWith [("graph", "g")])) = .ok (some ["log"]) ∧
    keysOf (useExistingLog (.text "log.xes") (worldWith [("graph", "g")])) = .error .valueError := by decide

/-- The functions that are called without arguments, such as `list` and the save path, succeed. -/
def QuietExt (x : Ext V S) : Prop := ∀ name s, ∃ v s', x.call name [] s = (.ok v, s')

/-- C81g: started without a context (`None`), a part of any class fails with `AttributeError` exactly when it needs a value
of the context. -/
theorem C81_none (c : Cls) (x : Ext V S) (hx : QuietExt x) (w : World V S) :
    (((c.part x).exec none w).1 = .error .attributeError ↔ (row c).needs ≠ []) := by
  have hrun : ∀ name (w : World V S), ∃ v w', x.run name [] w = (.ok v, w') := by
    intro name w
    obtain ⟨v, s', h⟩ := hx name (w.used, w.rest)
    unfold Ext.run
    rw [h]
    exact ⟨v, _, rfl⟩
  cases c <;> try (simp [row, Cls.part, Part.exec, show', renew, compute, values, value, Py.bind, Py.fail, fresh, newContext, Py.ret, showColors,
    preprocessNames, tandemArrays, repeats, repeatSets, activities, inTraces, inUnattached, printFound, Library.activityGraph, levelGraphs, drawGraph, Library.classGraph, copyInput, resetColors, execParts]; done)
  · obtain ⟨v, w', h⟩ := hrun "save_path" w
    simp [row, Cls.part, Part.exec, showColors, values, value, Py.bind, Py.fail, h]
  · rename_i b
    cases b <;> simp [row, Cls.part, Part.exec, printActivities, show', values, value, Py.bind, Py.fail, Py.ret]
  · obtain ⟨v, w', h⟩ := hrun "list" w
    simp [row, Cls.part, Part.exec, clear, put, Py.bind, Py.fail, h]
  · rename_i b t
    cases b <;> cases t <;> simp [row, Cls.part, fromPatterns, patternsInput, tandemArrays, repeats, compute, Part.exec, copyInput,
      values, value, Py.bind, Py.fail, Py.ret, resetColors, execParts]
  · simp [row, Cls.part, discover, fromPatterns, patternsInput, tandemArrays, compute, Part.exec, copyInput,
      values, value, Py.bind, Py.fail, Py.ret, resetColors, execParts]
  · rename_i b t
    cases b <;> simp [row, Cls.part, discover, fromPatterns, patternsInput, repeats, compute, Part.exec, copyInput,
      values, value, Py.bind, Py.fail, Py.ret, resetColors, execParts]
  · simp [row, Cls.part, adjust, adjustStart, has, Part.exec, Py.bind, Py.fail, execParts]

example : QuietExt plainExt := fun _ s => ⟨"x", s, rfl⟩

/-- C81h: so do the parts with nested pipelines that look at the context before they run a pipeline, and no object is
changed. -/
theorem C81_none_nested (x : Ext V S) (c : Dict String V → List String × S → Except PyErr Bool) (p : List (LPart V S))
    (w : World V S) :
    (LPart.when c p).part.exec none w = (.error .attributeError, w) ∧
    (LPart.beforeAndAfter x p).part.exec none w = (.error .attributeError, w) ∧
    (LPart.eachLog x p).part.exec none w = (.error .attributeError, w) := by
  refine ⟨?_, ?_, ?_⟩ <;>
    simp [LPart.part, Part.exec, condition, beforeAndAfter, eachLog, show', values, value, Py.bind, Py.fail]

example : keysOf ((LPart.when (V := String) (S := Unit) (fun _ _ => .ok false) []).part.exec none (worldWith [])) =
    .error .attributeError := by decide

end Library
end Ficus
