import Verif.Spec.RsService
import Verif.Props.Remote

/-! Property C141: the execution of pipelines by the service of the backend. -/

namespace Ficus.Service
open Spec

variable {W G : Type}

/-! ### Messages -/

theorem adds_ok : Adds (fun st : State W G => (st, Outcome.ok)) := fun st => ⟨[], by simp, by simp⟩

theorem send_adds (env : Env W G) (m : Msg (Option G)) (hm : m.isFinal = false) (st : State W G) :
    ∃ ms, (send env m st).1.sent = st.sent ++ ms ∧ ∀ x ∈ ms, x.isFinal = false := by
  unfold send
  split
  · exact ⟨[m], rfl, by simpa using hm⟩
  · exact ⟨[], by simp, by simp⟩

theorem adds_log (env : Env W G) (message : String) : Adds (log env message) := by
  intro st
  obtain ⟨ms, h1, h2⟩ := send_adds env (.log message) rfl st
  refine ⟨ms, ?_, h2⟩
  rw [← h1]
  unfold log
  split <;> simp_all

theorem adds_andThen {a b : Step W G} (ha : Adds a) (hb : Adds b) : Adds (andThen a b) := by
  intro st
  obtain ⟨ms, h1, h2⟩ := ha st
  unfold andThen
  split
  · rename_i st' e
    rw [e] at h1
    obtain ⟨ms', h3, h4⟩ := hb st'
    refine ⟨ms ++ ms', ?_, ?_⟩
    · rw [h3, h1, List.append_assoc]
    · intro m hm
      rcases List.mem_append.1 hm with hm | hm
      · exact h2 m hm
      · exact h4 m hm
  · exact ⟨ms, h1, h2⟩

theorem adds_part (env : Env W G) (name : String) {action : Step W G} (h : Adds action) : Adds (runPart env name action) := by
  unfold runPart
  exact adds_andThen (adds_log _ _) (adds_andThen h (fun st => adds_log _ _ st))

theorem adds_answer (env : Env W G) (keys : List String) (u : Uuid) : Adds (answer env keys u) := by
  intro st
  unfold answer
  split
  · exact ⟨[], by simp, by simp⟩
  · exact send_adds env _ rfl st

theorem adds_request (env : Env W G) (keys : List String) (u : Uuid) {before : Step W G} (h : Adds before) :
    Adds (request env keys u before) := by
  intro st
  unfold request
  split
  · exact ⟨[], by simp, by simp⟩
  · exact adds_andThen h (adds_answer env keys u) st

theorem adds_runAll {steps : List (Step W G)} (h : ∀ s ∈ steps, Adds s) : Adds (runAll steps) := by
  induction steps with
  | nil => exact adds_ok
  | cons s ss ih =>
    simp only [runAll]
    exact adds_andThen (h s (by simp)) (ih (fun t ht => h t (by simp [ht])))

theorem adds_pipeline (env : Env W G) {steps : List (Step W G)} (h : ∀ s ∈ steps, Adds s) : Adds (runPipeline env steps) := by
  intro st
  obtain ⟨ms, h1, h2⟩ := adds_runAll h (putDefault env st)
  refine ⟨ms, ?_, h2⟩
  unfold runPipeline
  rw [h1]
  unfold putDefault
  split <;> rfl

theorem adds_find {env : Env W G} (hl : LawfulParts env) {name : String} {c : Config} {p : Option (Step W G)} {s : Step W G}
    (h : findPart env name c p = some s) (hp : ∀ q, p = some q → Adds q) : Adds s := by
  unfold findPart at h
  cases ha : env.part name with
  | none => rw [ha] at h; cases h
  | some act =>
    rw [ha, Option.map_some, Option.some.injEq] at h
    subst h
    exact adds_part env name (hl name act ha _ hp)

mutual
theorem adds_compile {env : Env W G} (hl : LawfulParts env) : ∀ (g : GPart) (s : Step W G), compile env g = some s → Adds s
  | .default name c, s, h => by
    simp only [compile] at h
    exact adds_find hl h (by simp)
  | .defaultWith name c pipeline, s, h => by
    simp only [compile, Option.bind_eq_bind, Option.bind_eq_some_iff] at h
    obtain ⟨steps, h1, h2⟩ := h
    refine adds_find hl h2 (fun q hq => ?_)
    cases hq
    exact adds_pipeline env (adds_compileAll hl pipeline steps h1)
  | .simple key u, s, h => by
    simp only [compile, Option.some.injEq] at h
    subst h
    exact adds_request env _ _ adds_ok
  | .complex keys before c u, s, h => by
    simp only [compile, Option.bind_eq_bind, Option.bind_eq_some_iff, Option.pure_def, Option.some.injEq] at h
    obtain ⟨b, h1, rfl⟩ := h
    exact adds_request env _ _ (adds_find hl h1 (by simp))
  | .complexWith keys before c u pipeline, s, h => by
    simp only [compile, Option.bind_eq_bind, Option.bind_eq_some_iff, Option.pure_def, Option.some.injEq] at h
    obtain ⟨steps, h0, b, h1, rfl⟩ := h
    refine adds_request env _ _ (adds_find hl h1 (fun q hq => ?_))
    cases hq
    exact adds_pipeline env (adds_compileAll hl pipeline steps h0)
theorem adds_compileAll {env : Env W G} (hl : LawfulParts env) : ∀ (gs : List GPart) (ss : List (Step W G)),
    compileAll env gs = some ss → ∀ s ∈ ss, Adds s
  | [], ss, h => by
    simp only [compileAll, Option.some.injEq] at h
    subst h
    simp
  | g :: gs, ss, h => by
    simp only [compileAll, Option.bind_eq_bind, Option.bind_eq_some_iff, Option.pure_def, Option.some.injEq] at h
    obtain ⟨s, h1, ss', h2, rfl⟩ := h
    intro t ht
    rcases List.mem_cons.1 ht with rfl | ht
    · exact adds_compile hl g t h1
    · exact adds_compileAll hl gs ss' h2 t ht
end

theorem run_no_final {env : Env W G} (hl : LawfulParts env) (pipeline : List GPart) (values : List (String × Scalar)) :
    ∀ m ∈ (runRequest env pipeline values).1.sent, m.isFinal = false := by
  unfold runRequest
  split
  · rename_i steps ctx h1 h2
    obtain ⟨ms, h3, h4⟩ := adds_pipeline env (adds_compileAll hl pipeline steps h1) ⟨ctx, []⟩
    rw [h3]
    simpa using h4
  · simp

/-- C141: the messages of a run are some that are not final, then the final result, if the client still takes it: success with the
identifier of the run if the run succeeded and its context is kept under it; failure if it failed, and then nothing is kept; and no
final result at all if it panicked, and then nothing is kept either. -/
theorem C141_one_final (env : Env W G) (hl : LawfulParts env) (guid : String) (pipeline : List GPart) (values : List (String × Scalar))
    (contexts : Contexts W) :
    ∃ ms : List (Msg (Option G)), (∀ m ∈ ms, m.isFinal = false) ∧
      ((runRequest env pipeline values).2 = .ok ∧
          executePipeline env guid pipeline values contexts =
            (contexts.set guid (runRequest env pipeline values).1.context, ms ++ if env.accepts ms.length then [.final (some guid)] else []) ∨
        (∃ e, (runRequest env pipeline values).2 = .failed e) ∧
          executePipeline env guid pipeline values contexts = (contexts, ms ++ if env.accepts ms.length then [.final none] else []) ∨
        (runRequest env pipeline values).2 = .panicked ∧ executePipeline env guid pipeline values contexts = (contexts, ms)) := by
  refine ⟨(runRequest env pipeline values).1.sent, run_no_final hl pipeline values, ?_⟩
  unfold executePipeline
  rcases h : runRequest env pipeline values with ⟨st, o⟩
  have hs : ∀ m : Msg (Option G), (send env m st).1.sent = st.sent ++ if env.accepts st.sent.length then [m] else [] := by
    intro m
    unfold send
    split <;> simp
  cases o with
  | ok => left; exact ⟨rfl, by simp only [hs]⟩
  | failed e => right; left; exact ⟨⟨e, rfl⟩, by simp only [hs]⟩
  | panicked => right; right; exact ⟨rfl, rfl⟩

/-! ### Requests that cannot be read -/

mutual
theorem compile_none {env : Env W G} : ∀ g : GPart, compile env g = none ↔ ∃ n, Uses g n ∧ env.part n = none
  | .default name c => by
    simp only [compile, findPart, Option.map_eq_none_iff]
    constructor
    · exact fun h => ⟨name, .default, h⟩
    · rintro ⟨n, hu, h⟩
      cases hu
      exact h
  | .defaultWith name c pipeline => by
    have ih := compileAll_none (env := env) pipeline
    simp only [compile, Option.bind_eq_bind, Option.bind_eq_none_iff, findPart, Option.map_eq_none_iff]
    constructor
    · intro h
      cases hc : compileAll env pipeline with
      | none =>
        obtain ⟨g, hg, n, hu, hn⟩ := ih.1 hc
        exact ⟨n, .inDefault hg hu, hn⟩
      | some steps => exact ⟨name, .defaultWith, h steps hc⟩
    · rintro ⟨n, hu, hn⟩ steps hs
      cases hu with
      | defaultWith => exact hn
      | inDefault hg hu =>
        rw [ih.2 ⟨_, hg, n, hu, hn⟩] at hs
        cases hs
  | .simple key u => by
    simp only [compile, reduceCtorEq, false_iff]
    rintro ⟨n, hu, -⟩
    cases hu
  | .complex keys before c u => by
    simp only [compile, Option.bind_eq_bind, Option.bind_eq_none_iff, findPart, Option.pure_def, reduceCtorEq, imp_false]
    constructor
    · intro h
      refine ⟨before, .complex, ?_⟩
      cases hp : env.part before with
      | none => rfl
      | some act => exact absurd (by rw [hp]; rfl) (h _)
    · rintro ⟨n, hu, hn⟩ s hs
      cases hu
      rw [hn] at hs
      cases hs
  | .complexWith keys before c u pipeline => by
    have ih := compileAll_none (env := env) pipeline
    simp only [compile, Option.bind_eq_bind, Option.bind_eq_none_iff, findPart, Option.pure_def, reduceCtorEq, imp_false]
    constructor
    · intro h
      cases hc : compileAll env pipeline with
      | none =>
        obtain ⟨g, hg, n, hu, hn⟩ := ih.1 hc
        exact ⟨n, .inComplex hg hu, hn⟩
      | some steps =>
        refine ⟨before, .complexWith, ?_⟩
        cases hp : env.part before with
        | none => rfl
        | some act => exact absurd (by rw [hp]; rfl) (h steps hc _)
    · rintro ⟨n, hu, hn⟩ steps hs s hs'
      cases hu with
      | complexWith =>
        rw [hn] at hs'
        cases hs'
      | inComplex hg hu =>
        rw [ih.2 ⟨_, hg, n, hu, hn⟩] at hs
        cases hs
theorem compileAll_none {env : Env W G} : ∀ gs : List GPart, compileAll env gs = none ↔ ∃ g ∈ gs, ∃ n, Uses g n ∧ env.part n = none
  | [] => by simp [compileAll]
  | g :: gs => by
    have h1 := compile_none (env := env) g
    have h2 := compileAll_none (env := env) gs
    simp only [compileAll, Option.bind_eq_bind, Option.bind_eq_none_iff, Option.pure_def, reduceCtorEq, imp_false]
    constructor
    · intro h
      cases hc : compile env g with
      | none =>
        obtain ⟨n, hu, hn⟩ := h1.1 hc
        exact ⟨g, by simp, n, hu, hn⟩
      | some s =>
        cases hd : compileAll env gs with
        | none =>
          obtain ⟨g', hg, n, hu, hn⟩ := h2.1 hd
          exact ⟨g', by simp [hg], n, hu, hn⟩
        | some ss => exact absurd hd (h s hc ss)
    · rintro ⟨g', hg, n, hu, hn⟩ s hs ss hss
      rcases List.mem_cons.1 hg with rfl | hg
      · rw [h1.2 ⟨n, hu, hn⟩] at hs
        cases hs
      · rw [h2.2 ⟨g', hg, n, hu, hn⟩] at hss
        cases hss
end

theorem initial_none {env : Env W G} (values : List (String × Scalar)) : initialContext env values = none ↔ ∃ e ∈ values, env.known e.1 = false := by
  unfold initialContext
  generalize (List.nil : Dict String W) = d
  induction values generalizing d with
  | nil => simp
  | cons e es ih =>
    rw [List.foldlM_cons]
    cases hk : env.known e.1 with
    | false => simp [hk]
    | true =>
      simp only [if_true, Option.bind_eq_bind]
      cases hv : env.value e.2 with
      | none => simpa [hk] using ih d
      | some w => simpa [hk] using ih (Dict.set d e.1 w)

theorem initial_get {env : Env W G} {values : List (String × Scalar)} {ctx : Dict String W} (h : initialContext env values = some ctx)
    (key : String) : ctx.get? key = received env values key := by
  unfold initialContext at h
  have key' : ∀ (l : List (String × Scalar)) (d : Dict String W), List.foldlM (fun d e =>
      if env.known e.1 then (match env.value e.2 with | some w => some (d.set e.1 w) | none => some d) else none) d l = some ctx →
      ctx.get? key = (received env l key).or (d.get? key) := by
    intro l
    induction l with
    | nil =>
      intro d hd
      cases hd
      simp [received]
    | cons e es ih =>
      intro d hd
      rw [List.foldlM_cons] at hd
      have hr : ∀ o : Option W, received env (e :: es) key = (received env es key).or (if e.1 = key then env.value e.2 else none) := by
        intro _
        unfold received
        rw [List.filterMap_cons]
        cases (if e.1 = key then env.value e.2 else none) with
        | none => simp
        | some w => rw [List.getLast?_cons]; cases (es.filterMap (fun e => if e.1 = key then env.value e.2 else none)).getLast? <;> simp
      rw [hr none, Option.or_assoc]
      split at hd
      · cases hv : env.value e.2 with
        | none =>
          rw [hv] at hd
          rw [ih d hd]
          simp
        | some w =>
          rw [hv] at hd
          rw [ih _ hd, Dict.get?_set]
          by_cases hk : e.1 = key
          · subst hk; simp
          · simp [hk]
      · cases hd
  simpa using key' values [] h

/-- C141: a request that uses a part that there is not, at any depth, or a value under a key that there is not, is not answered by an
error: the stream ends without a single message. -/
theorem C141_unreadable_silent (env : Env W G) (guid : String) (pipeline : List GPart) (values : List (String × Scalar))
    (contexts : Contexts W)
    (h : (∃ g ∈ pipeline, ∃ n, Uses g n ∧ env.part n = none) ∨ ∃ e ∈ values, env.known e.1 = false) :
    executePipeline env guid pipeline values contexts = (contexts, []) := by
  have : runRequest env pipeline values = (⟨[], []⟩, .panicked) := by
    unfold runRequest
    rcases h with h | h
    · rw [(compileAll_none pipeline).2 h]
    · rw [(initial_none values).2 h]
      cases compileAll env pipeline <;> rfl
  unfold executePipeline
  rw [this]

/-- C141: and only such requests are not executed: every other one is executed on its values, the last one for each key. -/
theorem C141_readable (env : Env W G) (pipeline : List GPart) (values : List (String × Scalar))
    (h1 : ∀ g ∈ pipeline, ∀ n, Uses g n → env.part n ≠ none) (h2 : ∀ e ∈ values, env.known e.1 = true) :
    ∃ steps ctx, compileAll env pipeline = some steps ∧ initialContext env values = some ctx ∧
      (∀ key, ctx.get? key = received env values key) ∧ runRequest env pipeline values = runPipeline env steps ⟨ctx, []⟩ := by
  cases hc : compileAll env pipeline with
  | none =>
    obtain ⟨g, hg, n, hu, hn⟩ := (compileAll_none pipeline).1 hc
    exact absurd hn (h1 g hg n hu)
  | some steps =>
    cases hi : initialContext env values with
    | none =>
      obtain ⟨e, he, hk⟩ := (initial_none values).1 hi
      rw [h2 e he] at hk
      cases hk
    | some ctx =>
      refine ⟨steps, ctx, rfl, rfl, initial_get hi, ?_⟩
      unfold runRequest
      rw [hc, hi]

/-! ### What is executed -/

theorem send_all {env : Env W G} (ha : ∀ n, env.accepts n = true) (m : Msg (Option G)) (st : State W G) :
    send env m st = ({ st with sent := st.sent ++ [m] }, true) := by
  unfold send
  rw [if_pos (ha _)]

theorem log_all {env : Env W G} (ha : ∀ n, env.accepts n = true) (m : String) (st : State W G) :
    log env m st = ({ st with sent := st.sent ++ [.log m] }, .ok) := by
  unfold log
  rw [send_all ha]

theorem collect_eq (env : Env W G) (ctx : Dict String W) (keys : List String) :
    collect env ctx keys = match keys.find? (fun k => (ctx.get? k).isNone) with
      | some k => .error k
      | none => .ok (valuesOf env keys ctx) := by
  induction keys with
  | nil => rfl
  | cons k ks ih =>
    simp only [collect]
    cases hk : ctx.get? k with
    | none => simp [hk]
    | some w =>
      rw [List.find?_cons]
      simp only [hk, Option.isNone_some]
      rw [ih]
      cases List.find? (fun k => (ctx.get? k).isNone) ks with
      | none => simp [Except.map, valuesOf, hk]
      | some k' => rfl

theorem answer_all {env : Env W G} (ha : ∀ n, env.accepts n = true) (keys : List String) (u : Uuid) (st : State W G) :
    answer env keys u st = match keys.find? (fun k => (st.context.get? k).isNone) with
      | some k => (st, .failed k)
      | none => ({ st with sent := st.sent ++ [.part (env.uuidText u) (valuesOf env keys st.context)] }, .ok) := by
  unfold answer
  rw [collect_eq]
  cases List.find? (fun k => (st.context.get? k).isNone) keys with
  | none => simp only [send_all ha]
  | some k => rfl

theorem find_run {env : Env W G} {eff : Effects W} (ha : ∀ n, env.accepts n = true) (hq : Quiet env eff) {name : String} {c : Config}
    {s : Step W G} (h : findPart env name c none = some s) (st : State W G) :
    ∃ ms, s st = match (eff name (configValues env c) st.context).2 with
      | .ok => (⟨(eff name (configValues env c) st.context).1, st.sent ++ [started name, finished name ms]⟩, .ok)
      | o => (⟨(eff name (configValues env c) st.context).1, st.sent ++ [started name]⟩, o) := by
  unfold findPart at h
  cases hp : env.part name with
  | none => rw [hp] at h; cases h
  | some act =>
    rw [hp, Option.map_some, Option.some.injEq] at h
    subst h
    refine ⟨env.elapsed (st.sent ++ [started (G := G) name]).length, ?_⟩
    unfold runPart andThen
    simp only [log_all ha, hq name act hp]
    cases (eff name (configValues env c) st.context).2 with
    | ok => simp [started, finished]
    | failed e => rfl
    | panicked => rfl

/-- One part of a pipeline: it is executed in full, or stops for the reason given. -/
theorem part_run {env : Env W G} {eff : Effects W} (ha : ∀ n, env.accepts n = true) (hq : Quiet env eff) {g : GPart} (hf : Flat g)
    {s : Step W G} (h : compile env g = some s) (st : State W G) :
    ∃ ms, (reason env eff g st.context = none →
        s st = (⟨(effect env eff g st.context).1, st.sent ++ script env (effect env eff g st.context).1 ms g⟩, .ok)) ∧
      ∀ o, reason env eff g st.context = some o →
        (s st).2 = o ∧ o ≠ .ok ∧ ∃ p, p <+: script env (effect env eff g st.context).1 ms g ∧ (s st).1.sent = st.sent ++ p := by
  cases g with
  | defaultWith _ _ _ => exact hf.elim
  | complexWith _ _ _ _ _ => exact hf.elim
  | default name c =>
    simp only [compile] at h
    obtain ⟨ms, hs⟩ := find_run ha hq h st
    refine ⟨ms, ?_, ?_⟩
    · intro hr
      rw [hs]
      simp only [reason, keysOf, effect, List.find?_nil, Option.map_none] at hr ⊢
      cases ho : (eff name (configValues env c) st.context).2 <;> rw [ho] at hr <;> simp_all [script]
    · intro o hr
      rw [hs]
      simp only [reason, keysOf, effect, List.find?_nil, Option.map_none] at hr ⊢
      cases ho : (eff name (configValues env c) st.context).2 <;> rw [ho] at hr <;> simp only [Option.some.injEq, reduceCtorEq] at hr
      all_goals
        subst hr
        exact ⟨rfl, by simp, [started name], by simp [script], rfl⟩
  | simple k u =>
    simp only [compile, Option.some.injEq] at h
    subst h
    refine ⟨0, ?_, ?_⟩
    · intro hr
      simp only [reason, keysOf, effect] at hr
      unfold request andThen
      cases hk : List.find? (fun k => !env.known k) [k] with
      | some k' => rw [hk] at hr; cases hr
      | none =>
        rw [hk] at hr
        simp only [Option.map_eq_none_iff] at hr
        simp only [answer_all ha]
        rw [hr]
        rfl
    · intro o hr
      simp only [reason, keysOf, effect] at hr
      unfold request andThen
      cases hk : List.find? (fun k => !env.known k) [k] with
      | some k' =>
        rw [hk] at hr
        cases hr
        exact ⟨rfl, by simp, [], by simp, by simp⟩
      | none =>
        rw [hk] at hr
        simp only [Option.map_eq_some_iff] at hr
        obtain ⟨k', hk', rfl⟩ := hr
        simp only [answer_all ha]
        rw [hk']
        exact ⟨rfl, by simp, [], by simp, by simp⟩
  | complex ks before c u =>
    simp only [compile, Option.bind_eq_bind, Option.bind_eq_some_iff, Option.pure_def, Option.some.injEq] at h
    obtain ⟨b, hb, rfl⟩ := h
    obtain ⟨ms, hs⟩ := find_run ha hq hb st
    refine ⟨ms, ?_, ?_⟩
    · intro hr
      simp only [reason, keysOf, effect] at hr ⊢
      unfold request
      cases hk : List.find? (fun k => !env.known k) ks with
      | some k' => rw [hk] at hr; cases hr
      | none =>
        rw [hk] at hr
        unfold andThen
        rw [hs]
        cases ho : (eff before (configValues env c) st.context).2 <;> rw [ho] at hr <;>
          simp only [Option.map_eq_none_iff, reduceCtorEq] at hr
        simp only [answer_all ha]
        rw [hr]
        simp [script]
    · intro o hr
      simp only [reason, keysOf, effect] at hr ⊢
      unfold request
      cases hk : List.find? (fun k => !env.known k) ks with
      | some k' =>
        rw [hk] at hr
        cases hr
        exact ⟨rfl, by simp, [], by simp, by simp⟩
      | none =>
        rw [hk] at hr
        unfold andThen
        rw [hs]
        cases ho : (eff before (configValues env c) st.context).2 <;> rw [ho] at hr <;>
          simp only [Option.map_eq_some_iff, Option.some.injEq] at hr
        · obtain ⟨k', hk', rfl⟩ := hr
          simp only [answer_all ha]
          rw [hk']
          exact ⟨rfl, by simp, [started before, finished before ms], by simp [script], rfl⟩
        all_goals
          subst hr
          exact ⟨rfl, by simp, [started before], by simp [script], rfl⟩

theorem contextAt_succ (env : Env W G) (eff : Effects W) (g : GPart) (gs : List GPart) (ctx : Dict String W) (i : Nat) :
    contextAt env eff (g :: gs) ctx (i + 1) = contextAt env eff gs (effect env eff g ctx).1 i := rfl

theorem scripts_succ (env : Env W G) (eff : Effects W) (g : GPart) (gs : List GPart) (ctx : Dict String W) (m : Nat) (ms : Nat → Nat)
    (n : Nat) : scripts env eff (g :: gs) ctx (fun i => if i = 0 then m else ms (i - 1)) (n + 1) =
      script env (effect env eff g ctx).1 m g ++ scripts env eff gs (effect env eff g ctx).1 ms n := by
  unfold scripts
  rw [List.take_succ_cons, List.zipIdx_cons, List.flatMap_cons]
  congr 1
  rw [List.zipIdx_succ, List.flatMap_map]
  rfl

theorem all_run {env : Env W G} {eff : Effects W} (ha : ∀ n, env.accepts n = true) (hq : Quiet env eff) :
    ∀ (gs : List GPart) (_ : ∀ g ∈ gs, Flat g) (steps : List (Step W G)) (_ : compileAll env gs = some steps) (st : State W G),
    ∃ ms : Nat → Nat,
      ((∀ i g, gs[i]? = some g → reason env eff g (contextAt env eff gs st.context i) = none) →
        runAll steps st = (⟨contextAt env eff gs st.context gs.length, st.sent ++ scripts env eff gs st.context ms gs.length⟩, .ok)) ∧
      ∀ i g o, gs[i]? = some g → reason env eff g (contextAt env eff gs st.context i) = some o →
        (∀ j g', j < i → gs[j]? = some g' → reason env eff g' (contextAt env eff gs st.context j) = none) →
        (runAll steps st).2 = o ∧ o ≠ .ok ∧ ∃ p, p <+: script env (contextAt env eff gs st.context (i + 1)) (ms i) g ∧
          (runAll steps st).1.sent = st.sent ++ scripts env eff gs st.context ms i ++ p := by
  intro gs
  induction gs with
  | nil =>
    intro _ steps h st
    simp only [compileAll, Option.some.injEq] at h
    subst h
    exact ⟨fun _ => 0, fun _ => by simp [runAll, contextAt, scripts], by simp⟩
  | cons g gs ih =>
    intro hf steps h st
    simp only [compileAll, Option.bind_eq_bind, Option.bind_eq_some_iff, Option.pure_def, Option.some.injEq] at h
    obtain ⟨s, h1, ss, h2, rfl⟩ := h
    obtain ⟨m, hm1, hm2⟩ := part_run ha hq (hf g (by simp)) h1 st
    obtain ⟨ms, h3, h4⟩ := ih (fun g' hg' => hf g' (by simp [hg'])) ss h2
      ⟨(effect env eff g st.context).1, st.sent ++ script env (effect env eff g st.context).1 m g⟩
    refine ⟨fun i => if i = 0 then m else ms (i - 1), ?_, ?_⟩
    · intro hall
      have h0 := hall 0 g rfl
      simp only [runAll, andThen]
      rw [hm1 h0]
      simp only
      rw [h3 (fun i g' hg' => hall (i + 1) g' hg')]
      rw [List.length_cons, scripts_succ, contextAt_succ, List.append_assoc]
    · intro i g' o hg' hr hlt
      cases i with
      | zero =>
        cases hg'
        obtain ⟨e1, e2, p, e3, e4⟩ := hm2 o hr
        have : runAll (s :: ss) st = s st := by
          simp only [runAll, andThen]
          rcases hs : s st with ⟨st', o'⟩
          rw [hs] at e1
          cases o' with
          | ok => exact absurd e1.symm e2
          | failed _ => rfl
          | panicked => rfl
        rw [this]
        exact ⟨e1, e2, p, by simpa [contextAt] using e3, by rw [e4]; simp [scripts]⟩
      | succ i =>
        have h0 := hlt 0 g (by omega) rfl
        simp only [runAll, andThen]
        rw [hm1 h0]
        obtain ⟨e1, e2, p, e3, e4⟩ := h4 i g' o hg' hr (fun j g'' hj hg'' => hlt (j + 1) g'' (by omega) hg'')
        refine ⟨e1, e2, p, by simpa [contextAt_succ] using e3, ?_⟩
        rw [e4, scripts_succ]
        simp [List.append_assoc]

theorem putDefault_eq (env : Env W G) (st : State W G) : putDefault env st = ⟨withColors env st.context, st.sent⟩ := by
  unfold putDefault withColors
  split <;> rfl

/-- C141: if nothing speaks against any part, all parts are executed in their order, and what the client receives of each part is what
the context holds directly after that part; the context that is kept is the one after all of them. -/
theorem C141_all_executed (env : Env W G) (eff : Effects W) (ha : ∀ n, env.accepts n = true) (hq : Quiet env eff) (guid : String)
    (pipeline : List GPart) (hf : ∀ g ∈ pipeline, Flat g) (values : List (String × Scalar)) (contexts : Contexts W) (ctx : Dict String W)
    (h1 : ∀ g ∈ pipeline, ∀ n, Uses g n → env.part n ≠ none) (hi : initialContext env values = some ctx)
    (hall : ∀ i g, pipeline[i]? = some g → reason env eff g (contextAt env eff pipeline (withColors env ctx) i) = none) :
    ∃ ms : Nat → Nat, executePipeline env guid pipeline values contexts =
      (contexts.set guid (contextAt env eff pipeline (withColors env ctx) pipeline.length),
        scripts env eff pipeline (withColors env ctx) ms pipeline.length ++ [.final (some guid)]) := by
  cases hc : compileAll env pipeline with
  | none =>
    obtain ⟨g, hg, n, hu, hn⟩ := (compileAll_none pipeline).1 hc
    exact absurd hn (h1 g hg n hu)
  | some steps =>
    obtain ⟨ms, h3, -⟩ := all_run ha hq pipeline hf steps hc ⟨withColors env ctx, []⟩
    refine ⟨ms, ?_⟩
    unfold executePipeline runRequest
    rw [hc, hi]
    simp only [runPipeline, putDefault_eq]
    rw [h3 hall]
    simp only [send_all ha, List.nil_append]

/-- C141: otherwise the first part that something speaks against is not executed in full, nothing after it is executed, no context is
kept, and the client gets the messages of the parts before it, some of the first messages of that part, and the failure (no final
result if that part panicked). -/
theorem C141_first_failure (env : Env W G) (eff : Effects W) (ha : ∀ n, env.accepts n = true) (hq : Quiet env eff) (guid : String)
    (pipeline : List GPart) (hf : ∀ g ∈ pipeline, Flat g) (values : List (String × Scalar)) (contexts : Contexts W) (ctx : Dict String W)
    (h1 : ∀ g ∈ pipeline, ∀ n, Uses g n → env.part n ≠ none) (hi : initialContext env values = some ctx) (i : Nat) (g : GPart) (o : Outcome)
    (hg : pipeline[i]? = some g) (hr : reason env eff g (contextAt env eff pipeline (withColors env ctx) i) = some o)
    (hlt : ∀ j g', j < i → pipeline[j]? = some g' → reason env eff g' (contextAt env eff pipeline (withColors env ctx) j) = none) :
    (runRequest env pipeline values).2 = o ∧
    ∃ (ms : Nat → Nat) (p : List (Msg (Option G))), p <+: script env (contextAt env eff pipeline (withColors env ctx) (i + 1)) (ms i) g ∧
      executePipeline env guid pipeline values contexts =
        (contexts, scripts env eff pipeline (withColors env ctx) ms i ++ p ++ if o = .panicked then [] else [.final none]) := by
  cases hc : compileAll env pipeline with
  | none =>
    obtain ⟨g, hg, n, hu, hn⟩ := (compileAll_none pipeline).1 hc
    exact absurd hn (h1 g hg n hu)
  | some steps =>
    obtain ⟨ms, -, h4⟩ := all_run ha hq pipeline hf steps hc ⟨withColors env ctx, []⟩
    obtain ⟨e1, e2, p, e3, e4⟩ := h4 i g o hg hr hlt
    have hrun : runRequest env pipeline values = runAll steps ⟨withColors env ctx, []⟩ := by
      unfold runRequest
      rw [hc, hi]
      simp only [runPipeline, putDefault_eq]
    rw [hrun]
    refine ⟨e1, ms, p, e3, ?_⟩
    unfold executePipeline
    rw [hrun]
    rcases hs : runAll steps ⟨withColors env ctx, []⟩ with ⟨st, o'⟩
    rw [hs] at e1 e4
    simp only [List.nil_append] at e1 e4
    subst e1
    cases o' with
    | ok => exact absurd rfl e2
    | failed e => simp [send_all ha, e4]
    | panicked => simp [e4]

/-! ### Clients that are gone -/

theorem gone_part {env : Env W G} {g : GPart} {s : Step W G} (h : compile env g = some s) (st : State W G)
    (hg : env.accepts st.sent.length = false) : (s st).1 = st := by
  have hfind : ∀ {name : String} {c : Config} {p : Option (Step W G)} {b : Step W G}, findPart env name c p = some b →
      b st = (st, .failed ("Failed to send log message: " ++ ("Started activity " ++ name))) := by
    intro name c p b hb
    unfold findPart at hb
    cases hp : env.part name with
    | none => rw [hp] at hb; cases hb
    | some act =>
      rw [hp, Option.map_some, Option.some.injEq] at hb
      subst hb
      simp [runPart, andThen, log, send, hg]
  have hreq : ∀ (keys : List String) (u : Uuid) (b : Step W G), (b st).1 = st → (request env keys u b st).1 = st := by
    intro keys u b hb
    unfold request
    split
    · rfl
    · unfold andThen
      split
      · rename_i st' e
        rw [e] at hb
        simp only at hb
        subst hb
        unfold answer send
        split <;> simp [hg]
      · exact hb
  cases g with
  | default name c =>
    simp only [compile] at h
    rw [hfind h]
  | defaultWith name c pipeline =>
    simp only [compile, Option.bind_eq_bind, Option.bind_eq_some_iff] at h
    obtain ⟨_, _, h⟩ := h
    rw [hfind h]
  | simple k u =>
    simp only [compile, Option.some.injEq] at h
    subst h
    exact hreq _ _ _ rfl
  | complex ks before c u =>
    simp only [compile, Option.bind_eq_bind, Option.bind_eq_some_iff, Option.pure_def, Option.some.injEq] at h
    obtain ⟨b, hb, rfl⟩ := h
    exact hreq _ _ _ (by rw [hfind hb])
  | complexWith ks before c u pipeline =>
    simp only [compile, Option.bind_eq_bind, Option.bind_eq_some_iff, Option.pure_def, Option.some.injEq] at h
    obtain ⟨_, _, b, hb, rfl⟩ := h
    exact hreq _ _ _ (by rw [hfind hb])

/-- C141: once the client is gone no further part does anything, whatever the parts of the rest of the pipeline are. -/
theorem C141_client_gone (env : Env W G) (pipeline : List GPart) (steps : List (Step W G)) (h : compileAll env pipeline = some steps)
    (st : State W G) (hg : env.accepts st.sent.length = false) : (runAll steps st).1 = st := by
  induction pipeline generalizing steps with
  | nil =>
    simp only [compileAll, Option.some.injEq] at h
    subst h
    rfl
  | cons g gs ih =>
    simp only [compileAll, Option.bind_eq_bind, Option.bind_eq_some_iff, Option.pure_def, Option.some.injEq] at h
    obtain ⟨s, h1, ss, h2, rfl⟩ := h
    have := gone_part h1 st hg
    simp only [runAll, andThen]
    split
    · rename_i st' e
      rw [e] at this
      simp only at this
      subst this
      exact ih ss h2
    · exact this

/-! ### Contexts that are kept -/

/-- C141: after a run the service gives the values of the context of the run under its identifier if the run succeeded, and answers
for every other identifier as before. -/
theorem C141_get_after (env : Env W G) (guid : String) (pipeline : List GPart) (values : List (String × Scalar)) (contexts : Contexts W)
    (key g : String) :
    getContextValue env key g (executePipeline env guid pipeline values contexts).1 =
      if (runRequest env pipeline values).2 = .ok ∧ g = guid then
        (if env.known key then match (runRequest env pipeline values).1.context.get? key with
          | none => .error "Failed to find context value for key"
          | some w => match env.convert key w with
            | some v => .ok v
            | none => .error "Can not convert context value to grpc model"
        else .error "Failed to find key for key name")
      else getContextValue env key g contexts := by
  have hx : (executePipeline env guid pipeline values contexts).1 =
      if (runRequest env pipeline values).2 = .ok then contexts.set guid (runRequest env pipeline values).1.context else contexts := by
    unfold executePipeline
    rcases runRequest env pipeline values with ⟨st, o⟩
    cases o <;> rfl
  rw [hx]
  by_cases ho : (runRequest env pipeline values).2 = .ok
  · rw [if_pos ho]
    by_cases hgg : g = guid
    · subst hgg
      rw [if_pos ⟨ho, rfl⟩]
      unfold getContextValue
      rw [Dict.get?_set_self]
      cases env.known key with
      | false => rfl
      | true =>
        simp only [Bool.not_true, Bool.false_eq_true, if_false, if_true]
        cases Dict.get? (runRequest env pipeline values).1.context key with
        | none => rfl
        | some w => simp only; cases env.convert key w <;> rfl
    · rw [if_neg (fun hh => hgg hh.2)]
      unfold getContextValue
      rw [Dict.get?_set_ne _ _ (fun e => hgg e.symm)]
  · rw [if_neg ho, if_neg (fun hh => ho hh.1)]

/-- C141: a dropped run is gone, another drop of it is an error, and every other run is as before. -/
theorem C141_drop (env : Env W G) (guid : String) (contexts : Contexts W) :
    (dropExecutionResult guid contexts = none ↔ contexts.get? guid = none) ∧
    ∀ after, dropExecutionResult guid contexts = some after →
      dropExecutionResult guid after = none ∧
      (∀ key, getContextValue env key guid after =
        .error (if env.known key then "Failed to get context for guid" else "Failed to find key for key name")) ∧
      ∀ key g, g ≠ guid → getContextValue env key g after = getContextValue env key g contexts := by
  have hcon : ∀ c : Contexts W, c.contains guid = true ↔ c.get? guid ≠ none := by
    intro c
    rw [Dict.contains_iff, Ne, Dict.get?_eq_none_iff, not_not]
  have hnone : ∀ c : Contexts W, dropExecutionResult guid c = none ↔ c.get? guid = none := by
    intro c
    unfold dropExecutionResult
    split
    · rename_i h
      simpa using (hcon c).1 h
    · rename_i h
      simpa using fun hh => h ((hcon c).2 hh)
  refine ⟨hnone contexts, ?_⟩
  intro after h
  have ha : after = contexts.del guid := by
    unfold dropExecutionResult at h
    split at h
    · exact (Option.some.inj h).symm
    · cases h
  subst ha
  refine ⟨(hnone _).2 (by simp [Dict.get?_del]), ?_, ?_⟩
  · intro key
    unfold getContextValue
    cases env.known key <;> simp [Dict.get?_del]
  · intro key g hg
    have hd : Dict.get? (Dict.del contexts guid) g = Dict.get? contexts g := by
      rw [Dict.get?_del, if_neg (fun e => hg e.symm)]
    unfold getContextValue
    rw [hd]

/-! ### Together with the client -/

theorem drop_set {contexts : Contexts W} {guid : String} (hfresh : contexts.get? guid = none) (ctx : Dict String W) :
    dropExecutionResult guid (contexts.set guid ctx) = some contexts := by
  have hdel : ∀ c : Contexts W, c.get? guid = none → (c.set guid ctx).contains guid = true ∧ (c.set guid ctx).del guid = c := by
    intro c
    induction c with
    | nil => intro _; simp [Dict.set, Dict.contains, Dict.del, Dict.get?]
    | cons e es ih =>
      obtain ⟨k, v⟩ := e
      intro h
      rw [Dict.get?_cons] at h
      split at h
      · cases h
      · rename_i hne
        obtain ⟨i1, i2⟩ := ih h
        have e1 : Dict.set ((k, v) :: es) guid ctx = (k, v) :: Dict.set es guid ctx := by simp [Dict.set, hne]
        rw [e1]
        refine ⟨?_, ?_⟩
        · rw [Dict.contains_iff] at i1 ⊢
          simp only [Dict.keys, List.map_cons, List.mem_cons] at i1 ⊢
          exact Or.inr i1
        · simp only [Dict.del] at i2 ⊢
          rw [List.filter_cons, if_pos (by simpa using hne), i2]
  obtain ⟨h1, h2⟩ := hdel contexts hfresh
  unfold dropExecutionResult
  rw [if_pos h1, h2]

/-- C141: a run of the client that returns leaves no trace in the service, whether the run succeeded or failed: with the messages of the
service, what the client drops are exactly the contexts that were kept for it. -/
theorem C141_nothing_left (env : Env W G) (hl : LawfulParts env) (ha : ∀ n, env.accepts n = true) (guid : String) (contexts : Contexts W)
    (hfresh : contexts.get? guid = none) (client : RemoteEnv (Option G)) (parts : List RPart) (context : Dict String CtxValue)
    (m : Msg (Option G))
    (h : (executeRemote client (fun r => (executePipeline env guid r.pipeline r.context contexts).2) parts context).result = .ok m) :
    ∃ req, createRequest parts context = .ok req ∧
      (m = .final (some guid) ↔ (runRequest env req.pipeline req.context).2 = .ok) ∧
      (m = .final none ↔ ∃ e, (runRequest env req.pipeline req.context).2 = .failed e) ∧
      (m.isFinal = false ↔ (runRequest env req.pipeline req.context).2 = .panicked) ∧
      afterDrops (executePipeline env guid req.pipeline req.context contexts).1
        (dropped (executeRemote client (fun r => (executePipeline env guid r.pipeline r.context contexts).2) parts context).acts) =
        contexts := by
  obtain ⟨req, h1, h2, h3⟩ := C48_dropped_iff_success client _ parts context m h
  refine ⟨req, execute_sent h1, ?_⟩
  rw [h3]
  have hfind : ∀ (ms : List (Msg (Option G))) (f : Msg (Option G)), (∀ m ∈ ms, m.isFinal = false) → f.isFinal = true →
      decisive (ms ++ [f]) = some f := by
    intro ms f hms hff
    unfold decisive
    rw [List.find?_append, List.find?_eq_none.2 (by intro x hx; simp [hms x hx])]
    simp [hff]
  obtain ⟨ms, hms, ⟨ho, he⟩ | ⟨⟨e, ho⟩, he⟩ | ⟨ho, he⟩⟩ := C141_one_final env hl guid req.pipeline req.context contexts
  · rw [he] at h2 ⊢
    simp only [ha, if_true] at h2 ⊢
    rw [hfind ms _ hms rfl] at h2
    cases h2
    refine ⟨by simp [ho], by simp [ho], by simp [ho, Msg.isFinal], ?_⟩
    simp [afterDrops, success, drop_set hfresh]
  · rw [he] at h2 ⊢
    simp only [ha, if_true] at h2 ⊢
    rw [hfind ms _ hms rfl] at h2
    cases h2
    exact ⟨by simp [ho], by simp [ho], by simp [ho, Msg.isFinal], rfl⟩
  · rw [he] at h2 ⊢
    simp only at h2 ⊢
    have hnf : m.isFinal = false := by
      unfold decisive at h2
      rw [List.find?_eq_none.2 (by intro x hx; simp [hms x hx])] at h2
      exact hms m (List.mem_of_getLast? h2)
    have hne : ∀ r, m ≠ .final r := by
      rintro r rfl
      cases hnf
    refine ⟨by simp [ho, hne], by simp [ho, hne], by simp [ho, hnf], ?_⟩
    cases m with
    | final r => cases hnf
    | _ => rfl

/-- C141: for a request that cannot be read the client raises an attribute error, not the reason. -/
theorem C141_unreadable_raises (env : Env W G) (guid : String) (contexts : Contexts W) (client : RemoteEnv (Option G))
    (he : client.streamEnd = none) (parts : List RPart) (context : Dict String CtxValue) (req : Request)
    (hr : createRequest parts context = .ok req)
    (h : (∃ g ∈ req.pipeline, ∃ n, Uses g n ∧ env.part n = none) ∨ ∃ e ∈ req.context, env.known e.1 = false) :
    (executeRemote client (fun r => (executePipeline env guid r.pipeline r.context contexts).2) parts context).result =
      .error .attributeError := by
  refine (C48_empty_stream_raises client _ parts context req ?_ he ?_).1
  · unfold executeRemote
    rw [hr]
    simp only
    split <;> rfl
  · exact congrArg Prod.snd (C141_unreadable_silent env guid req.pipeline req.context contexts h)

/-! ### Examples and witnesses -/

/-- Parts for the examples: one that adds one to a value, one that fails, one that panics and one that executes its pipeline twice. -/
def demoPart (name : String) : Option (Settings Nat Nat → Step Nat Nat) :=
  if name = "Inc" then some (fun _ st => ({ st with context := st.context.set "event_log" ((st.context.get? "event_log").getD 0 + 1) }, .ok))
  else if name = "Fail" then some (fun _ st => (st, .failed "boom"))
  else if name = "Panic" then some (fun _ st => (st, .panicked))
  else if name = "Twice" then some (fun s => match s.pipeline with
    | some p => andThen p p
    | none => fun st => (st, .failed "pipeline"))
  else none

def demoEnv (limit : Option Nat) : Env Nat Nat where
  known k := k ∈ ["event_log", "path", "colors_holder", "pipeline"]
  part := demoPart
  convert k w := if k = "event_log" then some w else none
  value v := match v with | .uint32 n => some n | _ => none
  uuidText u := toString u
  accepts n := match limit with | none => true | some l => n < l
  elapsed n := n
  colors := 0

theorem demo_lawful (limit : Option Nat) : LawfulParts (demoEnv limit) := by
  intro name act h s hp
  simp only [demoEnv, demoPart] at h
  split at h
  · cases h
    exact fun st => ⟨[], by simp, by simp⟩
  · split at h
    · cases h
      exact fun st => ⟨[], by simp, by simp⟩
    · split at h
      · cases h
        exact fun st => ⟨[], by simp, by simp⟩
      · split at h
        · cases h
          rcases s with ⟨v, _ | p⟩
          · exact fun st => ⟨[], by simp, by simp⟩
          · exact adds_andThen (hp p rfl) (hp p rfl)
        · cases h

/-- A nested pipeline and a request after it: two values in between, then the last one. -/
example : executePipeline (demoEnv none) "g" [.defaultWith "Twice" [] [.default "Inc" [], .simple "event_log" 1], .complex ["event_log"] "Inc" [] 2]
    [("event_log", .uint32 5)] [] =
    ([("g", [("event_log", 8), ("colors_holder", 0)])],
      [.log "Started activity Twice", .log "Started activity Inc", .log "Activity Inc finished in 2ms", .part "1" [("event_log", some 6)],
        .log "Started activity Inc", .log "Activity Inc finished in 5ms", .part "1" [("event_log", some 7)],
        .log "Activity Twice finished in 7ms", .log "Started activity Inc", .log "Activity Inc finished in 9ms",
        .part "2" [("event_log", some 8)], .final (some "g")]) := by rfl

/-- `C141_one_final`, also for a client that is gone. -/
example := C141_one_final (demoEnv (some 2)) (demo_lawful _) "g" [.default "Inc" [], .default "Fail" []] [] []

/-- The hypotheses of `C141_unreadable_silent`, for a part nested in another. -/
example : executePipeline (demoEnv none) "g" [.default "Inc" [], .defaultWith "Twice" [] [.default "Missing" []]] [] [] = ([], []) :=
  C141_unreadable_silent _ _ _ _ _ (Or.inl ⟨_, List.mem_cons_of_mem _ (List.mem_cons_self ..), "Missing",
    .inDefault (List.mem_cons_self ..) .default, by decide⟩)

/-- The hypotheses of `C141_readable`. -/
example : ∃ steps ctx, compileAll (demoEnv none) [.default "Inc" []] = some steps ∧
    initialContext (demoEnv none) [("path", .uint32 1), ("path", .uint32 2), ("path", .bool true)] = some ctx ∧
    (∀ key, ctx.get? key = received (demoEnv none) [("path", .uint32 1), ("path", .uint32 2), ("path", .bool true)] key) ∧
    runRequest (demoEnv none) [.default "Inc" []] [("path", .uint32 1), ("path", .uint32 2), ("path", .bool true)] =
      runPipeline (demoEnv none) steps ⟨ctx, []⟩ :=
  C141_readable (demoEnv none) _ _ (by
    intro g hg n hu
    rw [List.mem_singleton] at hg
    subst hg
    cases hu
    decide) (by decide)

def demoEff : Effects Nat := fun name _ ctx =>
  if name = "Inc" then (ctx.set "event_log" ((ctx.get? "event_log").getD 0 + 1), .ok)
  else if name = "Fail" then (ctx, .failed "boom") else (ctx, .panicked)

/-- The parts for the examples but the one that executes a pipeline. -/
def flatEnv : Env Nat Nat := { demoEnv none with part := fun name => if name = "Twice" then none else demoPart name }

theorem flat_quiet : Quiet flatEnv demoEff := by
  intro name act h s st
  simp only [flatEnv, demoPart] at h
  split at h
  · cases h
  · split at h
    · rename_i h1
      cases h
      simp [demoEff, h1]
    · split at h
      · rename_i h1 h2
        cases h
        simp [demoEff, h2]
      · split at h
        · rename_i h1 h2 h3
          cases h
          simp [demoEff, h3]
        · simp at h

/-- The hypotheses of `C141_all_executed`. -/
example : ∃ ms : Nat → Nat, executePipeline flatEnv "g" [.default "Inc" [], .simple "event_log" 1, .complex ["event_log", "colors_holder"] "Inc" [] 2] [] [] =
    ([("g", [("colors_holder", 0), ("event_log", 2)])],
      [started "Inc", finished "Inc" (ms 0), .part "1" [("event_log", some 1)], started "Inc", finished "Inc" (ms 2),
        .part "2" [("event_log", some 2), ("colors_holder", none)]] ++ [.final (some "g")]) := by
  obtain ⟨ms, h⟩ := C141_all_executed flatEnv demoEff (fun _ => rfl) flat_quiet "g"
    [.default "Inc" [], .simple "event_log" 1, .complex ["event_log", "colors_holder"] "Inc" [] 2]
    (by intro g hg; simp only [List.mem_cons, List.not_mem_nil, or_false] at hg; rcases hg with rfl | rfl | rfl <;> trivial) [] [] []
    (by
      intro g hg n hu
      simp only [List.mem_cons, List.not_mem_nil, or_false] at hg
      rcases hg with rfl | rfl | rfl <;> cases hu <;> decide)
    rfl
    (by
      intro i g hg
      match i, hg with
      | 0, hg => cases hg; decide
      | 1, hg => cases hg; decide
      | 2, hg => cases hg; decide)
  exact ⟨ms, h⟩

/-- The hypotheses of `C141_first_failure`: the part before a request with an unknown key is not executed. -/
example : (runRequest flatEnv [.default "Inc" [], .complex ["event_log", "Unknown"] "Inc" [] 1, .default "Panic" []] []).2 = .failed "Unknown" :=
  (C141_first_failure flatEnv demoEff (fun _ => rfl) flat_quiet "g"
    [.default "Inc" [], .complex ["event_log", "Unknown"] "Inc" [] 1, .default "Panic" []]
    (by intro g hg; simp only [List.mem_cons, List.not_mem_nil, or_false] at hg; rcases hg with rfl | rfl | rfl <;> trivial) [] [] []
    (by
      intro g hg n hu
      simp only [List.mem_cons, List.not_mem_nil, or_false] at hg
      rcases hg with rfl | rfl | rfl <;> cases hu <;> decide)
    rfl 1 _ (.failed "Unknown") rfl (by decide)
    (by
      intro j g' hj hg
      match j, hg with
      | 0, hg => cases hg; decide)).1

/-- The hypotheses of `C141_client_gone`. -/
example : ∃ steps, compileAll (demoEnv (some 0)) [.default "Inc" [], .simple "event_log" 1] = some steps ∧
    (runAll steps ⟨[("event_log", 5)], []⟩).1 = ⟨[("event_log", 5)], []⟩ := by
  exact ⟨_, rfl, C141_client_gone (demoEnv (some 0)) [.default "Inc" [], .simple "event_log" 1] _ rfl _ rfl⟩

/-- A value after a run, and after its drop. -/
example : getContextValue (demoEnv none) "event_log" "g" (executePipeline (demoEnv none) "g" [.default "Inc" []] [] []).1 = .ok 1 ∧
    (∃ after, dropExecutionResult "g" (executePipeline (demoEnv none) "g" [.default "Inc" []] [] []).1 = some after ∧
      getContextValue (demoEnv none) "event_log" "g" after = .error "Failed to get context for guid") :=
  ⟨rfl, _, rfl, rfl⟩

def demoClient (fails : Bool) : RemoteEnv (Option Nat) where
  parseUuid text := if text = "2" then .ok 2 else .error .valueError
  callback _ _ := if fails then .error .keyError else .ok ()
  drop _ := .ok ()
  streamEnd := none

/-- The hypotheses of `C141_nothing_left`. -/
example : (executeRemote (demoClient false)
    (fun r => (executePipeline (demoEnv none) "g" r.pipeline r.context [("h", [])]).2)
    [.plain 1 "Inc" (.ok []), .simple 2 "event_log"] []).result = .ok (.final (some "g")) := by rfl

/-- The hypotheses of `C141_unreadable_raises`. -/
example : (executeRemote (demoClient false) (fun r => (executePipeline (demoEnv none) "g" r.pipeline r.context []).2)
    [.plain 1 "Inc" (.ok []), .plain 2 "Missing" (.ok [])] []).result = .error .attributeError :=
  C141_unreadable_raises _ _ _ _ rfl _ _ _ rfl
    (Or.inl ⟨_, List.mem_cons_of_mem _ (List.mem_cons_self ..), "Missing", .default, by decide⟩)

/-- C141: a client whose callback raises leaves the context of the run in the service for ever: the run goes on and is kept, and the
client, which has not seen the identifier, drops nothing. -/
theorem C141_left_behind :
    (executeRemote (demoClient true) (fun r => (executePipeline (demoEnv none) "g" r.pipeline r.context []).2)
      [.plain 1 "Inc" (.ok []), .simple 2 "event_log"] []).result = .error .keyError ∧
    dropped (executeRemote (demoClient true) (fun r => (executePipeline (demoEnv none) "g" r.pipeline r.context []).2)
      [.plain 1 "Inc" (.ok []), .simple 2 "event_log"] []).acts = [] ∧
    (executePipeline (demoEnv none) "g" [.default "Inc" [], .simple "event_log" 2] [] []).1 =
      [("g", [("colors_holder", 0), ("event_log", 1)])] := ⟨rfl, rfl, rfl⟩

/-- C141: and so does a client that is gone before the last message: the context is kept under an identifier that nobody gets. -/
theorem C141_kept_for_nobody :
    executePipeline (demoEnv (some 2)) "g" [.default "Inc" [], .simple "event_log" 2] [] [] =
      ([("g", [("colors_holder", 0), ("event_log", 1)])], [.log "Started activity Inc", .log "Activity Inc finished in 1ms"]) := rfl

/-- C141: a part that panics ends the stream without a final result, and the client returns as if nothing had happened. -/
theorem C141_panic_unnoticed :
    ∃ m, (executeRemote (demoClient false) (fun r => (executePipeline (demoEnv none) "g" r.pipeline r.context []).2)
      [.plain 1 "Inc" (.ok []), .plain 2 "Panic" (.ok []), .simple 3 "event_log"] []).result = .ok m ∧ m.isFinal = false :=
  ⟨.log "Started activity Panic", rfl, rfl⟩

/-- C141: what a part finds under a key of its configuration is the value of the last entry with this key that can be read, if the
key is known, and nothing otherwise. -/
theorem C141_config {W G : Type} (env : Env W G) (c : Config) (k : String) :
    (configValues env c).get? k =
      if env.known k then (c.reverse.filter (fun e => decide (e.1 = k))).findSome? (fun e => env.value e.2) else none := by
  have key : ∀ (c : Config) (d : Dict String W),
      Dict.get? (c.foldl (fun d e => if env.known e.1 then (match env.value e.2 with | some w => d.set e.1 w | none => d) else d) d) k =
        if env.known k then
          ((c.reverse.filter (fun e => decide (e.1 = k))).findSome? (fun e => env.value e.2)).or (Dict.get? d k)
        else Dict.get? d k := by
    intro c
    induction c with
    | nil => intro d; simp
    | cons e c ih =>
      intro d
      rw [List.foldl_cons, ih]
      simp only [List.reverse_cons, List.filter_append, List.findSome?_append]
      by_cases h1 : e.1 = k
      · subst h1
        by_cases h2 : env.known e.1
        · cases h3 : env.value e.2 with
          | none => simp [h2, h3]
          | some w => simp [h2, h3]
        · simp [h2]
      · by_cases h2 : env.known e.1
        · cases h3 : env.value e.2 with
          | none => simp [h1, h2]
          | some w => simp [h1, h2, Dict.get?_set]
        · simp [h1, h2]
  exact (key c []).trans (by simp)

example : (configValues (demoEnv none) [("path", .uint32 1), ("other", .uint32 2), ("path", .uint32 3), ("path", .string "x")]).get?
    "path" = some 3 := by rfl

end Ficus.Service
