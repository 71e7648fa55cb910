import Verif.Spec.Remote
import Verif.Proofs.Dict

/-! Properties C47, C48 and C49: the execution of remote pipelines. -/

namespace Ficus
open Spec

variable {V : Type}

theorem valuesDict_get (values : List (String × V)) (key : String) :
    Dict.get? (valuesDict values) key = lastValue values key := by
  unfold valuesDict lastValue
  rw [← List.foldr_reverse]
  induction values.reverse with
  | nil => rfl
  | cons kv r ih =>
    simp only [List.foldr_cons, List.find?_cons]
    rw [Dict.get?_set]
    by_cases h : kv.1 = key
    · simp [h]
    · have : (kv.1 == key) = false := by simpa using h
      simp [this, h, ih]

mutual
theorem carries_of_callbacks : ∀ (p : RPart) (u : Uuid), u ∈ p.callbacks → Carries p u
  | .plain _ _ _, u, h => by simp [RPart.callbacks] at h
  | .hidden _ _, u, h => by simp [RPart.callbacks] at h
  | .simple w k, u, h => by
    simp [RPart.callbacks] at h; subst h; exact .simple
  | .complex w ks b c, u, h => by
    simp [RPart.callbacks] at h; subst h; exact .complex
  | .nested w n c inner, u, h => by
    simp only [RPart.callbacks] at h
    obtain ⟨p, hp, hc⟩ := carries_of_pipelineCallbacks inner u h
    exact .inNested hp hc
  | .complexNested w ks b c inner, u, h => by
    simp only [RPart.callbacks, List.mem_cons] at h
    rcases h with rfl | h
    · exact .complexNested
    · obtain ⟨p, hp, hc⟩ := carries_of_pipelineCallbacks inner u h
      exact .inComplexNested hp hc
  | .beforeAfter _ _, u, h => by simp [RPart.callbacks] at h
  | .other, u, h => by simp [RPart.callbacks] at h
theorem carries_of_pipelineCallbacks : ∀ (ps : List RPart) (u : Uuid), u ∈ pipelineCallbacks ps →
    PipelineCarries ps u
  | [], u, h => by simp [pipelineCallbacks] at h
  | p :: ps, u, h => by
    simp only [pipelineCallbacks, List.mem_append] at h
    rcases h with h | h
    · exact ⟨p, by simp, carries_of_callbacks p u h⟩
    · obtain ⟨q, hq, hc⟩ := carries_of_pipelineCallbacks ps u h
      exact ⟨q, by simp [hq], hc⟩
end

theorem pipelineCallbacks_mem {ps : List RPart} {p : RPart} {u : Uuid} (hp : p ∈ ps) (h : u ∈ p.callbacks) :
    u ∈ pipelineCallbacks ps := by
  induction ps with
  | nil => cases hp
  | cons q qs ih =>
    simp only [pipelineCallbacks, List.mem_append]
    rcases List.mem_cons.1 hp with rfl | hp
    · exact .inl h
    · exact .inr (ih hp)

theorem toGrpcPipeline_ok {ps : List RPart} {gs : List GPart} (h : toGrpcPipeline ps = .ok gs) :
    List.Forall₂ (fun p g => p.toGrpc = .ok g) ps gs := by
  induction ps generalizing gs with
  | nil => simp only [toGrpcPipeline] at h; cases h; exact .nil
  | cons p ps ih =>
    simp only [toGrpcPipeline, bind, Except.bind] at h
    cases hp : p.toGrpc with
    | error e => rw [hp] at h; cases h
    | ok g =>
      rw [hp] at h; simp only at h
      cases hs : toGrpcPipeline ps with
      | error e => rw [hs] at h; cases h
      | ok gs' => rw [hs] at h; cases h; exact .cons hp (ih hs)

theorem toGrpcPipeline_mem {ps : List RPart} {gs : List GPart} (h : toGrpcPipeline ps = .ok gs) {p : RPart}
    (hp : p ∈ ps) : ∃ g ∈ gs, p.toGrpc = .ok g := by
  have := toGrpcPipeline_ok h
  clear h
  induction this with
  | nil => cases hp
  | cons h1 _ ih =>
    rcases List.mem_cons.1 hp with rfl | hp
    · exact ⟨_, by simp, h1⟩
    · obtain ⟨g, hg, e⟩ := ih hp
      exact ⟨g, by simp [hg], e⟩

theorem toGrpcPipeline_mem' {ps : List RPart} {gs : List GPart} (h : toGrpcPipeline ps = .ok gs) {g : GPart}
    (hg : g ∈ gs) : ∃ p ∈ ps, p.toGrpc = .ok g := by
  have := toGrpcPipeline_ok h
  clear h
  induction this with
  | nil => cases hg
  | cons h1 _ ih =>
    rcases List.mem_cons.1 hg with rfl | hg
    · exact ⟨_, by simp, h1⟩
    · obtain ⟨p, hp, e⟩ := ih hg
      exact ⟨p, by simp [hp], e⟩

theorem nested_ok {w : Uuid} {n : String} {c : Except PyErr Config} {inner : List RPart} {g : GPart}
    (h : (RPart.nested w n c inner).toGrpc = .ok g) :
    ∃ c' gs, toGrpcPipeline inner = .ok gs ∧ g = .defaultWith n c' gs := by
  simp only [RPart.toGrpc, bind, Except.bind] at h
  cases c with
  | error e => cases h
  | ok c =>
    simp only at h
    cases hs : toGrpcPipeline inner with
    | error e => rw [hs] at h; cases h
    | ok gs => rw [hs] at h; cases h; exact ⟨c, gs, rfl, rfl⟩

theorem complexNested_ok {w : Uuid} {ks : List String} {b : String} {c : Except PyErr Config} {inner : List RPart}
    {g : GPart} (h : (RPart.complexNested w ks b c inner).toGrpc = .ok g) :
    ∃ c' gs, toGrpcPipeline inner = .ok gs ∧ g = .complexWith ks b c' w gs := by
  simp only [RPart.toGrpc, bind, Except.bind] at h
  cases c with
  | error e => cases h
  | ok c =>
    simp only at h
    cases hs : toGrpcPipeline inner with
    | error e => rw [hs] at h; cases h
    | ok gs => rw [hs] at h; cases h; exact ⟨c, gs, rfl, rfl⟩

theorem beforeAfter_not_ok {w : Uuid} {inner : List RPart} {g : GPart} :
    (RPart.beforeAfter w inner).toGrpc ≠ .ok g := by
  simp only [RPart.toGrpc, bind, Except.bind]
  cases toGrpcPipeline inner <;> simp

theorem callbacks_of_carries {p : RPart} {u : Uuid} (h : Carries p u) : ∀ g, p.toGrpc = .ok g → u ∈ p.callbacks := by
  induction h with
  | simple => intro g _; simp [RPart.callbacks]
  | complex => intro g _; simp [RPart.callbacks]
  | complexNested => intro g _; simp [RPart.callbacks]
  | inNested hp _ ih =>
    intro g hg
    obtain ⟨c', gs, h1, _⟩ := nested_ok hg
    obtain ⟨g', _, hg'⟩ := toGrpcPipeline_mem h1 hp
    simp only [RPart.callbacks]
    exact pipelineCallbacks_mem hp (ih g' hg')
  | inComplexNested hp _ ih =>
    intro g hg
    obtain ⟨c', gs, h1, _⟩ := complexNested_ok hg
    obtain ⟨g', _, hg'⟩ := toGrpcPipeline_mem h1 hp
    simp only [RPart.callbacks, List.mem_cons]
    exact .inr (pipelineCallbacks_mem hp (ih g' hg'))
  | inBeforeAfter _ _ _ => intro g hg; exact absurd hg beforeAfter_not_ok

/-- For a pipeline that can be converted, the identifiers collected are those of the parts with callbacks. -/
theorem collected_iff {ps : List RPart} {gs : List GPart} (h : toGrpcPipeline ps = .ok gs) (u : Uuid) :
    u ∈ pipelineCallbacks ps ↔ PipelineCarries ps u := by
  constructor
  · exact carries_of_pipelineCallbacks ps u
  · rintro ⟨p, hp, hc⟩
    obtain ⟨g, _, hg⟩ := toGrpcPipeline_mem h hp
    exact pipelineCallbacks_mem hp (callbacks_of_carries hc g hg)

theorem requests_of_carries {p : RPart} {u : Uuid} (h : Carries p u) : ∀ g, p.toGrpc = .ok g → Requests g u := by
  induction h with
  | simple => intro g hg; simp only [RPart.toGrpc] at hg; cases hg; exact .simple
  | @complex u ks b c =>
    intro g hg
    cases c with
    | error e => simp [RPart.toGrpc, Except.map] at hg
    | ok c => simp only [RPart.toGrpc, Except.map] at hg; cases hg; exact .complex
  | complexNested => intro g hg; obtain ⟨c', gs, _, rfl⟩ := complexNested_ok hg; exact .complexWith
  | inNested hp _ ih =>
    intro g hg
    obtain ⟨c', gs, h1, rfl⟩ := nested_ok hg
    obtain ⟨g', hm, hg'⟩ := toGrpcPipeline_mem h1 hp
    exact .inDefault hm (ih g' hg')
  | inComplexNested hp _ ih =>
    intro g hg
    obtain ⟨c', gs, h1, rfl⟩ := complexNested_ok hg
    obtain ⟨g', hm, hg'⟩ := toGrpcPipeline_mem h1 hp
    exact .inComplex hm (ih g' hg')
  | inBeforeAfter _ _ _ => intro g hg; exact absurd hg beforeAfter_not_ok

theorem not_requests_default {n : String} {c : Config} {u : Uuid} : ¬ Requests (.default n c) u := by
  intro h; cases h

theorem carries_of_requests {g : GPart} {u : Uuid} (h : Requests g u) : ∀ p : RPart, p.toGrpc = .ok g →
    Carries p u := by
  induction h with
  | simple =>
    intro p hp
    cases p with
    | simple w k => simp only [RPart.toGrpc] at hp; cases hp; exact .simple
    | plain _ _ c => cases c <;> simp [RPart.toGrpc, Except.map] at hp
    | hidden _ c => cases c <;> simp [RPart.toGrpc, Except.map] at hp
    | complex _ _ _ c => cases c <;> simp [RPart.toGrpc, Except.map] at hp
    | nested => obtain ⟨_, _, _, e⟩ := nested_ok hp; cases e
    | complexNested => obtain ⟨_, _, _, e⟩ := complexNested_ok hp; cases e
    | beforeAfter => exact absurd hp beforeAfter_not_ok
    | other => simp [RPart.toGrpc] at hp
  | complex =>
    intro p hp
    cases p with
    | simple w k => simp only [RPart.toGrpc] at hp; cases hp
    | plain _ _ c => cases c <;> simp [RPart.toGrpc, Except.map] at hp
    | hidden _ c => cases c <;> simp [RPart.toGrpc, Except.map] at hp
    | complex _ _ _ c =>
      cases c with
      | error e => simp [RPart.toGrpc, Except.map] at hp
      | ok c => simp only [RPart.toGrpc, Except.map] at hp; cases hp; exact .complex
    | nested => obtain ⟨_, _, _, e⟩ := nested_ok hp; cases e
    | complexNested => obtain ⟨_, _, _, e⟩ := complexNested_ok hp; cases e
    | beforeAfter => exact absurd hp beforeAfter_not_ok
    | other => simp [RPart.toGrpc] at hp
  | complexWith =>
    intro p hp
    cases p with
    | simple w k => simp only [RPart.toGrpc] at hp; cases hp
    | plain _ _ c => cases c <;> simp [RPart.toGrpc, Except.map] at hp
    | hidden _ c => cases c <;> simp [RPart.toGrpc, Except.map] at hp
    | complex _ _ _ c => cases c <;> simp [RPart.toGrpc, Except.map] at hp
    | nested => obtain ⟨_, _, _, e⟩ := nested_ok hp; cases e
    | complexNested => obtain ⟨_, _, _, e⟩ := complexNested_ok hp; cases e; exact .complexNested
    | beforeAfter => exact absurd hp beforeAfter_not_ok
    | other => simp [RPart.toGrpc] at hp
  | inDefault hm hr ih =>
    intro p hp
    cases p with
    | simple w k => simp only [RPart.toGrpc] at hp; cases hp
    | plain _ _ c => cases c <;> simp [RPart.toGrpc, Except.map] at hp
    | hidden _ c =>
      cases c with
      | error e => simp [RPart.toGrpc, Except.map] at hp
      | ok c =>
        simp only [RPart.toGrpc, Except.map] at hp
        cases hp
        obtain ⟨q, _, rfl⟩ := List.mem_map.1 hm
        exact absurd hr not_requests_default
    | complex _ _ _ c => cases c <;> simp [RPart.toGrpc, Except.map] at hp
    | nested =>
      obtain ⟨_, gs, h1, e⟩ := nested_ok hp
      cases e
      obtain ⟨q, hq, hg⟩ := toGrpcPipeline_mem' h1 hm
      exact .inNested hq (ih q hg)
    | complexNested => obtain ⟨_, _, _, e⟩ := complexNested_ok hp; cases e
    | beforeAfter => exact absurd hp beforeAfter_not_ok
    | other => simp [RPart.toGrpc] at hp
  | inComplex hm hr ih =>
    intro p hp
    cases p with
    | simple w k => simp only [RPart.toGrpc] at hp; cases hp
    | plain _ _ c => cases c <;> simp [RPart.toGrpc, Except.map] at hp
    | hidden _ c => cases c <;> simp [RPart.toGrpc, Except.map] at hp
    | complex _ _ _ c => cases c <;> simp [RPart.toGrpc, Except.map] at hp
    | nested => obtain ⟨_, _, _, e⟩ := nested_ok hp; cases e
    | complexNested =>
      obtain ⟨_, gs, h1, e⟩ := complexNested_ok hp
      cases e
      obtain ⟨q, hq, hg⟩ := toGrpcPipeline_mem' h1 hm
      exact .inComplexNested hq (ih q hg)
    | beforeAfter => exact absurd hp beforeAfter_not_ok
    | other => simp [RPart.toGrpc] at hp

/-! ### The loop -/

/-- How the loop ends without error. -/
theorem streamLoop_ok (env : RemoteEnv V) (parts : List RPart) (reg : List Uuid)
    (hreg : ∀ u, u ∈ reg ↔ PipelineCarries parts u) (msgs : List (Msg V)) (last r : Option (Msg V)) (acts : List (Act V))
    (h : streamLoop env reg msgs last = (.ok r, acts)) :
    Handled env.parseUuid parts (beforeFinal msgs) acts ∧ r = ((decisive msgs).or last) ∧
      (env.streamEnd = none ∨ ∃ m ∈ msgs, m.isFinal = true) := by
  induction msgs generalizing last acts with
  | nil =>
    unfold streamLoop at h
    cases he : env.streamEnd with
    | some e => rw [he] at h; cases h
    | none =>
      rw [he] at h; cases h
      exact ⟨.nil, by simp [decisive], .inl rfl⟩
  | cons m ms ih =>
    unfold streamLoop at h
    by_cases hf : m.isFinal = true
    · rw [if_pos hf] at h
      cases h
      refine ⟨?_, ?_, .inr ⟨m, by simp, hf⟩⟩
      · simp only [beforeFinal, List.takeWhile_cons, hf]; exact .nil
      · simp [decisive, hf]
    · rw [if_neg hf] at h
      cases hh : handleMsg env reg m with
      | mk res as =>
      rw [hh] at h
      cases res with
      | error e => cases h
      | ok _ =>
        simp only [Prod.mk.injEq] at h
        obtain ⟨h1, h2⟩ := h
        have := ih (some m) (streamLoop env reg ms (some m)).2 (Prod.ext h1 rfl)
        obtain ⟨hH, hr, hs⟩ := this
        have hf' : m.isFinal = false := by simpa using hf
        have hb : beforeFinal (m :: ms) = m :: beforeFinal ms := by
          simp [beforeFinal, hf']
        refine ⟨?_, ?_, ?_⟩
        · rw [hb, ← h2]
          cases m with
          | final s => simp [Msg.isFinal] at hf'
          | unset => simp only [handleMsg] at hh; cases hh; exact .unset hH
          | log t => simp only [handleMsg] at hh; cases hh; exact .log hH
          | part t vs =>
            simp only [handleMsg] at hh
            cases hp : env.parseUuid t with
            | error e => rw [hp] at hh; cases hh
            | ok u =>
              rw [hp] at hh
              simp only at hh
              by_cases hu : u ∈ reg
              · rw [if_pos hu] at hh
                simp only [Prod.mk.injEq] at hh
                obtain ⟨_, rfl⟩ := hh
                exact .own hp ((hreg u).1 hu) (valuesDict_get vs) hH
              · rw [if_neg hu] at hh
                cases hh
                exact .foreign hp (fun hc => hu ((hreg u).2 hc)) hH
        · rw [hr]
          unfold decisive
          simp only [List.find?_cons, hf']
          cases List.find? Msg.isFinal ms with
          | some x => rfl
          | none =>
            simp only
            cases ms with
            | nil => simp
            | cons a as =>
              simp [List.getLast?_cons, Option.or]
        · rcases hs with hs | ⟨x, hx, hx'⟩
          · exact .inl hs
          · exact .inr ⟨x, by simp [hx], hx'⟩

/-- How the loop ends with an error. -/
theorem streamLoop_error (env : RemoteEnv V) (parts : List RPart) (reg : List Uuid)
    (hreg : ∀ u, u ∈ reg ↔ PipelineCarries parts u) (msgs : List (Msg V)) (last : Option (Msg V)) (e : PyErr)
    (acts : List (Act V)) (h : streamLoop env reg msgs last = (.error e, acts)) :
    (env.streamEnd = some e ∧ (∀ m ∈ msgs, m.isFinal = false) ∧ Handled env.parseUuid parts msgs acts) ∨
    (∃ pre text values rest, msgs = pre ++ .part text values :: rest ∧ (∀ m ∈ pre, m.isFinal = false) ∧
      ((env.parseUuid text = .error e ∧ Handled env.parseUuid parts pre acts) ∨
       (∃ u d as, acts = as ++ [.callback u d] ∧ env.callback u d = .error e ∧
        Handled env.parseUuid parts (pre ++ [.part text values]) acts))) := by
  induction msgs generalizing last acts with
  | nil =>
    unfold streamLoop at h
    cases he : env.streamEnd with
    | some e =>
      rw [he] at h; cases h
      exact .inl ⟨rfl, by simp, .nil⟩
    | none => rw [he] at h; cases h
  | cons m ms ih =>
    unfold streamLoop at h
    by_cases hf : m.isFinal = true
    · rw [if_pos hf] at h
      cases h
    · rw [if_neg hf] at h
      have hf' : m.isFinal = false := by simpa using hf
      cases hh : handleMsg env reg m with
      | mk res as =>
      rw [hh] at h
      cases res with
      | error e' =>
        cases h
        right
        cases m with
        | final s => simp [Msg.isFinal] at hf'
        | unset => simp [handleMsg] at hh
        | log t => simp [handleMsg] at hh
        | part t vs =>
          refine ⟨[], t, vs, ms, rfl, by simp, ?_⟩
          simp only [handleMsg] at hh
          cases hp : env.parseUuid t with
          | error e =>
            rw [hp] at hh; cases hh
            exact .inl ⟨rfl, .nil⟩
          | ok u =>
            rw [hp] at hh
            simp only at hh
            by_cases hu : u ∈ reg
            · rw [if_pos hu] at hh
              simp only [Prod.mk.injEq] at hh
              obtain ⟨hh1, rfl⟩ := hh
              exact .inr ⟨u, _, [], rfl, hh1, .own hp ((hreg u).1 hu) (valuesDict_get vs) .nil⟩
            · rw [if_neg hu] at hh
              cases hh
      | ok _ =>
        simp only [Prod.mk.injEq] at h
        obtain ⟨h1, h2⟩ := h
        have step : ∀ ms' acts', Handled env.parseUuid parts ms' acts' →
            Handled env.parseUuid parts (m :: ms') (as ++ acts') := by
          intro ms' acts' hH
          cases m with
          | final s => simp [Msg.isFinal] at hf'
          | unset => simp only [handleMsg] at hh; cases hh; exact .unset hH
          | log t => simp only [handleMsg] at hh; cases hh; exact .log hH
          | part t vs =>
            simp only [handleMsg] at hh
            cases hp : env.parseUuid t with
            | error e => rw [hp] at hh; cases hh
            | ok u =>
              rw [hp] at hh
              simp only at hh
              by_cases hu : u ∈ reg
              · rw [if_pos hu] at hh
                simp only [Prod.mk.injEq] at hh
                obtain ⟨_, rfl⟩ := hh
                exact .own hp ((hreg u).1 hu) (valuesDict_get vs) hH
              · rw [if_neg hu] at hh
                cases hh
                exact .foreign hp (fun hc => hu ((hreg u).2 hc)) hH
        rcases ih (some m) (streamLoop env reg ms (some m)).2 (Prod.ext h1 rfl) with
          ⟨a, b, c⟩ | ⟨pre, t, vs, rest, rfl, hpre, hcase⟩
        · left
          refine ⟨a, ?_, ?_⟩
          · intro x hx
            rcases List.mem_cons.1 hx with rfl | hx
            · exact hf'
            · exact b x hx
          · rw [← h2]; exact step _ _ c
        · right
          refine ⟨m :: pre, t, vs, rest, rfl, ?_, ?_⟩
          · intro x hx
            rcases List.mem_cons.1 hx with rfl | hx
            · exact hf'
            · exact hpre x hx
          · rw [← h2]
            rcases hcase with ⟨a, b⟩ | ⟨u, d, as', a, b, c⟩
            · exact .inl ⟨a, step _ _ b⟩
            · refine .inr ⟨u, d, as ++ as', ?_, b, step _ _ c⟩
              rw [a, List.append_assoc]

theorem handled_no_drop {parse : String → Except PyErr Uuid} {parts : List RPart} {msgs : List (Msg V)}
    {acts : List (Act V)} (h : Handled parse parts msgs acts) : dropped acts = [] := by
  induction h with
  | nil => rfl
  | log _ ih => exact ih
  | unset _ ih => exact ih
  | own _ _ _ _ ih => exact ih
  | foreign _ _ _ ih => exact ih

theorem dropped_append (a b : List (Act V)) : dropped (a ++ b) = dropped a ++ dropped b := by
  induction a with
  | nil => rfl
  | cons x xs ih => cases x <;> simp [dropped, ih]

/-- What a run that has sent its request looks like. -/
theorem execute_sent {env : RemoteEnv V} {answer : Request → List (Msg V)} {parts : List RPart}
    {context : Dict String CtxValue} {req : Request} (h : (executeRemote env answer parts context).sent = some req) :
    createRequest parts context = .ok req := by
  unfold executeRemote at h
  cases hc : createRequest parts context with
  | error e => rw [hc] at h; cases h
  | ok q =>
    rw [hc] at h
    simp only at h
    cases hl : streamLoop env (pipelineCallbacks parts) (answer q) none with
    | mk r as =>
      rw [hl] at h
      cases r <;> (simp only [Option.some.injEq] at h; rw [h])

theorem createRequest_ok {parts : List RPart} {context : Dict String CtxValue} {req : Request}
    (h : createRequest parts context = .ok req) :
    toGrpcPipeline parts = .ok req.pipeline ∧ createInitialContext (dropBackend context) = .ok req.context ∧
      req.address = backendAddress context := by
  simp only [createRequest, bind, Except.bind] at h
  cases h1 : toGrpcPipeline parts with
  | error e => rw [h1] at h; cases h
  | ok g =>
    rw [h1] at h; simp only at h
    cases h2 : createInitialContext (dropBackend context) with
    | error e => rw [h2] at h; cases h
    | ok c => rw [h2] at h; cases h; exact ⟨rfl, rfl, rfl⟩

/-! ### C47 -/

/-- **C47.** In a run that returns, what is done before the final result is exactly the handling, in order, of the
messages before the first final result: one callback for every partial result of a part with a callback, wherever it
is nested, with the values sent, and one print for every log message. Messages after it are not looked at. -/
theorem C47_callbacks_exactly (env : RemoteEnv V) (answer : Request → List (Msg V)) (parts : List RPart)
    (context : Dict String CtxValue) (m : Msg V) (h : (executeRemote env answer parts context).result = .ok m) :
    ∃ req acts, (executeRemote env answer parts context).sent = some req ∧
      (executeRemote env answer parts context).acts = acts ++ (success m).map Act.drop ∧
      Handled env.parseUuid parts (beforeFinal (answer req)) acts := by
  unfold executeRemote at h ⊢
  cases hc : createRequest parts context with
  | error e => rw [hc] at h; cases h
  | ok q =>
    rw [hc] at h
    simp only at h ⊢
    have hreg := collected_iff (createRequest_ok hc).1
    cases hl : streamLoop env (pipelineCallbacks parts) (answer q) none with
    | mk r as =>
      rw [hl] at h
      cases r with
      | error e => cases h
      | ok last =>
        simp only at h ⊢
        refine ⟨q, as, rfl, ?_, (streamLoop_ok env parts _ hreg _ _ _ _ hl).1⟩
        cases last with
        | none => cases h
        | some x =>
          cases x with
          | final s =>
            cases s with
            | none => simp only [finishStream] at h ⊢; cases h; simp [success]
            | some g =>
              simp only [finishStream] at h ⊢
              cases hd : env.drop g with
              | error e => rw [hd] at h; cases h
              | ok _ => rw [hd] at h; cases h; simp [success]
          | part t vs => simp only [finishStream] at h ⊢; cases h; simp [success]
          | log t => simp only [finishStream] at h ⊢; cases h; simp [success]
          | unset => simp only [finishStream] at h ⊢; cases h; simp [success]

/-- **C47, failures.** A run that raises after sending its request has handled the messages in order up to the failure:
the stream failed after all messages, or an identifier was malformed, or a callback raised and is the last thing done,
or (after the first final result) the drop raised, or there was no message at all. -/
theorem C47_failure_aborts (env : RemoteEnv V) (answer : Request → List (Msg V)) (parts : List RPart)
    (context : Dict String CtxValue) (req : Request) (e : PyErr)
    (hs : (executeRemote env answer parts context).sent = some req)
    (h : (executeRemote env answer parts context).result = .error e) :
    (env.streamEnd = some e ∧ (∀ m ∈ answer req, m.isFinal = false) ∧
      Handled env.parseUuid parts (answer req) (executeRemote env answer parts context).acts) ∨
    (∃ pre text values rest, answer req = pre ++ .part text values :: rest ∧ (∀ m ∈ pre, m.isFinal = false) ∧
      ((env.parseUuid text = .error e ∧
        Handled env.parseUuid parts pre (executeRemote env answer parts context).acts) ∨
       (∃ u d as, (executeRemote env answer parts context).acts = as ++ [.callback u d] ∧
        env.callback u d = .error e ∧
        Handled env.parseUuid parts (pre ++ [.part text values]) (executeRemote env answer parts context).acts))) ∨
    (∃ g as, (answer req).find? Msg.isFinal = some (.final (some g)) ∧ env.drop g = .error e ∧
      (executeRemote env answer parts context).acts = as ++ [.drop g] ∧
      Handled env.parseUuid parts (beforeFinal (answer req)) as) ∨
    (answer req = [] ∧ e = .attributeError ∧ (executeRemote env answer parts context).acts = []) := by
  have hc := execute_sent hs
  unfold executeRemote at h ⊢
  clear hs
  rw [hc] at h ⊢
  simp only at h ⊢
  have hreg := collected_iff (createRequest_ok hc).1
  cases hl : streamLoop env (pipelineCallbacks parts) (answer req) none with
  | mk r as =>
    rw [hl] at h
    cases r with
    | error e' =>
      simp only at h ⊢
      cases h
      rcases streamLoop_error env parts _ hreg _ _ _ _ hl with h | h
      · exact .inl h
      · exact .inr (.inl h)
    | ok last =>
      simp only at h ⊢
      obtain ⟨h1, h2, h3⟩ := streamLoop_ok env parts _ hreg _ _ _ _ hl
      rw [Option.or_none] at h2
      right; right
      cases last with
      | none =>
        right
        have hn : answer req = [] := by
          unfold decisive at h2
          cases hf : (answer req).find? Msg.isFinal with
          | some x => rw [hf] at h2; cases h2
          | none => rw [hf] at h2; simpa using h2.symm
        rw [hn] at hl
        unfold streamLoop at hl
        cases he : env.streamEnd with
        | some e' => rw [he] at hl; cases hl
        | none =>
          rw [he] at hl
          cases hl
          simp only [finishStream] at h ⊢
          cases h
          exact ⟨hn, rfl, rfl⟩
      | some x =>
        cases x with
        | final s =>
          cases s with
          | none => simp only [finishStream] at h; cases h
          | some g =>
            simp only [finishStream] at h ⊢
            left
            cases hd : env.drop g with
            | ok _ => rw [hd] at h; cases h
            | error e' =>
              rw [hd] at h
              cases h
              refine ⟨g, as, ?_, hd, rfl, h1⟩
              unfold decisive at h2
              cases hf : (answer req).find? Msg.isFinal with
              | some x => rw [hf] at h2; simp only at h2; rw [h2]
              | none =>
                rw [hf] at h2
                simp only at h2
                have hm := List.mem_of_getLast? h2.symm
                have := List.find?_eq_none.1 hf _ hm
                simp [Msg.isFinal] at this
        | part t vs => simp only [finishStream] at h; cases h
        | log t => simp only [finishStream] at h; cases h
        | unset => simp only [finishStream] at h; cases h

/-- **C47, requests.** The identifiers for which the request asks for answers are exactly those of the parts with
callbacks: every answer the backend can give is handed to a callback, and every callback is asked for. -/
theorem C47_requested_iff_carried (parts : List RPart) (gs : List GPart) (h : toGrpcPipeline parts = .ok gs) (u : Uuid) :
    (∃ g ∈ gs, Requests g u) ↔ PipelineCarries parts u := by
  constructor
  · rintro ⟨g, hg, hr⟩
    obtain ⟨p, hp, e⟩ := toGrpcPipeline_mem' h hg
    exact ⟨p, hp, carries_of_requests hr p e⟩
  · rintro ⟨p, hp, hc⟩
    obtain ⟨g, hg, e⟩ := toGrpcPipeline_mem h hp
    exact ⟨g, hg, requests_of_carries hc g e⟩

theorem hasBeforeAfter_not_ok {p : RPart} (h : HasBeforeAfter p) : ∀ g, p.toGrpc ≠ .ok g := by
  induction h with
  | here => intro g; exact beforeAfter_not_ok
  | inNested hp _ ih =>
    intro g hg
    obtain ⟨_, gs, h1, _⟩ := nested_ok hg
    obtain ⟨g', _, hg'⟩ := toGrpcPipeline_mem h1 hp
    exact ih g' hg'
  | inComplexNested hp _ ih =>
    intro g hg
    obtain ⟨_, gs, h1, _⟩ := complexNested_ok hg
    obtain ⟨g', _, hg'⟩ := toGrpcPipeline_mem h1 hp
    exact ih g' hg'

/-- **C47, a part that cannot be used.** A pipeline with a `PrintEventlogInfoBeforeAfter` at any depth is never sent: the
execution raises before, whatever the context and the backend. -/
theorem C47_before_after_never_sent (env : RemoteEnv V) (answer : Request → List (Msg V)) (parts : List RPart)
    (context : Dict String CtxValue) (h : ∃ p ∈ parts, HasBeforeAfter p) :
    (executeRemote env answer parts context).sent = none ∧ (executeRemote env answer parts context).acts = [] ∧
      ∃ e, (executeRemote env answer parts context).result = .error e := by
  obtain ⟨p, hp, hb⟩ := h
  unfold executeRemote
  cases hc : createRequest parts context with
  | error e => exact ⟨rfl, rfl, e, rfl⟩
  | ok q =>
    obtain ⟨g, _, hg⟩ := toGrpcPipeline_mem (createRequest_ok hc).1 hp
    exact absurd hg (hasBeforeAfter_not_ok hb g)

/-! ### C48 -/

/-- **C48.** A run that returns returns the last message looked at (the first final result, or the last message when
there is none), and drops exactly the result that this message reports as successful: once, or not at all. -/
theorem C48_dropped_iff_success (env : RemoteEnv V) (answer : Request → List (Msg V)) (parts : List RPart)
    (context : Dict String CtxValue) (m : Msg V) (h : (executeRemote env answer parts context).result = .ok m) :
    ∃ req, (executeRemote env answer parts context).sent = some req ∧ decisive (answer req) = some m ∧
      dropped (executeRemote env answer parts context).acts = success m := by
  obtain ⟨req, acts, h1, h2, h3⟩ := C47_callbacks_exactly env answer parts context m h
  refine ⟨req, h1, ?_, ?_⟩
  · have hc := execute_sent h1
    clear h1 h2 h3
    unfold executeRemote at h
    rw [hc] at h
    simp only at h
    have hreg := collected_iff (createRequest_ok hc).1
    cases hl : streamLoop env (pipelineCallbacks parts) (answer req) none with
    | mk r as =>
      rw [hl] at h
      cases r with
      | error e => cases h
      | ok last =>
        simp only at h
        have h2 := (streamLoop_ok env parts _ hreg _ _ _ _ hl).2.1
        rw [Option.or_none] at h2
        rw [← h2]
        cases last with
        | none => cases h
        | some x =>
          cases x with
          | final s =>
            cases s with
            | none => simp only [finishStream] at h; cases h; rfl
            | some g =>
              simp only [finishStream] at h
              cases hd : env.drop g with
              | error e => rw [hd] at h; cases h
              | ok _ => rw [hd] at h; cases h; rfl
          | part t vs => simp only [finishStream] at h; cases h; rfl
          | log t => simp only [finishStream] at h; cases h; rfl
          | unset => simp only [finishStream] at h; cases h; rfl
  · rw [h2, dropped_append, handled_no_drop h3, List.nil_append]
    unfold success
    split <;> rfl

/-- **C48, failures.** A run that raises has dropped nothing, unless it was the drop itself that raised. -/
theorem C48_failed_run_drops_nothing (env : RemoteEnv V) (answer : Request → List (Msg V)) (parts : List RPart)
    (context : Dict String CtxValue) (e : PyErr) (h : (executeRemote env answer parts context).result = .error e) :
    dropped (executeRemote env answer parts context).acts = [] ∨
    ∃ g, dropped (executeRemote env answer parts context).acts = [g] ∧ env.drop g = .error e := by
  cases hs : (executeRemote env answer parts context).sent with
  | none =>
    left
    unfold executeRemote at hs ⊢
    cases hc : createRequest parts context with
    | error e => rfl
    | ok q =>
      rw [hc] at hs
      simp only at hs
      cases hl : streamLoop env (pipelineCallbacks parts) (answer q) none with
      | mk r as => rw [hl] at hs; cases r <;> cases hs
  | some req =>
    rcases C47_failure_aborts env answer parts context req e hs h with
      ⟨_, _, h1⟩ | ⟨_, _, _, _, _, _, ⟨_, h1⟩ | ⟨_, _, _, _, _, h1⟩⟩ | ⟨g, as, _, h1, h2, h3⟩ | ⟨_, _, h1⟩
    · exact .inl (handled_no_drop h1)
    · exact .inl (handled_no_drop h1)
    · exact .inl (handled_no_drop h1)
    · right
      refine ⟨g, ?_, h1⟩
      rw [h2, dropped_append, handled_no_drop h3]
      rfl
    · left; rw [h1]; rfl

/-- **C48, no message.** When the stream ends without any message there is no last message to return: the execution
raises an `AttributeError`. -/
theorem C48_empty_stream_raises (env : RemoteEnv V) (answer : Request → List (Msg V)) (parts : List RPart)
    (context : Dict String CtxValue) (req : Request) (hs : (executeRemote env answer parts context).sent = some req)
    (he : env.streamEnd = none) (ha : answer req = []) :
    (executeRemote env answer parts context).result = .error .attributeError ∧
      (executeRemote env answer parts context).acts = [] := by
  have hc := execute_sent hs
  clear hs
  unfold executeRemote
  rw [hc]
  simp only [ha, streamLoop, he, finishStream, List.append_nil, and_self]

/-- **C48, truncated stream.** When the stream ends without a final result, nothing is dropped. -/
theorem C48_truncated_stream_keeps (env : RemoteEnv V) (answer : Request → List (Msg V)) (parts : List RPart)
    (context : Dict String CtxValue) (req : Request) (hs : (executeRemote env answer parts context).sent = some req)
    (hn : ∀ m ∈ answer req, m.isFinal = false) :
    dropped (executeRemote env answer parts context).acts = [] := by
  cases h : (executeRemote env answer parts context).result with
  | ok m =>
    obtain ⟨req', h1, h2, h3⟩ := C48_dropped_iff_success env answer parts context m h
    rw [hs] at h1
    obtain rfl := Option.some.inj h1
    rw [h3]
    have hf : (answer req).find? Msg.isFinal = none := by
      rw [List.find?_eq_none]; intro x hx; simp [hn x hx]
    unfold decisive at h2
    rw [hf] at h2
    have hm := hn m (List.mem_of_getLast? h2)
    cases m with
    | final s => simp [Msg.isFinal] at hm
    | part => rfl
    | log => rfl
    | unset => rfl
  | error e =>
    rcases C47_failure_aborts env answer parts context req e hs h with
      ⟨_, _, h1⟩ | ⟨_, _, _, _, _, _, ⟨_, h1⟩ | ⟨_, _, _, _, _, h1⟩⟩ | ⟨g, as, hf, _, _, _⟩ | ⟨_, _, h1⟩
    · exact handled_no_drop h1
    · exact handled_no_drop h1
    · exact handled_no_drop h1
    · have := hn _ (List.mem_of_find?_eq_some hf)
      simp [Msg.isFinal] at this
    · rw [h1]; rfl

/-! ### C49 -/

/-- **C49, partial.** Whatever happens in the execution, the caller's dictionary afterwards holds all its entries but
`'backend'`, in order; so it is unchanged exactly when it had no such entry. Missing: the entry `'backend'` itself, see
`C49_second_run_other_backend`. -/
theorem C49_context_kept_partial (env : RemoteEnv V) (answer : Request → List (Msg V)) (parts : List RPart)
    (context : Dict String CtxValue) :
    (executeRemote env answer parts context).context = others context ∧
      ((executeRemote env answer parts context).context = context ↔ "backend" ∉ context.map Prod.fst) := by
  have h : (executeRemote env answer parts context).context = dropBackend context := by
    unfold executeRemote
    cases createRequest parts context with
    | error e => rfl
    | ok q =>
      simp only
      cases streamLoop env (pipelineCallbacks parts) (answer q) none with
      | mk r as => cases r <;> rfl
  have h2 : dropBackend context = others context := by
    unfold dropBackend others Dict.del
    split
    · apply List.filter_congr; intro x _
      by_cases e : x.1 = "backend" <;> simp [e]
    · rename_i hn
      symm
      rw [List.filter_eq_self]
      intro x hx
      have : "backend" ∉ Dict.keys context := by
        rw [← Dict.contains_iff]; exact hn
      simp only [bne_iff_ne]
      rintro e
      exact this (by rw [← e]; exact List.mem_map_of_mem hx)
  refine ⟨h.trans h2, ?_⟩
  rw [h, h2]
  unfold others
  rw [List.filter_eq_self]
  constructor
  · intro hx hm
    obtain ⟨kv, h1, h3⟩ := List.mem_map.1 hm
    have := hx kv h1
    simp [h3] at this
  · intro hn x hx
    simp only [bne_iff_ne]
    rintro e
    exact hn (by rw [← e]; exact List.mem_map_of_mem hx)

/-- **C49, what is sent.** The context of the request consists of the caller's entries but `'backend'`, in order, and the
request goes to the address given under `'backend'`, or to `localhost:8080`. -/
theorem C49_sent_context (env : RemoteEnv V) (answer : Request → List (Msg V)) (parts : List RPart)
    (context : Dict String CtxValue) (req : Request) (h : (executeRemote env answer parts context).sent = some req) :
    req.context.map (fun kv => (kv.1, CtxValue.value kv.2)) = others context ∧
      (∀ a, context.get? "backend" = some (.text a) → req.address = a) ∧
      (context.get? "backend" = none → req.address = "localhost:8080") := by
  have hc := createRequest_ok (execute_sent h)
  have h2 : dropBackend context = others context := by
    have h1 := (C49_context_kept_partial env answer parts context).1
    rw [← h1]
    unfold executeRemote
    rw [execute_sent h]
    simp only
    cases streamLoop env (pipelineCallbacks parts) (answer req) none with
    | mk r as => cases r <;> rfl
  refine ⟨?_, ?_, ?_⟩
  · rw [← h2]
    have h3 := hc.2.1
    generalize dropBackend context = l at h3
    generalize req.context = c at h3 ⊢
    induction l generalizing c with
    | nil => simp only [createInitialContext] at h3; cases h3; rfl
    | cons kv r ih =>
      obtain ⟨k, v⟩ := kv
      cases v with
      | text s => simp [createInitialContext] at h3
      | value v =>
        simp only [createInitialContext] at h3
        cases hr : createInitialContext r with
        | error e => rw [hr] at h3; cases h3
        | ok c' => rw [hr] at h3; cases h3; simp [ih c' hr]
  · intro a ha; rw [hc.2.2]; simp [backendAddress, ha]
  · intro ha; rw [hc.2.2]; simp [backendAddress, ha]

/-- **C49 fails.** Executing the same pipeline twice with the same dictionary, which names a backend other than the
default, sends the second request to `localhost:8080`. -/
theorem C49_second_run_other_backend (env : RemoteEnv V) (answer : Request → List (Msg V)) (parts : List RPart)
    (context : Dict String CtxValue) (a : String) (ha : context.get? "backend" = some (.text a))
    (r1 : Request) (h1 : (executeRemote env answer parts context).sent = some r1) :
    r1.address = a ∧
    ∃ r2, (executeRemote env answer parts (executeRemote env answer parts context).context).sent = some r2 ∧
      r2.address = "localhost:8080" ∧ r2.pipeline = r1.pipeline ∧ r2.context = r1.context := by
  refine ⟨(C49_sent_context env answer parts context r1 h1).2.1 a ha, ?_⟩
  have hc := createRequest_ok (execute_sent h1)
  have hcx := (C49_context_kept_partial env answer parts context).1
  have hdb : dropBackend (others context) = others context := by
    unfold dropBackend
    split
    · unfold Dict.del others; rw [List.filter_filter]; apply List.filter_congr; intro x _; simp [bne]
    · rfl
  have hdc : dropBackend context = others context := by
    rw [← hcx]
    unfold executeRemote
    rw [execute_sent h1]
    simp only
    cases streamLoop env (pipelineCallbacks parts) (answer r1) none with
    | mk r as => cases r <;> rfl
  rw [hcx]
  have hno : backendAddress (others context) = "localhost:8080" := by
    have : Dict.get? (others context) "backend" = none := by
      rw [Dict.get?_eq_none_iff]
      unfold Dict.keys others
      simp
    simp [backendAddress, this]
  have hreq : createRequest parts (others context) =
      .ok { address := "localhost:8080", pipeline := r1.pipeline, context := r1.context } := by
    have hcc := hc.2.1
    rw [hdc] at hcc
    simp only [createRequest, bind, Except.bind, hc.1, hdb, hcc, hno]
    rfl
  refine ⟨{ address := "localhost:8080", pipeline := r1.pipeline, context := r1.context }, ?_, rfl, rfl, rfl⟩
  unfold executeRemote
  rw [hreq]
  simp only
  cases streamLoop env (pipelineCallbacks parts) _ none with
  | mk r as => cases r <;> rfl

/-! ### A concrete run

A pipeline with a request for the graph (identifier 1), a nested pipeline with a request for the names (2) and a part
without callback; the backend answers to both, to an unknown identifier, and goes on after its final result. -/

def exRemoteParts : List RPart :=
  [.simple 1 "graph", .nested 5 "ExecuteWithEachActivityLog" (.ok [("activity_level", .uint32 0)])
    [.plain 6 "FilterTracesByEventsCount" (.ok [("events_count", .uint32 2)]),
     .complex 2 ["names_event_log"] "GetNamesEventLog" (.ok [])],
   .plain 7 "ReverseHashesEventLog" (.ok [])]

def exRemoteEnv : RemoteEnv Nat where
  parseUuid t := if t = "one" then .ok 1 else if t = "two" then .ok 2 else if t = "six" then .ok 6 else .error .valueError
  callback _ _ := .ok ()
  drop _ := .ok ()
  streamEnd := none

def exRemoteAnswer : List (Msg Nat) :=
  [.log "started", .part "two" [("a", 1), ("b", 2), ("a", 3)], .part "six" [("c", 4)], .unset, .part "one" [],
   .final (some "guid"), .part "one" [("late", 1)]]

def exRemoteContext : Dict String CtxValue :=
  [("path", .value (.string "log.xes")), ("backend", .text "host:1"), ("level", .value (.uint32 3))]

/-- A readable form of the effects. -/
def showActs : List (Act Nat) → List (Nat × String × List (String × Nat))
  | [] => []
  | .callback u d :: r => (u, "callback", d) :: showActs r
  | .print m :: r => (0, m, []) :: showActs r
  | .drop g :: r => (0, "drop " ++ g, []) :: showActs r

example : showActs (executeRemote exRemoteEnv (fun _ => exRemoteAnswer) exRemoteParts exRemoteContext).acts =
    [(0, "started", []), (2, "callback", [("a", 3), ("b", 2)]), (1, "callback", []), (0, "drop guid", [])] := by
  decide +kernel

theorem exRemote_sent (env : RemoteEnv Nat) (answer : Request → List (Msg Nat)) :
    ∃ req, (executeRemote env answer exRemoteParts exRemoteContext).sent = some req := by
  have h : createRequest exRemoteParts exRemoteContext = .ok
      { address := "host:1",
        pipeline := [.simple "graph" 1, .defaultWith "ExecuteWithEachActivityLog" [("activity_level", .uint32 0)]
          [.default "FilterTracesByEventsCount" [("events_count", .uint32 2)],
           .complex ["names_event_log"] "GetNamesEventLog" [] 2], .default "ReverseHashesEventLog" []],
        context := [("path", .string "log.xes"), ("level", .uint32 3)] } := by rfl
  unfold executeRemote
  rw [h]
  simp only
  cases streamLoop env (pipelineCallbacks exRemoteParts) (answer _) none with
  | mk r as => cases r <;> exact ⟨_, rfl⟩

/-- The hypothesis of `C47_callbacks_exactly` and `C48_dropped_iff_success`: the run above returns. -/
theorem exRemote_ok :
    (executeRemote exRemoteEnv (fun _ => exRemoteAnswer) exRemoteParts exRemoteContext).result =
      .ok (.final (some "guid")) := by rfl

example : ∃ req, (executeRemote exRemoteEnv (fun _ => exRemoteAnswer) exRemoteParts exRemoteContext).sent = some req ∧
    dropped (executeRemote exRemoteEnv (fun _ => exRemoteAnswer) exRemoteParts exRemoteContext).acts = ["guid"] := by
  obtain ⟨req, h1, _, h3⟩ := C48_dropped_iff_success _ _ _ _ _ exRemote_ok
  exact ⟨req, h1, h3⟩

/-- Both parts with callbacks are carried, also the nested one; the plain part is not. -/
example : PipelineCarries exRemoteParts 1 ∧ PipelineCarries exRemoteParts 2 ∧ ¬ PipelineCarries exRemoteParts 6 := by
  refine ⟨⟨_, List.mem_cons_self .., .simple⟩, ⟨_, List.mem_cons_of_mem _ (List.mem_cons_self ..),
    .inNested (List.mem_cons_of_mem _ (List.mem_cons_self ..)) .complex⟩, ?_⟩
  have h := collected_iff (ps := exRemoteParts) (gs := _) rfl 6
  rw [← h]
  decide

/-- The hypotheses of `C47_failure_aborts` with a callback that raises at the second message. -/
example : (executeRemote { exRemoteEnv with callback := fun _ _ => .error .keyError } (fun _ => exRemoteAnswer)
    exRemoteParts exRemoteContext).result = .error .keyError := by rfl

/-- The hypotheses of `C48_failed_run_drops_nothing` when the drop raises. -/
example : (executeRemote { exRemoteEnv with drop := fun _ => .error .valueError } (fun _ => exRemoteAnswer)
    exRemoteParts exRemoteContext).result = .error .valueError := by rfl

/-- The hypotheses of `C48_empty_stream_raises` and `C48_truncated_stream_keeps`. -/
example : (executeRemote exRemoteEnv (fun _ => []) exRemoteParts exRemoteContext).result = .error .attributeError := by
  obtain ⟨req, h⟩ := exRemote_sent exRemoteEnv (fun _ => [])
  exact (C48_empty_stream_raises _ _ _ _ req h rfl rfl).1

example : dropped (executeRemote exRemoteEnv (fun _ => exRemoteAnswer.take 5) exRemoteParts exRemoteContext).acts = [] := by
  obtain ⟨req, h⟩ := exRemote_sent exRemoteEnv (fun _ => exRemoteAnswer.take 5)
  refine C48_truncated_stream_keeps _ _ _ _ req h ?_
  intro m hm
  simp only [exRemoteAnswer, List.take, List.mem_cons, List.not_mem_nil, or_false] at hm
  rcases hm with rfl | rfl | rfl | rfl | rfl <;> rfl

/-- The hypothesis of `C47_before_after_never_sent`. -/
example : ∃ p ∈ [RPart.nested 1 "X" (.ok []) [.beforeAfter 2 [.simple 3 "graph"]]], HasBeforeAfter p :=
  ⟨_, List.mem_cons_self .., .inNested (List.mem_cons_self ..) .here⟩

/-- The hypotheses of `C49_second_run_other_backend`: the second request does not go to `host:1`. -/
example : ∃ r1 r2 : Request,
    (executeRemote exRemoteEnv (fun _ => exRemoteAnswer) exRemoteParts exRemoteContext).sent = some r1 ∧
    (executeRemote exRemoteEnv (fun _ => exRemoteAnswer) exRemoteParts
      (executeRemote exRemoteEnv (fun _ => exRemoteAnswer) exRemoteParts exRemoteContext).context).sent = some r2 ∧
    r1.address = "host:1" ∧ r2.address = "localhost:8080" := by
  obtain ⟨r1, h1⟩ := exRemote_sent exRemoteEnv (fun _ => exRemoteAnswer)
  obtain ⟨ha, r2, h2, hb, _⟩ := C49_second_run_other_backend exRemoteEnv (fun _ => exRemoteAnswer) exRemoteParts
    exRemoteContext "host:1" (by decide) r1 h1
  exact ⟨r1, r2, h1, h2, ha, hb⟩

end Ficus
