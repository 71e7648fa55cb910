import Verif.Model.Info
import Verif.Spec.Log
import Verif.Proofs.Dict
import Mathlib.Data.List.Dedup
import Mathlib.Data.List.Induction
import Mathlib.Algebra.BigOperators.Group.List.Basic

namespace Ficus
open Spec

/-- Counting dictionary of a list of keys. -/
def counter {K : Type} [DecidableEq K] (l : List K) : Dict K Nat := l.foldl increaseInIntMap []

section counter
variable {K : Type} [DecidableEq K]

theorem counter_append_singleton (l : List K) (k : K) : counter (l ++ [k]) = increaseInIntMap (counter l) k := by
  simp [counter, List.foldl_append]

theorem counter_WF (l : List K) : (counter l).WF := by
  induction l using List.reverseRecOn with
  | nil => exact Dict.WF_nil
  | append_singleton l k ih => rw [counter_append_singleton]; exact Dict.WF_set ih _ _

theorem counter_get? [BEq K] [LawfulBEq K] (l : List K) (k : K) :
    (counter l).get? k = if l.count k = 0 then none else some (l.count k) := by
  induction l using List.reverseRecOn with
  | nil => simp [counter]
  | append_singleton l a ih =>
    rw [counter_append_singleton, increaseInIntMap, Dict.get?_set, List.count_append]
    by_cases h : a = k
    · subst h
      simp only [if_true, ih, List.count_singleton_self, Nat.add_eq_zero_iff, Nat.one_ne_zero, and_false, if_false]
      by_cases h0 : l.count a = 0 <;> simp [h0]
    · simp only [h, if_false, ih]
      have : List.count k [a] = 0 := by simp [h]
      rw [this, Nat.add_zero]

theorem counter_getD [BEq K] [LawfulBEq K] (l : List K) (k : K) : ((counter l).get? k).getD 0 = l.count k := by
  rw [counter_get?]; split <;> simp_all

theorem mem_counter_keys (l : List K) (k : K) : k ∈ (counter l).keys ↔ k ∈ l := by
  rw [Dict.mem_keys_iff, counter_get?, ← List.count_pos_iff]
  by_cases h : l.count k = 0
  · simp [h]
  · simp only [h, if_false, Option.some.injEq, exists_eq', true_iff]; omega

/-- Sum of the entries of a counter selected by a predicate on keys. -/
theorem counter_sum_filter (l : List K) (p : K → Bool) :
    (((counter l).filter (fun e => p e.1)).map Prod.snd).sum = (l.filter p).length := by
  induction l using List.reverseRecOn with
  | nil => rfl
  | append_singleton l a ih =>
    rw [counter_append_singleton, increaseInIntMap]
    have key : ∀ (d : Dict K Nat) (hd : d.WF), (((d.set a ((d.get? a).getD 0 + 1)).filter (fun e => p e.1)).map Prod.snd).sum
        = ((d.filter (fun e => p e.1)).map Prod.snd).sum + (if p a then 1 else 0) := by
      intro d hd
      induction d with
      | nil => simp only [Dict.set, Dict.get?, Option.getD_none]; by_cases h : p a <;> simp [h]
      | cons x d ihd =>
        obtain ⟨k, v⟩ := x
        have hd' : Dict.WF d := by
          unfold Dict.WF Dict.keys at hd ⊢; simp only [List.map_cons, List.nodup_cons] at hd; exact hd.2
        by_cases hk : k = a
        · subst hk
          simp only [Dict.set, Dict.get?, if_true, Option.getD_some]
          by_cases h : p k <;> simp [h]; omega
        · simp only [Dict.set, Dict.get?, hk, if_false]
          by_cases h : p k
          · simp only [List.filter_cons, h, if_true, List.map_cons, List.sum_cons, ihd hd']; omega
          · simp only [List.filter_cons, h, Bool.false_eq_true, if_false, ihd hd']
    rw [key _ (counter_WF l), ih, List.filter_append, List.length_append]
    by_cases h : p a <;> simp [h]

end counter

variable {E : Type} [HasName E]

/-- The pairs recorded for the remaining names of a trace, given the previously seen name. -/
def recordedPairs (fake : Bool) : Option String → List String → List (String × String)
  | none, [] => []
  | some p, [] => if fake then [(p, fakeEnd)] else []
  | none, n :: ns => (if fake then [(fakeStart, n)] else []) ++ recordedPairs fake (some n) ns
  | some p, n :: ns => (p, n) :: recordedPairs fake (some n) ns

theorem infoEventStep_fold (ignored : Option (List String)) (fake : Bool) (t : List E) (P : List (String × String))
    (C : List String) (prev : Option E) :
    let st := t.foldl (infoEventStep ignored fake) (({ pairs := counter P, eventsCount := counter C } : LogInfo), prev)
    let ns := (t.map name).filter (fun n => !isIgnored ignored n)
    (match st.2 with
      | some p => if fake then { st.1 with pairs := increaseInIntMap st.1.pairs (name p, fakeEnd) } else st.1
      | none => st.1) =
    { pairs := counter (P ++ recordedPairs fake (prev.map name) ns), eventsCount := counter (C ++ ns) } := by
  induction t generalizing P C prev with
  | nil =>
    cases prev with
    | none => simp [recordedPairs]
    | some p =>
      cases fake
      · simp [recordedPairs]
      · simp [recordedPairs, counter_append_singleton]
  | cons e t ih =>
    simp only [List.foldl_cons, List.map_cons]
    by_cases hi : isIgnored ignored (name e)
    · have h1 : infoEventStep ignored fake (({ pairs := counter P, eventsCount := counter C } : LogInfo), prev) e =
          (({ pairs := counter P, eventsCount := counter C } : LogInfo), prev) := by
        simp [infoEventStep, hi]
      rw [h1]
      simp only [List.filter_cons, hi, Bool.not_true, Bool.false_eq_true, if_false]
      exact ih P C prev
    · have hi' : isIgnored ignored (name e) = false := by simpa using hi
      simp only [List.filter_cons, hi', Bool.not_false, if_true]
      cases prev with
      | none =>
        cases fake
        · have h1 : infoEventStep ignored false (({ pairs := counter P, eventsCount := counter C } : LogInfo), none) e =
            (({ pairs := counter P, eventsCount := counter (C ++ [name e]) } : LogInfo), some e) := by
            simp [infoEventStep, hi', counter_append_singleton]
          rw [h1]
          have := ih P (C ++ [name e]) (some e)
          simpa [recordedPairs] using this
        · have h1 : infoEventStep ignored true (({ pairs := counter P, eventsCount := counter C } : LogInfo), none) e =
            (({ pairs := counter (P ++ [(fakeStart, name e)]), eventsCount := counter (C ++ [name e]) } : LogInfo), some e) := by
            simp [infoEventStep, hi', counter_append_singleton]
          rw [h1]
          have := ih (P ++ [(fakeStart, name e)]) (C ++ [name e]) (some e)
          simpa [recordedPairs] using this
      | some p =>
        have h1 : infoEventStep ignored fake (({ pairs := counter P, eventsCount := counter C } : LogInfo), some p) e =
            (({ pairs := counter (P ++ [(name p, name e)]), eventsCount := counter (C ++ [name e]) } : LogInfo), some e) := by
          simp [infoEventStep, hi', counter_append_singleton]
        rw [h1]
        have := ih (P ++ [(name p, name e)]) (C ++ [name e]) (some e)
        simpa [recordedPairs] using this

/-- All names of a log that are not ignored, trace by trace. -/
def keptNames (ignored : Option (List String)) (log : Log E) : List (List String) :=
  log.evs.map (fun t => (t.map name).filter (fun n => !isIgnored ignored n))

theorem createLogInformation_eq (log : Log E) (ignored : Option (List String)) (fake : Bool) :
    createLogInformation log ignored fake =
      { pairs := counter ((keptNames ignored log).flatMap (recordedPairs fake none)),
        eventsCount := counter (keptNames ignored log).flatten } := by
  unfold createLogInformation keptNames
  generalize log.evs = ts
  suffices h : ∀ (P : List (String × String)) (C : List String),
      ts.foldl (infoTraceStep ignored fake) { pairs := counter P, eventsCount := counter C } =
      { pairs := counter (P ++ (ts.map (fun t => (t.map name).filter (fun n => !isIgnored ignored n))).flatMap (recordedPairs fake none)),
        eventsCount := counter (C ++ (ts.map (fun t => (t.map name).filter (fun n => !isIgnored ignored n))).flatten) } by
    simpa [counter] using h [] []
  induction ts with
  | nil => simp
  | cons t ts ih =>
    intro P C
    simp only [List.foldl_cons, List.map_cons, List.flatMap_cons, List.flatten_cons, ← List.append_assoc]
    have h1 : infoTraceStep ignored fake { pairs := counter P, eventsCount := counter C } t = _ :=
      infoEventStep_fold ignored fake t P C none
    rw [h1]
    exact ih _ _

theorem recordedPairs_some (p : String) (ns : List String) (fake : Bool) :
    recordedPairs fake (some p) ns = adjacent (p :: ns ++ if fake then [fakeEnd] else []) := by
  induction ns generalizing p with
  | nil => cases fake <;> simp [recordedPairs, adjacent]
  | cons n ns ih => simp only [recordedPairs, ih]; cases fake <;> simp [adjacent]

theorem recordedPairs_none_true (ns : List String) :
    recordedPairs true none ns = adjacent (framed fakeStart fakeEnd ns) := by
  cases ns with
  | nil => simp [recordedPairs, framed, adjacent]
  | cons n ns =>
    simp only [recordedPairs, recordedPairs_some, framed]
    simp [adjacent]

theorem recordedPairs_none_false (ns : List String) : recordedPairs false none ns = adjacent ns := by
  cases ns with
  | nil => simp [recordedPairs, adjacent]
  | cons n ns => simp only [recordedPairs, recordedPairs_some]; simp [adjacent]

theorem adjacent_map_fst {α : Type} (l : List α) : (adjacent l).map Prod.fst = l.dropLast := by
  induction l with
  | nil => rfl
  | cons a l ih =>
    cases l with
    | nil => rfl
    | cons b l => simp only [adjacent, List.tail_cons, List.zip_cons_cons, List.map_cons, List.dropLast_cons_cons] at ih ⊢
                  rw [ih]

theorem adjacent_map_snd {α : Type} (l : List α) : (adjacent l).map Prod.snd = l.tail := by
  induction l with
  | nil => rfl
  | cons a l ih =>
    cases l with
    | nil => rfl
    | cons b l => simp only [adjacent, List.tail_cons, List.zip_cons_cons, List.map_cons] at ih ⊢
                  rw [ih]

theorem isIgnored_getD (ignored : Option (List String)) (n : String) :
    (!isIgnored ignored n) = decide (n ∉ ignored.getD []) := by
  cases ignored <;> simp [isIgnored]

theorem keptNames_eq (ignored : Option (List String)) (log : Log E) :
    keptNames ignored log = log.evs.map (kept (ignored.getD [])) := by
  unfold keptNames kept
  congr 1; funext t; congr 1; funext n; exact isIgnored_getD _ _

/-! ### DirectlyFollowsGraph -/

theorem set_append_of_notMem {K V : Type} [DecidableEq K] (d : Dict K V) (k : K) (v : V) (h : k ∉ d.keys) :
    d.set k v = d ++ [(k, v)] := by
  induction d with
  | nil => rfl
  | cons x d ih =>
    obtain ⟨a, b⟩ := x
    simp only [Dict.keys, List.map_cons, List.mem_cons, not_or] at h
    have : a ≠ k := fun e => h.1 e.symm
    simp only [Dict.set, this, if_false, List.cons_append]
    rw [ih h.2]

theorem dfg_inv (pairs : Dict (String × String) Nat) (ks done : List (String × String)) (g : Dfg)
    (hnd : (done ++ ks).Nodup)
    (hF : ∀ f, g.followedEvents.get? f =
      if done.filter (fun k => decide (k.1 = f)) = [] then none
      else some ((done.filter (fun k => decide (k.1 = f))).map (fun k => (k.2, (pairs.get? k).getD 0))))
    (hS : ∀ x, x ∈ g.singleFollower ↔ (done.filter (fun k => decide (k.1 = x))).length = 1) :
    let g' := ks.foldl (dfgStep pairs) g
    (∀ f, g'.followedEvents.get? f =
      if (done ++ ks).filter (fun k => decide (k.1 = f)) = [] then none
      else some (((done ++ ks).filter (fun k => decide (k.1 = f))).map (fun k => (k.2, (pairs.get? k).getD 0)))) ∧
    (∀ x, x ∈ g'.singleFollower ↔ ((done ++ ks).filter (fun k => decide (k.1 = x))).length = 1) := by
  induction ks generalizing done g with
  | nil => rw [List.append_nil]; exact ⟨hF, hS⟩
  | cons key ks ih =>
    obtain ⟨first, second⟩ := key
    have hsplit : done ++ (first, second) :: ks = (done ++ [(first, second)]) ++ ks := by simp
    rw [hsplit] at hnd ⊢
    simp only [List.foldl_cons]
    have hnew : (first, second) ∉ done := by
      have := (List.nodup_append.1 (List.nodup_append.1 hnd).1).2.2
      intro hm; exact this _ hm _ (by simp) rfl
    apply ih _ _ hnd
    · intro f
      have hf := hF first
      unfold dfgStep
      by_cases hnil : done.filter (fun k => decide (k.1 = first)) = []
      · simp only [hnil, if_true] at hf
        simp only [hf, Dict.get?_set]
        by_cases hff : first = f
        · subst hff; simp [List.filter_append, hnil]
        · have e : (done ++ [(first, second)]).filter (fun k => decide (k.1 = f)) =
              done.filter (fun k => decide (k.1 = f)) := by simp [List.filter_append, hff]
          rw [e, if_neg hff]; exact hF f
      · simp only [hnil, if_false] at hf
        simp only [hf]
        have hk : second ∉ Dict.keys ((done.filter (fun k => decide (k.1 = first))).map
            (fun k => (k.2, (pairs.get? k).getD 0))) := by
          unfold Dict.keys
          simp only [List.map_map, List.mem_map, List.mem_filter, Function.comp_apply, decide_eq_true_eq, not_exists,
            not_and, and_imp]
          rintro ⟨a, b⟩ hab rfl rfl
          exact hnew hab
        rw [if_pos hk]
        simp only [Dict.get?_set]
        by_cases hff : first = f
        · subst hff
          simp only [if_true, List.filter_append]
          rw [set_append_of_notMem _ _ _ hk]
          simp
        · have e : (done ++ [(first, second)]).filter (fun k => decide (k.1 = f)) =
              done.filter (fun k => decide (k.1 = f)) := by simp [List.filter_append, hff]
          rw [e, if_neg hff]; exact hF f
    · intro x
      have hf := hF first
      unfold dfgStep
      by_cases hnil : done.filter (fun k => decide (k.1 = first)) = []
      · simp only [hnil, if_true] at hf
        simp only [hf, List.mem_append, List.mem_singleton, List.filter_append, List.length_append, hS]
        by_cases hff : x = first
        · subst hff; simp [hnil]
        · simp [hff, Ne.symm hff]
      · simp only [hnil, if_false] at hf
        simp only [hf]
        have hpos : 0 < (done.filter (fun k => decide (k.1 = first))).length := List.length_pos_iff.2 hnil
        have hmem : ∀ y, y ∈ (if first ∈ g.singleFollower then g.singleFollower.filter (fun x => decide (x ≠ first))
            else g.singleFollower) ↔ y ∈ g.singleFollower ∧ y ≠ first := by
          intro y
          by_cases hin : first ∈ g.singleFollower
          · simp [hin, List.mem_filter]
          · simp only [hin, if_false]
            exact ⟨fun h => ⟨h, fun he => hin (he ▸ h)⟩, And.left⟩
        rw [hmem, hS, List.filter_append, List.length_append]
        by_cases hff : x = first
        · subst hff
          simp only [ne_eq, not_true, and_false, List.filter_cons, decide_true, if_true, List.filter_nil,
            List.length_cons, List.length_nil, false_iff]
          omega
        · simp [hff, Ne.symm hff]

/-! ### find_all_events_names -/

theorem findNames_inv (pred : E → Bool) (es : List E) (st : List String × List String)
    (seen : List E)
    (h1 : ∀ n, n ∈ st.1 ↔ ∃ e ∈ seen, name e = n ∧ pred e = false)
    (h2 : ∀ n, n ∈ st.2 ↔ (∃ e ∈ seen, name e = n) ∧ ∀ e ∈ seen, name e = n → pred e = true) :
    ∀ n, n ∈ (es.foldl (findNamesStep pred) st).2 ↔
      (∃ e ∈ seen ++ es, name e = n) ∧ ∀ e ∈ seen ++ es, name e = n → pred e = true := by
  induction es generalizing st seen with
  | nil => intro n; simpa using h2 n
  | cons e es ih =>
    have : seen ++ e :: es = (seen ++ [e]) ++ es := by simp
    rw [this, List.foldl_cons]
    apply ih
    · intro n
      unfold findNamesStep
      by_cases hm : name e ∈ st.1
      · simp only [hm, if_true]
        rw [h1]; constructor
        · rintro ⟨x, hx, hn, hp⟩; exact ⟨x, by simp [hx], hn, hp⟩
        · rintro ⟨x, hx, hn, hp⟩
          rcases List.mem_append.1 hx with hx | hx
          · exact ⟨x, hx, hn, hp⟩
          · simp at hx; subst hx; rw [← hn]; exact (h1 _).1 hm
      · simp only [hm, if_false]
        by_cases hp : pred e
        · simp only [hp, Bool.not_true, Bool.false_eq_true, if_false]
          rw [h1]; constructor
          · rintro ⟨x, hx, hn, hp⟩; exact ⟨x, by simp [hx], hn, hp⟩
          · rintro ⟨x, hx, hn, hp'⟩
            rcases List.mem_append.1 hx with hx | hx
            · exact ⟨x, hx, hn, hp'⟩
            · simp at hx; subst hx; rw [hp] at hp'; cases hp'
        · simp only [hp, Bool.not_false, if_true]
          rw [List.mem_insert_iff, h1]; constructor
          · rintro (rfl | ⟨x, hx, hn, hp'⟩)
            · exact ⟨e, by simp, rfl, by simpa using hp⟩
            · exact ⟨x, by simp [hx], hn, hp'⟩
          · rintro ⟨x, hx, hn, hp'⟩
            rcases List.mem_append.1 hx with hx | hx
            · exact Or.inr ⟨x, hx, hn, hp'⟩
            · simp at hx; subst hx; exact Or.inl hn.symm
    · intro n
      unfold findNamesStep
      by_cases hm : name e ∈ st.1
      · simp only [hm, if_true]
        rw [h2]
        obtain ⟨x, hx, hn, hp⟩ := (h1 _).1 hm
        constructor
        · rintro ⟨⟨y, hy, hyn⟩, hall⟩
          refine ⟨⟨y, by simp [hy], hyn⟩, ?_⟩
          intro z hz hzn
          rcases List.mem_append.1 hz with hz | hz
          · exact hall z hz hzn
          · simp at hz; subst hz
            have := hall x hx (hn.trans hzn); rw [hp] at this; cases this
        · rintro ⟨⟨y, hy, hyn⟩, hall⟩
          by_cases hne : name e = n
          · have := hall x (by simp [hx]) (hn.trans hne); rw [hp] at this; cases this
          · refine ⟨?_, fun z hz hzn => hall z (by simp [hz]) hzn⟩
            rcases List.mem_append.1 hy with hy | hy
            · exact ⟨y, hy, hyn⟩
            · simp at hy; subst hy; exact absurd hyn hne
      · simp only [hm, if_false]
        have hnone : ∀ x ∈ seen, name x = name e → pred x = true := by
          intro x hx hxn
          by_contra hc
          exact hm ((h1 _).2 ⟨x, hx, hxn, by simpa using hc⟩)
        by_cases hp : pred e
        · simp only [hp, Bool.not_true, Bool.false_eq_true, if_false]
          rw [List.mem_insert_iff, h2]; constructor
          · rintro (rfl | ⟨⟨y, hy, hyn⟩, hall⟩)
            · refine ⟨⟨e, by simp, rfl⟩, ?_⟩
              intro z hz hzn
              rcases List.mem_append.1 hz with hz | hz
              · exact hnone z hz hzn
              · simp at hz; subst hz; exact hp
            · refine ⟨⟨y, by simp [hy], hyn⟩, ?_⟩
              intro z hz hzn
              rcases List.mem_append.1 hz with hz | hz
              · exact hall z hz hzn
              · simp at hz; subst hz; exact hp
          · rintro ⟨⟨y, hy, hyn⟩, hall⟩
            by_cases hne : n = name e
            · exact Or.inl hne
            · refine Or.inr ⟨?_, fun z hz hzn => hall z (by simp [hz]) hzn⟩
              rcases List.mem_append.1 hy with hy | hy
              · exact ⟨y, hy, hyn⟩
              · simp at hy; subst hy; exact absurd hyn.symm hne
        · have hp' : pred e = false := by simpa using hp
          simp only [hp', Bool.not_false, if_true]
          have hset : ∀ m, m ∈ (if name e ∈ st.2 then st.2.filter (fun x => decide (x ≠ name e)) else st.2) ↔
              m ∈ st.2 ∧ m ≠ name e := by
            intro m
            by_cases hin : name e ∈ st.2
            · simp [hin, List.mem_filter]
            · simp only [hin, if_false]
              constructor
              · intro hm2; exact ⟨hm2, fun he => hin (he ▸ hm2)⟩
              · exact And.left
          rw [hset, h2]; constructor
          · rintro ⟨⟨⟨y, hy, hyn⟩, hall⟩, hne⟩
            refine ⟨⟨y, by simp [hy], hyn⟩, ?_⟩
            intro z hz hzn
            rcases List.mem_append.1 hz with hz | hz
            · exact hall z hz hzn
            · simp at hz; subst hz; exact absurd hzn.symm hne
          · rintro ⟨⟨y, hy, hyn⟩, hall⟩
            have hne : n ≠ name e := by
              rintro rfl
              have := hall e (by simp) rfl; rw [hp'] at this; cases this
            refine ⟨⟨?_, fun z hz hzn => hall z (by simp [hz]) hzn⟩, hne⟩
            rcases List.mem_append.1 hy with hy | hy
            · exact ⟨y, hy, hyn⟩
            · simp at hy; subst hy; exact absurd hyn.symm hne

theorem foldl_flatten_gen {α β : Type} (f : β → α → β) (ls : List (List α)) (b : β) :
    ls.foldl (fun st l => l.foldl f st) b = ls.flatten.foldl f b := by
  induction ls generalizing b with
  | nil => rfl
  | cons l ls ih => simp [ih, List.foldl_append]

end Ficus
