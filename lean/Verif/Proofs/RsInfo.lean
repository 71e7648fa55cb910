import Verif.Model.RsInfo
import Verif.Proofs.Info

namespace Ficus.Rs
open Spec

theorem increaseInMap_eq {K : Type} [DecidableEq K] (d : Dict K Nat) (k : K) : increaseInMap d k = increaseInIntMap d k := by
  unfold increaseInMap increaseInIntMap
  cases d.get? k <;> simp

/-- The nested map of a list of pairs. -/
def nested (P : List (String × String)) : Dict String (Dict String Nat) := P.foldl (fun d p => updatePairs d p.1 p.2) []

theorem nested_append (P : List (String × String)) (p : String × String) :
    nested (P ++ [p]) = updatePairs (nested P) p.1 p.2 := by simp [nested, List.foldl_append]

/-- The inner maps are the counters of the followers. -/
theorem nested_get? (P : List (String × String)) (a : String) :
    (nested P).get? a =
      if a ∈ P.map Prod.fst then some (counter ((P.filter (fun p => p.1 = a)).map Prod.snd)) else none := by
  induction P using List.reverseRecOn with
  | nil => simp [nested]
  | append_singleton P p ih =>
    obtain ⟨x, y⟩ := p
    rw [nested_append]
    have key : (updatePairs (nested P) x y).get? a =
        if x = a then some (increaseInIntMap (((nested P).get? a).getD []) y) else (nested P).get? a := by
      unfold updatePairs
      by_cases hx : x = a
      · subst hx
        simp only [if_true]
        cases h : (nested P).get? x with
        | none => simp [increaseInIntMap, Dict.set]
        | some values =>
          cases h2 : values.get? y <;> simp [increaseInIntMap, h2]
      · simp only [hx, if_false]
        cases h : (nested P).get? x with
        | none => simp [Dict.get?_set_ne _ _ hx]
        | some values =>
          simp only
          split <;> exact Dict.get?_set_ne _ _ hx
    simp only
    rw [key, ih]
    by_cases hx : x = a
    · subst hx
      by_cases hm : x ∈ P.map Prod.fst
      · have hm' : x ∈ (P ++ [(x, y)]).map Prod.fst := by simp
        rw [if_pos hm, if_pos hm', if_pos rfl]
        simp [List.filter_append, counter_append_singleton]
      · have hm' : x ∈ (P ++ [(x, y)]).map Prod.fst := by simp
        rw [if_neg hm, if_pos hm', if_pos rfl]
        have : P.filter (fun p => p.1 = x) = [] := by
          rw [List.filter_eq_nil_iff]
          intro q hq hqx
          exact hm (List.mem_map.mpr ⟨q, hq, by simpa using hqx⟩)
        simp [List.filter_append, this, counter]
    · have hm' : a ∈ (P ++ [(x, y)]).map Prod.fst ↔ a ∈ P.map Prod.fst := by
        simp [Ne.symm hx]
      simp only [hm', hx, if_false, List.filter_append]
      have : [(x, y)].filter (fun p => decide (p.1 = a)) = [] := by simp [hx]
      rw [this, List.append_nil]

theorem count_filter_snd (P : List (String × String)) (a b : String) :
    ((P.filter (fun p => p.1 = a)).map Prod.snd).count b = P.count (a, b) := by
  induction P with
  | nil => rfl
  | cons p P ih =>
    obtain ⟨x, y⟩ := p
    by_cases hx : x = a
    · subst hx
      simp only [List.filter_cons, decide_true, if_true, List.map_cons, List.count_cons, ih, beq_iff_eq, Prod.mk.injEq, true_and]
    · simp [hx, ih]

/-- The count of a pair in the nested map. -/
theorem nested_count (P : List (String × String)) (a b : String) :
    ((nested P).get? a).bind (fun m => m.get? b) = if P.count (a, b) = 0 then none else some (P.count (a, b)) := by
  rw [nested_get?]
  by_cases h : a ∈ P.map Prod.fst
  · rw [if_pos h, Option.bind_some, counter_get?, count_filter_snd]
  · rw [if_neg h, Option.bind_none, if_pos]
    rw [List.count_eq_zero]
    intro hm
    exact h (List.mem_map.mpr ⟨_, hm, rfl⟩)

theorem nested_WF (P : List (String × String)) : (nested P).WF := by
  induction P using List.reverseRecOn with
  | nil => exact Dict.WF_nil
  | append_singleton P p ih =>
    rw [nested_append]
    unfold updatePairs
    split
    · split <;> exact Dict.WF_set ih _ _
    · exact Dict.WF_set ih _ _

theorem nested_inner_WF {P : List (String × String)} {a : String} {m : Dict String Nat} (h : (a, m) ∈ nested P) : m.WF := by
  have := Dict.get?_of_mem (nested_WF P) h
  rw [nested_get?] at this
  split at this
  · cases this; exact counter_WF _
  · cases this

theorem nested_inner_ne {P : List (String × String)} {a : String} {m : Dict String Nat} (h : (a, m) ∈ nested P) : m ≠ [] := by
  have := Dict.get?_of_mem (nested_WF P) h
  rw [nested_get?] at this
  split at this
  · rename_i hm
    cases this
    obtain ⟨q, hq, rfl⟩ := List.mem_map.mp hm
    have h2 : q.2 ∈ (counter ((P.filter (fun p => p.1 = q.1)).map Prod.snd)).keys := by
      rw [mem_counter_keys]
      exact List.mem_map.mpr ⟨q, List.mem_filter.mpr ⟨hq, by simp⟩, rfl⟩
    intro h0
    rw [h0] at h2
    cases h2
  · cases this

variable {E : Type} [HasName E]

theorem countEvent_fold (ignored : Option (List String)) (fake : Bool) (t : List E) (n : Nat) (s e : List String)
    (P : List (String × String)) (C : List String) (prev : Option String) :
    let st := t.foldl (countEvent ignored fake)
      (({ events := n, starts := s, ends := e, pairs := nested P, classes := counter C } : Counts), prev)
    let ns := (t.map name).filter (fun n => !isIgnored ignored n)
    finishTrace fake st =
    { events := n, starts := s, ends := e, pairs := nested (P ++ recordedPairs fake prev ns),
      classes := counter (C ++ ns) } := by
  induction t generalizing P C prev with
  | nil =>
    cases prev with
    | none => simp [recordedPairs, finishTrace]
    | some p =>
      cases fake
      · simp [recordedPairs, finishTrace]
      · simp [recordedPairs, finishTrace, nested_append, fakeEnd]
  | cons x t ih =>
    simp only [List.foldl_cons, List.map_cons]
    by_cases hi : isIgnored ignored (name x)
    · have h1 : countEvent ignored fake
          (({ events := n, starts := s, ends := e, pairs := nested P, classes := counter C } : Counts), prev) x =
          (({ events := n, starts := s, ends := e, pairs := nested P, classes := counter C } : Counts), prev) := by
        simp [countEvent, hi]
      rw [h1]
      simp only [List.filter_cons, hi, Bool.not_true, Bool.false_eq_true, if_false]
      exact ih P C prev
    · have hi' : isIgnored ignored (name x) = false := by simpa using hi
      simp only [List.filter_cons, hi', Bool.not_false, if_true]
      cases prev with
      | none =>
        have h1 : countEvent ignored fake
            (({ events := n, starts := s, ends := e, pairs := nested P, classes := counter C } : Counts), none) x =
            (({ events := n, starts := s, ends := e, pairs := nested (P ++ (if fake then [(fakeStart, name x)] else [])),
                classes := counter (C ++ [name x]) } : Counts), some (name x)) := by
          cases fake <;> simp [countEvent, hi', counter_append_singleton, increaseInMap_eq, nested_append, fakeStart]
        rw [h1]
        have := ih (P ++ (if fake then [(fakeStart, name x)] else [])) (C ++ [name x]) (some (name x))
        simpa [recordedPairs] using this
      | some p =>
        have h1 : countEvent ignored fake
            (({ events := n, starts := s, ends := e, pairs := nested P, classes := counter C } : Counts), some p) x =
            (({ events := n, starts := s, ends := e, pairs := nested (P ++ [(p, name x)]),
                classes := counter (C ++ [name x]) } : Counts), some (name x)) := by
          simp [countEvent, hi', counter_append_singleton, increaseInMap_eq, nested_append]
        rw [h1]
        have := ih (P ++ [(p, name x)]) (C ++ [name x]) (some (name x))
        simpa [recordedPairs] using this

/-- The kept names of the traces. -/
def keptOf (ignored : Option (List String)) (log : List (List E)) : List (List String) :=
  log.map (fun t => (t.map name).filter (fun n => !isIgnored ignored n))

/-- The set of a list. -/
def setOf (l : List String) : List String := l.foldl insertSet []

theorem setOf_append (l : List String) (x : String) : setOf (l ++ [x]) = insertSet (setOf l) x := by
  simp [setOf, List.foldl_append]

theorem mem_setOf (l : List String) (x : String) : x ∈ setOf l ↔ x ∈ l := by
  induction l using List.reverseRecOn with
  | nil => simp [setOf]
  | append_singleton l y ih =>
    rw [setOf_append, insertSet]
    split
    · rename_i h
      simp only [ih, List.mem_append, List.mem_singleton]
      constructor
      · exact Or.inl
      · rintro (h1 | h1)
        · exact h1
        · exact h1 ▸ (h1 ▸ ih).mp h
    · simp [ih]

theorem setOf_nodup (l : List String) : (setOf l).Nodup := by
  induction l using List.reverseRecOn with
  | nil => simp [setOf]
  | append_singleton l y ih =>
    rw [setOf_append, insertSet]
    split
    · exact ih
    · rename_i h
      rw [List.nodup_append]
      refine ⟨ih, by simp, ?_⟩
      intro a ha b hb
      simp only [List.mem_singleton] at hb
      subst hb
      intro hab
      subst hab
      exact h ha

/-- The result of the scan. -/
theorem scan_eq (log : List (List E)) (ignored : Option (List String)) (fake : Bool) :
    log.foldl (countTrace ignored fake) {} =
      { events := (log.map List.length).sum,
        classes := counter (keptOf ignored log).flatten,
        pairs := nested ((keptOf ignored log).flatMap (recordedPairs fake none)),
        starts := setOf (log.filterMap (fun t => t.head?.map name)),
        ends := setOf (log.filterMap (fun t => t.getLast?.map name)) } := by
  induction log using List.reverseRecOn with
  | nil => rfl
  | append_singleton log t ih =>
    rw [List.foldl_append, ih]
    simp only [List.foldl_cons, List.foldl_nil, countTrace]
    cases t with
    | nil => simp [keptOf, recordedPairs, List.filterMap_append, List.filterMap_cons, finishTrace]
    | cons x t =>
      have hl : ∃ y, (x :: t).getLast? = some y := ⟨_, List.getLast?_eq_some_getLast (by simp)⟩
      obtain ⟨y, hy⟩ := hl
      simp only [List.head?_cons, hy]
      have := countEvent_fold ignored fake (x :: t) ((log.map List.length).sum + (x :: t).length)
        (insertSet (setOf (log.filterMap (fun t => t.head?.map name))) (name x))
        (insertSet (setOf (log.filterMap (fun t => t.getLast?.map name))) (name y))
        ((keptOf ignored log).flatMap (recordedPairs fake none)) (keptOf ignored log).flatten none
      simp only at this
      rw [this]
      simp [keptOf, List.filterMap_append, hy, setOf_append]

/-- The entries of the nested map in the order of iteration. -/
def entriesOf (it : Iter) (pairs : Dict String (Dict String Nat)) : List (String × String × Nat) :=
  (it.order "dfg_pairs" 0 pairs).flatMap (fun entry =>
    (it.order ("followers_map of " ++ entry.1) 0 entry.2).map (fun e => (entry.1, e)))

theorem followLoop_eq (it : Iter) (pairs : Dict String (Dict String Nat)) :
    followLoop it pairs = (entriesOf it pairs).foldl (fun f e => followStep e.1 f e.2) {} := by
  unfold followLoop entriesOf
  rw [List.foldl_flatMap]
  simp only [List.foldl_map]

theorem mem_entriesOf (it : Iter) (P : List (String × String)) (a b : String) (n : Nat) :
    (a, b, n) ∈ entriesOf it (nested P) ↔ n = P.count (a, b) ∧ 0 < n := by
  have h := nested_count P a b
  simp only [entriesOf, List.mem_flatMap, List.mem_map, (it.perm _ _ _).mem_iff]
  constructor
  · rintro ⟨⟨x, m⟩, hx, e, he, h1⟩
    simp only [Prod.mk.injEq] at h1
    obtain ⟨rfl, rfl⟩ := h1
    have h2 := Dict.get?_of_mem (nested_WF P) hx
    have h3 := Dict.get?_of_mem (nested_inner_WF hx) he
    rw [h2, Option.bind_some, h3] at h
    split at h
    · cases h
    · cases h; exact ⟨rfl, by omega⟩
  · rintro ⟨rfl, h0⟩
    rw [if_neg (by omega)] at h
    rw [Option.bind_eq_some_iff] at h
    obtain ⟨m, hm, hb⟩ := h
    exact ⟨(a, m), Dict.mem_of_get? hm, (b, _), Dict.mem_of_get? hb, rfl⟩

theorem entriesOf_nodup (it : Iter) (P : List (String × String)) :
    ((entriesOf it (nested P)).map (fun e => (e.1, e.2.1))).Nodup := by
  unfold entriesOf
  rw [List.map_flatMap, List.nodup_flatMap]
  constructor
  · rintro ⟨a, m⟩ hm
    rw [(it.perm _ _ _).mem_iff] at hm
    have hw := nested_inner_WF hm
    rw [List.map_map]
    have h1 : ((it.order ("followers_map of " ++ a) 0 m).map Prod.fst).Nodup :=
      (((it.perm ("followers_map of " ++ a) 0 m).map Prod.fst).nodup_iff).mpr hw
    have h2 := h1.map (f := fun b : String => (a, b)) (fun x y h => (Prod.mk.inj h).2)
    rw [List.map_map] at h2
    exact h2
  · have hw : ((it.order "dfg_pairs" 0 (nested P)).map Prod.fst).Nodup :=
      (((it.perm "dfg_pairs" 0 (nested P)).map Prod.fst).nodup_iff).mpr (nested_WF P)
    rw [List.Nodup, List.pairwise_map] at hw
    refine hw.imp ?_
    rintro ⟨a, m⟩ ⟨b, m'⟩ hab
    simp only [Function.onFun, List.disjoint_left, List.mem_map]
    rintro ⟨x, y⟩ ⟨_, ⟨_, _, rfl⟩, h1⟩ ⟨_, ⟨_, _, rfl⟩, h2⟩
    simp only [Prod.mk.injEq] at h1 h2
    exact hab (h1.1.trans h2.1.symm)

/-- What the second loop has made of the entries so far. -/
structure FollowInv (D : List (String × String × Nat)) (f : Follow) : Prop where
  followed : ∀ a, f.followed.get? a =
    if a ∈ D.map Prod.fst then some ((D.filter (fun e => e.1 = a)).map Prod.snd) else none
  precedes : ∀ b, f.precedes.get? b =
    if b ∈ D.map (fun e => e.2.1) then some ((D.filter (fun e => e.2.1 = b)).map (fun e => (e.1, e.2.2))) else none
  single : ∀ x, x ∈ f.single ↔ (D.filter (fun e => e.1 = x)).length = 1
  nodup : f.single.Nodup

theorem filter_eq_nil_of_notMem {α β : Type} [DecidableEq β] {l : List α} {g : α → β} {x : β} (h : x ∉ l.map g) :
    l.filter (fun e => g e = x) = [] := by
  rw [List.filter_eq_nil_iff]
  intro q hq hqx
  exact h (List.mem_map.mpr ⟨q, hq, by simpa using hqx⟩)

theorem followStep_inv {D : List (String × String × Nat)} {f : Follow} (h : FollowInv D f) (a b : String) (n : Nat)
    (hnew : (a, b) ∉ D.map (fun e => (e.1, e.2.1))) : FollowInv (D ++ [(a, b, n)]) (followStep a f (b, n)) := by
  obtain ⟨hf, hp, hs, hn⟩ := h
  have hb : b ∉ ((D.filter (fun e => e.1 = a)).map Prod.snd).map Prod.fst := by
    rw [List.map_map]
    intro hm
    obtain ⟨q, hq, hqb⟩ := List.mem_map.mp hm
    rw [List.mem_filter] at hq
    simp only [decide_eq_true_eq] at hq
    exact hnew (List.mem_map.mpr ⟨q, hq.1, by rw [hq.2]; simp only [Function.comp] at hqb; rw [hqb]⟩)
  have ha : a ∉ ((D.filter (fun e => e.2.1 = b)).map (fun e => (e.1, e.2.2))).map Prod.fst := by
    rw [List.map_map]
    intro hm
    obtain ⟨q, hq, hqb⟩ := List.mem_map.mp hm
    rw [List.mem_filter] at hq
    simp only [decide_eq_true_eq] at hq
    exact hnew (List.mem_map.mpr ⟨q, hq.1, by rw [hq.2]; simp only [Function.comp] at hqb; rw [hqb]⟩)
  have hfirst : ∀ x, ((D ++ [(a, b, n)]).filter (fun e => e.1 = x)) =
      D.filter (fun e => e.1 = x) ++ if a = x then [(a, b, n)] else [] := by
    intro x; rw [List.filter_append]; by_cases hx : a = x <;> simp [hx]
  have hsecond : ∀ x, ((D ++ [(a, b, n)]).filter (fun e => e.2.1 = x)) =
      D.filter (fun e => e.2.1 = x) ++ if b = x then [(a, b, n)] else [] := by
    intro x; rw [List.filter_append]; by_cases hx : b = x <;> simp [hx]
  have hmem1 : ∀ x, a ≠ x → (x ∈ (D ++ [(a, b, n)]).map Prod.fst ↔ x ∈ D.map Prod.fst) := by
    intro x hx; rw [List.map_append]; simp [Ne.symm hx]
  have hmem2 : ∀ x, b ≠ x → (x ∈ (D ++ [(a, b, n)]).map (fun e => e.2.1) ↔ x ∈ D.map (fun e => e.2.1)) := by
    intro x hx; rw [List.map_append]; simp [Ne.symm hx]
  have hsame1 : (noteFollower a b n f).precedes = f.precedes := by
    unfold noteFollower; split <;> rfl
  have hsame2 : ∀ g : Follow, (notePredecessor a b n g).followed = g.followed ∧ (notePredecessor a b n g).single = g.single := by
    intro g; unfold notePredecessor; split <;> exact ⟨rfl, rfl⟩
  have hprec : ∀ x, (notePredecessor a b n (noteFollower a b n f)).precedes.get? x =
      if x ∈ (D ++ [(a, b, n)]).map (fun e => e.2.1) then
        some (((D ++ [(a, b, n)]).filter (fun e => e.2.1 = x)).map (fun e => (e.1, e.2.2))) else none := by
    intro x
    unfold notePredecessor
    rw [hsecond, hsame1, hp b]
    by_cases hm : b ∈ D.map (fun e => e.2.1)
    · rw [if_pos hm]
      simp only
      by_cases hx : b = x
      · subst hx
        rw [Dict.get?_set_self, if_pos (by simp), set_append_of_notMem _ _ _ ha]
        simp
      · rw [Dict.get?_set_ne _ _ hx, hp x]
        simp only [hmem2 x hx, hx, if_false, List.append_nil]
    · rw [if_neg hm]
      simp only
      by_cases hx : b = x
      · subst hx
        rw [Dict.get?_set_self, if_pos (by simp), filter_eq_nil_of_notMem (g := fun e : String × String × Nat => e.2.1) hm]
        simp
      · rw [Dict.get?_set_ne _ _ hx, hp x]
        simp only [hmem2 x hx, hx, if_false, List.append_nil]
  unfold followStep
  by_cases hm : a ∈ D.map Prod.fst
  · have hfa := hf a
    rw [if_pos hm] at hfa
    have hc : Dict.contains ((D.filter (fun e => e.1 = a)).map Prod.snd) b = false := by
      rw [Bool.eq_false_iff, Ne, Dict.contains_iff]; exact hb
    have hnote : noteFollower a b n f =
        { f with single := f.single.filter (fun x => decide (x ≠ a)),
                 followed := f.followed.set a (Dict.set ((D.filter (fun e => e.1 = a)).map Prod.snd) b n) } := by
      unfold noteFollower; rw [hfa]; simp only [hc, Bool.false_eq_true, if_false]
    refine ⟨?_, hprec, ?_, ?_⟩
    · intro x
      rw [(hsame2 _).1, hnote, hfirst]
      by_cases hx : a = x
      · subst hx
        rw [Dict.get?_set_self, if_pos (by simp), set_append_of_notMem _ _ _ hb]
        simp
      · rw [Dict.get?_set_ne _ _ hx, hf x]
        simp only [hmem1 x hx, hx, if_false, List.append_nil]
    · intro x
      rw [(hsame2 _).2, hnote, hfirst]
      simp only [List.mem_filter, decide_eq_true_eq, hs]
      by_cases hx : a = x
      · subst hx
        have : 0 < (D.filter (fun e => e.1 = a)).length := by
          obtain ⟨q, hq, hqa⟩ := List.mem_map.mp hm
          exact List.length_pos_of_mem (List.mem_filter.mpr ⟨hq, by simpa using hqa⟩)
        constructor
        · rintro ⟨_, h⟩; exact absurd rfl h
        · intro h; rw [if_pos rfl, List.length_append, List.length_singleton] at h; omega
      · simp [hx, Ne.symm hx]
    · rw [(hsame2 _).2, hnote]; exact hn.filter _
  · have hfa := hf a
    rw [if_neg hm] at hfa
    have h0 : D.filter (fun e => e.1 = a) = [] := filter_eq_nil_of_notMem (g := fun e : String × String × Nat => e.1) hm
    have hns : a ∉ f.single := by rw [hs, h0]; simp
    have hnote : noteFollower a b n f =
        { f with single := f.single ++ [a], followed := f.followed.set a [(b, n)] } := by
      unfold noteFollower; rw [hfa]; simp only [insertSet, hns, if_false]
    refine ⟨?_, hprec, ?_, ?_⟩
    · intro x
      rw [(hsame2 _).1, hnote, hfirst]
      by_cases hx : a = x
      · subst hx
        rw [Dict.get?_set_self, if_pos (by simp), h0]
        simp
      · rw [Dict.get?_set_ne _ _ hx, hf x]
        simp only [hmem1 x hx, hx, if_false, List.append_nil]
    · intro x
      rw [(hsame2 _).2, hnote, hfirst]
      simp only [List.mem_append, List.mem_singleton, hs]
      by_cases hx : a = x
      · subst hx; simp [h0]
      · simp [hx, Ne.symm hx]
    · rw [(hsame2 _).2, hnote]
      rw [List.nodup_append]
      refine ⟨hn, by simp, ?_⟩
      intro x hx y hy hxy
      simp only [List.mem_singleton] at hy
      exact hns (hy ▸ hxy ▸ hx)

theorem followLoop_inv (it : Iter) (P : List (String × String)) :
    FollowInv (entriesOf it (nested P)) (followLoop it (nested P)) := by
  rw [followLoop_eq]
  have hn := entriesOf_nodup it P
  revert hn
  generalize entriesOf it (nested P) = D
  induction D using List.reverseRecOn with
  | nil => intro _; exact ⟨by simp, by simp, by simp, by simp⟩
  | append_singleton D e ih =>
    intro hn
    rw [List.map_append, List.nodup_append] at hn
    rw [List.foldl_append]
    obtain ⟨a, b, n⟩ := e
    refine followStep_inv (ih hn.1) a b n ?_
    intro hm
    exact hn.2.2 _ hm (a, b) (by simp) rfl

/-! ### The graph -/

theorem zipIdx_map_fst {α : Type} (l : List α) (n : Nat) : (l.zipIdx n).map Prod.fst = l := by simp

theorem addClasses_eq (cs : List String) (next : Nat) (g : Graph) (ids : Dict String Nat)
    (hg : ∀ k ∈ g.nodes.keys, k < next) (hc : cs.Nodup) (hd : ∀ c ∈ cs, c ∉ ids.keys) :
    addClasses cs next g ids =
      ({ g with nodes := g.nodes ++ (cs.zipIdx next).map (fun p => (p.2, { id := p.2, data := some p.1 })) },
        ids ++ cs.zipIdx next) := by
  induction cs generalizing next g ids with
  | nil => simp [addClasses]
  | cons c cs ih =>
    rw [addClasses]
    have h1 : next ∉ g.nodes.keys := fun h => absurd (hg _ h) (Nat.lt_irrefl _)
    have h2 : c ∉ ids.keys := hd c (by simp)
    have e1 : g.addNode next (some c) = { g with nodes := g.nodes ++ [(next, { id := next, data := some c })] } := by
      unfold Graph.addNode; rw [set_append_of_notMem _ _ _ h1]
    have e2 : ids.set c next = ids ++ [(c, next)] := set_append_of_notMem _ _ _ h2
    rw [e1, e2, ih]
    · simp [List.zipIdx_cons]
    · intro k hk
      simp only [Dict.keys, List.map_append, List.mem_append] at hk
      rcases hk with hk | hk
      · exact Nat.lt_succ_of_lt (hg k hk)
      · simp at hk; omega
    · exact (List.nodup_cons.mp hc).2
    · intro x hx
      simp only [Dict.keys, List.map_append, List.mem_append, not_or]
      refine ⟨hd x (by simp [hx]), ?_⟩
      simp only [List.map_cons, List.map_nil, List.mem_singleton]
      intro h; subst h
      exact (List.nodup_cons.mp hc).1 hx

/-- The label of a connection. -/
def Graph.look (g : Graph) (x y : Nat) : Option (Option String) := (g.connections.get? x).bind (fun m => m.get? y)

/-- Connections are maps. -/
def Graph.Ok (g : Graph) : Prop := g.connections.WF ∧ ∀ e ∈ g.connections, e.2.WF

theorem connected_iff (g : Graph) (x y : Nat) : g.connected x y = (g.look x y).isSome := by
  unfold Graph.connected Graph.look
  cases g.connections.get? x <;> simp [Dict.contains]

theorem connect_nodes (g : Graph) (x y : Nat) (d : Option String) : (g.connect x y d).nodes = g.nodes := by
  unfold Graph.connect; split <;> [rfl; (split <;> [(split <;> rfl); rfl])]

theorem connect_ok {g : Graph} (h : g.Ok) (x y : Nat) (d : Option String) : (g.connect x y d).Ok := by
  unfold Graph.connect
  split
  · exact h
  · split
    · have key : ∀ m : Dict Nat (Option String), m.WF → ({ g with connections := g.connections.set x m } : Graph).Ok := by
        intro m hm
        refine ⟨Dict.WF_set h.1 _ _, ?_⟩
        rintro ⟨k, v⟩ he
        have h2 := Dict.get?_of_mem (Dict.WF_set h.1 x m) he
        rw [Dict.get?_set] at h2
        split at h2
        · cases h2; exact hm
        · exact h.2 _ (Dict.mem_of_get? h2)
      split
      · rename_i c hc
        exact key _ (Dict.WF_set (h.2 _ (Dict.mem_of_get? hc)) _ _)
      · exact key _ (by simp [Dict.WF, Dict.keys])
    · exact h

theorem connect_look {g : Graph} {x y : Nat} (d : Option String) (hx : x ∈ g.nodes.keys) (hy : y ∈ g.nodes.keys)
    (hn : g.look x y = none) (a b : Nat) :
    (g.connect x y d).look a b = if (a, b) = (x, y) then some d else g.look a b := by
  unfold Graph.connect
  have h1 : g.connected x y = false := by rw [connected_iff, hn]; rfl
  have h2 : (g.nodes.contains x && g.nodes.contains y) = true := by
    rw [Bool.and_eq_true, Dict.contains_iff, Dict.contains_iff]; exact ⟨hx, hy⟩
  rw [h1, h2]
  simp only [Bool.false_eq_true, if_false, if_true]
  unfold Graph.look at hn ⊢
  cases hc : g.connections.get? x with
  | none =>
    simp only [Prod.mk.injEq]
    by_cases hax : a = x
    · subst hax
      rw [Dict.get?_set_self, hc]
      by_cases hb : b = y
      · subst hb; simp [Dict.get?_cons]
      · simp [Dict.get?_cons, Ne.symm hb, hb]
    · rw [Dict.get?_set_ne _ _ (Ne.symm hax)]; simp [hax]
  | some c =>
    simp only [Prod.mk.injEq]
    by_cases hax : a = x
    · subst hax
      rw [Dict.get?_set_self, hc]
      by_cases hb : b = y
      · subst hb; simp
      · simp [Dict.get?_set_ne _ _ (Ne.symm hb), hb]
    · rw [Dict.get?_set_ne _ _ (Ne.symm hax)]; simp [hax]

/-- Connecting a list of distinct pairs of nodes. -/
theorem connect_fold (L : List (Nat × Nat × Option String)) (g : Graph) (hg : g.Ok)
    (hk : ∀ e ∈ L, e.1 ∈ g.nodes.keys ∧ e.2.1 ∈ g.nodes.keys) (hn : (L.map (fun e => (e.1, e.2.1))).Nodup)
    (h0 : ∀ x y, g.look x y = none) :
    let r := L.foldl (fun g e => g.connect e.1 e.2.1 e.2.2) g
    r.Ok ∧ r.nodes = g.nodes ∧ ∀ a b d, r.look a b = some d ↔ (a, b, d) ∈ L := by
  induction L using List.reverseRecOn with
  | nil => exact ⟨hg, rfl, by simp [h0]⟩
  | append_singleton L e ih =>
    rw [List.map_append, List.nodup_append] at hn
    obtain ⟨i1, i2, i3⟩ := ih (fun x hx => hk x (by simp [hx])) hn.1
    simp only [List.foldl_append, List.foldl_cons, List.foldl_nil]
    have he := hk e (by simp)
    have hnew : (L.foldl (fun g e => g.connect e.1 e.2.1 e.2.2) g).look e.1 e.2.1 = none := by
      rw [Option.eq_none_iff_forall_not_mem]
      intro d hd
      have := (i3 _ _ _).mp hd
      exact hn.2.2 _ (List.mem_map.mpr ⟨_, this, rfl⟩) (e.1, e.2.1) (by simp) rfl
    refine ⟨connect_ok i1 _ _ _, by rw [connect_nodes, i2], ?_⟩
    intro a b d
    rw [connect_look _ (i2 ▸ he.1) (i2 ▸ he.2) hnew]
    obtain ⟨x, y, w⟩ := e
    simp only [List.mem_append, List.mem_singleton, Prod.mk.injEq]
    by_cases h : a = x ∧ b = y
    · obtain ⟨rfl, rfl⟩ := h
      simp only [and_self, if_true, Option.some.injEq, true_and]
      constructor
      · intro h; exact Or.inr h.symm
      · rintro (h | h)
        · have := (i3 _ _ _).mpr h
          rw [hnew] at this; cases this
        · exact h.symm
    · rw [if_neg h, i3]
      constructor
      · exact Or.inl
      · rintro (h1 | h1)
        · exact h1
        · exact absurd ⟨h1.1, h1.2.1⟩ h

/-- The number of a class. -/
def idOf (ids : Dict String Nat) (c : String) : Nat := (ids.get? c).getD 0

theorem connectFollowers_eq (ids : Dict String Nat) (c : String) (fs : List (String × Nat)) (g : Graph)
    (hc : c ∈ ids.keys) (hf : ∀ f ∈ fs, f.1 ∈ ids.keys) :
    connectFollowers ids c fs g =
      some ((fs.map (fun f => (idOf ids c, idOf ids f.1, some (toString f.2)))).foldl
        (fun g e => g.connect e.1 e.2.1 e.2.2) g) := by
  induction fs generalizing g with
  | nil => rfl
  | cons f fs ih =>
    obtain ⟨v, hv⟩ := (Dict.mem_keys_iff _ _).mp hc
    obtain ⟨w, hw⟩ := (Dict.mem_keys_iff _ _).mp (hf f (by simp))
    obtain ⟨x, n⟩ := f
    simp only at hw
    rw [connectFollowers, hv, hw]
    simp only
    rw [ih _ (fun f h => hf f (by simp [h]))]
    simp only [List.map_cons, List.foldl_cons, idOf, hv, hw, Option.getD_some]

/-- The connections that are made for a list of classes. -/
def edgesFor (it : Iter) (info : Info) (ids : Dict String Nat) (cs : List String) : List (Nat × Nat × Option String) :=
  cs.flatMap (fun c => match info.followed.get? c with
    | some followers => (it.order ("followers of " ++ c) 0 followers).map
        (fun f => (idOf ids c, idOf ids f.1, some (toString f.2)))
    | none => [])

theorem connectClasses_eq (it : Iter) (info : Info) (ids : Dict String Nat) (cs : List String) (g : Graph)
    (hc : ∀ c ∈ cs, c ∈ ids.keys)
    (hf : ∀ c followers, info.followed.get? c = some followers → ∀ f ∈ followers, f.1 ∈ ids.keys) :
    connectClasses it info ids cs g =
      some ((edgesFor it info ids cs).foldl (fun g e => g.connect e.1 e.2.1 e.2.2) g) := by
  induction cs generalizing g with
  | nil => rfl
  | cons c cs ih =>
    rw [connectClasses]
    cases h : info.followed.get? c with
    | none =>
      simp only
      rw [ih _ (fun c h => hc c (by simp [h]))]
      simp [edgesFor, h]
    | some fs =>
      simp only
      rw [connectFollowers_eq _ _ _ _ (hc c (by simp))
        (fun f hm => hf c fs h f (((it.perm _ _ _).mem_iff).mp hm)), Option.bind_some,
        ih _ (fun c h => hc c (by simp [h]))]
      simp [edgesFor, h, List.foldl_append]

end Ficus.Rs
