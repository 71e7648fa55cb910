import Verif.Props.RsNewLog
import Verif.Proofs.Dict

/-! Property C135: the logs of activities, the numbers of underlying events and the names of activities. -/

namespace Ficus.Rs
open Spec
variable {E : Type}

/-- Adding traces one by one. -/
def addTraces {A : Type} (d : Dict String (List (List A))) (l : List (String × List A)) : Dict String (List (List A)) :=
  l.foldl (fun d p => addTrace d p.1 p.2) d

theorem addTrace_get? {A : Type} (d : Dict String (List (List A))) (n k : String) (t : List A) :
    (addTrace d n t).get? k = if n = k then some ((d.get? k).getD [] ++ [t]) else d.get? k := by
  unfold addTrace
  split <;> rename_i hd <;> rw [Dict.get?_set]
  all_goals
    by_cases h : n = k
    · subst h; simp [hd]
    · simp [h]

theorem addTrace_wf {A : Type} {d : Dict String (List (List A))} (h : d.WF) (n : String) (t : List A) : (addTrace d n t).WF := by
  unfold addTrace
  split <;> exact Dict.WF_set h _ _

theorem addTraces_wf {A : Type} {d : Dict String (List (List A))} (h : d.WF) (l : List (String × List A)) : (addTraces d l).WF := by
  induction l generalizing d with
  | nil => exact h
  | cons p l ih => exact ih (addTrace_wf h _ _)

theorem addTraces_get? {A : Type} (d : Dict String (List (List A))) (l : List (String × List A)) (k : String) :
    (addTraces d l).get? k = if ((l.filter (fun p => p.1 = k)).map Prod.snd).isEmpty then d.get? k
      else some ((d.get? k).getD [] ++ (l.filter (fun p => p.1 = k)).map Prod.snd) := by
  induction l generalizing d with
  | nil => simp [addTraces]
  | cons p l ih =>
    have e : addTraces d (p :: l) = addTraces (addTrace d p.1 p.2) l := rfl
    rw [e, ih, addTrace_get?]
    by_cases hp : p.1 = k
    · simp only [hp, if_true, decide_true, List.filter_cons_of_pos, List.map_cons, List.isEmpty_cons, Option.getD_some]
      by_cases hl : ((l.filter (fun p => p.1 = k)).map Prod.snd).isEmpty = true
      · rw [if_pos hl]
        rw [List.isEmpty_iff] at hl
        simp [hl]
      · rw [if_neg hl]
        simp
    · rw [if_neg hp, List.filter_cons_of_neg (by simpa using hp)]

theorem addTraces_nil_get? {A : Type} (l : List (String × List A)) (k : String) :
    (addTraces [] l).get? k = logOf ((l.filter (fun p => p.1 = k)).map Prod.snd) := by
  rw [addTraces_get?]
  unfold logOf
  simp

theorem addTraces_append {A : Type} (d : Dict String (List (List A))) (l m : List (String × List A)) :
    addTraces d (l ++ m) = addTraces (addTraces d l) m := by
  unfold addTraces
  rw [List.foldl_append]

/-- The names and words of the instances of a level. -/
def wordsAt {A : Type} (h : Heap) (level : Nat) (is : List RInstance) (t : List A) : List (String × List A) :=
  (is.filter (fun i => (h i.node).level = level)).map (fun i => ((h i.node).name, (t.drop i.startPos).take i.length))

theorem logOfPieces_eq {A : Type} (h : Heap) (level : Nat) (t : List A) (k : Nat) (is : List RInstance)
    (hp : ∀ i ∈ is, i.startPos + i.length ≤ t.length) (d : Dict String (List (List A))) :
    (pieces t.length k is).foldlM (logOfPiece h level t) d = some (addTraces d (wordsAt h level is t)) := by
  induction is generalizing k d with
  | nil =>
    unfold pieces
    split <;> rfl
  | cons i is ih =>
    have ih' := fun k d => ih k (fun j hj => hp j (List.mem_cons_of_mem _ hj)) d
    have hfree : ∀ (l : List Piece), ((if k < i.startPos then [Piece.free k i.startPos] else []) ++ l).foldlM (logOfPiece h level t) d =
        l.foldlM (logOfPiece h level t) d := by
      intro l
      split <;> rfl
    simp only [pieces]
    rw [hfree, List.foldlM_cons]
    simp only [logOfPiece]
    by_cases hl : (h i.node).level = level
    · rw [if_neg (by simp [hl]), rangeOf_eq t _ _ (Nat.le_add_right _ _) (hp i (by simp))]
      simp only [Option.bind_eq_bind, Option.bind_some, Option.pure_def, ih']
      simp only [wordsAt, hl, decide_true, List.filter_cons_of_pos, List.map_cons]
      have hb : between t (i.startPos, i.startPos + i.length) = (t.drop i.startPos).take i.length := by
        unfold between; simp
      rw [hb]
      rfl
    · rw [if_pos (by exact fun e => hl e.symm)]
      simp only [Option.bind_eq_bind, Option.bind_some, Option.pure_def, ih']
      simp only [wordsAt, hl, decide_false, Bool.false_eq_true, not_false_eq_true, List.filter_cons_of_neg]

theorem logsFromInstances_eq {A : Type} (h : Heap) (level : Nat) (log : List (List A)) (instances : List (List RInstance))
    (hp : ∀ p ∈ instances.zip log, ∀ i ∈ p.1, i.startPos + i.length ≤ p.2.length) :
    logsFromInstances h level log instances =
      some (addTraces [] ((instances.zip log).flatMap (fun p => wordsAt h level p.1 p.2))) := by
  unfold logsFromInstances
  generalize ([] : Dict String (List (List A))) = d
  revert hp
  generalize instances.zip log = zs
  intro hp
  induction zs generalizing d with
  | nil => rfl
  | cons p zs ih =>
    rw [List.foldlM_cons, logOfPieces_eq h level p.2 0 p.1 (hp p (by simp))]
    simp only [Option.bind_eq_bind, Option.bind_some, List.flatMap_cons, addTraces_append]
    exact ih _ (fun q hq => hp q (List.mem_cons_of_mem _ hq))

theorem words_named {A : Type} (h : Heap) (level : Nat) (n : String) (zs : List (List RInstance × List A)) :
    ((zs.flatMap (fun p => wordsAt h level p.1 p.2)).filter (fun p => p.1 = n)).map Prod.snd = wordsNamed h level n zs := by
  unfold wordsNamed
  induction zs with
  | nil => rfl
  | cons p zs ih =>
    simp only [List.flatMap_cons, List.filter_append, List.map_append, ih]
    congr 1
    unfold wordsAt
    rw [List.filter_map, List.map_map, List.filter_filter]
    congr 1
    refine List.filter_congr (fun i _ => ?_)
    simp only [Function.comp_apply, Bool.decide_and]
    rw [Bool.and_comm]

/-- C135a: for instances inside their traces the logs of the activities of a level are always defined. There is one log per name; it
has the events of the instances of this level whose activity has the name, one trace per instance, in the order of traces and
positions; and a name without such instances has no log. -/
theorem C135_logs_from_instances {A : Type} (h : Heap) (level : Nat) (log : List (List A)) (instances : List (List RInstance))
    (hp : ∀ p ∈ instances.zip log, ∀ i ∈ p.1, i.startPos + i.length ≤ p.2.length) :
    ∃ r, logsFromInstances h level log instances = some r ∧ (r.map Prod.fst).Nodup ∧
      ∀ n, r.get? n = logOf (wordsNamed h level n (instances.zip log)) := by
  refine ⟨_, logsFromInstances_eq h level log instances hp, addTraces_wf Dict.WF_nil _, fun n => ?_⟩
  rw [addTraces_nil_get?, words_named]

/-- The names and the substituted underlying events of events that have some. -/
def namedAtoms [HasName E] : List (Nested E) → List (String × List E)
  | [] => []
  | .atom _ :: l => namedAtoms l
  | .over e u :: l => (name e, substituteAll [] u) :: namedAtoms l

theorem logsFromLog_eq [HasName E] (log : List (List (Nested E))) : logsFromLog log = addTraces [] (namedAtoms log.flatten) := by
  unfold logsFromLog
  generalize log.flatten = l
  generalize ([] : Dict String (List (List E))) = d
  induction l generalizing d with
  | nil => rfl
  | cons e l ih =>
    cases e with
    | atom a => exact ih d
    | over e u => exact ih _

theorem namedAtoms_named [HasName E] (n : String) (l : List (Nested E)) :
    ((namedAtoms l).filter (fun p => p.1 = n)).map Prod.snd = (underlyingNamed n l).map (substituteAll []) := by
  induction l with
  | nil => rfl
  | cons e l ih =>
    cases e with
    | atom a => exact ih
    | over e u =>
      simp only [namedAtoms, underlyingNamed]
      by_cases hn : name e = n
      · simp only [hn, decide_true, List.filter_cons_of_pos, List.map_cons, if_true, ih]
      · simp only [hn, decide_false, Bool.false_eq_true, not_false_eq_true, List.filter_cons_of_neg, if_false, ih]

/-- C135b: the logs made from a log whose events have underlying events: one per name of such events; a trace per event, in their
order, with the lowest underlying events. -/
theorem C135_logs_from_log [HasName E] (log : List (List (Nested E))) :
    ((logsFromLog log).map Prod.fst).Nodup ∧
    ∀ n, ∃ ts, (logsFromLog log).get? n = logOf ts ∧ List.Forall₂ Atoms (underlyingNamed n log.flatten) ts := by
  rw [logsFromLog_eq]
  refine ⟨addTraces_wf Dict.WF_nil _, fun n => ⟨(underlyingNamed n log.flatten).map (substituteAll []), ?_, ?_⟩⟩
  · rw [addTraces_nil_get?, namedAtoms_named]
  · rw [List.forall₂_map_right_iff, List.forall₂_same]
    intro u _
    obtain ⟨r, h1, h2⟩ := substituteAll_spec u ([] : List E)
    rw [h2]
    exact h1

theorem namedAtoms_append [HasName E] (l m : List (Nested E)) : namedAtoms (l ++ m) = namedAtoms l ++ namedAtoms m := by
  induction l with
  | nil => rfl
  | cons e l ih => cases e <;> simp [namedAtoms, ih]

theorem namedAtoms_atoms [HasName E] (l : List (Nested E)) (h : ∀ e ∈ l, ∃ a, e = .atom a) : namedAtoms l = [] := by
  induction l with
  | nil => rfl
  | cons e l ih =>
    obtain ⟨a, rfl⟩ := h e (by simp)
    exact ih (fun x hx => h x (List.mem_cons_of_mem _ hx))

theorem namedAtoms_weave [HasName E] (gs bs : List (List (Nested E))) (h : ∀ g ∈ gs, ∀ e ∈ g, ∃ a, e = .atom a) :
    namedAtoms (weave gs bs) = namedAtoms bs.flatten := by
  have hflat : ∀ gs : List (List (Nested E)), (∀ g ∈ gs, ∀ e ∈ g, ∃ a, e = .atom a) → namedAtoms gs.flatten = [] := by
    intro gs hg
    refine namedAtoms_atoms _ (fun e he => ?_)
    obtain ⟨g, hg', he'⟩ := List.mem_flatten.1 he
    exact hg g hg' e he'
  induction bs generalizing gs with
  | nil =>
    cases gs with
    | nil => rfl
    | cons g gs => exact hflat (g :: gs) h
  | cons b bs ih =>
    cases gs with
    | nil => rfl
    | cons g gs =>
      simp only [weave, namedAtoms_append, List.flatten_cons, ih gs (fun x hx => h x (List.mem_cons_of_mem _ hx)),
        namedAtoms_atoms g (h g (by simp)), List.nil_append]

/-- C135c: both ways agree. If the events made for instances have the names of their activities and all activities have the asked
level, the logs made from the new log are those made from the instances, with the events replaced by their lowest underlying ones; the
old events between the instances must not have underlying events or must not be inserted. -/
theorem C135_same_logs [HasName E] (h : Heap) (level : Nat) (s : Strategy E) (make : RInstance → E)
    (instances : List (List RInstance)) (log r : List (List (Nested E)))
    (hp : ∀ p ∈ instances.zip log, WellPlaced p.2.length (p.1.map spanOf))
    (hs : s ≠ .insertAllEvents ∨ ∀ t ∈ log, ∀ e ∈ t, ∃ a, e = .atom a)
    (hmake : ∀ is ∈ instances, ∀ i ∈ is, name (make i) = (h i.node).name ∧ (h i.node).level = level)
    (hr : newLog s make instances log = some r) :
    ∃ d, logsFromInstances h level log instances = some d ∧
      ∀ n, (logsFromLog r).get? n = (d.get? n).map (fun l => l.map (substituteAll [])) := by
  have hins : ∀ p ∈ instances.zip log, ∀ i ∈ p.1, i.startPos + i.length ≤ p.2.length := fun p hp' i hi =>
    ((hp p hp').1 (spanOf i) (List.mem_map.2 ⟨i, hi, rfl⟩)).2
  refine ⟨_, logsFromInstances_eq h level log instances hins, fun n => ?_⟩
  have hkey : namedAtoms r.flatten =
      ((instances.zip log).flatMap (fun p => wordsAt h level p.1 p.2)).map (fun q => (q.1, substituteAll [] q.2)) := by
    unfold newLog at hr
    rw [mapM_eq_some _ _ _ (fun p hp' => newTrace_spec s make p.1 p.2 (hp p hp'))] at hr
    cases hr
    have hm : ∀ p ∈ instances.zip log, p.2 ∈ log ∧ ∀ i ∈ p.1, name (make i) = (h i.node).name ∧ (h i.node).level = level :=
      fun p hp' => ⟨(List.of_mem_zip hp').2, hmake p.1 (List.of_mem_zip hp').1⟩
    revert hm
    generalize instances.zip log = zs
    intro hm
    induction zs with
    | nil => rfl
    | cons p zs ih =>
      rw [List.map_cons, List.flatten_cons, namedAtoms_append, ih (fun q hq => hm q (List.mem_cons_of_mem _ hq)), List.flatMap_cons,
        List.map_append]
      congr 1
      rw [namedAtoms_weave]
      · have hi := (hm p (by simp)).2
        unfold wordsAt
        generalize p.1 = is at hi ⊢
        induction is with
        | nil => rfl
        | cons i is ih2 =>
          have hh := hi i (by simp)
          simp only [List.map_cons, List.flatten_cons, List.singleton_append, namedAtoms, hh.1, hh.2, decide_true,
            List.filter_cons_of_pos]
          rw [ih2 (fun j hj => hi j (List.mem_cons_of_mem _ hj))]
      · intro g hg e he
        obtain ⟨b, _, rfl⟩ := List.mem_map.1 hg
        unfold remainsOf at he
        cases s with
        | dontInsert => cases he
        | insertAsSingleEvent x =>
          simp only at he
          split at he
          · cases he
          · exact ⟨x, by simpa using he⟩
        | insertAllEvents =>
          rcases hs with hs | hs
          · exact absurd rfl hs
          · refine hs p.2 (hm p (by simp)).1 e ?_
            simp only [between] at he
            exact List.mem_of_mem_drop (List.mem_of_mem_take he)
  rw [logsFromLog_eq, hkey, addTraces_nil_get?, addTraces_nil_get?, List.filter_map, List.map_map]
  unfold logOf
  have e : ((fun p : String × List E => decide (p.1 = n)) ∘ fun q : String × List (Nested E) => (q.1, substituteAll [] q.2)) =
      fun q => decide (q.1 = n) := by funext q; rfl
  rw [e]
  generalize ((instances.zip log).flatMap (fun p => wordsAt h level p.1 p.2)).filter (fun q => decide (q.1 = n)) = l
  cases l with
  | nil => rfl
  | cons q l => simp

theorem countAll_eq (l : List (Nested E)) (r : List E) (h : Atoms l r) : countAll l = r.length := by
  induction h with
  | nil => rfl
  | atom _ ih => simp only [countAll, countUnderlying, ih, List.length_cons]; omega
  | over _ _ ih1 ih2 => simp only [countAll, countUnderlying, ih1, ih2, List.length_append]

theorem countLog_eq (log : List (List (Nested E))) : countLog log = ((substituteLog log).map List.length).sum := by
  unfold countLog substituteLog
  rw [List.map_map]
  congr 1
  refine List.map_congr_left (fun t _ => ?_)
  obtain ⟨r, h1, h2⟩ := substituteAll_spec t ([] : List E)
  rw [Function.comp_apply, h2, countAll_eq t r h1]
  simp

/-- C135d: the number of underlying events is the number of events after substitution: of those events that are lowest. -/
theorem C135_count (log : List (List (Nested E))) :
    ∃ lowest, List.Forall₂ Atoms log lowest ∧ countLog log = (lowest.map List.length).sum ∧ substituteLog log = lowest := by
  refine ⟨substituteLog log, ?_, countLog_eq log, rfl⟩
  unfold substituteLog
  rw [List.forall₂_map_right_iff, List.forall₂_same]
  intro t _
  obtain ⟨r, h1, h2⟩ := substituteAll_spec t ([] : List E)
  rw [h2]
  exact h1

/-- C135e: abstracting activities away and inserting all other events does not change it. -/
theorem C135_count_kept (make : RInstance → E) (instances : List (List RInstance)) (log : List (List (Nested E)))
    (hl : instances.length = log.length) (h : ∀ p ∈ instances.zip log, WellPlaced p.2.length (p.1.map spanOf))
    (r : List (List (Nested E))) (hr : newLog .insertAllEvents make instances log = some r) : countLog r = countLog log := by
  rw [countLog_eq, countLog_eq, C133_substitution make instances log hl h r hr]

theorem nameLoop_eq (find : Option (String → Option (Option Match))) (l : List String) (hl : l ≠ []) :
    (activityNameLoop find l).toList =
      '(' :: (List.intercalate [')', ':', ':', '('] (l.map (fun n => (shownName find n).toList)) ++ [')']) := by
  induction l with
  | nil => exact absurd rfl hl
  | cons n rest ih =>
    cases rest with
    | nil => simp [activityNameLoop, List.intercalate]
    | cons m rest =>
      have := ih (by simp)
      have e : activityNameLoop find (n :: m :: rest) =
        "(" ++ shownName find n ++ ")" ++ "::" ++ activityNameLoop find (m :: rest) := rfl
      rw [e]
      simp only [String.toList_append, this]
      simp [List.intercalate]

/-- C135f: the name of an activity: the shown names of the events of the first occurrence in their order, each in brackets, with two
colons in between. It is defined iff the occurrence is in the log. -/
theorem C135_name [HasName E] (log : List (List E)) (find : Option (String → Option (Option Match))) (r : RepeatSet)
    (hr : 0 < r.length) (t : List E) (ht : log[r.traceIndex]? = some t) (hb : r.firstPos + r.length ≤ t.length) :
    ∃ s, activityName log find r = some s ∧
      s.toList = ['('] ++ List.intercalate [')', ':', ':', '(']
        (((t.drop r.firstPos).take r.length).map (fun e => (shownName find (name e)).toList)) ++ [')'] := by
  unfold activityName
  rw [ht]
  simp only [Option.bind_eq_bind, Option.bind_some, Option.pure_def]
  rw [rangeOf_eq t _ _ (Nat.le_add_right _ _) hb]
  have hbt : between t (r.firstPos, r.firstPos + r.length) = (t.drop r.firstPos).take r.length := by unfold between; simp
  rw [hbt]
  refine ⟨_, rfl, ?_⟩
  rw [nameLoop_eq, List.map_map]
  · simp [Function.comp_def]
  · intro he
    have := congrArg List.length he
    simp only [List.length_map, List.length_take, List.length_drop, List.length_nil] at this
    omega

theorem intercalate_injective (l m : List (List Char)) (hl : ∀ w ∈ l, ')' ∉ w) (hm : ∀ w ∈ m, ')' ∉ w) (hl0 : l ≠ []) (hm0 : m ≠ [])
    (h : List.intercalate [')', ':', ':', '('] l ++ [')'] = List.intercalate [')', ':', ':', '('] m ++ [')']) : l = m := by
  have hsplit : ∀ (a b x y : List Char), ')' ∉ a → ')' ∉ b → a ++ ')' :: x = b ++ ')' :: y → a = b ∧ x = y := by
    intro a
    induction a with
    | nil =>
      intro b x y _ hb e
      cases b with
      | nil => simpa using e
      | cons c b => simp only [List.nil_append, List.cons_append, List.cons.injEq] at e; exact absurd (e.1 ▸ List.mem_cons_self) hb
    | cons c a ih =>
      intro b x y ha hb e
      cases b with
      | nil => simp only [List.nil_append, List.cons_append, List.cons.injEq] at e; exact absurd (e.1 ▸ List.mem_cons_self) ha
      | cons d b =>
        simp only [List.cons_append, List.cons.injEq] at e
        obtain ⟨h1, h2⟩ := ih b x y (fun hh => ha (List.mem_cons_of_mem _ hh)) (fun hh => hb (List.mem_cons_of_mem _ hh)) e.2
        exact ⟨by rw [e.1, h1], h2⟩
  have hshape : ∀ (w : List Char) (r : List (List Char)), List.intercalate [')', ':', ':', '('] (w :: r) ++ [')'] =
      w ++ ')' :: (if r = [] then [] else ':' :: ':' :: '(' :: (List.intercalate [')', ':', ':', '('] r ++ [')'])) := by
    intro w r
    cases r with
    | nil => simp [List.intercalate]
    | cons v r => simp [List.intercalate]
  induction l generalizing m with
  | nil => exact absurd rfl hl0
  | cons w l ih =>
    cases m with
    | nil => exact absurd rfl hm0
    | cons v m =>
      rw [hshape, hshape] at h
      obtain ⟨h1, h2⟩ := hsplit w v _ _ (hl w (by simp)) (hm v (by simp)) h
      subst h1
      by_cases hle : l = []
      · by_cases hme : m = []
        · rw [hle, hme]
        · rw [if_pos hle, if_neg hme] at h2; cases h2
      · by_cases hme : m = []
        · rw [if_neg hle, if_pos hme] at h2; cases h2
        · rw [if_neg hle, if_neg hme] at h2
          simp only [List.cons.injEq, true_and] at h2
          rw [ih m (fun x hx => hl x (List.mem_cons_of_mem _ hx)) (fun x hx => hm x (List.mem_cons_of_mem _ hx)) hle hme h2]

/-- C135g: two activities have the same name only if the shown names of their events are the same, as long as no shown name has a
closing bracket. -/
theorem C135_name_injective [HasName E] (log : List (List E)) (find : Option (String → Option (Option Match))) (r s : RepeatSet)
    (hr : 0 < r.length) (hs : 0 < s.length) (t u : List E) (ht : log[r.traceIndex]? = some t) (hu : log[s.traceIndex]? = some u)
    (hbr : r.firstPos + r.length ≤ t.length) (hbs : s.firstPos + s.length ≤ u.length)
    (hc : ∀ v ∈ log, ∀ e ∈ v, ')' ∉ (shownName find (name e)).toList)
    (he : activityName log find r = activityName log find s) :
    ((t.drop r.firstPos).take r.length).map (fun e => shownName find (name e)) =
      ((u.drop s.firstPos).take s.length).map (fun e => shownName find (name e)) := by
  obtain ⟨a, ha, ha'⟩ := C135_name log find r hr t ht hbr
  obtain ⟨b, hb, hb'⟩ := C135_name log find s hs u hu hbs
  rw [ha, hb, Option.some.injEq] at he
  rw [he, hb'] at ha'
  simp only [List.append_assoc] at ha'
  have ha' := List.append_cancel_left ha'
  have hne : ∀ (v : List E) (x y : Nat), 0 < y → x + y ≤ v.length →
      ((v.drop x).take y).map (fun e => (shownName find (name e)).toList) ≠ [] := by
    intro v x y hy hxy e0
    have := congrArg List.length e0
    simp only [List.length_map, List.length_take, List.length_drop, List.length_nil] at this
    omega
  have hin : ∀ (v : List E) (x y : Nat), v ∈ log → ∀ w ∈ ((v.drop x).take y).map (fun e => (shownName find (name e)).toList), ')' ∉ w := by
    intro v x y hv w hw
    obtain ⟨e, he', rfl⟩ := List.mem_map.1 hw
    exact hc v hv e (List.mem_of_mem_drop (List.mem_of_mem_take he'))
  have := intercalate_injective _ _ (hin u _ _ (List.mem_of_getElem? hu)) (hin t _ _ (List.mem_of_getElem? ht)) (hne u _ _ hs hbs)
    (hne t _ _ hr hbr) ha'
  have h2 := congrArg (List.map String.ofList) this
  rw [List.map_map, List.map_map] at h2
  simp only [Function.comp_def, String.ofList_toList] at h2
  exact h2.symm

/-- C135h: with closing brackets two different activities have one name. -/
theorem C135_name_clash :
    activityName [["a)::(b"], ["a", "b"]] none ⟨0, 1, 0⟩ = activityName [["a)::(b"], ["a", "b"]] none ⟨0, 2, 1⟩ ∧
    [["a)::(b"], ["a", "b"]][0]? ≠ [["a)::(b"], ["a", "b"]][1]? := by decide +kernel

/-- C135i: the shown names are those that are hashed, so equal words of hashes have equal names. -/
theorem C135_shown_are_hashed {P : Type} (hash : String → Nat) (find : Option (String → Option (Option Match)))
    (log : List (List (REvent P))) :
    hashedLog hash find log = log.map (fun t => t.map (fun e => hash (shownName find e.name))) := by
  unfold hashedLog
  refine List.map_congr_left (fun t _ => List.map_congr_left (fun e _ => ?_))
  cases find with
  | none => rfl
  | some f =>
    simp only [shownName, hashName]
    cases f e.name with
    | none => rfl
    | some o =>
      cases o with
      | none => rfl
      | some m => by_cases h : m.1 = 0 <;> simp [h]

/-! ### Concrete cases -/

/-- Two activities of level 0 and one of level 1. -/
def exLevels : Heap := heapOf [⟨none, [1], [], 0, "x"⟩, ⟨none, [2], [], 0, "y"⟩, ⟨none, [3], [], 1, "x"⟩]

/-- Instances of all of them in two traces. -/
def exLevelInstances : List (List RInstance) := [[⟨0, 0, 2⟩, ⟨1, 3, 1⟩], [⟨2, 0, 1⟩, ⟨0, 1, 1⟩]]

example : logsFromInstances exLevels 0 [["a", "b", "c", "d"], ["e", "f"]] exLevelInstances =
      some [("x", [["a", "b"], ["f"]]), ("y", [["d"]])] ∧
    logsFromInstances exLevels 1 [["a", "b", "c", "d"], ["e", "f"]] exLevelInstances = some [("x", [["e"]])] ∧
    wordsNamed exLevels 0 "x" (exLevelInstances.zip [["a", "b", "c", "d"], ["e", "f"]]) = [["a", "b"], ["f"]] := by decide +kernel

example : ∃ r, logsFromInstances exLevels 0 [["a", "b", "c", "d"], ["e", "f"]] exLevelInstances = some r ∧ (r.map Prod.fst).Nodup ∧
    ∀ n, r.get? n = logOf (wordsNamed exLevels 0 n (exLevelInstances.zip [["a", "b", "c", "d"], ["e", "f"]])) :=
  C135_logs_from_instances _ _ _ _ (by decide)

/-- From a log; an event over an event that has underlying events itself. -/
def exOver : List (List (Nested String)) :=
  [[.over "x" [.atom "a", .over "z" [.atom "b"]], .atom "c"], [.over "y" [.atom "d"], .over "x" [.atom "e"]]]

example : logsFromLog exOver = [("x", [["a", "b"], ["e"]]), ("y", [["d"]])] ∧ countLog exOver = 5 := by decide +kernel

/-- Both ways agree for the instances of level 0 of the example. -/
example (r : List (List (Nested String)))
    (hr : newLog .insertAllEvents (fun i => (exLevels i.node).name) [[⟨0, 0, 2⟩, ⟨1, 3, 1⟩]]
      [[.atom "a", .atom "b", .atom "c", .atom "d"]] = some r) :
    ∃ d, logsFromInstances exLevels 0 [[.atom "a", .atom "b", .atom "c", .atom "d"]] [[⟨0, 0, 2⟩, ⟨1, 3, 1⟩]] = some d ∧
      ∀ n, (logsFromLog r).get? n = (d.get? n).map (fun l => l.map (substituteAll [])) := by
  refine C135_same_logs exLevels 0 .insertAllEvents (fun i => (exLevels i.node).name) _ _ r ?_ (Or.inr ?_) ?_ hr
  · intro p hp
    simp only [List.zip_cons_cons, List.zip_nil_right, List.mem_singleton] at hp
    subst hp
    exact ⟨by decide, by decide⟩
  · intro t ht e he
    simp only [List.mem_singleton] at ht
    subst ht
    simp only [List.mem_cons, List.not_mem_nil, or_false] at he
    rcases he with rfl | rfl | rfl | rfl <;> exact ⟨_, rfl⟩
  · intro is his i hi
    simp only [List.mem_singleton] at his
    subst his
    simp only [List.mem_cons, List.not_mem_nil, or_false] at hi
    rcases hi with rfl | rfl <;> exact ⟨rfl, rfl⟩

/-- They do not agree if an inserted event has underlying events: it gets a log of its own. -/
example : (newLog .insertAllEvents (fun _ => "x") [[⟨0, 0, 1⟩]] [[.atom "a", .over "z" [.atom "b"]]]).map logsFromLog =
      some [("x", [["a"]]), ("z", [["b"]])] ∧
    (logsFromInstances exLevels 0 [["a", "z"]] [[⟨0, 0, 1⟩]]) = some [("x", [["a"]])] := by decide +kernel

example (r : List (List (Nested String))) (hr : newLog .insertAllEvents (fun i => toString i.node) [exInstances] [exNested] = some r) :
    countLog r = 6 := C135_count_kept _ _ _ rfl exPlaced r hr

/-- The class of a name is the part before the point. -/
example : activityName [["a.1", "b", "c.2"]] (some exFind) ⟨0, 3, 0⟩ = activityName [["a", "b", "c"]] none ⟨0, 3, 0⟩ ∧
    activityName [["a", "b", "c"]] none ⟨0, 3, 0⟩ = some "(a)::(b)::(c)" ∧
    activityName [["a", "b", "c"]] none ⟨1, 3, 0⟩ = none := by decide +kernel

end Ficus.Rs
