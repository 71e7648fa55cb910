import Verif.Spec.LogParts
import Verif.Proofs.Split
import Verif.Props.Parts

/-! Lemmas about the parts that make or change logs. -/

namespace Ficus
open Spec

/-! ### The split into variants does not depend on how traces are given -/

section split
variable {T U K : Type} [DecidableEq K]

/-- The groups of a dictionary, traces mapped. -/
def mapGroups (f : T → U) (d : Dict K (List T)) : Dict K (List U) := d.map (fun kv => (kv.1, kv.2.map f))

theorem get?_mapGroups (f : T → U) (d : Dict K (List T)) (k : K) :
    Dict.get? (mapGroups f d) k = (Dict.get? d k).map (List.map f) := by
  induction d with
  | nil => rfl
  | cons kv d ih =>
    obtain ⟨k', v⟩ := kv
    simp only [mapGroups, List.map_cons, Dict.get?_cons] at ih ⊢
    by_cases h : k' = k
    · simp [h]
    · simp only [h, if_false]; exact ih

theorem set_mapGroups (f : T → U) (d : Dict K (List T)) (k : K) (v : List T) :
    mapGroups f (Dict.set d k v) = Dict.set (mapGroups f d) k (v.map f) := by
  induction d with
  | nil => rfl
  | cons kv d ih =>
    obtain ⟨k', w⟩ := kv
    simp only [mapGroups, List.map_cons, Dict.set] at ih ⊢
    by_cases h : k' = k
    · simp [h]
    · simp only [h, if_false, List.map_cons, ih]

theorem groupInto_mapGroups (f : T → U) (d : Dict K (List T)) (k : K) (a : T) :
    mapGroups f (groupInto d k a) = groupInto (mapGroups f d) k (f a) := by
  unfold groupInto
  rw [get?_mapGroups]
  cases Dict.get? d k with
  | none => simp only [Option.map_none, set_mapGroups]; rfl
  | some g => simp only [Option.map_some, set_mapGroups]; simp

theorem foldlM_mapGroups (f : T → U) (key : T → Except PyErr Int) (key' : U → Except PyErr Int)
    (hk : ∀ t, key' (f t) = key t) (l : List T) (d : Dict Int (List T)) :
    (l.map f).foldlM (fun d t => do return groupInto d (← key' t) t) (mapGroups f d) =
      (l.foldlM (fun d t => do return groupInto d (← key t) t) d).map (mapGroups f) := by
  induction l generalizing d with
  | nil => rfl
  | cons t l ih =>
    rw [List.map_cons, List.foldlM_cons, List.foldlM_cons, hk]
    cases key t with
    | error e => rfl
    | ok k =>
      simp only [bind, Except.bind, pure, Except.pure] at ih ⊢
      rw [← groupInto_mapGroups]
      exact ih _

theorem mapGroups_snd (f : T → U) (d : Dict K (List T)) :
    (mapGroups f d).map Prod.snd = (d.map Prod.snd).map (List.map f) := by
  simp [mapGroups]

theorem refineBy_map (f : T → U) (key : T → Except PyErr Int) (key' : U → Except PyErr Int)
    (hk : ∀ t, key' (f t) = key t) (g : List T) :
    refineBy key' (g.map f) = (refineBy key g).map (List.map (List.map f)) := by
  unfold refineBy
  rw [List.length_map]
  by_cases h : g.length = 1
  · rw [if_pos h, if_pos h]; rfl
  · rw [if_neg h, if_neg h]
    have := foldlM_mapGroups f key key' hk g []
    simp only [mapGroups, List.map_nil] at this
    rw [this]
    cases List.foldlM (fun d t => do return groupInto d (← key t) t) ([] : Dict Int (List T)) g with
    | error e => rfl
    | ok d =>
      simp only [Except.map, bind, Except.bind, pure, Except.pure]
      exact congrArg Except.ok (mapGroups_snd f d)

theorem mapM_map_comm {A A' B B' : Type} (F : A → A') (G : B → B') (g : A → Except PyErr B) (g' : A' → Except PyErr B')
    (h : ∀ a, g' (F a) = (g a).map G) (l : List A) : (l.map F).mapM g' = (l.mapM g).map (List.map G) := by
  induction l with
  | nil => rfl
  | cons a l ih =>
    rw [List.map_cons, List.mapM_cons, List.mapM_cons, h, ih]
    cases g a with
    | error e => rfl
    | ok b =>
      cases l.mapM g with
      | error e => rfl
      | ok r => rfl

theorem variantLoopBy_map (f : T → U) (key : Nat → T → Except PyErr Int) (key' : Nat → U → Except PyErr Int)
    (hk : ∀ i t, key' i (f t) = key i t) (len fuel index : Nat) (gs : List (List T)) :
    variantLoopBy key' len fuel index (gs.map (List.map f)) =
      (variantLoopBy key len fuel index gs).map (List.map (List.map f)) := by
  induction fuel generalizing index gs with
  | zero => rfl
  | succ fuel ih =>
    unfold variantLoopBy
    by_cases h : index ≥ len
    · rw [if_pos h, if_pos h]; rfl
    · rw [if_neg h, if_neg h]
      rw [mapM_map_comm (List.map f) (List.map (List.map f)) (refineBy (key index)) (refineBy (key' index))
        (fun g => refineBy_map f _ _ (hk index) g)]
      cases gs.mapM (refineBy (key index)) with
      | error e => rfl
      | ok r =>
        simp only [Except.map, bind, Except.bind, pure, Except.pure]
        have hall : (gs.map (List.map f)).all (fun g => decide (g.length = 1)) =
            gs.all (fun g => decide (g.length = 1)) := by simp [List.all_map, Function.comp_def]
        rw [hall]
        split
        · rfl
        · rw [← List.map_flatten]
          exact ih _ _

theorem splitSameBy_map (f : T → U) (len : T → Nat) (len' : U → Nat) (hl : ∀ t, len' (f t) = len t)
    (key : Nat → T → Except PyErr Int) (key' : Nat → U → Except PyErr Int)
    (hk : ∀ i t, key' i (f t) = key i t) (ts : List T) :
    splitSameBy len' key' (ts.map f) = (splitSameBy len key ts).map (List.map (List.map f)) := by
  unfold splitSameBy
  rw [List.length_map]
  by_cases h : ts.length = 1
  · rw [if_pos h, if_pos h]; rfl
  · rw [if_neg h, if_neg h]
    cases ts with
    | nil => exact variantLoopBy_map f key key' hk 0 0 0 [[]]
    | cons t ts =>
      simp only [List.map_cons, List.head?_cons, hl]
      exact variantLoopBy_map f key key' hk (len t) (len t) 0 [t :: ts]

theorem foldl_mapGroups (f : T → U) (len : T → Nat) (len' : U → Nat) (hl : ∀ t, len' (f t) = len t) (l : List T)
    (d : Dict Nat (List T)) :
    (l.map f).foldl (fun d t => groupInto d (len' t) t) (mapGroups f d) =
      mapGroups f (l.foldl (fun d t => groupInto d (len t) t) d) := by
  induction l generalizing d with
  | nil => rfl
  | cons t l ih => rw [List.map_cons, List.foldl_cons, List.foldl_cons, hl, ← groupInto_mapGroups, ih]

theorem splitBy_map (f : T → U) (len : T → Nat) (len' : U → Nat) (hl : ∀ t, len' (f t) = len t)
    (key : Nat → T → Except PyErr Int) (key' : Nat → U → Except PyErr Int)
    (hk : ∀ i t, key' i (f t) = key i t) (ts : List T) :
    splitBy len' key' (ts.map f) = (splitBy len key ts).map (List.map (List.map f)) := by
  unfold splitBy
  have h1 := foldl_mapGroups f len len' hl ts []
  simp only [mapGroups, List.map_nil] at h1
  simp only [h1]
  rw [mapM_map_comm (fun kv : Nat × List T => (kv.1, kv.2.map f)) (List.map (List.map f))
    (fun kv => splitSameBy len key kv.2) (fun kv => splitSameBy len' key' kv.2)
    (fun kv => splitSameBy_map f len len' hl key key' hk kv.2)]
  cases List.mapM (fun kv : Nat × List T => splitSameBy len key kv.2)
      (List.foldl (fun d t => groupInto d (len t) t) [] ts) with
  | error e => rfl
  | ok r =>
    simp only [Except.map, bind, Except.bind, pure, Except.pure]
    rw [← List.map_flatten]

theorem splitBy_traces (log : Log Payload) :
    splitBy (fun t : Trace Payload => t.events.length) hashAt log.traces = splitLogByTraces log := by
  have hr : ∀ i, refineBy (hashAt (E := Payload) i) = refineGroup i := fun i => rfl
  have hv : ∀ len fuel index (gs : List (List (Trace Payload))),
      variantLoopBy hashAt len fuel index gs = variantLoop len fuel index gs := by
    intro len fuel
    induction fuel with
    | zero => intro index gs; rfl
    | succ fuel ih =>
      intro index gs
      unfold variantLoopBy variantLoop
      simp only [hr, ih]
  have hs : ∀ ts : List (Trace Payload), splitSameBy (fun t => t.events.length) hashAt ts = splitSameLength ts := by
    intro ts
    unfold splitSameBy splitSameLength
    cases ts with
    | nil => simp only [hv]; rfl
    | cons t ts => simp only [hv]; rfl
  unfold splitBy splitLogByTraces
  simp only [hs]

/-! Every trace is in exactly one place of the groups. -/

theorem groupInto_perm (d : Dict K (List T)) (k : K) (a : T) :
    ((groupInto d k a).map Prod.snd).flatten.Perm (a :: (d.map Prod.snd).flatten) := by
  unfold groupInto
  induction d with
  | nil => simp [Dict.set]
  | cons kv d ih =>
    obtain ⟨k', v⟩ := kv
    rw [Dict.get?_cons]
    by_cases h : k' = k
    · simp only [h, if_true, Dict.set, List.map_cons, List.flatten_cons, List.append_assoc, List.singleton_append]
      exact List.perm_middle
    · simp only [h, if_false]
      cases hg : Dict.get? d k with
      | none =>
        rw [hg] at ih
        simp only [Dict.set, h, if_false, List.map_cons, List.flatten_cons] at ih ⊢
        exact (ih.append_left v).trans List.perm_middle
      | some g =>
        rw [hg] at ih
        simp only [Dict.set, h, if_false, List.map_cons, List.flatten_cons] at ih ⊢
        exact (ih.append_left v).trans List.perm_middle

theorem foldlM_perm (key : T → Except PyErr Int) (l : List T) (d d' : Dict Int (List T))
    (h : l.foldlM (fun d t => do return groupInto d (← key t) t) d = .ok d') :
    (d'.map Prod.snd).flatten.Perm (l ++ (d.map Prod.snd).flatten) := by
  induction l generalizing d with
  | nil => cases h; exact List.Perm.refl _
  | cons t l ih =>
    rw [List.foldlM_cons] at h
    cases hk : key t with
    | error e => rw [hk] at h; cases h
    | ok k =>
      rw [hk] at h
      have := ih (groupInto d k t) h
      refine this.trans (((groupInto_perm d k t).append_left l).trans ?_)
      exact List.perm_middle

theorem refineBy_perm (key : T → Except PyErr Int) (g : List T) (r : List (List T)) (h : refineBy key g = .ok r) :
    r.flatten.Perm g := by
  unfold refineBy at h
  split at h
  · cases h; simp
  · cases hf : List.foldlM (fun d t => do return groupInto d (← key t) t) ([] : Dict Int (List T)) g with
    | error e => rw [hf] at h; cases h
    | ok d =>
      rw [hf] at h
      cases h
      simpa using foldlM_perm key g [] d hf

theorem mapM_perm (F : List T → Except PyErr (List (List T)))
    (hF : ∀ g r, F g = .ok r → r.flatten.Perm g) (gs : List (List T)) (rs : List (List (List T)))
    (h : gs.mapM F = .ok rs) : rs.flatten.flatten.Perm gs.flatten := by
  induction gs generalizing rs with
  | nil => cases h; exact List.Perm.refl _
  | cons g gs ih =>
    rw [List.mapM_cons] at h
    cases hg : F g with
    | error e => rw [hg] at h; cases h
    | ok r =>
      rw [hg] at h
      cases hm : gs.mapM F with
      | error e => rw [hm] at h; cases h
      | ok rs' =>
        rw [hm] at h
        cases h
        rw [List.flatten_cons, List.flatten_append, List.flatten_cons]
        exact (hF g r hg).append (ih rs' hm)

theorem variantLoopBy_perm (key : Nat → T → Except PyErr Int) (len fuel index : Nat) (gs r : List (List T))
    (h : variantLoopBy key len fuel index gs = .ok r) : r.flatten.Perm gs.flatten := by
  induction fuel generalizing index gs with
  | zero => cases h; exact List.Perm.refl _
  | succ fuel ih =>
    unfold variantLoopBy at h
    split at h
    · cases h; exact List.Perm.refl _
    · cases hm : gs.mapM (refineBy (key index)) with
      | error e => rw [hm] at h; cases h
      | ok rs =>
        rw [hm] at h
        simp only [bind, Except.bind, pure, Except.pure] at h
        split at h
        · cases h; exact List.Perm.refl _
        · exact (ih _ _ h).trans (mapM_perm _ (fun g r => refineBy_perm _ g r) gs rs hm)

theorem splitSameBy_perm (len : T → Nat) (key : Nat → T → Except PyErr Int) (ts : List T) (r : List (List T))
    (h : splitSameBy len key ts = .ok r) : r.flatten.Perm ts := by
  unfold splitSameBy at h
  split at h
  · cases h; simp
  · simpa using variantLoopBy_perm key _ _ _ _ _ h

theorem splitBy_perm (len : T → Nat) (key : Nat → T → Except PyErr Int) (ts : List T) (r : List (List T))
    (h : splitBy len key ts = .ok r) : r.flatten.Perm ts := by
  unfold splitBy at h
  simp only at h
  have hfold : ∀ (l : List T) (d : Dict Nat (List T)),
      ((l.foldl (fun d t => groupInto d (len t) t) d).map Prod.snd).flatten.Perm (l ++ (d.map Prod.snd).flatten) := by
    intro l
    induction l with
    | nil => intro d; exact List.Perm.refl _
    | cons t l ih =>
      intro d
      rw [List.foldl_cons]
      exact (ih _).trans (((groupInto_perm d (len t) t).append_left l).trans List.perm_middle)
  have hc : ∀ d : Dict Nat (List T), d.mapM (fun kv => splitSameBy len key kv.2) =
      (d.map Prod.snd).mapM (splitSameBy len key) := by
    intro d
    rw [List.mapM_map]
    rfl
  rw [hc] at h
  cases hm : ((ts.foldl (fun d t => groupInto d (len t) t) []).map Prod.snd).mapM (splitSameBy len key) with
  | error e => rw [hm] at h; cases h
  | ok rs =>
    rw [hm] at h
    cases h
    refine (mapM_perm _ (fun g r => splitSameBy_perm len key g r) _ rs hm).trans ?_
    simpa using hfold ts []

theorem headOf_sublist (gs : List (List T)) (fs : List T) (h : gs.mapM headOf = .ok fs) : fs.Sublist gs.flatten := by
  induction gs generalizing fs with
  | nil => cases h; exact List.Sublist.refl _
  | cons g gs ih =>
    rw [List.mapM_cons] at h
    cases g with
    | nil => cases h
    | cons t g =>
      cases hm : gs.mapM headOf with
      | error e => rw [hm] at h; cases h
      | ok fs' =>
        rw [hm] at h
        cases h
        rw [List.flatten_cons, List.cons_append]
        exact ((ih fs' hm).trans (List.sublist_append_right _ _)).cons_cons t

end split

/-! ### What a part may touch -/

/-- Nothing disappears, log objects stay as they are, and only objects of the log may have changed. -/
structure Foot (h : Heap) (l : Nat) (h' : Heap) : Prop where
  exists_ : ∀ c, InHeap h c → InHeap h' c
  events : ∀ e, e < h.events.length → ¬ Owns h l (.event e) → h'.event e = h.event e
  traces : ∀ t, t < h.traces.length → ¬ Owns h l (.trace t) → h'.traceObj t = h.traceObj t
  logs : ∀ m, m < h.logs.length → h'.logObj m = h.logObj m

/-- The objects of the new log belonged to the old one or are new. -/
def Reach (h : Heap) (l : Nat) (h' : Heap) (l' : Nat) : Prop := ∀ c, Owns h' l' c → Owns h l c ∨ ¬ InHeap h c

theorem Extends.foot {h h' : Heap} (hx : Extends h h') (l : Nat) : Foot h l h' :=
  ⟨fun _ hc => hx.inHeap hc, fun _ he _ => hx.event he, fun _ ht _ => hx.traceObj ht, fun _ hm => hx.logObj hm⟩

theorem Foot.trans {h h1 h2 : Heap} {l l1 : Nat} (a : Foot h l h1) (r : Reach h l h1 l1) (b : Foot h1 l1 h2) :
    Foot h l h2 := by
  have hno : ∀ c, InHeap h c → ¬ Owns h l c → ¬ Owns h1 l1 c := by
    intro c hc hn ho
    rcases r c ho with h1 | h1
    · exact hn h1
    · exact h1 hc
  refine ⟨fun c hc => b.exists_ c (a.exists_ c hc), ?_, ?_, ?_⟩
  · intro e he hn
    rw [b.events e (a.exists_ (.event e) he) (hno _ he hn), a.events e he hn]
  · intro t ht hn
    rw [b.traces t (a.exists_ (.trace t) ht) (hno _ ht hn), a.traces t ht hn]
  · intro m hm
    rw [b.logs m (a.exists_ (.log m) hm), a.logs m hm]

theorem Reach.trans {h h1 h2 : Heap} {l l1 l2 : Nat} (f : Foot h l h1) (a : Reach h l h1 l1) (b : Reach h1 l1 h2 l2) :
    Reach h l h2 l2 := by
  intro c hc
  rcases b c hc with h1 | h1
  · exact a c h1
  · exact Or.inr (fun hin => h1 (f.exists_ c hin))

theorem owns_event {h : Heap} {l e : Nat} : Owns h l (.event e) ↔ e ∈ h.eventRefs l := by
  unfold Owns Heap.eventRefs
  rw [List.mem_flatMap]
  constructor
  · rintro (hc | ⟨_, _, hc⟩ | ⟨t, ht, e', he, hc⟩)
    · cases hc
    · cases hc
    · cases hc; exact ⟨t, ht, he⟩
  · rintro ⟨t, ht, he⟩
    exact Or.inr (Or.inr ⟨t, ht, e, he, rfl⟩)

theorem owns_trace {h : Heap} {l t : Nat} : Owns h l (.trace t) ↔ t ∈ (h.logObj l).traces := by
  unfold Owns
  constructor
  · rintro (hc | ⟨_, ht, hc⟩ | ⟨_, _, _, _, hc⟩)
    · cases hc
    · cases hc; exact ht
    · cases hc
  · intro ht
    exact Or.inr (Or.inl ⟨t, ht, rfl⟩)

theorem owns_log {h : Heap} {l m : Nat} : Owns h l (.log m) ↔ m = l := by
  unfold Owns
  constructor
  · rintro (hc | ⟨_, _, hc⟩ | ⟨_, _, _, _, hc⟩)
    · cases hc; rfl
    · cases hc
    · cases hc
  · rintro rfl; exact Or.inl rfl

theorem sound_iff {h : Heap} {l : Nat} : Sound h l ↔
    l < h.logs.length ∧ (∀ t ∈ (h.logObj l).traces, t < h.traces.length) ∧
      ∀ e ∈ h.eventRefs l, e < h.events.length := by
  constructor
  · intro hs
    exact ⟨hs _ (owns_log.2 rfl), fun t ht => hs _ (owns_trace.2 ht), fun e he => hs _ (owns_event.2 he)⟩
  · rintro ⟨h1, h2, h3⟩ c hc
    cases c with
    | event e => exact h3 e (owns_event.1 hc)
    | trace t => exact h2 t (owns_trace.1 hc)
    | log m => rw [owns_log.1 hc]; exact h1

theorem reach_of {h h' : Heap} {l l' : Nat} (hl : ¬ l' < h.logs.length ∨ l' = l)
    (ht : ∀ t ∈ (h'.logObj l').traces, t ∈ (h.logObj l).traces ∨ ¬ t < h.traces.length)
    (he : ∀ e ∈ h'.eventRefs l', e ∈ h.eventRefs l ∨ ¬ e < h.events.length) : Reach h l h' l' := by
  intro c hc
  cases c with
  | event e => exact (he e (owns_event.1 hc)).imp owns_event.2 id
  | trace t => exact (ht t (owns_trace.1 hc)).imp owns_trace.2 id
  | log m =>
    rw [owns_log.1 hc]
    exact hl.symm.imp (fun e => owns_log.2 e) id

/-- A new log with its value, made without changing anything. -/
structure Made (h : Heap) (l : Nat) (n : Nat × Heap) (v : Log Payload) : Prop where
  ext : Extends h n.2
  view : n.2.viewLog n.1 = v
  sound : Sound n.2 n.1
  sep : Separate h l → Separate n.2 n.1
  reach : Reach h l n.2 n.1

theorem Made.refl {h : Heap} {l : Nat} (hs : Sound h l) : Made h l (l, h) (h.viewLog l) :=
  ⟨Extends.refl h, rfl, hs, id, fun _ hc => Or.inl hc⟩

theorem Made.trans {h : Heap} {l : Nat} {n m : Nat × Heap} {v w : Log Payload} (a : Made h l n v)
    (b : Made n.2 n.1 m w) : Made h l m w :=
  ⟨a.ext.trans b.ext, b.view, b.sound, fun hd => b.sep (a.sep hd), Reach.trans (a.ext.foot l) a.reach b.reach⟩

theorem filterEventsLoop_nodup (select : Payload → Bool) (ts : List Nat) (h : Heap) :
    (Heap.filterEventsLoop select ts h).1.Nodup ∧
      ∀ t ∈ (Heap.filterEventsLoop select ts h).1, h.traces.length ≤ t := by
  induction ts generalizing h with
  | nil => simp [Heap.filterEventsLoop]
  | cons t ts ih =>
    unfold Heap.filterEventsLoop
    simp only
    obtain ⟨i1, i2⟩ := ih (h.newTrace ((h.traceObj t).events.filter (fun e => select (h.event e)))).2
    have hlen : (h.newTrace ((h.traceObj t).events.filter (fun e => select (h.event e)))).2.traces.length =
        h.traces.length + 1 := by simp [Heap.newTrace]
    rw [hlen] at i2
    split
    · refine ⟨List.nodup_cons.2 ⟨?_, i1⟩, ?_⟩
      · intro hm
        have := i2 _ hm
        simp only [Heap.newTrace] at this
        omega
      · intro x hx
        rcases List.mem_cons.1 hx with rfl | hx
        · exact Nat.le_refl _
        · exact Nat.le_of_succ_le (i2 x hx)
    · exact ⟨i1, fun x hx => Nat.le_of_succ_le (i2 x hx)⟩

theorem made_filterEvents (h : Heap) (l : Nat) (hs : Sound h l) (select : Payload → Bool) :
    Made h l (h.filterEventsInto l select) (filterEvents (h.viewLog l) select) := by
  obtain ⟨c1, c2, c3, c4, _⟩ := C56_filter_shares_events h l hs select
  obtain ⟨b1, b2, b3, b4, b5⟩ := filterEventsLoop_spec select (h.logObj l).traces h (fun t ht => soundTrace_of hs ht)
  have hobj := filterEventsInto_logObj h l select
  have hev : (h.filterEventsInto l select).2.events = h.events := b2
  have hlog : (h.filterEventsInto l select).1 = h.logs.length := by
    show (Heap.filterEventsLoop select (h.logObj l).traces h).2.logs.length = _
    rw [b3]
  refine ⟨filterEventsInto_extends h l hs select, c1, ?_, fun hd => ⟨?_, ?_⟩, ?_⟩
  · rw [sound_iff]
    refine ⟨?_, ?_, ?_⟩
    · rw [hlog]
      show h.logs.length < ((Heap.filterEventsLoop select (h.logObj l).traces h).2.logs ++ [_]).length
      rw [b3]; simp
    · intro t ht
      rw [hobj] at ht
      exact (b5 t ht).2
    · intro e he
      rw [c2, List.mem_filter] at he
      rw [hev]
      exact (sound_iff.1 hs).2.2 e he.1
  · rw [hobj]; exact (filterEventsLoop_nodup select _ h).1
  · rw [c2]; exact hd.2.filter _
  · refine reach_of (Or.inl (by rw [hlog]; exact Nat.lt_irrefl _)) ?_ ?_
    · intro t ht
      exact Or.inr (c3 t ht)
    · intro e he
      rw [c2, List.mem_filter] at he
      exact Or.inl he.1

theorem flatMap_sublist {A B : Type} (f : A → List B) {a b : List A} (h : a.Sublist b) :
    (a.flatMap f).Sublist (b.flatMap f) := by
  induction h with
  | slnil => exact List.Sublist.refl _
  | cons x _ ih => rw [List.flatMap_cons]; exact ih.trans (List.sublist_append_right _ _)
  | cons_cons x _ ih => rw [List.flatMap_cons, List.flatMap_cons]; exact (List.Sublist.refl _).append ih

/-- A new log with some of the trace objects. -/
theorem made_traces (h : Heap) (l : Nat) (hs : Sound h l) (ts ts' : List Nat)
    (hsub : ts.Sublist ts') (hperm : ts'.Perm (h.logObj l).traces) :
    Made h l (h.newLog { traces := ts }) { traces := ts.map h.viewTrace } := by
  have hobj : (h.newLog { traces := ts }).2.logObj (h.newLog { traces := ts }).1 = { traces := ts } := newLog_logObj _ _
  have hmem : ∀ t ∈ ts, t ∈ (h.logObj l).traces := fun t ht => hperm.mem_iff.1 (hsub.subset ht)
  have hrefs : (h.newLog { traces := ts }).2.eventRefs (h.newLog { traces := ts }).1 =
      ts.flatMap (fun t => (h.traceObj t).events) := by
    unfold Heap.eventRefs
    rw [hobj]
    rfl
  obtain ⟨s1, s2, s3⟩ := sound_iff.1 hs
  have hin : ∀ e ∈ ts.flatMap (fun t => (h.traceObj t).events), e ∈ h.eventRefs l := by
    intro e he
    obtain ⟨t, ht, he⟩ := List.mem_flatMap.1 he
    exact List.mem_flatMap.2 ⟨t, hmem t ht, he⟩
  refine ⟨extends_newLog _ _, ?_, ?_, fun hd => ⟨?_, ?_⟩, ?_⟩
  · unfold Heap.viewLog
    rw [hobj]
    rfl
  · rw [sound_iff]
    refine ⟨by simp [Heap.newLog], ?_, ?_⟩
    · intro t ht
      rw [hobj] at ht
      exact s2 t (hmem t ht)
    · intro e he
      rw [hrefs] at he
      exact s3 e (hin e he)
  · rw [hobj]
    exact (hperm.nodup_iff.2 hd.1).sublist hsub
  · rw [hrefs]
    exact ((hperm.flatMap_right _).nodup_iff.2 hd.2).sublist (flatMap_sublist _ hsub)
  · refine reach_of (Or.inl (by simp [Heap.newLog])) ?_ ?_
    · intro t ht
      rw [hobj] at ht
      exact Or.inl (hmem t ht)
    · intro e he
      rw [hrefs] at he
      exact Or.inl (hin e he)

theorem made_byCount (h : Heap) (l : Nat) (hs : Sound h l) (n : Int) :
    Made h l (h.filterTracesInto l (fun es => decide ((es.length : Int) > n)))
      { traces := (h.viewLog l).traces.filter (fun t => decide ((t.events.length : Int) > n)) } := by
  have := made_traces h l hs ((h.logObj l).traces.filter (fun t => decide ((((h.traceObj t).events.length : Nat) : Int) > n)))
    _ List.filter_sublist (List.Perm.refl _)
  unfold Heap.filterTracesInto
  convert this using 2
  simp only [Heap.viewLog, List.filter_map]
  congr 1
  apply List.filter_congr
  intro t _
  simp [Heap.viewTrace]

theorem made_variants (h : Heap) (l : Nat) (hs : Sound h l) :
    match h.variantsInto l, filterTracesByVariants (h.viewLog l) with
    | .ok n, .ok v => Made h l n v
    | .error e, .error e' => e = e'
    | _, _ => False := by
  unfold Heap.variantsInto filterTracesByVariants
  rw [← splitBy_traces]
  have hmap := splitBy_map h.viewTrace (fun t => (h.traceObj t).events.length) (fun t => t.events.length)
    (fun t => by simp [Heap.viewTrace]) (fun i t => hashAt i (h.viewTrace t)) hashAt (fun _ _ => rfl) (h.logObj l).traces
  have : (h.viewLog l).traces = (h.logObj l).traces.map h.viewTrace := rfl
  rw [this, hmap]
  cases hsp : splitBy (fun t => (h.traceObj t).events.length) (fun i t => hashAt i (h.viewTrace t)) (h.logObj l).traces with
  | error e => simp [bind, Except.bind, Except.map]
  | ok gs =>
    simp only [bind, Except.bind, Except.map]
    rw [mapM_map_comm (List.map h.viewTrace) h.viewTrace headOf firstOf (fun g => by cases g <;> rfl)]
    cases hf : gs.mapM headOf with
    | error e => simp [Except.map]
    | ok fs =>
      simp only [Except.map, pure, Except.pure]
      exact made_traces h l hs fs gs.flatten (headOf_sublist gs fs hf) (splitBy_perm _ _ _ _ hsp)

/-! ### Loops -/

/-- Outcomes of two loops that correspond to each other. -/
def Matches {A B : Type} (Q : A → B → Prop) : Option (Except PyErr A) → Option (Except PyErr B) → Prop
  | none, none => True
  | some (.ok a), some (.ok b) => Q a b
  | some (.error e), some (.error e') => e = e'
  | _, _ => False

/-- Iterations of two loops that correspond to each other. -/
def MatchStep {S S' A B : Type} (R : S → S' → Prop) (Q : A → B → Prop) :
    Except PyErr (Step S A) → Except PyErr (Step S' B) → Prop
  | .ok (.ret a), .ok (.ret b) => Q a b
  | .ok (.next s), .ok (.next s') => R s s'
  | .error e, .error e' => e = e'
  | _, _ => False

theorem runLoop_matches {S S' A B : Type} (R : S → S' → Prop) (Q : A → B → Prop) (f : S → Except PyErr (Step S A))
    (g : S' → Except PyErr (Step S' B)) (h : ∀ s s', R s s' → MatchStep R Q (f s) (g s')) (fuel : Nat) (s : S) (s' : S')
    (hr : R s s') : Matches Q (runLoop f fuel s) (runLoop g fuel s') := by
  induction fuel generalizing s s' with
  | zero => trivial
  | succ fuel ih =>
    unfold runLoop
    have := h s s' hr
    cases hf : f s with
    | error e =>
      cases hg : g s' with
      | error e' => rw [hf, hg] at this; exact this
      | ok x => rw [hf, hg] at this; cases this
    | ok x =>
      cases hg : g s' with
      | error e' => rw [hf, hg] at this; cases x <;> exact absurd this id
      | ok y =>
        rw [hf, hg] at this
        cases x with
        | ret a =>
          cases y with
          | ret b => exact this
          | next t => exact absurd this id
        | next t =>
          cases y with
          | ret b => exact absurd this id
          | next t' => exact ih t t' this

/-- The states of a filter on objects and on values. -/
def SameState (h : Heap) (l : Nat) (s : Heap × Nat × Nat) (s' : Log Payload × Nat) : Prop :=
  s.2.2 = s'.2 ∧ Made h l (s.2.1, s.1) s'.1

theorem made_remove {h : Heap} {l : Nat} {s : Heap × Nat × Nat} {s' : Log Payload × Nat} (hr : SameState h l s s')
    (n : Option String) : Made h l (s.1.removeInto s.2.1 n) (removeEventOpt s'.1 n) := by
  obtain ⟨_, hm⟩ := hr
  have := made_filterEvents s.1 s.2.1 hm.sound (fun p => decide (some (name p) ≠ n))
  have hv : s.1.viewLog s.2.1 = s'.1 := hm.view
  rw [hv] at this
  exact hm.trans this

theorem removeEventOpt_value (log : Log Payload) (n : String) : removeEventOpt log (some n) = removeEvent log n := by
  unfold removeEventOpt removeEvent
  simp

theorem length_traces {h : Heap} {l : Nat} {s : Heap × Nat × Nat} {s' : Log Payload × Nat} (hr : SameState h l s s') :
    (s.1.logObj s.2.1).traces.length = s'.1.traces.length := by
  have hv : s.1.viewLog s.2.1 = s'.1 := hr.2.view
  rw [← hv]
  simp [Heap.viewLog]

theorem directStep_matches {M : Type} (gt : M → M → Bool) (metric : Metric Payload M) (th : M) (mx : Int) (h : Heap) (l : Nat)
    (s : Heap × Nat × Nat) (s' : Log Payload × Nat) (hr : SameState h l s s') :
    MatchStep (SameState h l) (Made h l) (Heap.directStep gt metric th mx s) (directBody gt metric th mx s') := by
  have hv : s.1.viewLog s.2.1 = s'.1 := hr.2.view
  unfold Heap.directStep directBody
  rw [length_traces hr, hr.1, hv]
  split
  · exact hr.2
  · cases nextDirect gt metric s'.1 with
    | error e => rfl
    | ok r =>
      simp only [bind, Except.bind, pure, Except.pure]
      have hm := made_remove hr (some r.1)
      rw [removeEventOpt_value] at hm
      split
      · split
        · exact hm
        · exact ⟨rfl, hm⟩
      · exact hr.2

theorem defaultIndirectStep_matches (lp : Bool) (th : ℝ) (top : ℚ) (mx : Int) (un : String → Bool) (h : Heap) (l : Nat)
    (s : Heap × Nat × Nat) (s' : Log Payload × Nat) (hr : SameState h l s s') :
    MatchStep (SameState h l) (Made h l) (Heap.defaultIndirectStep lp th top mx un s)
      (defaultIndirectBody lp th top mx un s') := by
  have hv : s.1.viewLog s.2.1 = s'.1 := hr.2.view
  unfold Heap.defaultIndirectStep defaultIndirectBody
  rw [length_traces hr, hr.1, hv]
  split
  · exact hr.2
  · cases defaultEntropyAverage lp s'.1 none with
    | error e => rfl
    | ok avg =>
      simp only [bind, Except.bind, pure, Except.pure]
      split
      · exact hr.2
      · cases nextDefaultIndirect lp top un s'.1 with
        | error e => rfl
        | ok r =>
          simp only
          have hm := made_remove hr r.1
          split
          · exact hm
          · exact ⟨rfl, hm⟩

theorem posIndirectStep_matches (th : ℝ) (mx : Int) (un : String → Bool) (h : Heap) (l : Nat)
    (s : Heap × Nat × Nat) (s' : Log Payload × Nat) (hr : SameState h l s s') :
    MatchStep (SameState h l) (Made h l) (Heap.posIndirectStep th mx un s) (posIndirectBody th mx un s') := by
  have hv : s.1.viewLog s.2.1 = s'.1 := hr.2.view
  unfold Heap.posIndirectStep posIndirectBody
  rw [hr.1, hv]
  cases calculatePositionEntropiesFast s'.1 none (some (createEventsPositions s'.1)) with
  | error e => rfl
  | ok d =>
    simp only [bind, Except.bind, pure, Except.pure]
    split
    · exact hr.2
    · cases nextPosIndirect un s'.1 with
      | error e => rfl
      | ok r =>
        simp only
        have hm := made_remove hr r.1
        split
        · exact hm
        · exact ⟨rfl, hm⟩

/-! ### Changing events in place -/

/-- The exception of an outcome. -/
def err {A : Type} : Except PyErr A → Option PyErr
  | .error e => some e
  | .ok _ => none

theorem err_append {A B : Type} (g : A → Except PyErr B) (a b : List A) :
    err ((a ++ b).mapM g) = (err (a.mapM g)).or (err (b.mapM g)) := by
  rw [List.mapM_append]
  cases a.mapM g with
  | error e => rfl
  | ok x =>
    cases b.mapM g with
    | error e => rfl
    | ok y => rfl

theorem err_cons {A B : Type} (g : A → Except PyErr B) (a : A) (l : List A) :
    err ((a :: l).mapM g) = (err (g a)).or (err (l.mapM g)) := by
  rw [List.mapM_cons]
  cases g a with
  | error e => rfl
  | ok x =>
    cases l.mapM g with
    | error e => rfl
    | ok y => rfl

theorem mutateEvents_once (g : Payload → Except PyErr Payload) (es : List Nat) (h : Heap) (hd : es.Nodup)
    (hes : ∀ e ∈ es, e < h.events.length) :
    (Heap.mutateEvents g es h).2.traces = h.traces ∧ (Heap.mutateEvents g es h).2.logs = h.logs ∧
      (Heap.mutateEvents g es h).2.events.length = h.events.length ∧
      (∀ e, e ∉ es → (Heap.mutateEvents g es h).2.event e = h.event e) ∧
      err (Heap.mutateEvents g es h).1 = err (es.mapM (fun e => g (h.event e))) ∧
      ((Heap.mutateEvents g es h).1 = .ok () → ∀ e ∈ es, g (h.event e) = .ok ((Heap.mutateEvents g es h).2.event e)) := by
  induction es generalizing h with
  | nil => exact ⟨rfl, rfl, rfl, fun _ _ => rfl, rfl, fun _ e he => by cases he⟩
  | cons x es ih =>
    obtain ⟨hx, hd'⟩ := List.nodup_cons.1 hd
    unfold Heap.mutateEvents
    cases hg : g (h.event x) with
    | error y =>
      refine ⟨rfl, rfl, rfl, fun _ _ => rfl, ?_, fun hc => by cases hc⟩
      rw [err_cons, hg]; rfl
    | ok p =>
      simp only
      have hlt := hes x (by simp)
      have hlen : (h.setEvent x p).events.length = h.events.length := by simp [Heap.setEvent]
      obtain ⟨a1, a2, a3, a4, a5, a6⟩ := ih (h.setEvent x p) hd' (fun e he => by rw [hlen]; exact hes e (by simp [he]))
      have hne : ∀ e ∈ es, (h.setEvent x p).event e = h.event e := by
        intro e he
        rw [setEvent_event, if_neg]
        rintro ⟨rfl, _⟩
        exact hx he
      have hmap : es.mapM (fun e => g ((h.setEvent x p).event e)) = es.mapM (fun e => g (h.event e)) := by
        have : ∀ l : List Nat, (∀ e ∈ l, e ∈ es) →
            l.mapM (fun e => g ((h.setEvent x p).event e)) = l.mapM (fun e => g (h.event e)) := by
          intro l
          induction l with
          | nil => intro _; rfl
          | cons e l ihl =>
            intro hl
            rw [List.mapM_cons, List.mapM_cons, hne e (hl e (by simp)), ihl (fun y hy => hl y (by simp [hy]))]
        exact this es (fun _ he => he)
      refine ⟨a1, a2, a3.trans hlen, ?_, ?_, ?_⟩
      · intro e he
        have h1 : e ∉ es := fun hc => he (by simp [hc])
        rw [a4 e h1, setEvent_event, if_neg]
        rintro ⟨rfl, _⟩
        exact he (by simp)
      · rw [a5, err_cons, hg, hmap]; rfl
      · intro hok e he
        rcases List.mem_cons.1 he with rfl | he
        · rw [hg, a4 e hx, setEvent_event, if_pos ⟨rfl, hlt⟩]
        · rw [← hne e he]
          exact a6 hok e he

theorem err_nested (g : Payload → Except PyErr Payload) (h : Heap) (ts : List Nat) :
    err ((ts.map h.viewTrace).mapM (fun t => do return { t with events := ← t.events.mapM g })) =
      err ((ts.flatMap (fun t => (h.traceObj t).events)).mapM (fun e => g (h.event e))) := by
  induction ts with
  | nil => rfl
  | cons t ts ih =>
    rw [List.map_cons, err_cons, ih, List.flatMap_cons, err_append]
    congr 1
    simp only [Heap.viewTrace, List.mapM_map]
    have : (g ∘ h.event) = fun e => g (h.event e) := rfl
    rw [this]
    cases List.mapM (fun e => g (h.event e)) (h.traceObj t).events with
    | error e => rfl
    | ok r => rfl

/-- What a part in place does: the outcome, and which objects may have changed. -/
structure PartSpec (h : Heap) (l : Nat) (r : Except PyErr Nat × Heap) (v : Except PyErr (Log Payload)) : Prop where
  view : outcome r = v
  foot : Foot h l r.2
  good : ∀ l', r.1 = .ok l' → Sound r.2 l' ∧ Separate r.2 l' ∧ Reach h l r.2 l'

theorem mutate_part (g : Payload → Except PyErr Payload) (h : Heap) (l : Nat) (hs : Sound h l) (hd : Separate h l) :
    PartSpec h l (LogPart.inPlace l (h.preprocessEvents l g)) (mapEvents g (h.viewLog l)) := by
  obtain ⟨s1, s2, s3⟩ := sound_iff.1 hs
  obtain ⟨a1, a2, a3, a4, a5, a6⟩ := mutateEvents_once g (h.eventRefs l) h hd.2 s3
  have ht : ∀ t, (h.preprocessEvents l g).2.traceObj t = h.traceObj t := fun t => by
    unfold Heap.traceObj Heap.preprocessEvents; rw [a1]
  have hl : ∀ m, (h.preprocessEvents l g).2.logObj m = h.logObj m := fun m => by
    unfold Heap.logObj Heap.preprocessEvents; rw [a2]
  have hr : ∀ m, (h.preprocessEvents l g).2.eventRefs m = h.eventRefs m := fun m => by
    unfold Heap.eventRefs
    simp only [ht, hl]
  refine ⟨?_, ⟨?_, ?_, ?_, ?_⟩, ?_⟩
  · have he := err_nested g h (h.logObj l).traces
    have he' : err (mapEvents g (h.viewLog l)) =
        err (((h.logObj l).traces.map h.viewTrace).mapM (fun t => do return { t with events := ← t.events.mapM g })) := by
      unfold mapEvents Heap.viewLog
      simp only
      cases ((h.logObj l).traces.map h.viewTrace).mapM (fun t => do return { t with events := ← t.events.mapM g }) with
      | error e => rfl
      | ok x => rfl
    rw [he] at he'
    have hfin : err (mapEvents g (h.viewLog l)) = err (h.preprocessEvents l g).1 := he'.trans a5.symm
    unfold outcome LogPart.inPlace
    cases hc : (h.preprocessEvents l g).1 with
    | error x =>
      rw [hc] at hfin
      cases hm : mapEvents g (h.viewLog l) with
      | error y =>
        rw [hm] at hfin
        have : y = x := Option.some.inj hfin
        rw [this]; rfl
      | ok y => rw [hm] at hfin; cases hfin
    | ok u =>
      have h6 := a6 (by unfold Heap.preprocessEvents at hc; rw [hc])
      simp only [Except.map]
      unfold mapEvents
      have hev : ∀ t ∈ (h.logObj l).traces, (h.viewTrace t).events.mapM g =
          .ok ((h.traceObj t).events.map (h.preprocessEvents l g).2.event) := by
        intro t htm
        simp only [Heap.viewTrace]
        have hq : ∀ es : List Nat, (∀ e ∈ es, e ∈ h.eventRefs l) →
            (es.map h.event).mapM g = .ok (es.map (h.preprocessEvents l g).2.event) := by
          intro es
          induction es with
          | nil => intro _; rfl
          | cons e es ih =>
            intro hes
            rw [List.map_cons, List.mapM_cons, h6 e (hes e (by simp)), ih (fun x hx => hes x (by simp [hx]))]
            rfl
        exact hq _ (fun e he => List.mem_flatMap.2 ⟨t, htm, he⟩)
      have htr : ∀ ts : List Nat, (∀ t ∈ ts, t ∈ (h.logObj l).traces) →
          (ts.map h.viewTrace).mapM (fun t => do return { t with events := ← t.events.mapM g }) =
            (.ok (ts.map (h.preprocessEvents l g).2.viewTrace) : Except PyErr (List (Trace Payload))) := by
        intro ts
        induction ts with
        | nil => intro _; rfl
        | cons t ts ih =>
          intro hts
          rw [List.map_cons, List.mapM_cons, hev t (hts t (by simp)), ih (fun x hx => hts x (by simp [hx]))]
          simp only [bind, Except.bind, pure, Except.pure, List.map_cons]
          congr 2
          simp only [Heap.viewTrace, ht]
      have : (h.viewLog l).traces = (h.logObj l).traces.map h.viewTrace := rfl
      rw [this, htr _ (fun _ hx => hx)]
      simp only [bind, Except.bind, pure, Except.pure]
      congr 1
      simp only [Heap.viewLog, hl]
  · intro c hc
    cases c with
    | event e => show e < (h.preprocessEvents l g).2.events.length; rw [Heap.preprocessEvents, a3]; exact hc
    | trace t => show t < (h.preprocessEvents l g).2.traces.length; rw [Heap.preprocessEvents, a1]; exact hc
    | log m => show m < (h.preprocessEvents l g).2.logs.length; rw [Heap.preprocessEvents, a2]; exact hc
  · intro e _ hn
    exact a4 e (fun hc => hn (owns_event.2 hc))
  · intro t _ _; exact ht t
  · intro m _; exact hl m
  · intro l' hok
    have hl' : l' = l := by
      unfold LogPart.inPlace at hok
      cases hc : (h.preprocessEvents l g).1 with
      | error x => rw [hc] at hok; cases hok
      | ok u => rw [hc] at hok; cases hok; rfl
    subst hl'
    refine ⟨?_, ⟨?_, ?_⟩, ?_⟩
    · rw [sound_iff]
      refine ⟨?_, ?_, ?_⟩
      · show l' < (h.preprocessEvents l' g).2.logs.length; rw [Heap.preprocessEvents, a2]; exact s1
      · intro t htm
        have htm' : t ∈ (h.logObj l').traces := by rw [← hl]; exact htm
        show t < (h.preprocessEvents l' g).2.traces.length; rw [Heap.preprocessEvents, a1]; exact s2 t htm'
      · intro e he
        have he' : e ∈ h.eventRefs l' := by rw [← hr]; exact he
        show e < (h.preprocessEvents l' g).2.events.length; rw [Heap.preprocessEvents, a3]; exact s3 e he'
    · show ((h.preprocessEvents l' g).2.logObj l').traces.Nodup; rw [hl]; exact hd.1
    · show ((h.preprocessEvents l' g).2.eventRefs l').Nodup; rw [hr]; exact hd.2
    · refine reach_of (Or.inr rfl) ?_ ?_
      · intro t htm; exact Or.inl (by rw [← hl]; exact htm)
      · intro e he; exact Or.inl (by rw [← hr]; exact he)

/-! ### Artificial events keep the objects apart -/

theorem addArtificial_fold_refs (ts : List Nat) (h : Heap) (hd : ts.Nodup) (hts : ∀ t ∈ ts, t < h.traces.length) :
    let h' := ts.foldl Heap.addArtificialToTrace h
    h'.logs = h.logs ∧ h'.traces.length = h.traces.length ∧ h.events <+: h'.events ∧
      h'.events.length = h.events.length + 2 * ts.length ∧ (∀ t, t ∉ ts → h'.traceObj t = h.traceObj t) ∧
      (ts.flatMap (fun t => (h'.traceObj t).events)).Perm
        (ts.flatMap (fun t => (h.traceObj t).events) ++ List.range' h.events.length (2 * ts.length)) := by
  induction ts generalizing h with
  | nil => exact ⟨rfl, rfl, List.prefix_refl _, by simp, fun _ _ => rfl, by simp⟩
  | cons t ts ih =>
    obtain ⟨hno, hd'⟩ := List.nodup_cons.1 hd
    obtain ⟨b1, b2, b3, b4⟩ := addArtificialToTrace_spec h t (hts t (by simp))
    obtain ⟨i1, i2, i3, i4, i5, i6⟩ := ih (h.addArtificialToTrace t) hd' (fun x hx => by rw [b2]; exact hts x (by simp [hx]))
    have hlen : (h.addArtificialToTrace t).events.length = h.events.length + 2 := by rw [b3]; simp
    simp only [List.foldl_cons]
    refine ⟨i1.trans b1, i2.trans b2, ?_, ?_, ?_, ?_⟩
    · exact List.IsPrefix.trans (by rw [b3]; exact List.prefix_append _ _) i3
    · rw [i4, hlen, List.length_cons]; omega
    · intro x hx
      have h1 : x ∉ ts := fun hc => hx (by simp [hc])
      have h2 : t ≠ x := fun hc => hx (by simp [hc])
      rw [i5 x h1, b4, if_neg h2]
    · rw [List.flatMap_cons, i5 t hno, b4, if_pos rfl, List.flatMap_cons]
      have hold : ts.flatMap (fun x => ((h.addArtificialToTrace t).traceObj x).events) =
          ts.flatMap (fun x => (h.traceObj x).events) := by
        apply List.flatMap_congr
        intro x hx
        rw [b4, if_neg]
        rintro rfl
        exact hno hx
      rw [hold, hlen] at i6
      have hr : List.range' h.events.length (2 * (t :: ts).length) =
          h.events.length :: (h.events.length + 1) :: List.range' (h.events.length + 2) (2 * ts.length) := by
        rw [List.length_cons, show 2 * (ts.length + 1) = 2 * ts.length + 1 + 1 by omega, List.range'_succ, List.range'_succ]
      rw [hr]
      refine (i6.append_left _).trans ?_
      generalize List.range' (h.events.length + 2) (2 * ts.length) = r
      generalize ts.flatMap (fun x => (h.traceObj x).events) = o
      generalize (h.traceObj t).events = q
      generalize h.events.length = n
      rw [List.perm_iff_count]
      intro a
      simp only [List.count_append, List.count_cons, List.count_nil, List.cons_append]
      omega

theorem artificial_part (h : Heap) (l : Nat) (hs : Sound h l) (hd : Separate h l) :
    PartSpec h l (.ok l, h.addArtificial l) (.ok { h.viewLog l with traces := (h.viewLog l).traces.map withEnds }) := by
  obtain ⟨s1, s2, s3⟩ := sound_iff.1 hs
  obtain ⟨a1, a2, a3, a4, a5, a6⟩ := addArtificial_fold_refs (h.logObj l).traces h hd.1 s2
  have hl : ∀ m, (h.addArtificial l).logObj m = h.logObj m := fun m => by
    unfold Heap.logObj Heap.addArtificial; rw [a1]
  have hperm : ((h.addArtificial l).eventRefs l).Perm
      (h.eventRefs l ++ List.range' h.events.length (2 * (h.logObj l).traces.length)) := by
    unfold Heap.eventRefs
    rw [hl]
    exact a6
  refine ⟨?_, ⟨?_, ?_, ?_, ?_⟩, ?_⟩
  · unfold outcome
    simp only [Except.map]
    congr 1
    rw [(C56_artificial_events h l hs hd.1).2 l hs]
    simp only [Log.mk.injEq, and_true]
    rw [show (h.viewLog l).traces = (h.logObj l).traces.map h.viewTrace from rfl, List.map_map]
    apply List.map_congr_left
    intro t ht
    simp only [ht, if_true, Function.comp_apply]
    rfl
  · intro c hc
    cases c with
    | event e => exact Nat.lt_of_lt_of_le hc a3.length_le
    | trace t => show t < (h.addArtificial l).traces.length; rw [Heap.addArtificial, a2]; exact hc
    | log m => show m < (h.addArtificial l).logs.length; rw [Heap.addArtificial, a1]; exact hc
  · intro e he _
    obtain ⟨r, hr⟩ := a3
    show (h.addArtificial l).event e = _
    unfold Heap.event Heap.addArtificial
    rw [← hr, List.getElem?_append_left he]
  · intro t _ hn
    exact a5 t (fun hc => hn (owns_trace.2 hc))
  · intro m _; exact hl m
  · intro l' hok
    cases hok
    have hmem : ∀ e ∈ (h.addArtificial l).eventRefs l, e ∈ h.eventRefs l ∨
        (h.events.length ≤ e ∧ e < h.events.length + 2 * (h.logObj l).traces.length) := by
      intro e he
      rcases List.mem_append.1 (hperm.mem_iff.1 he) with h1 | h1
      · exact Or.inl h1
      · exact Or.inr (by simpa [List.mem_range'_1] using h1)
    refine ⟨?_, ⟨?_, ?_⟩, ?_⟩
    · rw [sound_iff]
      refine ⟨?_, ?_, ?_⟩
      · show l < (h.addArtificial l).logs.length; rw [Heap.addArtificial, a1]; exact s1
      · intro t ht
        have ht' : t ∈ (h.logObj l).traces := by rw [← hl]; exact ht
        show t < (h.addArtificial l).traces.length; rw [Heap.addArtificial, a2]; exact s2 t ht'
      · intro e he
        show e < (h.addArtificial l).events.length
        rw [Heap.addArtificial, a4]
        rcases hmem e he with h1 | h1
        · have := s3 e h1; omega
        · exact h1.2
    · show ((h.addArtificial l).logObj l).traces.Nodup; rw [hl]; exact hd.1
    · refine hperm.nodup_iff.2 (List.nodup_append.2 ⟨hd.2, List.nodup_range', ?_⟩)
      intro a ha b hb hab
      have h1 := s3 a ha
      have h2 : h.events.length ≤ b := (List.mem_range'_1.1 hb).1
      omega
    · refine reach_of (Or.inr rfl) ?_ ?_
      · intro t ht; exact Or.inl (by rw [← hl]; exact ht)
      · intro e he
        exact (hmem e he).imp id (fun h1 => by omega)

/-! ### All parts, and pipelines -/

/-- The outcome of a part that may not end. -/
def OptSpec (h : Heap) (l : Nat) : Option (Except PyErr Nat × Heap) → Option (Except PyErr (Log Payload)) → Prop
  | none, none => True
  | some r, some v => PartSpec h l r v
  | _, _ => False

theorem Made.part {h : Heap} {l : Nat} {n : Nat × Heap} {v : Log Payload} (m : Made h l n v) (hd : Separate h l) :
    PartSpec h l (LogPart.making h (.ok n)) (.ok v) := by
  refine ⟨?_, m.ext.foot l, ?_⟩
  · unfold outcome LogPart.making
    simp only [Except.map]
    rw [m.view]
  · intro l' hl'
    cases hl'
    exact ⟨m.sound, m.sep hd, m.reach⟩

theorem error_part (h : Heap) (l : Nat) (e : PyErr) : PartSpec h l (.error e, h) (.error e) :=
  ⟨rfl, (Extends.refl h).foot l, fun _ hc => by cases hc⟩

theorem allNamed_view (h : Heap) (l : Nat) : h.allNamed l = NamedLog (h.viewLog l) := by
  unfold Heap.allNamed NamedLog Heap.eventRefs Heap.viewLog
  simp only [List.all_flatMap, List.all_map]
  congr 1
  funext t
  simp [Heap.viewTrace, List.all_map, Function.comp_def]

theorem reading_spec {h : Heap} {l : Nat} {a : Option (Except PyErr (Nat × Heap))} {b : Option (Except PyErr (Log Payload))}
    (hd : Separate h l) (hm : Matches (Made h l) a b) : OptSpec h l (LogPart.reading h l a) (ifNamed (h.viewLog l) b) := by
  unfold LogPart.reading ifNamed
  rw [allNamed_view]
  split
  · cases a with
    | none =>
      cases b with
      | none => trivial
      | some b => exact absurd hm id
    | some a =>
      cases b with
      | none => cases a <;> exact absurd hm id
      | some b =>
        cases a with
        | error e =>
          cases b with
          | error e' =>
            have : e = e' := hm
            rw [this]
            exact error_part h l e'
          | ok b => exact absurd hm id
        | ok n =>
          cases b with
          | error e' => exact absurd hm id
          | ok v => exact Made.part hm hd
  · exact error_part h l _

theorem renamePayload_eq (f : String → String) : Heap.renamePayload f = rename f := by
  funext p
  unfold Heap.renamePayload rename hasName
  show _ = if _ then Except.ok (p.set "concept:name" (.str (f (payloadName p)))) else _
  unfold payloadName
  split <;> simp_all

theorem startState {h : Heap} {l : Nat} (hs : Sound h l) : SameState h l (h, l, 0) (h.viewLog l, 0) :=
  ⟨rfl, Made.refl hs⟩

theorem variants_match (h : Heap) (l : Nat) (hs : Sound h l) :
    Matches (Made h l) (some (h.variantsInto l)) (some (filterTracesByVariants (h.viewLog l))) := by
  have := made_variants h l hs
  cases ha : h.variantsInto l with
  | error e =>
    cases hb : filterTracesByVariants (h.viewLog l) with
    | error e' => rw [ha, hb] at this; exact this
    | ok v => rw [ha, hb] at this; exact absurd this id
  | ok n =>
    cases hb : filterTracesByVariants (h.viewLog l) with
    | error e' => rw [ha, hb] at this; exact absurd this id
    | ok v => rw [ha, hb] at this; exact this

theorem part_spec (fuel : Nat) (p : LogPart) (h : Heap) (l : Nat) (hs : Sound h l) (hd : Separate h l) :
    OptSpec h l (p.run fuel h l) (meaning fuel p (h.viewLog l)) := by
  cases p with
  | removeByName n =>
    refine reading_spec (a := some (.ok _)) (b := some (.ok _)) hd ?_
    have := made_remove (startState hs) (some n)
    rw [removeEventOpt_value] at this
    exact this
  | removeByNames ns => exact reading_spec (a := some (.ok _)) (b := some (.ok _)) hd (made_filterEvents h l hs _)
  | removeByPredicate f => exact (made_filterEvents h l hs (fun p => !f p)).part hd
  | preprocessNames f =>
    show PartSpec h l (LogPart.inPlace l (h.preprocessEvents l (Heap.renamePayload f))) (mapEvents (rename f) (h.viewLog l))
    rw [renamePayload_eq]
    exact mutate_part _ h l hs hd
  | preprocessEvents g => exact mutate_part g h l hs hd
  | applyClassExtractor ex sel =>
    have : Heap.applyExtractor sel ex = fun p => .ok (classAsName ex sel p) := by
      funext p
      unfold Heap.applyExtractor classAsName
      split <;> rfl
    show PartSpec h l (LogPart.inPlace l (h.preprocessEvents l (Heap.applyExtractor sel ex))) _
    rw [this]
    exact mutate_part _ h l hs hd
  | removeLifecycle =>
    have : Heap.dropLifecycle = fun p => .ok (p.del "lifecycle:transition") := by
      funext p
      exact dropLifecycle_eq p
    show PartSpec h l (LogPart.inPlace l (h.preprocessEvents l Heap.dropLifecycle)) _
    rw [this]
    exact mutate_part _ h l hs hd
  | addArtificial => exact artificial_part h l hs hd
  | byCount n => exact (made_byCount h l hs n).part hd
  | byVariants => exact reading_spec hd (variants_match h l hs)
  | posDirect th mx un =>
    exact reading_spec hd (runLoop_matches _ _ _ _ (directStep_matches gtNan _ _ mx h l) fuel _ _ (startState hs))
  | posIndirect th mx un =>
    exact reading_spec hd (runLoop_matches _ _ _ _ (posIndirectStep_matches th mx un h l) fuel _ _ (startState hs))
  | dfgDirect th lp mx =>
    exact reading_spec hd (runLoop_matches _ _ _ _ (directStep_matches gtReal _ _ mx h l) fuel _ _ (startState hs))
  | dfgIndirect th lp mx top =>
    exact reading_spec hd (runLoop_matches _ _ _ _ (defaultIndirectStep_matches lp th top mx _ h l) fuel _ _ (startState hs))

theorem pipeline_spec (fuel : Nat) (ps : List LogPart) (h : Heap) (l : Nat) (hs : Sound h l) (hd : Separate h l) :
    OptSpec h l (LogPart.runAll fuel ps h l) (meaningAll fuel ps (h.viewLog l)) := by
  induction ps generalizing h l with
  | nil => exact ⟨rfl, (Extends.refl h).foot l, fun l' hl' => by cases hl'; exact ⟨hs, hd, fun _ hc => Or.inl hc⟩⟩
  | cons p ps ih =>
    unfold LogPart.runAll meaningAll
    have hp := part_spec fuel p h l hs hd
    cases ha : p.run fuel h l with
    | none =>
      cases hb : meaning fuel p (h.viewLog l) with
      | none => trivial
      | some v => rw [ha, hb] at hp; exact absurd hp id
    | some r =>
      cases hb : meaning fuel p (h.viewLog l) with
      | none => rw [ha, hb] at hp; exact absurd hp id
      | some v =>
        rw [ha, hb] at hp
        obtain ⟨r1, h1⟩ := r
        have hv : outcome (r1, h1) = v := hp.view
        subst hv
        cases r1 with
        | error e => exact hp
        | ok l1 =>
          obtain ⟨g1, g2, g3⟩ := hp.good l1 rfl
          have := ih h1 l1 g1 g2
          show OptSpec h l (LogPart.runAll fuel ps h1 l1) (meaningAll fuel ps (h1.viewLog l1))
          have hfoot : Foot h l h1 := hp.foot
          cases hx : LogPart.runAll fuel ps h1 l1 with
          | none =>
            cases hy : meaningAll fuel ps (h1.viewLog l1) with
            | none => trivial
            | some w => rw [hx, hy] at this; exact this
          | some r2 =>
            cases hy : meaningAll fuel ps (h1.viewLog l1) with
            | none => rw [hx, hy] at this; exact this
            | some w =>
              rw [hx, hy] at this
              refine ⟨this.view, hfoot.trans g3 this.foot, ?_⟩
              intro l' hl'
              obtain ⟨k1, k2, k3⟩ := this.good l' hl'
              exact ⟨k1, k2, Reach.trans hfoot g3 k3⟩

/-! ### Which objects a pipeline may change, also when objects occur twice -/

/-- What is known about the objects after a part that ended. -/
def FootSpec (h : Heap) (l : Nat) (r : Except PyErr Nat × Heap) : Prop :=
  Foot h l r.2 ∧ ∀ l', r.1 = .ok l' → Sound r.2 l' ∧ Reach h l r.2 l'

theorem Made.footSpec {h : Heap} {l : Nat} {n : Nat × Heap} {v : Log Payload} (m : Made h l n v) :
    FootSpec h l (LogPart.making h (.ok n)) ∧ Extends h (LogPart.making h (.ok n)).2 := by
  refine ⟨⟨m.ext.foot l, ?_⟩, m.ext⟩
  intro l' hl'
  cases hl'
  exact ⟨m.sound, m.reach⟩

theorem error_footSpec (h : Heap) (l : Nat) (e : PyErr) : FootSpec h l (.error e, h) ∧ Extends h h :=
  ⟨⟨(Extends.refl h).foot l, fun _ hc => by cases hc⟩, Extends.refl h⟩

theorem reading_foot {h : Heap} {l : Nat} {a : Option (Except PyErr (Nat × Heap))} {b : Option (Except PyErr (Log Payload))}
    (hm : Matches (Made h l) a b) (r : Except PyErr Nat × Heap) (hr : LogPart.reading h l a = some r) :
    FootSpec h l r ∧ Extends h r.2 := by
  unfold LogPart.reading at hr
  split at hr
  · cases a with
    | none => cases hr
    | some a =>
      cases hr
      cases a with
      | error e => exact error_footSpec h l e
      | ok n =>
        cases b with
        | none => exact absurd hm id
        | some b =>
          cases b with
          | error e => exact absurd hm id
          | ok v => exact Made.footSpec hm
  · cases hr
    exact error_footSpec h l _

theorem mutateEvents_keeps (g : Payload → Except PyErr Payload) (es : List Nat) (h : Heap) :
    (Heap.mutateEvents g es h).2.traces = h.traces ∧ (Heap.mutateEvents g es h).2.logs = h.logs ∧
      (Heap.mutateEvents g es h).2.events.length = h.events.length ∧
      ∀ e, e ∉ es → (Heap.mutateEvents g es h).2.event e = h.event e := by
  induction es generalizing h with
  | nil => exact ⟨rfl, rfl, rfl, fun _ _ => rfl⟩
  | cons x es ih =>
    unfold Heap.mutateEvents
    cases g (h.event x) with
    | error y => exact ⟨rfl, rfl, rfl, fun _ _ => rfl⟩
    | ok p =>
      obtain ⟨a1, a2, a3, a4⟩ := ih (h.setEvent x p)
      refine ⟨a1, a2, a3.trans (by simp [Heap.setEvent]), ?_⟩
      intro e he
      rw [a4 e (fun hc => he (by simp [hc])), setEvent_event, if_neg]
      rintro ⟨rfl, _⟩
      exact he (by simp)

theorem mutate_foot (g : Payload → Except PyErr Payload) (h : Heap) (l : Nat) (hs : Sound h l) :
    FootSpec h l (LogPart.inPlace l (h.preprocessEvents l g)) := by
  obtain ⟨s1, s2, s3⟩ := sound_iff.1 hs
  obtain ⟨a1, a2, a3, a4⟩ := mutateEvents_keeps g (h.eventRefs l) h
  have ht : ∀ t, (h.preprocessEvents l g).2.traceObj t = h.traceObj t := fun t => by
    unfold Heap.traceObj Heap.preprocessEvents; rw [a1]
  have hl : ∀ m, (h.preprocessEvents l g).2.logObj m = h.logObj m := fun m => by
    unfold Heap.logObj Heap.preprocessEvents; rw [a2]
  have hr : ∀ m, (h.preprocessEvents l g).2.eventRefs m = h.eventRefs m := fun m => by
    unfold Heap.eventRefs
    simp only [ht, hl]
  have hin : ∀ c, InHeap h c → InHeap (h.preprocessEvents l g).2 c := by
    intro c hc
    cases c with
    | event e => show e < (h.preprocessEvents l g).2.events.length; rw [Heap.preprocessEvents, a3]; exact hc
    | trace t => show t < (h.preprocessEvents l g).2.traces.length; rw [Heap.preprocessEvents, a1]; exact hc
    | log m => show m < (h.preprocessEvents l g).2.logs.length; rw [Heap.preprocessEvents, a2]; exact hc
  have hown : ∀ c, Owns (h.preprocessEvents l g).2 l c → Owns h l c := by
    intro c hc
    cases c with
    | event e => rw [owns_event] at hc ⊢; rwa [hr] at hc
    | trace t => rw [owns_trace] at hc ⊢; rwa [hl] at hc
    | log m => rw [owns_log] at hc ⊢; exact hc
  refine ⟨⟨hin, fun e _ hn => a4 e (fun hc => hn (owns_event.2 hc)), fun t _ _ => ht t, fun m _ => hl m⟩, ?_⟩
  intro l' hok
  have hl' : l' = l := by
    unfold LogPart.inPlace at hok
    cases hc : (h.preprocessEvents l g).1 with
    | error x => rw [hc] at hok; cases hok
    | ok u => rw [hc] at hok; cases hok; rfl
  subst hl'
  exact ⟨fun c hc => hin c (hs c (hown c hc)), fun c hc => Or.inl (hown c hc)⟩

theorem addArtificial_fold_foot (ts : List Nat) (h : Heap) (hts : ∀ t ∈ ts, t < h.traces.length) :
    let h' := ts.foldl Heap.addArtificialToTrace h
    h'.logs = h.logs ∧ h'.traces.length = h.traces.length ∧ h.events <+: h'.events ∧
      (∀ t, t ∉ ts → h'.traceObj t = h.traceObj t) ∧
      ∀ t, ∀ e ∈ (h'.traceObj t).events, e ∈ (h.traceObj t).events ∨ (h.events.length ≤ e ∧ e < h'.events.length) := by
  induction ts generalizing h with
  | nil => exact ⟨rfl, rfl, List.prefix_refl _, fun _ _ => rfl, fun _ _ he => Or.inl he⟩
  | cons t ts ih =>
    obtain ⟨b1, b2, b3, b4⟩ := addArtificialToTrace_spec h t (hts t (by simp))
    obtain ⟨i1, i2, i3, i4, i5⟩ := ih (h.addArtificialToTrace t) (fun x hx => by rw [b2]; exact hts x (by simp [hx]))
    have hlen : (h.addArtificialToTrace t).events.length = h.events.length + 2 := by rw [b3]; simp
    simp only [List.foldl_cons]
    refine ⟨i1.trans b1, i2.trans b2, ?_, ?_, ?_⟩
    · exact List.IsPrefix.trans (by rw [b3]; exact List.prefix_append _ _) i3
    · intro x hx
      have h1 : x ∉ ts := fun hc => hx (by simp [hc])
      have h2 : t ≠ x := fun hc => hx (by simp [hc])
      rw [i4 x h1, b4, if_neg h2]
    · intro x e he
      have hle := i3.length_le
      rcases i5 x e he with h1 | h1
      · rw [b4] at h1
        split at h1
        · subst_vars
          simp only [List.cons_append, List.mem_cons, List.mem_append, List.not_mem_nil, or_false] at h1
          rcases h1 with h1 | h1 | h1
          · exact Or.inr (by omega)
          · exact Or.inl h1
          · exact Or.inr (by omega)
        · exact Or.inl h1
      · exact Or.inr (by omega)

theorem artificial_foot (h : Heap) (l : Nat) (hs : Sound h l) : FootSpec h l (.ok l, h.addArtificial l) := by
  obtain ⟨s1, s2, s3⟩ := sound_iff.1 hs
  obtain ⟨a1, a2, a3, a4, a5⟩ := addArtificial_fold_foot (h.logObj l).traces h s2
  have hl : ∀ m, (h.addArtificial l).logObj m = h.logObj m := fun m => by
    unfold Heap.logObj Heap.addArtificial; rw [a1]
  have hmem : ∀ e ∈ (h.addArtificial l).eventRefs l, e ∈ h.eventRefs l ∨
      (h.events.length ≤ e ∧ e < (h.addArtificial l).events.length) := by
    intro e he
    obtain ⟨t, ht, he⟩ := List.mem_flatMap.1 he
    rw [hl] at ht
    exact (a5 t e he).imp (fun h1 => List.mem_flatMap.2 ⟨t, ht, h1⟩) id
  refine ⟨⟨?_, ?_, ?_, ?_⟩, ?_⟩
  · intro c hc
    cases c with
    | event e => exact Nat.lt_of_lt_of_le hc a3.length_le
    | trace t => show t < (h.addArtificial l).traces.length; rw [Heap.addArtificial, a2]; exact hc
    | log m => show m < (h.addArtificial l).logs.length; rw [Heap.addArtificial, a1]; exact hc
  · intro e he _
    obtain ⟨r, hr⟩ := a3
    show (h.addArtificial l).event e = _
    unfold Heap.event Heap.addArtificial
    rw [← hr, List.getElem?_append_left he]
  · intro t _ hn
    exact a4 t (fun hc => hn (owns_trace.2 hc))
  · intro m _; exact hl m
  · intro l' hok
    cases hok
    refine ⟨?_, ?_⟩
    · rw [sound_iff]
      refine ⟨?_, ?_, ?_⟩
      · show l < (h.addArtificial l).logs.length; rw [Heap.addArtificial, a1]; exact s1
      · intro t ht
        have ht' : t ∈ (h.logObj l).traces := by rw [← hl]; exact ht
        show t < (h.addArtificial l).traces.length; rw [Heap.addArtificial, a2]; exact s2 t ht'
      · intro e he
        rcases hmem e he with h1 | h1
        · exact Nat.lt_of_lt_of_le (s3 e h1) a3.length_le
        · exact h1.2
    · refine reach_of (Or.inr rfl) ?_ ?_
      · intro t ht; exact Or.inl (by rw [← hl]; exact ht)
      · intro e he
        exact (hmem e he).imp id (fun h1 => by omega)

theorem part_foot (fuel : Nat) (p : LogPart) (h : Heap) (l : Nat) (hs : Sound h l) (r : Except PyErr Nat × Heap)
    (hr : p.run fuel h l = some r) : FootSpec h l r ∧ (changesInPlace p = false → Extends h r.2) := by
  have key : ∀ {a : Option (Except PyErr (Nat × Heap))} {b : Option (Except PyErr (Log Payload))},
      Matches (Made h l) a b → LogPart.reading h l a = some r →
        FootSpec h l r ∧ (changesInPlace p = false → Extends h r.2) := by
    intro a b hm hr
    obtain ⟨h1, h2⟩ := reading_foot hm r hr
    exact ⟨h1, fun _ => h2⟩
  cases p with
  | removeByName n => exact key (a := some (.ok _)) (b := some (.ok _)) (made_remove (startState hs) (some n)) hr
  | removeByNames ns => exact key (a := some (.ok _)) (b := some (.ok _)) (made_filterEvents h l hs _) hr
  | removeByPredicate f =>
    cases hr
    obtain ⟨h1, h2⟩ := (made_filterEvents h l hs (fun p => !f p)).footSpec
    exact ⟨h1, fun _ => h2⟩
  | preprocessNames f => cases hr; exact ⟨mutate_foot _ h l hs, fun hc => by cases hc⟩
  | preprocessEvents g => cases hr; exact ⟨mutate_foot _ h l hs, fun hc => by cases hc⟩
  | applyClassExtractor ex sel => cases hr; exact ⟨mutate_foot _ h l hs, fun hc => by cases hc⟩
  | removeLifecycle => cases hr; exact ⟨mutate_foot _ h l hs, fun hc => by cases hc⟩
  | addArtificial => cases hr; exact ⟨artificial_foot h l hs, fun hc => by cases hc⟩
  | byCount n =>
    cases hr
    obtain ⟨h1, h2⟩ := (made_byCount h l hs n).footSpec
    exact ⟨h1, fun _ => h2⟩
  | byVariants => exact key (variants_match h l hs) hr
  | posDirect th mx un =>
    exact key (runLoop_matches _ _ _ _ (directStep_matches gtNan _ _ mx h l) fuel _ _ (startState hs)) hr
  | posIndirect th mx un =>
    exact key (runLoop_matches _ _ _ _ (posIndirectStep_matches th mx un h l) fuel _ _ (startState hs)) hr
  | dfgDirect th lp mx =>
    exact key (runLoop_matches _ _ _ _ (directStep_matches gtReal _ _ mx h l) fuel _ _ (startState hs)) hr
  | dfgIndirect th lp mx top =>
    exact key (runLoop_matches _ _ _ _ (defaultIndirectStep_matches lp th top mx _ h l) fuel _ _ (startState hs)) hr

theorem pipeline_foot (fuel : Nat) (ps : List LogPart) (h : Heap) (l : Nat) (hs : Sound h l) (r : Except PyErr Nat × Heap)
    (hr : LogPart.runAll fuel ps h l = some r) :
    FootSpec h l r ∧ ((∀ p ∈ ps, changesInPlace p = false) → Extends h r.2) := by
  induction ps generalizing h l with
  | nil =>
    cases hr
    exact ⟨⟨(Extends.refl h).foot l, fun l' hl' => by cases hl'; exact ⟨hs, fun _ hc => Or.inl hc⟩⟩, fun _ => Extends.refl h⟩
  | cons p ps ih =>
    unfold LogPart.runAll at hr
    cases hp : p.run fuel h l with
    | none => rw [hp] at hr; cases hr
    | some r1 =>
      obtain ⟨⟨f1, f2⟩, f3⟩ := part_foot fuel p h l hs r1 hp
      rw [hp] at hr
      obtain ⟨o, h1⟩ := r1
      cases o with
      | error e =>
        cases hr
        exact ⟨⟨f1, f2⟩, fun hps => f3 (hps p (by simp))⟩
      | ok l1 =>
        obtain ⟨g1, g2⟩ := f2 l1 rfl
        obtain ⟨⟨i1, i2⟩, i3⟩ := ih h1 l1 g1 hr
        refine ⟨⟨f1.trans g2 i1, ?_⟩, fun hps => (f3 (hps p (by simp))).trans (i3 (fun q hq => hps q (by simp [hq])))⟩
        intro l' hl'
        obtain ⟨k1, k2⟩ := i2 l' hl'
        exact ⟨k1, Reach.trans f1 g2 k2⟩

/-- A log none of whose objects may have changed reads as before. -/
theorem Foot.agree {h h' : Heap} {l m : Nat} (f : Foot h l h') (hm : Sound h m)
    (hd : ∀ c, Owns h m c → Owns h l c → ∃ k, c = .log k) : Agree h h' m := by
  refine ⟨f.logs m (sound_log hm), ?_, ?_⟩
  · intro t ht
    have ho : Owns h m (.trace t) := owns_trace.2 ht
    refine f.traces t (hm _ ho) (fun hc => ?_)
    obtain ⟨k, hk⟩ := hd _ ho hc
    cases hk
  · intro t ht e he
    have ho : Owns h m (.event e) := owns_event.2 (List.mem_flatMap.2 ⟨t, ht, he⟩)
    refine f.events e (hm _ ho) (fun hc => ?_)
    obtain ⟨k, hk⟩ := hd _ ho hc
    cases hk

/-! ### Deep copies keep objects apart -/

theorem deepcopyEvents_nodup (es : List Nat) (memo : Dict Nat Nat) (h : Heap) (hd : es.Nodup)
    (hm : ∀ e ∈ es, memo.get? e = none) :
    (Heap.deepcopyEvents es memo h).1.Nodup ∧ (∀ c ∈ (Heap.deepcopyEvents es memo h).1, h.events.length ≤ c) := by
  induction es generalizing memo h with
  | nil => exact ⟨List.nodup_nil, fun c hc => by cases hc⟩
  | cons e es ih =>
    obtain ⟨hx, hd'⟩ := List.nodup_cons.1 hd
    unfold Heap.deepcopyEvents
    rw [hm e (by simp)]
    simp only
    obtain ⟨i1, i2⟩ := ih (memo.set e (h.newEvent (h.event e)).1) (h.newEvent (h.event e)).2 hd' (fun x hxm => by
      rw [Dict.get?_set, if_neg]
      · exact hm x (by simp [hxm])
      · rintro rfl; exact hx hxm)
    have hlen : (h.newEvent (h.event e)).2.events.length = h.events.length + 1 := by simp [Heap.newEvent]
    have hfst : (h.newEvent (h.event e)).1 = h.events.length := rfl
    rw [hlen] at i2
    refine ⟨List.nodup_cons.2 ⟨fun hc => ?_, i1⟩, ?_⟩
    · have := i2 _ hc
      omega
    · intro c hc
      rcases List.mem_cons.1 hc with rfl | hc
      · omega
      · have := i2 c hc
        omega

theorem deepcopyTraces_separate (ts : List Nat) (h : Heap) (hts : ∀ t ∈ ts, SoundTrace h t)
    (hd : ∀ t ∈ ts, (h.traceObj t).events.Nodup) :
    (Heap.deepcopyTraces ts h).1.Nodup ∧
      ((Heap.deepcopyTraces ts h).1.flatMap (fun t => ((Heap.deepcopyTraces ts h).2.traceObj t).events)).Nodup := by
  induction ts generalizing h with
  | nil => exact ⟨List.nodup_nil, List.nodup_nil⟩
  | cons t ts ih =>
    obtain ⟨a1, a2, a3, a4, a5, a6⟩ := deepcopyTrace_spec h t (hts t (by simp))
    have hts' : ∀ x ∈ ts, SoundTrace (h.deepcopyTrace t).2 x := fun x hx => soundTrace_extends a1 (hts x (by simp [hx]))
    obtain ⟨b1, _, _, b4⟩ := deepcopyTraces_spec ts (h.deepcopyTrace t).2 hts'
    obtain ⟨i1, i2⟩ := ih (h.deepcopyTrace t).2 hts' (fun x hx => by
      rw [a1.traceObj (hts x (by simp [hx])).1]; exact hd x (by simp [hx]))
    have hobj : (Heap.deepcopyTraces ts (h.deepcopyTrace t).2).2.traceObj (h.deepcopyTrace t).1 =
        (h.deepcopyTrace t).2.traceObj (h.deepcopyTrace t).1 := b1.traceObj (by rw [a3]; exact a4)
    have hnd : ((h.deepcopyTrace t).2.traceObj (h.deepcopyTrace t).1).events.Nodup := by
      have := (deepcopyEvents_nodup (h.traceObj t).events [] h (hd t (by simp)) (fun _ _ => rfl)).1
      unfold Heap.deepcopyTrace
      simp only
      have hfst : ∀ (g : Heap) (es : List Nat), (g.newTrace es).1 = g.traces.length := fun _ _ => rfl
      rw [hfst, newTrace_traceObj]
      exact this
    unfold Heap.deepcopyTraces
    simp only
    refine ⟨List.nodup_cons.2 ⟨fun hc => ?_, i1⟩, ?_⟩
    · have := (b4 _ hc).1
      omega
    · rw [List.flatMap_cons, hobj]
      refine List.nodup_append.2 ⟨hnd, i2, ?_⟩
      intro a ha b hb hab
      obtain ⟨x, hx, hb⟩ := List.mem_flatMap.1 hb
      have h1 := (a6 a ha).2
      have h2 := (b4 x hx).2.2 b hb
      omega

theorem deepcopyLog_separate (h : Heap) (l : Nat) (hs : Sound h l)
    (hd : ∀ t ∈ (h.logObj l).traces, (h.traceObj t).events.Nodup) : Separate (h.deepcopyLog l).2 (h.deepcopyLog l).1 := by
  obtain ⟨a, b⟩ := deepcopyTraces_separate (h.logObj l).traces h (fun t ht => soundTrace_of hs ht) hd
  have hobj : ((h.deepcopyLog l).2.logObj (h.deepcopyLog l).1).traces = (Heap.deepcopyTraces (h.logObj l).traces h).1 := by
    unfold Heap.deepcopyLog
    simp only
    have hfst : ∀ (g : Heap) (o : LogObj), (g.newLog o).1 = g.logs.length := fun _ _ => rfl
    rw [hfst, newLog_logObj]
  refine ⟨by rw [hobj]; exact a, ?_⟩
  unfold Heap.eventRefs
  rw [hobj]
  exact b

end Ficus
