import Verif.Spec.Xes
import Verif.Proofs.Text
import Verif.Proofs.Info

namespace Ficus
open Spec

theorem get?_update {V : Type} (l : Dict String V) (hl : l.WF) (d : Dict String V) (k : String) :
    (Dict.update d l).get? k = ((l.get? k).or (d.get? k)) := by
  induction l generalizing d with
  | nil => simp [Dict.update]
  | cons x l ih =>
    obtain ⟨a, b⟩ := x
    have hl' : Dict.WF l ∧ a ∉ Dict.keys l := by
      unfold Dict.WF Dict.keys at hl ⊢; simp only [List.map_cons, List.nodup_cons] at hl; exact ⟨hl.2, hl.1⟩
    show ((Dict.update (Dict.set d a b) l).get? k) = _
    rw [ih hl'.1, Dict.get?_set, Dict.get?_cons]
    by_cases h : a = k
    · subst h; simp [(Dict.get?_eq_none_iff _ _).2 hl'.2]
    · simp [h]

theorem update_nil {V : Type} (l : Dict String V) (hl : l.WF) :
    Dict.update [] l = l := by
  suffices h : ∀ d : Dict String V, (Dict.keys d ++ Dict.keys l).Nodup →
      Dict.update d l = d ++ l by
    exact h [] hl
  induction l with
  | nil => intro d _; simp [Dict.update]
  | cons x l ih =>
    obtain ⟨a, b⟩ := x
    intro d hd
    have hd2 : (Dict.keys d ++ a :: Dict.keys l).Nodup := hd
    have hl' : Dict.WF l := by
      have := (List.nodup_append.1 hd2).2.1; simp only [List.nodup_cons] at this; exact this.2
    have hna : a ∉ Dict.keys d := by
      have := (List.nodup_append.1 hd2).2.2
      intro hm; exact this a hm a (by simp) rfl
    show Dict.update (Dict.set d a b) l = _
    rw [set_append_of_notMem _ _ _ hna, ih hl']
    · simp
    · have : Dict.keys (d ++ [(a, b)]) = Dict.keys d ++ [a] := by simp [Dict.keys]
      rw [this]; simpa using hd2

theorem isValueTag_created {k : String} {v : Val} {e : XElem} (h : createValueTag k v = .ok e) : isValueTag e = true := by
  unfold createValueTag at h
  cases v <;> simp only [Val.tagName] at h <;> cases h <;>
    simp only [isValueTag, XElem.tag]
  · exact (by decide : decide (stripNs "string" ∈ ["string", "date", "int", "float", "boolean"]) = true)
  · exact (by decide : decide (stripNs "int" ∈ ["string", "date", "int", "float", "boolean"]) = true)
  · exact (by decide : decide (stripNs "float" ∈ ["string", "date", "int", "float", "boolean"]) = true)
  · exact (by decide : decide (stripNs "date" ∈ ["string", "date", "int", "float", "boolean"]) = true)
  · exact (by decide : decide (stripNs "boolean" ∈ ["string", "date", "int", "float", "boolean"]) = true)

theorem readValueInto_created (P : Parsers) (d : Dict String Val) {k : String} {v : Val} {e : XElem}
    (h : createValueTag k v = .ok e) (hp : ParsesBack P v) (hf : v ≠ .bool false) :
    readValueInto P d e = .ok (d.set k v) := by
  unfold createValueTag at h
  cases v with
  | str s =>
    simp only [Val.tagName] at h; cases h
    have : stripNs "string" = "string" := by decide
    simp [readValueInto, parseValueTag, parseByTag, XElem.tag, XElem.attrib, this, Dict.getE, Dict.get?, bind, Except.bind, pure, Except.pure, Val.toStr]
  | int i =>
    simp only [Val.tagName] at h; cases h
    have : stripNs "int" = "int" := by decide
    simp only [ParsesBack] at hp
    simp [readValueInto, parseValueTag, parseByTag, XElem.tag, XElem.attrib, this, Dict.getE, Dict.get?, bind, Except.bind, pure, Except.pure, Val.toStr]
    rw [show P.int i.repr = .ok i from hp]; rfl
  | float t =>
    simp only [Val.tagName] at h; cases h
    have : stripNs "float" = "float" := by decide
    simp only [ParsesBack] at hp
    simp [readValueInto, parseValueTag, parseByTag, XElem.tag, XElem.attrib, this, Dict.getE, Dict.get?, bind, Except.bind, pure, Except.pure, Val.toStr, hp]
  | date t =>
    simp only [Val.tagName] at h; cases h
    have : stripNs "date" = "date" := by decide
    simp only [ParsesBack] at hp
    simp [readValueInto, parseValueTag, parseByTag, XElem.tag, XElem.attrib, this, Dict.getE, Dict.get?, bind, Except.bind, pure, Except.pure, Val.toStr, hp]
  | bool b =>
    cases b with
    | false => exact absurd rfl hf
    | true =>
      simp only [Val.tagName] at h; cases h
      have : stripNs "boolean" = "boolean" := by decide
      simp [readValueInto, parseValueTag, parseByTag, XElem.tag, XElem.attrib, this, Dict.getE, Dict.get?, bind, Except.bind, pure, Except.pure, Val.toStr]
  | other t => simp only [Val.tagName] at h; cases h

theorem mapM_ok_of_forall {α β : Type} (f : α → Except PyErr β) (l : List α) (h : ∀ a ∈ l, ∃ b, f a = .ok b) :
    ∃ r, l.mapM f = .ok r ∧ List.Forall₂ (fun a b => f a = .ok b) l r := by
  induction l with
  | nil => exact ⟨[], rfl, .nil⟩
  | cons a l ih =>
    obtain ⟨b, hb⟩ := h a (by simp)
    obtain ⟨r, hr, hr2⟩ := ih (fun x hx => h x (by simp [hx]))
    refine ⟨b :: r, ?_, .cons hb hr2⟩
    rw [List.mapM_cons, hb]
    simp only [bind, Except.bind]
    rw [hr]; rfl

theorem createValueTag_ok {k : String} {v : Val} (h : ∀ t, v ≠ .other t) : ∃ e, createValueTag k v = .ok e := by
  unfold createValueTag
  cases v with
  | other t => exact absurd rfl (h t)
  | _ => exact ⟨_, rfl⟩

/-- The entries actually written for a payload. -/
def writtenEntries (globals : Dict String (Dict String Val)) (entity : String) (d : Dict String Val) : Dict String Val :=
  d.filter (fun kv => !isDefaultValue globals entity kv.1 kv.2 && kv.2.tagName.isSome)

theorem fold_read_values (P : Parsers) (l : Dict String Val) (els : List XElem) (d : Dict String Val)
    (h : List.Forall₂ (fun kv e => createValueTag kv.1 kv.2 = .ok e) l els)
    (hp : ∀ k v, (k, v) ∈ l → ParsesBack P v) (hf : ∀ k v, (k, v) ∈ l → v ≠ .bool false) :
    els.foldlM (fun d c => if isValueTag c then readValueInto P d c else .ok d) d =
      .ok (Dict.update d l) := by
  induction h generalizing d with
  | nil => rfl
  | @cons kv e l els hkv _ ih =>
    obtain ⟨k, v⟩ := kv
    rw [List.foldlM_cons, if_pos (isValueTag_created hkv)]
    rw [readValueInto_created P d hkv (hp k v (by simp)) (hf k v (by simp))]
    simp only [bind, Except.bind]
    exact ih _ (fun k v hm => hp k v (by simp [hm])) (fun k v hm => hf k v (by simp [hm]))

theorem WF_filter {V : Type} {d : Dict String V} (h : d.WF) (p : String × V → Bool) : Dict.WF (d.filter p) := by
  unfold Dict.WF Dict.keys at *
  exact h.sublist (List.filter_sublist.map _)

/-- The core of the round trip of one payload. -/
theorem payload_mapping (P : Parsers) (globals : Dict String (Dict String Val)) (entity : String) (d : Dict String Val)
    (hs : SafePayload P (globals.get? entity) d)
    (hg : ∀ g, globals.get? entity = some g → g.WF ∧ ∀ k v, (k, v) ∈ g → ∃ t, v = .str t) (k : String) :
    (Dict.update (applyGlobals globals entity) (writtenEntries globals entity d)).get? k =
      d.get? k := by
  have hwf : (writtenEntries globals entity d).WF := WF_filter hs.wf _
  rw [get?_update _ hwf]
  have happ : (applyGlobals globals entity).get? k = ((globals.get? entity).bind (fun g => g.get? k)) := by
    unfold applyGlobals
    cases hge : globals.get? entity with
    | none => simp
    | some g => simp only [Option.bind_some]; rw [update_nil _ (hg g hge).1]
  rw [happ]
  cases hdk : d.get? k with
  | none =>
    have hk : k ∉ d.keys := (Dict.get?_eq_none_iff _ _).1 hdk
    have h1 : (writtenEntries globals entity d).get? k = none := by
      rw [Dict.get?_eq_none_iff]
      intro hm
      apply hk
      obtain ⟨kv, hkv, rfl⟩ := List.mem_map.1 hm
      exact List.mem_map.2 ⟨kv, (List.mem_filter.1 hkv).1, rfl⟩
    rw [h1]
    cases hge : globals.get? entity with
    | none => rfl
    | some g =>
      simp only [Option.bind_some, Option.none_or]
      rw [Dict.get?_eq_none_iff]
      exact fun hm => hk (hs.defaultsPresent g hge k hm)
  | some v =>
    have hkv : (k, v) ∈ d := Dict.mem_of_get? hdk
    have hser : v.tagName.isSome = true := by
      cases v with
      | other t => exact absurd rfl (hs.notOther k _ hkv t)
      | _ => rfl
    by_cases hdef : isDefaultValue globals entity k v
    · have h1 : (writtenEntries globals entity d).get? k = none := by
        rw [Dict.get?_eq_none_iff]
        intro hm
        obtain ⟨⟨k', v'⟩, hkv', hk'⟩ := List.mem_map.1 hm
        simp only at hk'; subst hk'
        have hm' := List.mem_filter.1 hkv'
        have : v' = v := by
          have := Dict.get?_of_mem hs.wf hm'.1; rw [hdk] at this; exact (Option.some.inj this).symm
        subst this
        simp [hdef] at hm'
      rw [h1, Option.none_or]
      unfold isDefaultValue at hdef
      cases hge : globals.get? entity with
      | none => simp [hge] at hdef
      | some g =>
        simp only [hge] at hdef
        cases hgk : g.get? k with
        | none => simp [hgk] at hdef
        | some w =>
          simp only [hgk] at hdef
          obtain ⟨t, rfl⟩ := (hg g hge).2 k w (Dict.mem_of_get? hgk)
          have : Val.str t = v := by
            cases v <;> simp [Val.pyEq] at hdef; subst hdef; rfl
          simp [hgk, this]
    · have h1 : (writtenEntries globals entity d).get? k = some v := by
        rw [Dict.get?_eq_some_iff hwf]
        exact List.mem_filter.2 ⟨hkv, by simp [hdef, hser]⟩
      rw [h1]; rfl

theorem writePayload_ok (P : Parsers) (globals : Dict String (Dict String Val)) (entity : String) (d : Dict String Val)
    (hs : SafePayload P (globals.get? entity) d) :
    ∃ els, writePayload globals entity d = .ok els ∧
      List.Forall₂ (fun kv e => createValueTag kv.1 kv.2 = .ok e) (writtenEntries globals entity d) els := by
  apply mapM_ok_of_forall
  intro kv hkv
  exact createValueTag_ok (hs.notOther kv.1 kv.2 (List.mem_filter.1 hkv).1)

theorem event_round_trip (P : Parsers) (globals : Dict String (Dict String Val)) (e : Payload)
    (hs : SafePayload P (globals.get? "event") e)
    (hg : ∀ g, globals.get? "event" = some g → g.WF ∧ ∀ k v, (k, v) ∈ g → ∃ t, v = .str t) :
    ∃ el, writeEvent globals e = .ok el ∧ el.tag = "event" ∧
      ∃ r, readEvent P globals el = .ok r ∧ SameMapping e r := by
  obtain ⟨els, h1, h2⟩ := writePayload_ok P globals "event" e hs
  refine ⟨.mk "event" [] els, by simp [writeEvent, h1, bind, Except.bind, pure, Except.pure], rfl,
    Dict.update (applyGlobals globals "event") (writtenEntries globals "event" e), ?_, ?_⟩
  · unfold readEvent
    simp only [XElem.children]
    exact fold_read_values P _ els _ h2
      (fun k v hm => hs.parses k v (List.mem_filter.1 hm).1) (fun k v hm => hs.notFalse k v (List.mem_filter.1 hm).1)
  · intro k; exact (payload_mapping P globals "event" e hs hg k).symm

theorem isValueTag_event (el : XElem) (h : el.tag = "event") : isValueTag el = false := by
  unfold isValueTag; rw [h]; decide

theorem fold_trace_attrs (P : Parsers) (globals : Dict String (Dict String Val)) (l : Dict String Val) (els : List XElem)
    (t : Trace Payload)
    (h : List.Forall₂ (fun kv e => createValueTag kv.1 kv.2 = .ok e) l els)
    (hp : ∀ k v, (k, v) ∈ l → ParsesBack P v) (hf : ∀ k v, (k, v) ∈ l → v ≠ .bool false) :
    els.foldlM (readTraceChild P globals) t =
      .ok { t with attributes := Dict.update t.attributes l } := by
  induction h generalizing t with
  | nil => rfl
  | @cons kv e l els hkv _ ih =>
    obtain ⟨k, v⟩ := kv
    have h1 : readTraceChild P globals t e = .ok { t with attributes := t.attributes.set k v } := by
      unfold readTraceChild
      rw [isValueTag_created hkv]
      simp only [if_true]
      rw [readValueInto_created P _ hkv (hp k v (by simp)) (hf k v (by simp))]
      rfl
    rw [List.foldlM_cons, h1]
    simp only [bind, Except.bind]
    exact ih _ (fun k v hm => hp k v (by simp [hm])) (fun k v hm => hf k v (by simp [hm]))

theorem fold_trace_events (P : Parsers) (globals : Dict String (Dict String Val)) (evs : List Payload) (t : Trace Payload)
    (hs : ∀ e ∈ evs, SafePayload P (globals.get? "event") e)
    (hg : ∀ g, globals.get? "event" = some g → g.WF ∧ ∀ k v, (k, v) ∈ g → ∃ t, v = .str t) :
    ∃ els, evs.mapM (writeEvent globals) = .ok els ∧
      ∃ rs, els.foldlM (readTraceChild P globals) t = .ok { t with events := t.events ++ rs } ∧
        List.Forall₂ SameMapping evs rs := by
  induction evs generalizing t with
  | nil => exact ⟨[], rfl, [], by simp [pure, Except.pure], .nil⟩
  | cons e evs ih =>
    obtain ⟨el, w, htag, r, hr, hsame⟩ := event_round_trip P globals e (hs e (by simp)) hg
    obtain ⟨els, hw, rs, hrs, hall⟩ := ih { t with events := t.events ++ [r] } (fun x hx => hs x (by simp [hx]))
    refine ⟨el :: els, ?_, r :: rs, ?_, .cons hsame hall⟩
    · rw [List.mapM_cons, w]; simp only [bind, Except.bind]; rw [hw]; rfl
    · rw [List.foldlM_cons]
      have h1 : readTraceChild P globals t el = .ok { t with events := t.events ++ [r] } := by
        unfold readTraceChild
        rw [isValueTag_event el htag, htag]
        simp only [Bool.false_eq_true, if_false]
        have : stripNs "event" = "event" := by decide
        rw [this, if_pos rfl, hr]; rfl
      rw [h1]
      simp only [bind, Except.bind]
      rw [hrs]; simp

theorem trace_round_trip (P : Parsers) (globals : Dict String (Dict String Val)) (t : Trace Payload)
    (hs : SafePayload P (globals.get? "trace") t.attributes)
    (hse : ∀ e ∈ t.events, SafePayload P (globals.get? "event") e)
    (hg : ∀ s g, globals.get? s = some g → g.WF ∧ ∀ k v, (k, v) ∈ g → ∃ t, v = .str t) :
    ∃ el, writeTrace globals t = .ok el ∧ el.tag = "trace" ∧
      ∃ r, readTrace P globals el = .ok r ∧ SameTrace t r := by
  obtain ⟨els, h1, h2⟩ := writePayload_ok P globals "trace" t.attributes hs
  obtain ⟨evels, hw, rs, hrs, hall⟩ := fold_trace_events P globals t.events
    { events := [], attributes := Dict.update (applyGlobals globals "trace") (writtenEntries globals "trace" t.attributes) } hse (hg "event")
  refine ⟨.mk "trace" [] (els ++ evels), ?_, rfl,
    { events := rs, attributes := Dict.update (applyGlobals globals "trace") (writtenEntries globals "trace" t.attributes) },
    ?_, ?_, ?_⟩
  · unfold writeTrace; rw [h1]; simp only [bind, Except.bind]; rw [hw]; rfl
  · unfold readTrace
    simp only [XElem.children, List.foldlM_append]
    rw [fold_trace_attrs P globals _ els _ h2
      (fun k v hm => hs.parses k v (List.mem_filter.1 hm).1) (fun k v hm => hs.notFalse k v (List.mem_filter.1 hm).1)]
    simp only [bind, Except.bind]
    exact hrs
  · intro k; exact (payload_mapping P globals "trace" t.attributes hs (hg "trace") k).symm
  · simpa using hall

theorem forall2_exists {α β : Type} {R : α → β → Prop} (l : List α) (h : ∀ a ∈ l, ∃ b, R a b) :
    ∃ r, List.Forall₂ R l r := by
  induction l with
  | nil => exact ⟨[], .nil⟩
  | cons a l ih =>
    obtain ⟨b, hb⟩ := h a (by simp)
    obtain ⟨r, hr⟩ := ih (fun x hx => h x (by simp [hx]))
    exact ⟨b :: r, .cons hb hr⟩

theorem traces_round_trip (P : Parsers) (globals : Dict String (Dict String Val)) (ts : List (Trace Payload))
    (h : ∀ t ∈ ts, SafePayload P (globals.get? "trace") t.attributes ∧
      ∀ e ∈ t.events, SafePayload P (globals.get? "event") e)
    (hg : ∀ s g, globals.get? s = some g → g.WF ∧ ∀ k v, (k, v) ∈ g → ∃ t, v = .str t) :
    ∃ els, ts.mapM (writeTrace globals) = .ok els ∧ (∀ el ∈ els, el.tag = "trace") ∧
      ∃ rs, els.mapM (readTrace P globals) = .ok rs ∧ List.Forall₂ SameTrace ts rs := by
  induction ts with
  | nil => exact ⟨[], rfl, by simp, [], rfl, .nil⟩
  | cons t ts ih =>
    obtain ⟨el, hw, htag, r, hr, hsame⟩ := trace_round_trip P globals t (h t (by simp)).1 (h t (by simp)).2 hg
    obtain ⟨els, hws, htags, rs, hrs, hall⟩ := ih (fun x hx => h x (by simp [hx]))
    refine ⟨el :: els, ?_, ?_, r :: rs, ?_, .cons hsame hall⟩
    · rw [List.mapM_cons, hw]; simp only [bind, Except.bind]; rw [hws]; rfl
    · intro x hx; rcases List.mem_cons.1 hx with rfl | hx
      · exact htag
      · exact htags x hx
    · rw [List.mapM_cons, hr]; simp only [bind, Except.bind]; rw [hrs]; rfl

/-- The configuration of an extension as it is read. -/
def readBackExt (c : Dict String String) : Dict String String :=
  [("prefix", (c.get? "prefix").getD ""), ("uri", (c.get? "uri").getD "")]

theorem readBackExt_same {c : Dict String String} (h : ∃ p u, SameMapping c [("prefix", p), ("uri", u)]) :
    SameMapping c (readBackExt c) := by
  obtain ⟨p, u, h⟩ := h
  intro k
  unfold readBackExt
  rw [h, h, h]
  simp [Dict.get?]

theorem read_extension (P : Parsers) (n : String) (c : Dict String String) (hc : c.WF)
    (h : ∃ p u, SameMapping c [("prefix", p), ("uri", u)]) (st : ReadState) :
    readChild P st (writeExtension (n, c)) =
      .ok { st with log := { st.log with extensions := st.log.extensions.set n (readBackExt c) } } := by
  have hstrip : stripNs "extension" = "extension" := by decide
  obtain ⟨p, u, h⟩ := h
  have hg : ∀ k, (Dict.update [("name", n)] c).get? k =
      (Dict.get? [("prefix", p), ("uri", u)] k).or (Dict.get? [("name", n)] k) := by
    intro k; rw [get?_update c hc, h]
  unfold writeExtension readChild
  simp only [XElem.tag, XElem.attrib, hstrip]
  rw [if_neg (by decide), if_pos trivial]
  unfold readBackExt Dict.getE
  rw [hg, hg, hg, h, h]
  simp [Dict.get?, bind, Except.bind, pure, Except.pure]

theorem read_extensions (P : Parsers) (exts : Dict String (Dict String String)) (st : ReadState)
    (hshape : ∀ n c, (n, c) ∈ exts → c.WF ∧ ∃ p u, SameMapping c [("prefix", p), ("uri", u)]) :
    (exts.map writeExtension).foldlM (readChild P) st =
      .ok { st with log := { st.log with
        extensions := Dict.update st.log.extensions (exts.map (fun kv => (kv.1, readBackExt kv.2))) } } := by
  induction exts generalizing st with
  | nil => rfl
  | cons x exts ih =>
    obtain ⟨n, c⟩ := x
    obtain ⟨hc, hpu⟩ := hshape n c (by simp)
    rw [List.map_cons, List.foldlM_cons, read_extension P n c hc hpu]
    simp only [bind, Except.bind]
    exact ih _ (fun n c hm => hshape n c (by simp [hm]))

theorem get?_mapValues {V W : Type} (f : V → W) (d : Dict String V) (k : String) :
    Dict.get? (d.map (fun kv => (kv.1, f kv.2))) k = (d.get? k).map f := by
  induction d with
  | nil => rfl
  | cons x d ih =>
    rw [List.map_cons, Dict.get?_cons, Dict.get?_cons, ih]
    split <;> rfl

theorem WF_mapValues {V W : Type} (f : V → W) {d : Dict String V} (h : d.WF) :
    Dict.WF (d.map (fun kv => (kv.1, f kv.2))) := by
  unfold Dict.WF Dict.keys at *
  rw [List.map_map]
  exact h

theorem classifier_split (ks : List String) (h : ks ≠ []) (hk : ∀ k ∈ ks, ' ' ∉ k.toList) :
    (splitLoop [' '] 0 [] (List.intercalate [' '] (ks.map String.toList))).map String.ofList = ks := by
  rw [← joinSep_eq_intercalate, split_join [' '] (by simp) _ (by simpa using h)]
  · rw [List.map_map]
    conv => rhs; rw [← List.map_id ks]
    apply List.map_congr_left; intro k _; simp
  · intro x hx
    obtain ⟨k, hkm, rfl⟩ := List.mem_map.1 hx
    simp only [List.dropLast_singleton, List.append_nil]
    intro hi
    exact hk k hkm (hi.subset (by simp))

theorem read_classifiers (P : Parsers) (cls : Dict String (List String)) (st : ReadState)
    (hshape : ∀ n ks, (n, ks) ∈ cls → ks ≠ [] ∧ ∀ k ∈ ks, ' ' ∉ k.toList) :
    (cls.map writeClassifier).foldlM (readChild P) st =
      .ok { st with log := { st.log with
        classifiers := Dict.update st.log.classifiers cls } } := by
  induction cls generalizing st with
  | nil => rfl
  | cons x cls ih =>
    obtain ⟨n, ks⟩ := x
    obtain ⟨h1, h2⟩ := hshape n ks (by simp)
    have h1 : readChild P st (writeClassifier (n, ks)) =
        .ok { st with log := { st.log with classifiers := st.log.classifiers.set n ks } } := by
      have hstrip : stripNs "classifier" = "classifier" := by decide
      have hn : ∀ s : String, Dict.getE [("name", n), ("keys", s)] "name" = .ok n := by
        intro s; simp [Dict.getE, Dict.get?]
      have hk : ∀ s : String, Dict.getE [("name", n), ("keys", s)] "keys" = .ok s := by
        intro s; simp [Dict.getE, Dict.get?]
      unfold readChild writeClassifier
      simp only [XElem.tag, XElem.attrib, hstrip]
      rw [if_neg (by decide), if_neg (by decide), if_pos trivial, hn, hk]
      simp only [bind, Except.bind, String.toList_ofList, classifier_split ks h1 h2]
      rfl
    rw [List.map_cons, List.foldlM_cons, h1]
    simp only [bind, Except.bind]
    exact ih _ (fun n c hm => hshape n c (by simp [hm]))

theorem fold_read_global (l : Dict String Val) (els : List XElem) (d : Dict String Val)
    (h : List.Forall₂ (fun kv e => createValueTag kv.1 kv.2 = .ok e) l els) (hs : ∀ k v, (k, v) ∈ l → ∃ t, v = .str t) :
    els.foldlM readGlobalChild d = .ok (Dict.update d l) := by
  induction h generalizing d with
  | nil => rfl
  | @cons kv e l els hkv _ ih =>
    obtain ⟨k, v⟩ := kv
    obtain ⟨t, rfl⟩ := hs k v (by simp)
    have h1 : readGlobalChild d e = .ok (d.set k (.str t)) := by
      unfold createValueTag at hkv
      simp only [Val.tagName] at hkv; cases hkv
      simp [readGlobalChild, XElem.attrib, Dict.getE, Dict.get?, bind, Except.bind, pure, Except.pure, Val.toStr]
    rw [List.foldlM_cons, h1]
    simp only [bind, Except.bind]
    exact ih _ (fun k v hm => hs k v (by simp [hm]))

theorem read_globals (P : Parsers) (gs : Dict String (Dict String Val)) (st : ReadState)
    (hshape : ∀ s d, (s, d) ∈ gs → d.WF ∧ ∀ k v, (k, v) ∈ d → ∃ t, v = .str t)
    (hfresh : (st.log.globals.keys ++ Dict.keys gs).Nodup) :
    ∃ els, gs.mapM writeGlobal = .ok els ∧ els.foldlM (readChild P) st =
      .ok { st with log := { st.log with globals := Dict.update st.log.globals gs } } := by
  induction gs generalizing st with
  | nil => exact ⟨[], rfl, rfl⟩
  | cons x gs ih =>
    obtain ⟨s, d⟩ := x
    obtain ⟨hwf, hstr⟩ := hshape s d (by simp)
    have hf2 : (st.log.globals.keys ++ s :: Dict.keys gs).Nodup := hfresh
    have hnot : s ∉ st.log.globals.keys := by
      intro hm; exact (List.nodup_append.1 hf2).2.2 s hm s (by simp) rfl
    obtain ⟨cels, hc, hc2⟩ := mapM_ok_of_forall (fun e : String × Val => createValueTag e.1 e.2) d (by
      rintro ⟨k, v⟩ hkv
      obtain ⟨t, rfl⟩ := hstr k v hkv
      exact ⟨_, rfl⟩)
    have hw : writeGlobal (s, d) = .ok (.mk "global" [("scope", s)] cels) := by
      simp only [writeGlobal, bind, Except.bind]; rw [hc]; rfl
    have h1 : readChild P st (.mk "global" [("scope", s)] cels) =
        .ok { st with log := { st.log with globals := st.log.globals.set s d } } := by
      have hstrip : stripNs "global" = "global" := by decide
      have hv : isValueTag (.mk "global" [("scope", s)] cels) = false := by
        have aux : ∀ e : XElem, e.tag = "global" → isValueTag e = false := by
          intro e h; unfold isValueTag; rw [h, hstrip]; decide
        exact aux _ rfl
      have hget : Dict.getE [("scope", s)] "scope" = .ok s := by simp [Dict.getE, Dict.get?]
      have hfr := fold_read_global d cels [] hc2 hstr
      rw [update_nil d hwf] at hfr
      unfold readChild
      simp only [XElem.tag, XElem.attrib, XElem.children, hstrip, hv]
      rw [if_neg (by decide), if_neg (by decide), if_neg (by decide), if_neg (by decide), if_pos trivial, hget]
      simp only [bind, Except.bind]
      rw [(Dict.get?_eq_none_iff _ _).2 hnot]
      simp only [Option.getD_none]
      rw [hfr]
      rfl
    obtain ⟨els, hels, hfold⟩ := ih { st with log := { st.log with globals := st.log.globals.set s d } }
      (fun s d hm => hshape s d (by simp [hm])) (by
        simp only [Dict.keys_set, hnot, if_false]
        simpa using hf2)
    refine ⟨.mk "global" [("scope", s)] cels :: els, ?_, ?_⟩
    · rw [List.mapM_cons, hw]; simp only [bind, Except.bind]; rw [hels]; rfl
    · rw [List.foldlM_cons, h1]; simp only [bind, Except.bind]; exact hfold

theorem read_collect_traces (P : Parsers) (els : List XElem) (st : ReadState) (h : ∀ el ∈ els, el.tag = "trace") :
    els.foldlM (readChild P) st = .ok { st with traces := st.traces ++ els } := by
  induction els generalizing st with
  | nil => simp [pure, Except.pure]
  | cons e els ih =>
    have hstrip : stripNs "trace" = "trace" := by decide
    have h1 : readChild P st e = .ok { st with traces := st.traces ++ [e] } := by
      simp only [readChild, h e (by simp), hstrip, if_true]
    rw [List.foldlM_cons, h1]
    simp only [bind, Except.bind]
    rw [ih _ (fun x hx => h x (by simp [hx]))]; simp

theorem xes_round_trip (P : Parsers) (log : Log Payload) (h : SafeLog P log) :
    ∃ el, writeXes log = .ok el ∧ ∃ r, readXes P el = .ok r ∧ SameLog log r := by
  have hg : ∀ s g, log.globals.get? s = some g → g.WF ∧ ∀ k v, (k, v) ∈ g → ∃ t, v = .str t :=
    fun s g hs => h.globalScopes s g (Dict.mem_of_get? hs)
  obtain ⟨tels, htw, htags, rs, hrs, hall⟩ := traces_round_trip P log.globals log.traces h.traces hg
  let st0 : ReadState := { log := { attributes := log.attributes } }
  let exts := log.extensions.map (fun kv => (kv.1, readBackExt kv.2))
  let st1 : ReadState := { log := { attributes := log.attributes, extensions := exts } }
  let st2 : ReadState :=
    { log := { attributes := log.attributes, extensions := exts, classifiers := log.classifiers } }
  let st3 : ReadState :=
    { log := { st2.log with globals := log.globals } }
  obtain ⟨gels, hgw, hgr⟩ := read_globals P log.globals st2 h.globalScopes (by
    show ([] ++ log.globals.keys).Nodup
    rw [List.nil_append]; exact h.globals)
  have e1 : (log.extensions.map writeExtension).foldlM (readChild P) st0 = .ok st1 := by
    rw [read_extensions P log.extensions st0 h.extensionsShape]
    simp only [st0, st1]
    rw [update_nil _ (WF_mapValues readBackExt h.extensions)]
  have e2 : (log.classifiers.map writeClassifier).foldlM (readChild P) st1 = .ok st2 := by
    rw [read_classifiers P log.classifiers st1 h.classifierKeys]
    simp only [st1, st2]
    rw [update_nil _ h.classifiers]
  have e3 : gels.foldlM (readChild P) st2 = .ok st3 := by
    rw [hgr]; simp only [st2, st3]
    rw [update_nil _ h.globals]
  have e4 := read_collect_traces P tels st3 htags
  refine ⟨.mk "log" log.attributes
    (log.extensions.map writeExtension ++ log.classifiers.map writeClassifier ++ [] ++ gels ++ tels), ?_,
    { attributes := log.attributes, extensions := exts,
      classifiers := log.classifiers, globals := log.globals, traces := rs }, ?_, ?_⟩
  · unfold writeXes
    rw [h.noProperties]
    simp only [List.mapM_nil, bind, Except.bind, pure, Except.pure]
    rw [hgw]; simp only
    rw [htw]; simp only
    rw [update_nil _ h.attributes]
  · unfold readXes
    simp only [XElem.children, XElem.attrib, update_nil _ h.attributes, List.foldlM_append, bind, Except.bind]
    have e1' : (log.extensions.map writeExtension).foldlM (readChild P) { log := { attributes := log.attributes } } =
      .ok st1 := e1
    rw [e1']; simp only
    rw [e2]; simp only [List.foldlM_nil, pure, Except.pure]
    rw [e3]; simp only
    rw [e4]; simp only [st3, List.nil_append]
    rw [hrs]
  · refine ⟨fun _ => rfl, fun n => ?_, fun _ => rfl, by rw [h.noProperties]; exact fun _ => rfl, fun _ => rfl, hall⟩
    show Option.Rel SameMapping (log.extensions.get? n) (Dict.get? exts n)
    rw [get?_mapValues]
    cases hn : log.extensions.get? n with
    | none => exact .none
    | some c => exact .some (readBackExt_same (h.extensionsShape n c (Dict.mem_of_get? hn)).2)

end Ficus
