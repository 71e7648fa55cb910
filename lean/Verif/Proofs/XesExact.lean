import Verif.Proofs.Xes

/-! Which logs survive the round trip through XES: the conditions of `SafeLog` are necessary. -/

namespace Ficus
open Spec

theorem mapM_ok_inv {α β : Type} {f : α → Except PyErr β} {l : List α} {r : List β} (h : l.mapM f = .ok r) :
    List.Forall₂ (fun a b => f a = .ok b) l r := by
  induction l generalizing r with
  | nil => cases h; exact .nil
  | cons a l ih =>
    rw [List.mapM_cons] at h
    cases ha : f a with
    | error e => rw [ha] at h; cases h
    | ok b =>
      rw [ha] at h
      simp only [bind, Except.bind] at h
      cases hl : l.mapM f with
      | error e => rw [hl] at h; cases h
      | ok bs => rw [hl] at h; cases h; exact .cons ha (ih hl)

theorem foldlM_cons_inv {S A : Type} {f : S → A → Except PyErr S} {a : A} {l : List A} {s s' : S}
    (h : (a :: l).foldlM f s = .ok s') : ∃ s1, f s a = .ok s1 ∧ l.foldlM f s1 = .ok s' := by
  rw [List.foldlM_cons] at h
  cases ha : f s a with
  | error e => rw [ha] at h; cases h
  | ok s1 => rw [ha] at h; exact ⟨s1, rfl, h⟩

theorem foldlM_append_inv {S A : Type} {f : S → A → Except PyErr S} {l l' : List A} {s s' : S}
    (h : (l ++ l').foldlM f s = .ok s') : ∃ s1, l.foldlM f s = .ok s1 ∧ l'.foldlM f s1 = .ok s' := by
  rw [List.foldlM_append] at h
  cases ha : l.foldlM f s with
  | error e => rw [ha] at h; cases h
  | ok s1 => rw [ha] at h; exact ⟨s1, rfl, h⟩

/-- A value that is written and read: the key stays, and if the value stays, it is one that survives. -/
theorem readValueInto_inv (P : Parsers) {d d' : Dict String Val} {k : String} {v : Val} {e : XElem}
    (h : createValueTag k v = .ok e) (hr : readValueInto P d e = .ok d') :
    ∃ v', d' = d.set k v' ∧ (v' = v → v ≠ .bool false ∧ ParsesBack P v) := by
  unfold createValueTag at h
  cases v with
  | str s =>
    simp only [Val.tagName] at h; cases h
    have : stripNs "string" = "string" := by decide
    simp [readValueInto, parseValueTag, parseByTag, XElem.tag, XElem.attrib, this, Dict.getE, Dict.get?, bind, Except.bind, pure, Except.pure, Val.toStr] at hr
    exact ⟨_, hr.symm, fun _ => ⟨by simp, trivial⟩⟩
  | int i =>
    simp only [Val.tagName] at h; cases h
    have : stripNs "int" = "int" := by decide
    simp [readValueInto, parseValueTag, parseByTag, XElem.tag, XElem.attrib, this, Dict.getE, Dict.get?, bind, Except.bind, pure, Except.pure, Val.toStr] at hr
    cases hp : P.int i.repr with
    | error x => rw [hp] at hr; cases hr
    | ok j =>
      rw [hp] at hr
      cases hr
      refine ⟨_, rfl, fun hv => ⟨by simp, ?_⟩⟩
      cases hv
      exact hp
  | float t =>
    simp only [Val.tagName] at h; cases h
    have : stripNs "float" = "float" := by decide
    simp [readValueInto, parseValueTag, parseByTag, XElem.tag, XElem.attrib, this, Dict.getE, Dict.get?, bind, Except.bind, pure, Except.pure, Val.toStr] at hr
    cases hp : P.float t with
    | error x => rw [hp] at hr; cases hr
    | ok j =>
      rw [hp] at hr
      cases hr
      exact ⟨_, rfl, fun hv => ⟨by simp, by subst hv; exact hp⟩⟩
  | date t =>
    simp only [Val.tagName] at h; cases h
    have : stripNs "date" = "date" := by decide
    simp [readValueInto, parseValueTag, parseByTag, XElem.tag, XElem.attrib, this, Dict.getE, Dict.get?, bind, Except.bind, pure, Except.pure, Val.toStr] at hr
    cases hp : P.date t with
    | error x => rw [hp] at hr; cases hr
    | ok j =>
      rw [hp] at hr
      cases hr
      exact ⟨_, rfl, fun hv => ⟨by simp, by subst hv; exact hp⟩⟩
  | bool b =>
    simp only [Val.tagName] at h; cases h
    have : stripNs "boolean" = "boolean" := by decide
    cases b <;>
      simp [readValueInto, parseValueTag, parseByTag, XElem.tag, XElem.attrib, this, Dict.getE, Dict.get?, bind, Except.bind, pure, Except.pure, Val.toStr] at hr
    · exact ⟨_, hr.symm, fun hv => by cases hv⟩
    · exact ⟨_, hr.symm, fun _ => ⟨by simp, trivial⟩⟩
  | other t => simp only [Val.tagName] at h; cases h

/-- What is known of the entries that were read for the entries that were written. -/
def ReadBack (P : Parsers) (l l' : Dict String Val) : Prop :=
  List.Forall₂ (fun kv kv' => kv'.1 = kv.1 ∧ (kv'.2 = kv.2 → kv.2 ≠ .bool false ∧ ParsesBack P kv.2)) l l'

theorem fold_values_inv (P : Parsers) {l : Dict String Val} {els : List XElem} {d d' : Dict String Val}
    (h : List.Forall₂ (fun kv e => createValueTag kv.1 kv.2 = .ok e) l els)
    (hr : els.foldlM (fun d c => if isValueTag c then readValueInto P d c else .ok d) d = .ok d') :
    ∃ l', ReadBack P l l' ∧ d' = Dict.update d l' := by
  induction h generalizing d with
  | nil => cases hr; exact ⟨[], .nil, rfl⟩
  | @cons kv e l els hkv _ ih =>
    obtain ⟨s1, h1, h2⟩ := foldlM_cons_inv hr
    rw [if_pos (isValueTag_created hkv)] at h1
    obtain ⟨v', rfl, hv⟩ := readValueInto_inv P hkv h1
    obtain ⟨l', hl, he⟩ := ih h2
    exact ⟨(kv.1, v') :: l', .cons ⟨rfl, hv⟩ hl, he⟩

theorem ReadBack.keys {P : Parsers} {l l' : Dict String Val} (h : ReadBack P l l') : l'.keys = l.keys := by
  induction h with
  | nil => rfl
  | cons h _ ih => simp only [Dict.keys, List.map_cons] at *; rw [h.1, ih]

theorem ReadBack.mem {P : Parsers} {l l' : Dict String Val} (h : ReadBack P l l') {k : String} {v : Val} (hm : (k, v) ∈ l) :
    ∃ v', (k, v') ∈ l' ∧ (v' = v → v ≠ .bool false ∧ ParsesBack P v) := by
  induction h with
  | nil => cases hm
  | @cons kv kv' l l' h _ ih =>
    rcases List.mem_cons.1 hm with hm | hm
    · refine ⟨kv'.2, ?_, ?_⟩
      · rw [show (k, kv'.2) = kv' from Prod.ext (by rw [h.1, ← hm]) rfl]; simp
      · have := h.2; rw [← hm] at this; exact this
    · obtain ⟨v', h1, h2⟩ := ih hm
      exact ⟨v', by simp [h1], h2⟩

/-- A payload that comes back as the same mapping was a safe one. -/
theorem payload_inv (P : Parsers) (globals : Dict String (Dict String Val)) (entity : String) (d l' : Dict String Val)
    (hd : d.WF) (hg : ∀ g, globals.get? entity = some g → g.WF ∧ ∀ k v, (k, v) ∈ g → ∃ t, v = .str t)
    (hl : ReadBack P (writtenEntries globals entity d) l')
    (hs : SameMapping d (Dict.update (applyGlobals globals entity) l')) : SafePayload P (globals.get? entity) d := by
  have hwf : (writtenEntries globals entity d).WF := WF_filter hd _
  have hwf' : Dict.WF l' := by
    unfold Dict.WF at hwf ⊢; rw [hl.keys]; exact hwf
  have happ : ∀ k, (applyGlobals globals entity).get? k = ((globals.get? entity).bind (fun g => g.get? k)) := by
    intro k
    unfold applyGlobals
    cases hge : globals.get? entity with
    | none => simp
    | some g => simp only [Option.bind_some]; rw [update_nil _ (hg g hge).1]
  have hget : ∀ k, d.get? k = (l'.get? k).or ((globals.get? entity).bind (fun g => g.get? k)) := by
    intro k; rw [hs k, get?_update _ hwf', happ]
  have hnone : ∀ k v, (k, v) ∈ d → (k, v) ∉ writtenEntries globals entity d → l'.get? k = none := by
    intro k v hkv hn
    rw [Dict.get?_eq_none_iff, hl.keys]
    intro hm
    obtain ⟨⟨k', v'⟩, hkv', hk'⟩ := List.mem_map.1 hm
    simp only at hk'; subst hk'
    have hm' := (List.mem_filter.1 hkv').1
    have h1 := Dict.get?_of_mem hd hm'
    rw [Dict.get?_of_mem hd hkv] at h1
    cases h1
    exact hn hkv'
  have hvalue : ∀ k v, (k, v) ∈ d → (∀ t, v ≠ .other t) ∧ v ≠ .bool false ∧ ParsesBack P v := by
    intro k v hkv
    by_cases hw : (k, v) ∈ writtenEntries globals entity d
    · obtain ⟨v', h1, h2⟩ := hl.mem hw
      have h3 := hget k
      rw [Dict.get?_of_mem hd hkv, Dict.get?_of_mem hwf' h1] at h3
      simp only [Option.some_or, Option.some.injEq] at h3
      have hser := (List.mem_filter.1 hw).2
      refine ⟨?_, h2 h3.symm⟩
      rintro t rfl
      simp [Val.tagName] at hser
    · have h3 := hget k
      rw [Dict.get?_of_mem hd hkv, hnone k v hkv hw, Option.none_or] at h3
      cases hge : globals.get? entity with
      | none => rw [hge] at h3; cases h3
      | some g =>
        rw [hge] at h3
        simp only [Option.bind_some] at h3
        obtain ⟨t, rfl⟩ := (hg g hge).2 k v (Dict.mem_of_get? h3.symm)
        exact ⟨by simp, by simp, trivial⟩
  refine ⟨hd, fun k v h => (hvalue k v h).1, fun k v h => (hvalue k v h).2.1, fun k v h => (hvalue k v h).2.2, ?_⟩
  intro g hge k hk
  obtain ⟨w, hw⟩ := (Dict.mem_keys_iff g k).1 hk
  have h3 := hget k
  rw [hge] at h3
  simp only [Option.bind_some, hw] at h3
  rw [Dict.mem_keys_iff]
  cases hlk : l'.get? k with
  | none => rw [hlk] at h3; exact ⟨w, h3⟩
  | some x => rw [hlk] at h3; exact ⟨x, h3⟩

theorem writePayload_inv {globals : Dict String (Dict String Val)} {entity : String} {d : Dict String Val} {els : List XElem}
    (h : writePayload globals entity d = .ok els) :
    List.Forall₂ (fun kv e => createValueTag kv.1 kv.2 = .ok e) (writtenEntries globals entity d) els :=
  mapM_ok_inv (f := fun kv : String × Val => createValueTag kv.1 kv.2) h

theorem event_inv (P : Parsers) {globals : Dict String (Dict String Val)} {e r : Payload} {el : XElem} (he : e.WF)
    (hg : ∀ g, globals.get? "event" = some g → g.WF ∧ ∀ k v, (k, v) ∈ g → ∃ t, v = .str t)
    (hw : writeEvent globals e = .ok el) (hr : readEvent P globals el = .ok r) :
    SameMapping e r → SafePayload P (globals.get? "event") e := by
  unfold writeEvent at hw
  cases hp : writePayload globals "event" e with
  | error x => rw [hp] at hw; cases hw
  | ok els =>
    rw [hp] at hw
    cases hw
    obtain ⟨l', hl, rfl⟩ := fold_values_inv P (writePayload_inv hp) hr
    exact payload_inv P globals "event" e l' he hg hl

theorem writeEvent_tag {globals : Dict String (Dict String Val)} {e : Payload} {el : XElem}
    (hw : writeEvent globals e = .ok el) : el.tag = "event" := by
  unfold writeEvent at hw
  cases hp : writePayload globals "event" e with
  | error x => rw [hp] at hw; cases hw
  | ok els => rw [hp] at hw; cases hw; rfl

theorem fold_trace_attrs_inv (P : Parsers) {globals : Dict String (Dict String Val)} {l : Dict String Val} {els : List XElem}
    {t t' : Trace Payload} (h : List.Forall₂ (fun kv e => createValueTag kv.1 kv.2 = .ok e) l els)
    (hr : els.foldlM (readTraceChild P globals) t = .ok t') :
    ∃ l', ReadBack P l l' ∧ t' = { t with attributes := Dict.update t.attributes l' } := by
  induction h generalizing t with
  | nil => cases hr; exact ⟨[], .nil, rfl⟩
  | @cons kv e l els hkv _ ih =>
    obtain ⟨s1, h1, h2⟩ := foldlM_cons_inv hr
    unfold readTraceChild at h1
    rw [isValueTag_created hkv] at h1
    simp only [if_true] at h1
    cases hv : readValueInto P t.attributes e with
    | error x => rw [hv] at h1; cases h1
    | ok a =>
      rw [hv] at h1
      cases h1
      obtain ⟨v', rfl, hv'⟩ := readValueInto_inv P hkv hv
      obtain ⟨l', hl, he⟩ := ih h2
      exact ⟨(kv.1, v') :: l', .cons ⟨rfl, hv'⟩ hl, he⟩

theorem fold_trace_events_inv (P : Parsers) {globals : Dict String (Dict String Val)} {evs : List Payload} {els : List XElem}
    {t t' : Trace Payload} (h : List.Forall₂ (fun e el => writeEvent globals e = .ok el) evs els)
    (hr : els.foldlM (readTraceChild P globals) t = .ok t') :
    ∃ rs, List.Forall₂ (fun el r => readEvent P globals el = .ok r) els rs ∧ t' = { t with events := t.events ++ rs } := by
  induction h generalizing t with
  | nil => cases hr; exact ⟨[], .nil, by simp⟩
  | @cons e el evs els hw _ ih =>
    obtain ⟨s1, h1, h2⟩ := foldlM_cons_inv hr
    have htag := writeEvent_tag hw
    unfold readTraceChild at h1
    rw [isValueTag_event el htag, htag] at h1
    have hstrip : stripNs "event" = "event" := by decide
    simp only [Bool.false_eq_true, if_false, hstrip, if_true] at h1
    cases hv : readEvent P globals el with
    | error x => rw [hv] at h1; cases h1
    | ok a =>
      rw [hv] at h1
      cases h1
      obtain ⟨rs, hl, he⟩ := ih h2
      exact ⟨a :: rs, .cons hv hl, by rw [he]; simp⟩

theorem writeTrace_inv {globals : Dict String (Dict String Val)} {t : Trace Payload} {el : XElem}
    (hw : writeTrace globals t = .ok el) :
    ∃ attrs evs, writePayload globals "trace" t.attributes = .ok attrs ∧ t.events.mapM (writeEvent globals) = .ok evs ∧
      el = .mk "trace" [] (attrs ++ evs) := by
  unfold writeTrace at hw
  cases h1 : writePayload globals "trace" t.attributes with
  | error x => rw [h1] at hw; cases hw
  | ok attrs =>
    rw [h1] at hw
    simp only [bind, Except.bind] at hw
    cases h2 : t.events.mapM (writeEvent globals) with
    | error x => rw [h2] at hw; cases hw
    | ok evs => rw [h2] at hw; cases hw; exact ⟨attrs, evs, rfl, rfl, rfl⟩

theorem trace_inv (P : Parsers) {globals : Dict String (Dict String Val)} {t r : Trace Payload} {el : XElem}
    (ht : t.attributes.WF) (hte : ∀ e ∈ t.events, e.WF)
    (hg : ∀ s g, globals.get? s = some g → g.WF ∧ ∀ k v, (k, v) ∈ g → ∃ t, v = .str t)
    (hw : writeTrace globals t = .ok el) (hr : readTrace P globals el = .ok r) (hs : SameTrace t r) :
    SafePayload P (globals.get? "trace") t.attributes ∧ ∀ e ∈ t.events, SafePayload P (globals.get? "event") e := by
  obtain ⟨attrs, evs, h1, h2, rfl⟩ := writeTrace_inv hw
  unfold readTrace at hr
  simp only [XElem.children] at hr
  obtain ⟨t1, hr1, hr2⟩ := foldlM_append_inv hr
  obtain ⟨l', hl, rfl⟩ := fold_trace_attrs_inv P (writePayload_inv h1) hr1
  obtain ⟨rs, hrs, rfl⟩ := fold_trace_events_inv P (mapM_ok_inv h2) hr2
  obtain ⟨hs1, hs2⟩ := hs
  refine ⟨payload_inv P globals "trace" t.attributes l' ht (hg "trace") hl hs1, ?_⟩
  simp only [List.nil_append] at hs2
  clear hs1 hl hr1 hr2 h1 hw ht hr
  have h2' := mapM_ok_inv h2
  clear h2
  generalize t.events = es at *
  induction h2' generalizing rs with
  | nil => simp
  | @cons e el es evs hw _ ih =>
    cases hrs with
    | cons hr hrs =>
      cases hs2 with
      | cons hs hs2 =>
        intro x hx
        rcases List.mem_cons.1 hx with rfl | hx
        · exact event_inv P (hte x (by simp)) (hg "event") hw hr hs
        · exact ih _ hrs (fun e he => hte e (by simp [he])) hs2 x hx

theorem traces_inv (P : Parsers) {globals : Dict String (Dict String Val)} {ts rs : List (Trace Payload)} {els : List XElem}
    (ht : ∀ t ∈ ts, t.attributes.WF ∧ ∀ e ∈ t.events, e.WF)
    (hg : ∀ s g, globals.get? s = some g → g.WF ∧ ∀ k v, (k, v) ∈ g → ∃ t, v = .str t)
    (hw : List.Forall₂ (fun t el => writeTrace globals t = .ok el) ts els)
    (hr : List.Forall₂ (fun el r => readTrace P globals el = .ok r) els rs) (hs : List.Forall₂ SameTrace ts rs) :
    ∀ t ∈ ts, SafePayload P (globals.get? "trace") t.attributes ∧ ∀ e ∈ t.events, SafePayload P (globals.get? "event") e := by
  induction hw generalizing rs with
  | nil => simp
  | @cons t el ts els hw _ ih =>
    cases hr with
    | cons hr hrs =>
      cases hs with
      | cons hs hss =>
        intro x hx
        rcases List.mem_cons.1 hx with rfl | hx
        · exact trace_inv P (ht x (by simp)).1 (ht x (by simp)).2 hg hw hr hs
        · exact ih (fun e he => ht e (by simp [he])) hrs hss x hx

theorem read_extensions_inv (P : Parsers) (exts : Dict String (Dict String String)) (st st' : ReadState)
    (h : (exts.map writeExtension).foldlM (readChild P) st = .ok st') :
    ∃ E, st' = { st with log := { st.log with extensions := E } } ∧
      ∀ n c, E.get? n = some c → st.log.extensions.get? n = some c ∨ ∃ p u, c = [("prefix", p), ("uri", u)] := by
  induction exts generalizing st with
  | nil => cases h; exact ⟨_, rfl, fun n c h => .inl h⟩
  | cons x exts ih =>
    obtain ⟨s1, h1, h2⟩ := foldlM_cons_inv h
    have hstrip : stripNs "extension" = "extension" := by decide
    unfold writeExtension readChild at h1
    simp only [XElem.tag, XElem.attrib, hstrip] at h1
    rw [if_neg (by decide), if_pos trivial] at h1
    generalize Dict.update [("name", x.1)] x.2 = a at h1
    cases e1 : Dict.getE a "name" with
    | error e => rw [e1] at h1; cases h1
    | ok n =>
      cases e2 : Dict.getE a "prefix" with
      | error e => rw [e1, e2] at h1; cases h1
      | ok p =>
        cases e3 : Dict.getE a "uri" with
        | error e => rw [e1, e2, e3] at h1; cases h1
        | ok u =>
          rw [e1, e2, e3] at h1
          cases h1
          obtain ⟨E, hE, hc⟩ := ih _ h2
          refine ⟨E, hE, fun m c hm => ?_⟩
          rcases hc m c hm with hc | hc
          · simp only [Dict.get?_set] at hc
            split at hc
            · cases hc; exact .inr ⟨p, u, rfl⟩
            · exact .inl hc
          · exact .inr hc

/-- The keys of a classifier as they are read. -/
def readBackKeys (ks : List String) : List String :=
  (splitLoop [' '] 0 [] (List.intercalate [' '] (ks.map String.toList))).map String.ofList

theorem splitLoop_free (c : Char) (cur s : List Char) (hc : c ∉ cur) : ∀ x ∈ splitLoop [c] 0 cur s, c ∉ x := by
  induction s generalizing cur with
  | nil => intro x hx; obtain rfl := List.mem_singleton.1 hx; exact hc
  | cons a s ih =>
    intro x hx
    unfold splitLoop at hx
    split at hx
    · rcases List.mem_cons.1 hx with rfl | hx
      · exact hc
      · exact ih [] (by simp) x hx
    · rename_i hn
      refine ih (cur ++ [a]) ?_ x hx
      intro hm
      rcases List.mem_append.1 hm with hm | hm
      · exact hc hm
      · obtain rfl := List.mem_singleton.1 hm
        simp at hn

theorem readBackKeys_eq_iff (ks : List String) : readBackKeys ks = ks ↔ ks ≠ [] ∧ ∀ k ∈ ks, ' ' ∉ k.toList := by
  constructor
  · intro h
    unfold readBackKeys at h
    constructor
    · rintro rfl
      exact splitLoop_ne_nil _ _ _ _ (List.map_eq_nil_iff.1 h)
    · intro k hk
      rw [← h] at hk
      obtain ⟨x, hx, rfl⟩ := List.mem_map.1 hk
      simpa using splitLoop_free ' ' [] _ (by simp) x hx
  · rintro ⟨h1, h2⟩
    exact classifier_split ks h1 h2

theorem read_classifiers_all (P : Parsers) (cls : Dict String (List String)) (st : ReadState) :
    (cls.map writeClassifier).foldlM (readChild P) st =
      .ok { st with log := { st.log with
        classifiers := Dict.update st.log.classifiers (cls.map (fun kv => (kv.1, readBackKeys kv.2))) } } := by
  induction cls generalizing st with
  | nil => rfl
  | cons x cls ih =>
    obtain ⟨n, ks⟩ := x
    have h1 : readChild P st (writeClassifier (n, ks)) =
        .ok { st with log := { st.log with classifiers := st.log.classifiers.set n (readBackKeys ks) } } := by
      have hstrip : stripNs "classifier" = "classifier" := by decide
      have hn : ∀ s : String, Dict.getE [("name", n), ("keys", s)] "name" = .ok n := by
        intro s; simp [Dict.getE, Dict.get?]
      have hk : ∀ s : String, Dict.getE [("name", n), ("keys", s)] "keys" = .ok s := by
        intro s; simp [Dict.getE, Dict.get?]
      unfold readChild writeClassifier
      simp only [XElem.tag, XElem.attrib, hstrip]
      rw [if_neg (by decide), if_neg (by decide), if_pos trivial, hn, hk]
      simp only [bind, Except.bind, String.toList_ofList]
      rfl
    rw [List.map_cons, List.foldlM_cons, h1]
    simp only [bind, Except.bind]
    exact ih _

/-- A written property is never read without an error. -/
theorem read_property (P : Parsers) (st : ReadState) (kv : String × Val) (e : XElem) (h : writeProperty kv = .ok e) :
    ∃ x, readChild P st e = .error x := by
  obtain ⟨k, v⟩ := kv
  cases v with
  | str s =>
    cases h
    have hstrip : stripNs "string" = "string" := by decide
    have hv : isValueTag (.mk "string" [(k, s)] []) = true := by
      have aux : ∀ e : XElem, e.tag = "string" → isValueTag e = true := by
        intro e h; unfold isValueTag; rw [h, hstrip]; decide
      exact aux _ rfl
    unfold readChild
    simp only [XElem.tag, hstrip, hv]
    rw [if_neg (by decide), if_neg (by decide), if_neg (by decide), if_pos trivial]
    refine ⟨.keyError, ?_⟩
    unfold readValueInto parseValueTag
    simp only [XElem.attrib]
    by_cases hk : k = "value"
    · subst hk
      have h1 : Dict.getE [("value", s)] "value" = .ok s := by simp [Dict.getE, Dict.get?]
      have h2 : Dict.getE [("value", s)] "key" = .error .keyError := by simp [Dict.getE, Dict.get?]
      rw [h1, h2]
      simp [bind, Except.bind, parseByTag, XElem.tag, hstrip]
    · have h1 : Dict.getE [(k, s)] "value" = .error .keyError := by simp [Dict.getE, Dict.get?, hk]
      rw [h1]
      rfl
  | _ => cases h

/-- Global values as they are read. -/
def readBackGlobals (d : Dict String Val) : Dict String Val := d.map (fun kv => (kv.1, .str kv.2.toStr))

theorem fold_global_all (l : Dict String Val) (els : List XElem) (d : Dict String Val)
    (h : List.Forall₂ (fun kv e => createValueTag kv.1 kv.2 = .ok e) l els) :
    els.foldlM readGlobalChild d = .ok (Dict.update d (readBackGlobals l)) := by
  induction h generalizing d with
  | nil => rfl
  | @cons kv e l els hkv _ ih =>
    obtain ⟨k, v⟩ := kv
    have h1 : readGlobalChild d e = .ok (d.set k (.str v.toStr)) := by
      unfold createValueTag at hkv
      cases ht : v.tagName with
      | none => simp only [ht] at hkv; cases hkv
      | some t =>
        simp only [ht] at hkv
        cases hkv
        simp [readGlobalChild, XElem.attrib, Dict.getE, Dict.get?, bind, Except.bind, pure, Except.pure]
    rw [List.foldlM_cons, h1]
    simp only [bind, Except.bind]
    exact ih _

theorem writeGlobal_inv {kv : String × Dict String Val} {el : XElem} (h : writeGlobal kv = .ok el) :
    ∃ cels, List.Forall₂ (fun kv e => createValueTag kv.1 kv.2 = .ok e) kv.2 cels ∧ el = .mk "global" [("scope", kv.1)] cels := by
  unfold writeGlobal at h
  cases hc : kv.2.mapM (fun e => createValueTag e.1 e.2) with
  | error x => rw [hc] at h; cases h
  | ok cels =>
    rw [hc] at h
    cases h
    exact ⟨cels, mapM_ok_inv (f := fun e : String × Val => createValueTag e.1 e.2) hc, rfl⟩

theorem read_globals_all (P : Parsers) (gs : Dict String (Dict String Val)) (els : List XElem) (st : ReadState)
    (hwf : ∀ s d, (s, d) ∈ gs → d.WF) (hfresh : (st.log.globals.keys ++ Dict.keys gs).Nodup)
    (h : List.Forall₂ (fun kv el => writeGlobal kv = .ok el) gs els) :
    els.foldlM (readChild P) st = .ok { st with log := { st.log with
      globals := Dict.update st.log.globals (gs.map (fun kv => (kv.1, readBackGlobals kv.2))) } } := by
  induction h generalizing st with
  | nil => rfl
  | @cons kv el gs els hw _ ih =>
    obtain ⟨s, d⟩ := kv
    have hf2 : (st.log.globals.keys ++ s :: Dict.keys gs).Nodup := hfresh
    have hnot : s ∉ st.log.globals.keys := by
      intro hm; exact (List.nodup_append.1 hf2).2.2 s hm s (by simp) rfl
    obtain ⟨cels, hc, rfl⟩ := writeGlobal_inv hw
    have h1 : readChild P st (.mk "global" [("scope", s)] cels) =
        .ok { st with log := { st.log with globals := st.log.globals.set s (readBackGlobals d) } } := by
      have hstrip : stripNs "global" = "global" := by decide
      have hv : isValueTag (.mk "global" [("scope", s)] cels) = false := by
        have aux : ∀ e : XElem, e.tag = "global" → isValueTag e = false := by
          intro e h; unfold isValueTag; rw [h, hstrip]; decide
        exact aux _ rfl
      have hget : Dict.getE [("scope", s)] "scope" = .ok s := by simp [Dict.getE, Dict.get?]
      have hfr := fold_global_all d cels [] hc
      rw [update_nil (readBackGlobals d) (WF_mapValues (fun v : Val => Val.str v.toStr) (hwf s d (by simp)))] at hfr
      unfold readChild
      simp only [XElem.tag, XElem.attrib, XElem.children, hstrip, hv]
      rw [if_neg (by decide), if_neg (by decide), if_neg (by decide), if_neg (by decide), if_pos trivial, hget]
      simp only [bind, Except.bind]
      rw [(Dict.get?_eq_none_iff _ _).2 hnot]
      simp only [Option.getD_none]
      rw [hfr]
      rfl
    rw [List.foldlM_cons, h1]
    simp only [bind, Except.bind]
    exact ih { st with log := { st.log with globals := st.log.globals.set s (readBackGlobals d) } }
      (fun s d hm => hwf s d (by simp [hm])) (by
        simp only [Dict.keys_set, hnot, if_false]
        simpa using hf2)

theorem readBackGlobals_eq_iff (d : Dict String Val) : readBackGlobals d = d ↔ ∀ k v, (k, v) ∈ d → ∃ t, v = .str t := by
  unfold readBackGlobals
  induction d with
  | nil => simp
  | cons x d ih =>
    obtain ⟨k, v⟩ := x
    rw [List.map_cons, List.cons.injEq, ih]
    constructor
    · rintro ⟨h1, h2⟩ k' v' hm
      rcases List.mem_cons.1 hm with hm | hm
      · cases hm; exact ⟨_, (Prod.mk.inj h1).2.symm⟩
      · exact h2 k' v' hm
    · intro h
      refine ⟨?_, fun k' v' hm => h k' v' (by simp [hm])⟩
      obtain ⟨t, rfl⟩ := h k v (by simp)
      rfl

theorem writeXes_inv {log : Log Payload} {el : XElem} (h : writeXes log = .ok el) :
    ∃ props globals traces, log.properties.mapM writeProperty = .ok props ∧ log.globals.mapM writeGlobal = .ok globals ∧
      log.traces.mapM (writeTrace log.globals) = .ok traces ∧
      el = .mk "log" (Dict.update [] log.attributes)
        (log.extensions.map writeExtension ++ log.classifiers.map writeClassifier ++ props ++ globals ++ traces) := by
  unfold writeXes at h
  simp only [bind, Except.bind] at h
  cases h2 : log.globals.mapM writeGlobal with
  | error x => rw [h2] at h; cases h
  | ok globals =>
    rw [h2] at h
    simp only at h
    cases h3 : log.traces.mapM (writeTrace log.globals) with
    | error x => rw [h3] at h; cases h
    | ok traces =>
      rw [h3] at h
      simp only at h
      cases h1 : log.properties.mapM writeProperty with
      | error x => rw [h1] at h; cases h
      | ok props =>
        rw [h1] at h
        cases h
        exact ⟨props, globals, traces, rfl, rfl, rfl, rfl⟩

/-- What comes back from XES, when something does. -/
theorem round_trip_result (P : Parsers) (log r : Log Payload) (el : XElem) (hp : ProperLog log)
    (hw : writeXes log = .ok el) (hr : readXes P el = .ok r) :
    log.properties = [] ∧ ∃ E tels ts,
      (∀ n c, Dict.get? E n = some c → ∃ p u, c = [("prefix", p), ("uri", u)]) ∧
      List.Forall₂ (fun t el => writeTrace log.globals t = .ok el) log.traces tels ∧
      List.Forall₂ (fun el t => readTrace P (log.globals.map (fun kv => (kv.1, readBackGlobals kv.2))) el = .ok t) tels ts ∧
      r = { attributes := log.attributes, extensions := E,
            classifiers := log.classifiers.map (fun kv => (kv.1, readBackKeys kv.2)),
            globals := log.globals.map (fun kv => (kv.1, readBackGlobals kv.2)), traces := ts } := by
  obtain ⟨props, gels, tels, hpw, hgw, htw, rfl⟩ := writeXes_inv hw
  unfold readXes at hr
  simp only [XElem.children, XElem.attrib, bind, Except.bind] at hr
  cases hf : (log.extensions.map writeExtension ++ log.classifiers.map writeClassifier ++ props ++ gels ++ tels).foldlM
      (readChild P) { log := { attributes := Dict.update [] (Dict.update [] log.attributes) } } with
  | error x => rw [hf] at hr; cases hr
  | ok st =>
    rw [hf] at hr
    simp only at hr
    cases hts : st.traces.mapM (readTrace P st.log.globals) with
    | error x => rw [hts] at hr; cases hr
    | ok ts =>
      rw [hts] at hr
      cases hr
      obtain ⟨st4, h4, h5⟩ := foldlM_append_inv hf
      obtain ⟨st3, h3, h4⟩ := foldlM_append_inv h4
      obtain ⟨st2, h2, h3⟩ := foldlM_append_inv h3
      obtain ⟨st1, h1, h2⟩ := foldlM_append_inv h2
      obtain ⟨E, rfl, hE⟩ := read_extensions_inv P _ _ _ h1
      rw [read_classifiers_all] at h2
      cases h2
      have hprops : log.properties = [] := by
        cases hl : log.properties with
        | nil => rfl
        | cons kv ps =>
          rw [hl] at hpw
          cases mapM_ok_inv hpw with
          | cons hkv _ =>
            obtain ⟨s1, e1, -⟩ := foldlM_cons_inv h3
            obtain ⟨x, hx⟩ := read_property P _ kv _ hkv
            rw [hx] at e1; cases e1
      rw [hprops] at hpw
      cases hpw
      cases h3
      rw [read_globals_all P log.globals gels _ hp.globalScopes (by
        show ([] ++ log.globals.keys).Nodup
        rw [List.nil_append]; exact hp.globals) (mapM_ok_inv hgw)] at h4
      cases h4
      rw [read_collect_traces P tels _ (by
        intro el hel
        have h := mapM_ok_inv htw
        clear htw h5 hw hf hts
        generalize log.traces = l at h
        induction h with
        | nil => cases hel
        | cons h _ ih =>
          rcases List.mem_cons.1 hel with rfl | hel
          · obtain ⟨_, _, _, _, rfl⟩ := writeTrace_inv h; rfl
          · exact ih hel)] at h5
      cases h5
      simp only [List.nil_append, update_nil _ hp.attributes, update_nil _ (WF_mapValues readBackGlobals hp.globals),
        update_nil _ (WF_mapValues readBackKeys hp.classifiers)] at hts ⊢
      refine ⟨hprops, E, tels, ts, ?_, mapM_ok_inv htw, mapM_ok_inv hts, rfl⟩
      intro n c hn
      rcases hE n c hn with h' | h'
      · cases h'
      · exact h'

/-- A log that comes back with the same content is a safe one. -/
theorem xes_round_trip_inv (P : Parsers) (log r : Log Payload) (el : XElem) (hp : ProperLog log)
    (hw : writeXes log = .ok el) (hr : readXes P el = .ok r) (hs : SameLog log r) : SafeLog P log := by
  obtain ⟨hprops, E, tels, ts, hE, htw, hts, rfl⟩ := round_trip_result P log r el hp hw hr
  obtain ⟨-, hext, hcls, -, hglob, htr⟩ := hs
  simp only at hext hcls hglob htr
  have hglobals : ∀ s d, (s, d) ∈ log.globals → d.WF ∧ ∀ k v, (k, v) ∈ d → ∃ t, v = .str t := by
    intro s d hsd
    refine ⟨hp.globalScopes s d hsd, ?_⟩
    have h := hglob s
    rw [get?_mapValues, Dict.get?_of_mem hp.globals hsd] at h
    exact (readBackGlobals_eq_iff d).1 (Option.some.inj h).symm
  have hsame : log.globals.map (fun kv => (kv.1, readBackGlobals kv.2)) = log.globals := by
    conv => rhs; rw [← List.map_id log.globals]
    apply List.map_congr_left
    rintro ⟨s, d⟩ hsd
    simp only [id_eq, Prod.mk.injEq, true_and]
    exact (readBackGlobals_eq_iff d).2 (hglobals s d hsd).2
  rw [hsame] at hts
  refine ⟨hp.attributes, hp.extensions, ?_, hp.classifiers, ?_, hprops, hp.globals, hglobals, ?_⟩
  · intro n c hnc
    refine ⟨hp.extensionConfs n c hnc, ?_⟩
    have h := hext n
    rw [Dict.get?_of_mem hp.extensions hnc] at h
    cases hn : E.get? n with
    | none => rw [hn] at h; cases h
    | some c' =>
      rw [hn] at h
      cases h with
      | some h =>
        obtain ⟨p, u, rfl⟩ := hE n c' hn
        exact ⟨p, u, h⟩
  · intro n ks hnk
    have h := hcls n
    rw [get?_mapValues, Dict.get?_of_mem hp.classifiers hnk] at h
    exact (readBackKeys_eq_iff ks).1 (Option.some.inj h).symm
  · exact traces_inv P hp.traces (fun s g hg => hglobals s g (Dict.mem_of_get? hg)) htw hts htr

/-! ### Logs that were read from XES -/

theorem mem_dict_set {V : Type} {d : Dict String V} {k k' : String} {v v' : V} (h : (k, v) ∈ d.set k' v') :
    (k, v) = (k', v') ∨ (k, v) ∈ d := by
  induction d with
  | nil => simpa [Dict.set] using h
  | cons x d ih =>
    obtain ⟨a, b⟩ := x
    unfold Dict.set at h
    split at h
    · rcases List.mem_cons.1 h with h | h
      · exact .inl h
      · exact .inr (by simp [h])
    · rcases List.mem_cons.1 h with h | h
      · exact .inr (by simp [h])
      · rcases ih h with h | h
        · exact .inl h
        · exact .inr (by simp [h])

theorem WF_update {V : Type} (l : Dict String V) {d : Dict String V} (hd : d.WF) : (Dict.update d l).WF := by
  induction l generalizing d with
  | nil => exact hd
  | cons x l ih => exact ih (Dict.WF_set hd x.1 x.2)

/-- A dictionary with keys at least `ks` and values of the supported types. -/
structure ReadPayload (ks : List String) (d : Dict String Val) : Prop where
  wf : d.WF
  notOther : ∀ k v, (k, v) ∈ d → ∀ t, v ≠ .other t
  keys : ∀ k ∈ ks, k ∈ d.keys

theorem parseByTag_notOther {P : Parsers} (hP : TypedParsers P) {tag s : String} {v : Val} (h : parseByTag P tag s = .ok v) :
    ∀ t, v ≠ .other t := by
  rintro t rfl
  unfold parseByTag at h
  split at h
  · cases h
  split at h
  · obtain ⟨t, h'⟩ := hP.2 _ _ h; cases h'
  split at h
  · cases hi : P.int s <;> rw [hi] at h <;> cases h
  split at h
  · obtain ⟨t, h'⟩ := hP.1 _ _ h; cases h'
  split at h
  · cases h
  · cases h

theorem ReadPayload.read {P : Parsers} (hP : TypedParsers P) {ks : List String} {d d' : Dict String Val} {e : XElem}
    (hd : ReadPayload ks d) (h : readValueInto P d e = .ok d') : ReadPayload ks d' := by
  unfold readValueInto parseValueTag at h
  cases h1 : e.attrib.getE "value" with
  | error x => rw [h1] at h; cases h
  | ok s =>
    cases h2 : parseByTag P (stripNs e.tag) s with
    | error x => simp only [h1, h2, bind, Except.bind] at h; cases h
    | ok v =>
      cases h3 : e.attrib.getE "key" with
      | error x => simp only [h1, h2, h3, bind, Except.bind] at h; cases h
      | ok k =>
        simp only [h1, h2, h3, bind, Except.bind] at h
        cases h
        refine ⟨Dict.WF_set hd.wf _ _, ?_, fun a ha => (Dict.mem_keys_set _ _ _ _).2 (.inr (hd.keys a ha))⟩
        intro a b hab
        rcases mem_dict_set hab with hab | hab
        · cases hab; exact parseByTag_notOther hP h2
        · exact hd.notOther a b hab

/-- What is true of a log while it is read, before the traces. -/
structure ReadInv (log : Log Payload) : Prop where
  attributes : log.attributes.WF
  extensions : log.extensions.WF
  extensionsShape : ∀ n c, (n, c) ∈ log.extensions → ∃ p u, c = [("prefix", p), ("uri", u)]
  classifiers : log.classifiers.WF
  classifierKeys : ∀ n ks, (n, ks) ∈ log.classifiers → ks ≠ [] ∧ ∀ k ∈ ks, ' ' ∉ k.toList
  properties : log.properties.WF
  globals : log.globals.WF
  globalScopes : ∀ s d, (s, d) ∈ log.globals → d.WF ∧ ∀ k v, (k, v) ∈ d → ∃ t, v = .str t

theorem fold_global_inv {els : List XElem} {d d' : Dict String Val} (h : els.foldlM readGlobalChild d = .ok d')
    (hd : d.WF ∧ ∀ k v, (k, v) ∈ d → ∃ t, v = .str t) : d'.WF ∧ ∀ k v, (k, v) ∈ d' → ∃ t, v = .str t := by
  induction els generalizing d with
  | nil => cases h; exact hd
  | cons e els ih =>
    obtain ⟨d1, h1, h2⟩ := foldlM_cons_inv h
    refine ih h2 ?_
    unfold readGlobalChild at h1
    cases e1 : e.attrib.getE "value" with
    | error x => rw [e1] at h1; cases h1
    | ok v =>
      cases e2 : e.attrib.getE "key" with
      | error x => simp only [e1, e2, bind, Except.bind] at h1; cases h1
      | ok k =>
        simp only [e1, e2, bind, Except.bind] at h1
        cases h1
        refine ⟨Dict.WF_set hd.1 _ _, fun a b hab => ?_⟩
        rcases mem_dict_set hab with hab | hab
        · cases hab; exact ⟨v, rfl⟩
        · exact hd.2 a b hab

theorem readChild_inv {P : Parsers} {st st' : ReadState} {e : XElem} (hi : ReadInv st.log)
    (h : readChild P st e = .ok st') : ReadInv st'.log := by
  unfold readChild at h
  dsimp only at h
  split at h
  · cases h; exact hi
  split at h
  · cases e1 : e.attrib.getE "name" with
    | error x => rw [e1] at h; cases h
    | ok n =>
      cases e2 : e.attrib.getE "prefix" with
      | error x => simp only [e1, e2, bind, Except.bind] at h; cases h
      | ok p =>
        cases e3 : e.attrib.getE "uri" with
        | error x => simp only [e1, e2, e3, bind, Except.bind] at h; cases h
        | ok u =>
          simp only [e1, e2, e3, bind, Except.bind] at h
          cases h
          refine ⟨hi.1, Dict.WF_set hi.2 _ _, ?_, hi.4, hi.5, hi.6, hi.7, hi.8⟩
          intro a c hac
          rcases mem_dict_set hac with hac | hac
          · cases hac; exact ⟨p, u, rfl⟩
          · exact hi.extensionsShape a c hac
  split at h
  · cases e1 : e.attrib.getE "name" with
    | error x => rw [e1] at h; cases h
    | ok n =>
      cases e2 : e.attrib.getE "keys" with
      | error x => simp only [e1, e2, bind, Except.bind] at h; cases h
      | ok k =>
        simp only [e1, e2, bind, Except.bind] at h
        cases h
        refine ⟨hi.1, hi.2, hi.3, Dict.WF_set hi.4 _ _, ?_, hi.6, hi.7, hi.8⟩
        intro a c hac
        rcases mem_dict_set hac with hac | hac
        · cases hac
          refine ⟨fun h => splitLoop_ne_nil _ _ _ _ (List.map_eq_nil_iff.1 h), fun x hx => ?_⟩
          obtain ⟨y, hy, rfl⟩ := List.mem_map.1 hx
          simpa using splitLoop_free ' ' [] _ (by simp) y hy
        · exact hi.classifierKeys a c hac
  split at h
  · cases e1 : readValueInto P st.log.properties e with
    | error x => rw [e1] at h; cases h
    | ok d =>
      simp only [e1, bind, Except.bind] at h
      cases h
      refine ⟨hi.1, hi.2, hi.3, hi.4, hi.5, ?_, hi.7, hi.8⟩
      unfold readValueInto at e1
      cases e2 : parseValueTag P e with
      | error x => rw [e2] at e1; cases e1
      | ok v =>
        cases e3 : e.attrib.getE "key" with
        | error x => simp only [e2, e3, bind, Except.bind] at e1; cases e1
        | ok k =>
          simp only [e2, e3, bind, Except.bind] at e1
          cases e1
          exact Dict.WF_set hi.6 _ _
  split at h
  · cases e1 : e.attrib.getE "scope" with
    | error x => rw [e1] at h; cases h
    | ok s =>
      cases e2 : e.children.foldlM readGlobalChild ((st.log.globals.get? s).getD []) with
      | error x => simp only [e1, e2, bind, Except.bind] at h; cases h
      | ok d =>
        simp only [e1, e2, bind, Except.bind] at h
        cases h
        refine ⟨hi.1, hi.2, hi.3, hi.4, hi.5, hi.6, Dict.WF_set hi.7 _ _, ?_⟩
        intro a c hac
        rcases mem_dict_set hac with hac | hac
        · cases hac
          refine fold_global_inv e2 ?_
          cases hg : st.log.globals.get? s with
          | none => exact ⟨Dict.WF_nil, by simp⟩
          | some g => exact hi.globalScopes s g (Dict.mem_of_get? hg)
        · exact hi.globalScopes a c hac
  · cases h; exact hi

theorem readChildren_inv {P : Parsers} {els : List XElem} {st st' : ReadState} (hi : ReadInv st.log)
    (h : els.foldlM (readChild P) st = .ok st') : ReadInv st'.log := by
  induction els generalizing st with
  | nil => cases h; exact hi
  | cons e els ih =>
    obtain ⟨s1, h1, h2⟩ := foldlM_cons_inv h
    exact ih (readChild_inv hi h1) h2

/-- The keys that have a default in a scope. -/
def defaultKeys (globals : Dict String (Dict String Val)) (scope : String) : List String :=
  match globals.get? scope with
  | some g => g.keys
  | none => []

theorem applyGlobals_inv {log : Log Payload} (hi : ReadInv log) (scope : String) :
    ReadPayload (defaultKeys log.globals scope) (applyGlobals log.globals scope) := by
  unfold defaultKeys applyGlobals
  cases hg : log.globals.get? scope with
  | none => exact ⟨Dict.WF_nil, by simp, by simp⟩
  | some g =>
    obtain ⟨h1, h2⟩ := hi.globalScopes scope g (Dict.mem_of_get? hg)
    simp only
    rw [update_nil g h1]
    refine ⟨h1, fun k v hkv t => ?_, fun k hk => hk⟩
    obtain ⟨s, rfl⟩ := h2 k v hkv
    simp

theorem readEvent_inv {P : Parsers} (hP : TypedParsers P) {log : Log Payload} (hi : ReadInv log) {el : XElem} {e : Payload}
    (h : readEvent P log.globals el = .ok e) : ReadPayload (defaultKeys log.globals "event") e := by
  unfold readEvent at h
  have hd := applyGlobals_inv hi "event"
  generalize applyGlobals log.globals "event" = d at h hd
  generalize el.children = cs at h
  induction cs generalizing d with
  | nil => cases h; exact hd
  | cons c cs ih =>
    obtain ⟨s1, h1, h2⟩ := foldlM_cons_inv h
    split at h1
    · exact ih _ (hd.read hP h1) h2
    · cases h1; exact ih _ hd h2

theorem readTrace_inv {P : Parsers} (hP : TypedParsers P) {log : Log Payload} (hi : ReadInv log) {el : XElem}
    {t : Trace Payload} (h : readTrace P log.globals el = .ok t) :
    ReadPayload (defaultKeys log.globals "trace") t.attributes ∧
      ∀ e ∈ t.events, ReadPayload (defaultKeys log.globals "event") e := by
  unfold readTrace at h
  have hd : ReadPayload (defaultKeys log.globals "trace")
      ({ events := [], attributes := applyGlobals log.globals "trace" } : Trace Payload).attributes ∧
      ∀ e ∈ ({ events := [], attributes := applyGlobals log.globals "trace" } : Trace Payload).events,
        ReadPayload (defaultKeys log.globals "event") e := ⟨applyGlobals_inv hi "trace", by simp⟩
  generalize ({ events := [], attributes := applyGlobals log.globals "trace" } : Trace Payload) = t0 at h hd
  generalize el.children = cs at h
  induction cs generalizing t0 with
  | nil => cases h; exact hd
  | cons c cs ih =>
    obtain ⟨s1, h1, h2⟩ := foldlM_cons_inv h
    refine ih s1 ?_ h2
    unfold readTraceChild at h1
    split at h1
    · cases e1 : readValueInto P t0.attributes c with
      | error x => rw [e1] at h1; cases h1
      | ok a => rw [e1] at h1; cases h1; exact ⟨hd.1.read hP e1, hd.2⟩
    split at h1
    · cases e1 : readEvent P log.globals c with
      | error x => rw [e1] at h1; cases h1
      | ok a =>
        rw [e1] at h1; cases h1
        refine ⟨hd.1, fun e he => ?_⟩
        rcases List.mem_append.1 he with he | he
        · exact hd.2 e he
        · obtain rfl := List.mem_singleton.1 he; exact readEvent_inv hP hi e1
    · cases h1; exact hd

theorem readXes_inv {P : Parsers} (hP : TypedParsers P) {el : XElem} {log : Log Payload} (h : readXes P el = .ok log) :
    ReadInv log ∧ ∀ t ∈ log.traces, ReadPayload (defaultKeys log.globals "trace") t.attributes ∧
      ∀ e ∈ t.events, ReadPayload (defaultKeys log.globals "event") e := by
  unfold readXes at h
  simp only [bind, Except.bind] at h
  cases h1 : el.children.foldlM (readChild P) { log := { attributes := Dict.update [] el.attrib } } with
  | error x => rw [h1] at h; cases h
  | ok st =>
    rw [h1] at h
    simp only at h
    cases h2 : st.traces.mapM (readTrace P st.log.globals) with
    | error x => rw [h2] at h; cases h
    | ok ts =>
      rw [h2] at h
      cases h
      have hi : ReadInv st.log := readChildren_inv (st := { log := { attributes := Dict.update [] el.attrib } })
        ⟨WF_update _ Dict.WF_nil, Dict.WF_nil, by simp, Dict.WF_nil, by simp, Dict.WF_nil, Dict.WF_nil, by simp⟩ h1
      refine ⟨⟨hi.1, hi.2, hi.3, hi.4, hi.5, hi.6, hi.7, hi.8⟩, ?_⟩
      have hf := mapM_ok_inv h2
      clear h2 h1
      generalize st.traces = els at hf
      show ∀ t ∈ ts, _
      induction hf with
      | nil => simp
      | cons h _ ih =>
        intro t ht
        rcases List.mem_cons.1 ht with rfl | ht
        · exact readTrace_inv hP hi h
        · exact ih t ht

theorem ReadPayload.safe_iff {P : Parsers} {globals : Dict String (Dict String Val)} {scope : String} {d : Dict String Val}
    (h : ReadPayload (defaultKeys globals scope) d) : SafePayload P (globals.get? scope) d ↔ SafeValues P d := by
  constructor
  · intro hs k v hkv; exact ⟨hs.notFalse k v hkv, hs.parses k v hkv⟩
  · intro hv
    refine ⟨h.wf, h.notOther, fun k v hkv => (hv k v hkv).1, fun k v hkv => (hv k v hkv).2, ?_⟩
    intro g hg k hk
    refine h.keys k ?_
    unfold defaultKeys
    rw [hg]; exact hk

/-! ### The second round trip -/

theorem created_stable {P : Parsers} (hP : StableParsers P) {d d' : Dict String Val} {k : String} {v : Val} {e : XElem}
    (h : createValueTag k v = .ok e) (hd : SafeValues P d) (hr : readValueInto P d e = .ok d') : SafeValues P d' := by
  have aux : ∀ v', d' = d.set k v' → (v' ≠ .bool false ∧ ParsesBack P v') → SafeValues P d' := by
    rintro v' rfl hv a b hab
    rcases mem_dict_set hab with hab | hab
    · cases hab; exact hv
    · exact hd a b hab
  unfold createValueTag at h
  cases v with
  | str s =>
    simp only [Val.tagName] at h; cases h
    have : stripNs "string" = "string" := by decide
    simp [readValueInto, parseValueTag, parseByTag, XElem.tag, XElem.attrib, this, Dict.getE, Dict.get?, bind, Except.bind, pure, Except.pure, Val.toStr] at hr
    exact aux _ hr.symm ⟨by simp, trivial⟩
  | int i =>
    simp only [Val.tagName] at h; cases h
    have : stripNs "int" = "int" := by decide
    simp [readValueInto, parseValueTag, parseByTag, XElem.tag, XElem.attrib, this, Dict.getE, Dict.get?, bind, Except.bind, pure, Except.pure, Val.toStr] at hr
    cases hp : P.int i.repr with
    | error x => rw [hp] at hr; cases hr
    | ok j =>
      rw [hp] at hr
      cases hr
      exact aux _ rfl ⟨by simp, hP.int j⟩
  | float t =>
    simp only [Val.tagName] at h; cases h
    have : stripNs "float" = "float" := by decide
    simp [readValueInto, parseValueTag, parseByTag, XElem.tag, XElem.attrib, this, Dict.getE, Dict.get?, bind, Except.bind, pure, Except.pure, Val.toStr] at hr
    cases hp : P.float t with
    | error x => rw [hp] at hr; cases hr
    | ok j =>
      rw [hp] at hr
      cases hr
      refine aux _ rfl ⟨?_, hP.float _ _ hp⟩
      obtain ⟨t', rfl⟩ := hP.typed.1 _ _ hp
      simp
  | date t =>
    simp only [Val.tagName] at h; cases h
    have : stripNs "date" = "date" := by decide
    simp [readValueInto, parseValueTag, parseByTag, XElem.tag, XElem.attrib, this, Dict.getE, Dict.get?, bind, Except.bind, pure, Except.pure, Val.toStr] at hr
    cases hp : P.date t with
    | error x => rw [hp] at hr; cases hr
    | ok j =>
      rw [hp] at hr
      cases hr
      refine aux _ rfl ⟨?_, hP.date _ _ hp⟩
      obtain ⟨t', rfl⟩ := hP.typed.2 _ _ hp
      simp
  | bool b =>
    simp only [Val.tagName] at h; cases h
    have : stripNs "boolean" = "boolean" := by decide
    cases b <;>
      simp [readValueInto, parseValueTag, parseByTag, XElem.tag, XElem.attrib, this, Dict.getE, Dict.get?, bind, Except.bind, pure, Except.pure, Val.toStr] at hr
    · exact aux _ hr.symm ⟨by simp, trivial⟩
    · exact aux _ hr.symm ⟨by simp, trivial⟩
  | other t => simp only [Val.tagName] at h; cases h

theorem applyGlobals_stable (P : Parsers) (globals : Dict String (Dict String Val)) (scope : String)
    (hg : ∀ s g, globals.get? s = some g → g.WF ∧ ∀ k v, (k, v) ∈ g → ∃ t, v = .str t) :
    SafeValues P (applyGlobals globals scope) := by
  unfold applyGlobals
  cases h : globals.get? scope with
  | none => exact fun k v h => by cases h
  | some g =>
    simp only
    rw [update_nil g (hg _ g h).1]
    intro k v hkv
    obtain ⟨t, rfl⟩ := (hg _ g h).2 k v hkv
    exact ⟨by simp, trivial⟩

theorem readEvent_stable {P : Parsers} (hP : StableParsers P) {globals globals' : Dict String (Dict String Val)} {e r : Payload}
    {el : XElem} (hg : ∀ s g, globals'.get? s = some g → g.WF ∧ ∀ k v, (k, v) ∈ g → ∃ t, v = .str t)
    (hw : writeEvent globals e = .ok el) (hr : readEvent P globals' el = .ok r) : SafeValues P r := by
  unfold writeEvent at hw
  cases hp : writePayload globals "event" e with
  | error x => rw [hp] at hw; cases hw
  | ok els =>
    rw [hp] at hw
    cases hw
    have hc := writePayload_inv hp
    have hd := applyGlobals_stable P globals' "event" hg
    unfold readEvent at hr
    simp only [XElem.children] at hr
    generalize applyGlobals globals' "event" = d at hr hd
    clear hp
    generalize writtenEntries globals "event" e = l at hc
    induction hc generalizing d with
    | nil => cases hr; exact hd
    | cons hkv _ ih =>
      obtain ⟨s1, h1, h2⟩ := foldlM_cons_inv hr
      rw [if_pos (isValueTag_created hkv)] at h1
      exact ih _ h2 (created_stable hP hkv hd h1)

theorem readTrace_stable {P : Parsers} (hP : StableParsers P) {globals globals' : Dict String (Dict String Val)}
    {t r : Trace Payload} {el : XElem}
    (hg : ∀ s g, globals'.get? s = some g → g.WF ∧ ∀ k v, (k, v) ∈ g → ∃ t, v = .str t)
    (hw : writeTrace globals t = .ok el) (hr : readTrace P globals' el = .ok r) :
    SafeValues P r.attributes ∧ ∀ e ∈ r.events, SafeValues P e := by
  obtain ⟨attrs, evs, h1, h2, rfl⟩ := writeTrace_inv hw
  unfold readTrace at hr
  simp only [XElem.children] at hr
  obtain ⟨t1, hr1, hr2⟩ := foldlM_append_inv hr
  have hattr : SafeValues P t1.attributes ∧ t1.events = [] := by
    have hc := writePayload_inv h1
    have hd : SafeValues P ({ events := [], attributes := applyGlobals globals' "trace" } : Trace Payload).attributes ∧
        ({ events := [], attributes := applyGlobals globals' "trace" } : Trace Payload).events = [] :=
      ⟨applyGlobals_stable P globals' "trace" hg, rfl⟩
    generalize ({ events := [], attributes := applyGlobals globals' "trace" } : Trace Payload) = t0 at hr1 hd
    clear h1 hr hr2 hw
    generalize writtenEntries globals "trace" t.attributes = l at hc
    induction hc generalizing t0 with
    | nil => cases hr1; exact hd
    | @cons kv e l els hkv _ ih =>
      obtain ⟨s1, e1, e2⟩ := foldlM_cons_inv hr1
      refine ih _ e2 ?_
      unfold readTraceChild at e1
      rw [isValueTag_created hkv] at e1
      simp only [if_true] at e1
      cases hv : readValueInto P t0.attributes e with
      | error x => rw [hv] at e1; cases e1
      | ok a =>
        rw [hv] at e1
        cases e1
        exact ⟨created_stable hP hkv hd.1 hv, hd.2⟩
  have hf := mapM_ok_inv h2
  obtain ⟨rs, hrs, rfl⟩ : ∃ rs, List.Forall₂ (fun el r => readEvent P globals' el = .ok r) evs rs ∧
      r = { t1 with events := t1.events ++ rs } := by
    clear hattr hr1 hr h2 hw h1
    generalize t.events = es at hf
    induction hf generalizing t1 with
    | nil => cases hr2; exact ⟨[], .nil, by simp⟩
    | @cons e el evs els hw _ ih =>
      obtain ⟨s1, e1, e2⟩ := foldlM_cons_inv hr2
      have htag := writeEvent_tag hw
      unfold readTraceChild at e1
      rw [isValueTag_event el htag, htag] at e1
      have hstrip : stripNs "event" = "event" := by decide
      simp only [Bool.false_eq_true, if_false, hstrip, if_true] at e1
      cases hv : readEvent P globals' el with
      | error x => rw [hv] at e1; cases e1
      | ok a =>
        rw [hv] at e1
        cases e1
        obtain ⟨rs, hl, he⟩ := ih _ e2
        exact ⟨a :: rs, .cons hv hl, by rw [he]; simp⟩
  refine ⟨hattr.1, ?_⟩
  rw [hattr.2, List.nil_append]
  show ∀ e ∈ rs, SafeValues P e
  clear hr2 hr h2 hw
  generalize t.events = es at hf
  induction hf generalizing rs with
  | nil => cases hrs; simp
  | cons hw _ ih =>
    cases hrs with
    | cons hr hrs =>
      intro x hx
      rcases List.mem_cons.1 hx with rfl | hx
      · exact readEvent_stable hP hg hw hr
      · exact ih _ hrs x hx

end Ficus
