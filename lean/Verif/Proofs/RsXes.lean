import Verif.Spec.RsXes
import Verif.Proofs.Dict
import Mathlib.Data.List.Induction
import Mathlib.Data.List.Forall2

/-! Helper lemmas for XES files in the backend. -/

namespace Ficus.RsXes
open Spec

variable {D F U : Type}

/-! ### Tags -/

theorem attr_mem {attrs : List (String × String)} {n v : String} (h : attr? attrs n = some v) : (n, v) ∈ attrs := Dict.mem_of_get? h

theorem payloadTag_readable {c : Codec D F U} {attrs : List (String × String)} (h : AttrsReadable c attrs) :
    payloadTag c attrs = .ok (keyText c attrs) := by
  unfold payloadTag keyText
  cases hk : attr? attrs "key" with
  | none => rfl
  | some k =>
    cases hv : attr? attrs "value" with
    | none => rfl
    | some v =>
      obtain ⟨k', hk'⟩ := h _ (attr_mem hk)
      obtain ⟨v', hv'⟩ := h _ (attr_mem hv)
      simp only at hk' hv'
      simp [hk', hv']

theorem readField_readable {c : Codec D F U} {attrs : List (String × String)} (h : AttrsReadable c attrs) (tag : String) :
    readField c tag attrs = .ok (field c (tag, attrs)) := by
  unfold readField field
  rw [payloadTag_readable h]
  cases keyText c attrs with
  | none => rfl
  | some kt =>
    obtain ⟨k, t⟩ := kt
    simp only [Option.bind_eq_bind, Option.bind_some]
    cases extractValue c tag t <;> rfl

/-- A property more. -/
def addField (c : Codec D F U) (x : String × List (String × String)) (l : Log D F U) : Log D F U :=
  match field c x with
  | some p => { l with properties := l.properties ++ [p] }
  | none => l

theorem readProperty_readable {c : Codec D F U} {attrs : List (String × String)} (h : AttrsReadable c attrs) (tag : String)
    (l : Log D F U) : readProperty c tag attrs l = .ok (addField c (tag, attrs) l) := by
  unfold readProperty addField
  rw [readField_readable h]
  cases field c (tag, attrs) <;> rfl

/-- What a tag outside of traces and globals adds to the log. -/
def addTag (c : Codec D F U) (tag : String) (attrs : List (String × String)) (l : Log D F U) : Log D F U :=
  if tag = "extension" then
    match readExtension attrs with
    | some x => { l with extensions := l.extensions ++ [x] }
    | none => addField c (tag, attrs) l
  else if tag = "classifier" then
    match readClassifier attrs with
    | some x => { l with classifiers := l.classifiers ++ [x] }
    | none => addField c (tag, attrs) l
  else addField c (tag, attrs) l

theorem readTag_readable {c : Codec D F U} {attrs : List (String × String)} (h : AttrsReadable c attrs) (tag : String) (l : Log D F U) :
    readTag c tag attrs l = .ok (addTag c tag attrs l) := by
  unfold readTag addTag
  split
  · cases readExtension attrs
    · exact readProperty_readable h _ _
    · rfl
  · split
    · cases readClassifier attrs
      · exact readProperty_readable h _ _
      · rfl
    · exact readProperty_readable h _ _

theorem field_tag_none {c : Codec D F U} {tag : String} (attrs : List (String × String))
    (h : ∀ text, extractValue c tag text = none) : field c (tag, attrs) = none := by
  unfold field
  cases keyText c attrs with
  | none => rfl
  | some kt => simp [h]

theorem extract_other {c : Codec D F U} {tag : String} (h : tag ∈ ["extension", "classifier", "global", "log", "trace", "event"])
    (text : String) : extractValue c tag text = none := by
  unfold extractValue
  simp only [List.mem_cons, List.not_mem_nil, or_false] at h
  rcases h with rfl | rfl | rfl | rfl | rfl | rfl <;> rfl

/-! ### Inside of events -/

/-- Fields one after the other. -/
def updates (d : Draft D F U) (fields : List (String × Value D F U)) : Draft D F U := fields.foldl (fun d e => d.update e.1 e.2) d

theorem foldlM_append_ok {σ : Type} {f : σ → Token → Except Stop σ} {s s' : σ} {a b : List Token}
    (h : a.foldlM f s = .ok s') : (a ++ b).foldlM f s = b.foldlM f s' := by
  rw [List.foldlM_append, h]
  rfl

theorem event_empty {c : Codec D F U} {attrs : List (String × String)} (h : AttrsReadable c attrs) (tag : String)
    (events : List (Event D F U)) (d : Draft D F U) (l : Log D F U) :
    step c (.event events d, l) (.empty tag attrs) = .ok (.event events (updates d (field c (tag, attrs)).toList), l) := by
  simp only [step, eventStep, readField_readable h]
  cases field c (tag, attrs) with
  | none => rfl
  | some kv => rfl

mutual
theorem event_xml {c : Codec D F U} (events : List (Event D F U)) (l : Log D F U) : ∀ (x : XesNode), x.Readable c → x.Without "event" →
    ∀ d : Draft D F U, x.tokens.foldlM (step c) (.event events d, l) =
      .ok (.event events (updates d (x.empties.filterMap (field c))), l)
  | .node t attrs ch, hr, hw, d => by
    simp only [XesNode.Readable] at hr
    simp only [XesNode.Without] at hw
    have ih := event_forest events l ch hr.2 hw.2 d
    simp only [XesNode.tokens, XesNode.empties, List.foldlM_cons]
    have h1 : step c (.event events d, l) (.start t attrs) = .ok (.event events d, l) := rfl
    rw [h1]
    simp only [bind, Except.bind]
    rw [foldlM_append_ok ih]
    simp only [List.foldlM_cons, List.foldlM_nil, step, eventStep, if_neg hw.1]
    rfl
  | .empty t attrs, hr, hw, d => by
    simp only [XesNode.Readable] at hr
    simp only [XesNode.tokens, XesNode.empties, List.foldlM_cons, List.foldlM_nil, event_empty hr]
    rw [List.filterMap_cons]
    cases field c (t, attrs) <;> rfl
  | .other, _, _, d => rfl
theorem event_forest {c : Codec D F U} (events : List (Event D F U)) (l : Log D F U) : ∀ (xs : List XesNode), ForestReadable c xs →
    ForestWithout "event" xs → ∀ d : Draft D F U, (forestTokens xs).foldlM (step c) (.event events d, l) =
      .ok (.event events (updates d ((emptiesOf xs).filterMap (field c))), l)
  | [], _, _, d => rfl
  | x :: xs, hr, hw, d => by
    simp only [ForestReadable] at hr
    simp only [ForestWithout] at hw
    simp only [forestTokens, emptiesOf]
    rw [foldlM_append_ok (event_xml events l x hr.1 hw.1 d), event_forest events l xs hr.2 hw.2]
    unfold updates
    rw [List.filterMap_append, List.foldl_append]
end

/-! ### Inside of traces -/

/-- The event of an element. -/
def eventRead (c : Codec D F U) (globals : Dict String (Dict String (Value D F U))) (ch : List XesNode) : Option (Event D F U) :=
  (updates (.start globals) (fieldsOf c ch)).finish

mutual
theorem trace_xml {c : Codec D F U} (l : Log D F U) : ∀ (x : XesNode), x.Readable c → x.Without "trace" → x.EventsFlat →
    ∀ events : List (Event D F U), x.tokens.foldlM (step c) (.trace events, l) =
      .ok (.trace (events ++ x.eventElements.filterMap (eventRead c l.globals)), l)
  | .node t attrs ch, hr, hw, hf, events => by
    simp only [XesNode.Readable] at hr
    simp only [XesNode.Without] at hw
    simp only [XesNode.tokens, XesNode.eventElements, List.foldlM_cons]
    by_cases he : t = "event"
    · simp only [XesNode.EventsFlat, if_pos he] at hf
      have h1 : step c (.trace events, l) (.start t attrs) = .ok (.event events (.start l.globals), l) := by
        simp only [step, traceStep, if_pos he]
      rw [h1]
      simp only [bind, Except.bind]
      rw [foldlM_append_ok (event_forest events l ch hr.2 hf _)]
      simp only [List.foldlM_cons, List.foldlM_nil, step, eventStep, if_pos he]
      have : (updates (Draft.start l.globals) ((emptiesOf ch).filterMap (field c))).finish = eventRead c l.globals ch := rfl
      rw [this]
      rw [List.filterMap_cons]
      cases eventRead c l.globals ch with
      | none => simp [bind, Except.bind, pure, Except.pure, Except.map]
      | some e => simp [bind, Except.bind, pure, Except.pure, Except.map]
    · simp only [XesNode.EventsFlat, if_neg he] at hf
      have h1 : step c (.trace events, l) (.start t attrs) = .ok (.trace events, l) := by
        simp only [step, traceStep, if_neg he]
      rw [h1]
      simp only [bind, Except.bind]
      rw [foldlM_append_ok (trace_forest l ch hr.2 hw.2 hf events)]
      simp only [List.foldlM_cons, List.foldlM_nil, step, traceStep, if_neg hw.1, if_neg he]
      rfl
  | .empty t attrs, hr, hw, hf, events => by
    simp only [XesNode.tokens, XesNode.eventElements, List.foldlM_cons, List.foldlM_nil, step, traceStep, List.filterMap_nil, List.append_nil]
    rfl
  | .other, _, _, _, events => by
    simp only [XesNode.tokens, XesNode.eventElements, List.foldlM_cons, List.foldlM_nil, step, traceStep, List.filterMap_nil, List.append_nil]
    rfl
theorem trace_forest {c : Codec D F U} (l : Log D F U) : ∀ (xs : List XesNode), ForestReadable c xs → ForestWithout "trace" xs →
    EventsFlatAll xs → ∀ events : List (Event D F U), (forestTokens xs).foldlM (step c) (.trace events, l) =
      .ok (.trace (events ++ (eventElementsOf xs).filterMap (eventRead c l.globals)), l)
  | [], _, _, _, events => by
    simp only [forestTokens, eventElementsOf, List.foldlM_nil, List.filterMap_nil, List.append_nil]
    rfl
  | x :: xs, hr, hw, hf, events => by
    simp only [ForestReadable] at hr
    simp only [ForestWithout] at hw
    simp only [EventsFlatAll] at hf
    simp only [forestTokens, eventElementsOf]
    rw [foldlM_append_ok (trace_xml l x hr.1 hw.1 hf.1 events), trace_forest l xs hr.2 hw.2 hf.2]
    rw [List.filterMap_append, List.append_assoc]
end

/-! ### Inside of globals -/

/-- The values of a global after a tag. -/
def globalAdd (c : Codec D F U) (values : Option (Dict String (Value D F U))) (x : String × List (String × String)) :
    Option (Dict String (Value D F U)) :=
  match keyText c x.2 with
  | none => values
  | some (k, text) => match extractValue c x.1 text with
    | some v => some ((values.getD []).set k v)
    | none => some (values.getD [])

mutual
theorem global_xml {c : Codec D F U} (scope : String) (l : Log D F U) : ∀ (x : XesNode), x.Readable c → x.Without "global" →
    ∀ values, x.tokens.foldlM (step c) (.global scope values, l) = .ok (.global scope (x.empties.foldl (globalAdd c) values), l)
  | .node t attrs ch, hr, hw, values => by
    simp only [XesNode.Readable] at hr
    simp only [XesNode.Without] at hw
    have ih := global_forest scope l ch hr.2 hw.2 values
    simp only [XesNode.tokens, XesNode.empties, List.foldlM_cons]
    have h1 : step c (.global scope values, l) (.start t attrs) = .ok (.global scope values, l) := rfl
    rw [h1]
    simp only [bind, Except.bind]
    rw [foldlM_append_ok ih]
    simp only [List.foldlM_cons, List.foldlM_nil, step, globalStep, if_neg hw.1]
    rfl
  | .empty t attrs, hr, hw, values => by
    simp only [XesNode.Readable] at hr
    simp only [XesNode.tokens, XesNode.empties, List.foldlM_cons, List.foldlM_nil, List.foldl_cons, List.foldl_nil, step, globalStep,
      payloadTag_readable hr, globalAdd]
    cases keyText c attrs with
    | none => rfl
    | some kt =>
      obtain ⟨k, text⟩ := kt
      simp only
      cases extractValue c t text <;> rfl
  | .other, _, _, values => rfl
theorem global_forest {c : Codec D F U} (scope : String) (l : Log D F U) : ∀ (xs : List XesNode), ForestReadable c xs →
    ForestWithout "global" xs → ∀ values, (forestTokens xs).foldlM (step c) (.global scope values, l) =
      .ok (.global scope ((emptiesOf xs).foldl (globalAdd c) values), l)
  | [], _, _, values => rfl
  | x :: xs, hr, hw, values => by
    simp only [ForestReadable] at hr
    simp only [ForestWithout] at hw
    simp only [forestTokens, emptiesOf]
    rw [foldlM_append_ok (global_xml scope l x hr.1 hw.1 values), global_forest scope l xs hr.2 hw.2, List.foldl_append]
end

/-! ### The log -/

/-- What an item adds to the log. -/
def addItem (c : Codec D F U) (l : Log D F U) : Item → Log D F U
  | .trace ch => { l with traces := l.traces ++ [(eventElementsOf ch).filterMap (eventRead c l.globals)] }
  | .global scope ch =>
    match (emptiesOf ch).foldl (globalAdd c) none with
    | some defaults => if l.globals.contains scope then l else { l with globals := l.globals.set scope defaults }
    | none => l
  | .tag name attrs => addTag c name attrs l

mutual
theorem log_xml {c : Codec D F U} : ∀ (x : XesNode), x.Readable c → x.Proper → ∀ l : Log D F U,
    x.tokens.foldlM (step c) (.log, l) = .ok (.log, x.items.foldl (addItem c) l)
  | .node t attrs ch, hr, hp, l => by
    simp only [XesNode.Readable] at hr
    simp only [XesNode.tokens, List.foldlM_cons]
    by_cases ht : t = "trace"
    · simp only [XesNode.Proper, if_pos ht] at hp
      simp only [XesNode.items, if_pos ht]
      have h1 : step c (.log, l) (.start t attrs) = .ok (.trace [], l) := by
        simp only [step, logStep, if_pos ht]
      rw [h1]
      simp only [bind, Except.bind]
      rw [foldlM_append_ok (trace_forest l ch hr.2 hp.1 hp.2 [])]
      simp only [List.foldlM_cons, List.foldlM_nil, step, traceStep, if_pos ht]
      rfl
    · cases hg : (if t = "global" then attr? attrs "scope" else none) with
      | some scope =>
        have htg : t = "global" := by
          by_contra hne
          rw [if_neg hne] at hg
          cases hg
        rw [if_pos htg] at hg
        simp only [XesNode.Proper, if_neg ht, if_pos htg, hg] at hp
        simp only [XesNode.items, if_neg ht, if_pos htg, hg]
        have h1 : step c (.log, l) (.start t attrs) = .ok (.global scope none, l) := by
          simp only [step, logStep, if_neg ht, if_pos htg, hg]
        rw [h1]
        simp only [bind, Except.bind]
        rw [foldlM_append_ok (global_forest scope l ch hr.2 hp none)]
        simp only [List.foldlM_cons, List.foldlM_nil, step, globalStep, if_pos htg, List.foldl_cons, List.foldl_nil, addItem]
        cases (emptiesOf ch).foldl (globalAdd c) none <;> rfl
      | none =>
        simp only [XesNode.Proper, if_neg ht, hg] at hp
        simp only [XesNode.items, if_neg ht, hg, List.foldl_cons]
        have h1 : step c (.log, l) (.start t attrs) = .ok (.log, addItem c l (.tag t attrs)) := by
          simp only [step, logStep, if_neg ht, addItem]
          by_cases htg : t = "global"
          · rw [if_pos htg] at hg
            rw [if_pos htg, hg]
            subst htg
            have : addTag c "global" attrs l = l := by
              unfold addTag addField
              rw [field_tag_none attrs (extract_other (by decide))]
              rfl
            rw [this]
          · rw [if_neg htg]
            split
            · rw [readTag_readable hr.1]
              rfl
            · rename_i hne
              rw [readProperty_readable hr.1]
              have : addTag c t attrs l = addField c (t, attrs) l := by
                unfold addTag
                rw [if_neg (fun e => hne (Or.inl e)), if_neg (fun e => hne (Or.inr e))]
              rw [this]
              rfl
        rw [h1]
        simp only [bind, Except.bind]
        rw [foldlM_append_ok (log_forest ch hr.2 hp _)]
        rfl
  | .empty t attrs, hr, hp, l => by
    simp only [XesNode.Readable] at hr
    simp only [XesNode.tokens, XesNode.items, List.foldlM_cons, List.foldlM_nil, step, logStep, readTag_readable hr, List.foldl_cons,
      List.foldl_nil, addItem]
    rfl
  | .other, _, _, l => rfl
theorem log_forest {c : Codec D F U} : ∀ (xs : List XesNode), ForestReadable c xs → ProperAll xs → ∀ l : Log D F U,
    (forestTokens xs).foldlM (step c) (.log, l) = .ok (.log, (itemsOf xs).foldl (addItem c) l)
  | [], _, _, l => rfl
  | x :: xs, hr, hp, l => by
    simp only [ForestReadable] at hr
    simp only [ProperAll] at hp
    simp only [forestTokens, itemsOf]
    rw [foldlM_append_ok (log_xml x hr.1 hp.1 l), log_forest xs hr.2 hp.2, List.foldl_append]
end

theorem readLog_forest {c : Codec D F U} (xs : List XesNode) (hr : ForestReadable c xs) (hp : ProperAll xs) :
    readLog c (forestTokens xs) = .ok ((itemsOf xs).foldl (addItem c) .nothing) := by
  unfold readLog
  rw [log_forest xs hr hp]

/-! ### What the folds hold -/

theorem getLast_filterMap_cons {α β : Type} (f : α → Option β) (e : α) (es : List α) :
    ((e :: es).filterMap f).getLast? = ((es.filterMap f).getLast?).or (f e) := by
  rw [List.filterMap_cons]
  cases f e with
  | none => simp
  | some b =>
    simp only [List.getLast?_cons]
    cases (es.filterMap f).getLast? <;> rfl

theorem lastName_cons (e : String × Value D F U) (es : List (String × Value D F U)) :
    lastName (e :: es) = (lastName es).or (match e.2 with | .str s => if e.1 = "concept:name" then some s else none | _ => none) :=
  getLast_filterMap_cons _ _ _

theorem lastDate_cons (e : String × Value D F U) (es : List (String × Value D F U)) :
    lastDate (e :: es) = (lastDate es).or (match e.2 with | .date d => if e.1 = "time:timestamp" then some d else none | _ => none) :=
  getLast_filterMap_cons _ _ _

theorem lastField_cons (e : String × Value D F U) (es : List (String × Value D F U)) (key : String) :
    lastField (e :: es) key = (lastField es key).or (if e.1 = key then some e.2 else none) :=
  getLast_filterMap_cons _ _ _

theorem update_name (d : Draft D F U) (k : String) (v : Value D F U) :
    (d.update k v).name = (match v with | .str s => if k = "concept:name" then some s else none | _ => none).or d.name := by
  unfold Draft.update
  split
  · rename_i h
    subst h
    cases v <;> simp
  · split
    · rename_i h
      subst h
      cases v <;> simp
    · cases v <;> simp_all

theorem update_date (d : Draft D F U) (k : String) (v : Value D F U) :
    (d.update k v).date = (match v with | .date s => if k = "time:timestamp" then some s else none | _ => none).or d.date := by
  unfold Draft.update
  split
  · rename_i h
    subst h
    cases v <;> simp
  · split <;> cases v <;> simp_all

theorem update_payload (d : Draft D F U) (k : String) (v : Value D F U) (key : String) :
    (d.update k v).payload.get? key =
      if key = "concept:name" ∨ key = "time:timestamp" then d.payload.get? key
      else (if k = key then some v else none).or (d.payload.get? key) := by
  unfold Draft.update
  split
  · rename_i h
    subst h
    by_cases hk : key = "time:timestamp"
    · cases v <;> simp [hk]
    · cases v <;> simp [Ne.symm hk]
  · rename_i h
    split
    · rename_i h'
      subst h'
      by_cases hk : key = "concept:name"
      · cases v <;> simp [hk]
      · cases v <;> simp [Ne.symm hk]
    · rename_i h'
      rw [Dict.get?_set]
      by_cases hk : k = key
      · subst hk
        simp [h, h']
      · simp [hk]

theorem updates_name (fs : List (String × Value D F U)) : ∀ d : Draft D F U, (updates d fs).name = (lastName fs).or d.name := by
  induction fs with
  | nil => intro d; rfl
  | cons e es ih =>
    intro d
    have : updates d (e :: es) = updates (d.update e.1 e.2) es := rfl
    rw [this, ih, update_name, lastName_cons, Option.or_assoc]

theorem updates_date (fs : List (String × Value D F U)) : ∀ d : Draft D F U, (updates d fs).date = (lastDate fs).or d.date := by
  induction fs with
  | nil => intro d; rfl
  | cons e es ih =>
    intro d
    have : updates d (e :: es) = updates (d.update e.1 e.2) es := rfl
    rw [this, ih, update_date, lastDate_cons, Option.or_assoc]

theorem updates_payload (key : String) (fs : List (String × Value D F U)) : ∀ d : Draft D F U, (updates d fs).payload.get? key =
    if key = "concept:name" ∨ key = "time:timestamp" then d.payload.get? key else (lastField fs key).or (d.payload.get? key) := by
  induction fs with
  | nil => intro d; simp [updates, lastField]
  | cons e es ih =>
    intro d
    have : updates d (e :: es) = updates (d.update e.1 e.2) es := rfl
    rw [this, ih, update_payload, lastField_cons, Option.or_assoc]
    split <;> rfl

/-- In a map there is one value under a key. -/
theorem lastField_dict (d : Dict String (Value D F U)) (hd : Dict.WF d) (key : String) : lastField d key = Dict.get? d key := by
  induction d with
  | nil => rfl
  | cons p r ih =>
    obtain ⟨k, v⟩ := p
    have hn : k ∉ Dict.keys r ∧ Dict.WF r := by
      unfold Dict.WF Dict.keys at hd
      exact ⟨(List.nodup_cons.1 hd).1, (List.nodup_cons.1 hd).2⟩
    rw [lastField_cons, ih hn.2, Dict.get?_cons]
    by_cases h : k = key
    · subst h
      rw [(Dict.get?_eq_none_iff r k).2 hn.1]
      rfl
    · simp [h]

theorem lastName_dict (d : Dict String (Value D F U)) (hd : Dict.WF d) :
    lastName d = (match Dict.get? d "concept:name" with | some (.str s) => some s | _ => none) := by
  induction d with
  | nil => rfl
  | cons p r ih =>
    obtain ⟨k, v⟩ := p
    have hn : k ∉ Dict.keys r ∧ Dict.WF r := by
      unfold Dict.WF Dict.keys at hd
      exact ⟨(List.nodup_cons.1 hd).1, (List.nodup_cons.1 hd).2⟩
    rw [lastName_cons, ih hn.2, Dict.get?_cons]
    by_cases h : k = "concept:name"
    · subst h
      rw [(Dict.get?_eq_none_iff r _).2 hn.1]
      cases v <;> rfl
    · cases v <;> simp [h]

theorem lastDate_dict (d : Dict String (Value D F U)) (hd : Dict.WF d) :
    lastDate d = (match Dict.get? d "time:timestamp" with | some (.date s) => some s | _ => none) := by
  induction d with
  | nil => rfl
  | cons p r ih =>
    obtain ⟨k, v⟩ := p
    have hn : k ∉ Dict.keys r ∧ Dict.WF r := by
      unfold Dict.WF Dict.keys at hd
      exact ⟨(List.nodup_cons.1 hd).1, (List.nodup_cons.1 hd).2⟩
    rw [lastDate_cons, ih hn.2, Dict.get?_cons]
    by_cases h : k = "time:timestamp"
    · subst h
      rw [(Dict.get?_eq_none_iff r _).2 hn.1]
      cases v <;> rfl
    · cases v <;> simp [h]

/-- Values set one after the other. -/
def sets (d : Dict String (Value D F U)) (fs : List (String × Value D F U)) : Dict String (Value D F U) :=
  fs.foldl (fun d e => Dict.set d e.1 e.2) d

theorem sets_get (key : String) (fs : List (String × Value D F U)) : ∀ d : Dict String (Value D F U),
    (sets d fs).get? key = (lastField fs key).or (d.get? key) := by
  induction fs with
  | nil => intro d; rfl
  | cons e es ih =>
    intro d
    have : sets d (e :: es) = sets (Dict.set d e.1 e.2) es := rfl
    rw [this, ih, lastField_cons, Dict.get?_set]
    by_cases h : e.1 = key
    · cases lastField es key <;> simp [h]
    · cases lastField es key <;> simp [h]

theorem sets_wf (fs : List (String × Value D F U)) : ∀ d : Dict String (Value D F U), Dict.WF d → Dict.WF (sets d fs) := by
  induction fs with
  | nil => intro d h; exact h
  | cons e es ih => intro d h; exact ih _ (Dict.WF_set h _ _)

theorem globalAdd_fold (c : Codec D F U) (xs : List (String × List (String × String))) : ∀ values,
    xs.foldl (globalAdd c) values =
      if values.isSome ∨ xs.any (fun x => (keyText c x.2).isSome) then some (sets (values.getD []) (xs.filterMap (field c))) else none := by
  induction xs with
  | nil =>
    intro values
    cases values <;> simp [sets]
  | cons x xs ih =>
    intro values
    rw [List.foldl_cons, ih, List.filterMap_cons, List.any_cons]
    cases hk : keyText c x.2 with
    | none =>
      have h1 : globalAdd c values x = values := by unfold globalAdd; rw [hk]
      have h2 : field c x = none := by unfold field; rw [hk]; rfl
      rw [h1, h2, Option.isSome_none, Bool.false_or]
    | some kt =>
      obtain ⟨k, text⟩ := kt
      rw [Option.isSome_some, Bool.true_or]
      have h2 : field c x = (extractValue c x.1 text).map (fun v => (k, v)) := by
        unfold field
        rw [hk]
        simp only [Option.bind_eq_bind, Option.bind_some]
        cases extractValue c x.1 text <;> rfl
      rw [h2]
      unfold globalAdd
      rw [hk]
      cases hx : extractValue c x.1 text with
      | none => simp [hx]
      | some v => simp [sets, hx]

/-! ### Events -/

/-- The globals hold the defaults that the items give. -/
def DefaultsOf (c : Codec D F U) (items : List Item) (globals : Dict String (Dict String (Value D F U))) : Prop :=
  (∀ scope, (globals.get? scope).map (fun d key => d.get? key) =
    (firstGlobal c items scope).map (fun children key => lastField (fieldsOf c children) key)) ∧
  ∀ scope d, globals.get? scope = some d → Dict.WF d

theorem start_of_defaults {c : Codec D F U} {items : List Item} {globals : Dict String (Dict String (Value D F U))}
    (h : DefaultsOf c items globals) :
    (Draft.start globals).name = (match lastField (defaultsOf c items) "concept:name" with | some (.str s) => some s | _ => none) ∧
    (Draft.start globals).date = (match lastField (defaultsOf c items) "time:timestamp" with | some (.date s) => some s | _ => none) ∧
    ∀ key, (Draft.start globals).payload.get? key =
      if key = "concept:name" ∨ key = "time:timestamp" then none else lastField (defaultsOf c items) key := by
  have h1 := h.1 "event"
  unfold Draft.start defaultsOf
  cases hg : globals.get? "event" with
  | none =>
    rw [hg] at h1
    cases hf : firstGlobal c items "event" with
    | none => simp [lastField]
    | some ch =>
      rw [hf] at h1
      cases h1
  | some d =>
    rw [hg] at h1
    have hw := h.2 _ _ hg
    cases hf : firstGlobal c items "event" with
    | none =>
      rw [hf] at h1
      cases h1
    | some ch =>
      rw [hf] at h1
      simp only [Option.map_some, Option.some.injEq] at h1
      have h2 : ∀ key, d.get? key = lastField (fieldsOf c ch) key := fun key => congrFun h1 key
      have hu : d.foldl (fun d e => Draft.update d e.1 e.2) ⟨none, none, []⟩ = updates (⟨none, none, []⟩ : Draft D F U) d := rfl
      simp only
      rw [hu]
      refine ⟨?_, ?_, fun key => ?_⟩
      · rw [updates_name, lastName_dict d hw, h2, Option.or_none]
      · rw [updates_date, lastDate_dict d hw, h2, Option.or_none]
      · rw [updates_payload, lastField_dict d hw, h2, Dict.get?_nil, Option.or_none]

theorem eventRead_of_defaults {c : Codec D F U} {items : List Item} {globals : Dict String (Dict String (Value D F U))}
    (h : DefaultsOf c items globals) (ch : List XesNode) :
    (eventRead c globals ch = none ∧ Complete (defaultsOf c items, fieldsOf c ch) = false) ∨
    ∃ e, eventRead c globals ch = some e ∧ Complete (defaultsOf c items, fieldsOf c ch) = true ∧
      EventOf (defaultsOf c items, fieldsOf c ch) e := by
  obtain ⟨h1, h2, h3⟩ := start_of_defaults h
  have hn : (updates (Draft.start globals) (fieldsOf c ch)).name = nameOf (defaultsOf c items) (fieldsOf c ch) := by
    rw [updates_name, h1]
    rfl
  have hd : (updates (Draft.start globals) (fieldsOf c ch)).date = dateOf (defaultsOf c items) (fieldsOf c ch) := by
    rw [updates_date, h2]
    rfl
  unfold eventRead Draft.finish
  rw [hn, hd]
  unfold Complete EventOf
  simp only
  cases nameOf (defaultsOf c items) (fieldsOf c ch) with
  | none => left; exact ⟨rfl, rfl⟩
  | some n =>
    cases dateOf (defaultsOf c items) (fieldsOf c ch) with
    | none => left; exact ⟨rfl, rfl⟩
    | some t =>
      right
      refine ⟨_, rfl, rfl, rfl, rfl, fun key => ?_⟩
      simp only
      rw [updates_payload, h3]
      split <;> rfl

theorem trace_of_defaults {c : Codec D F U} {items : List Item} {globals : Dict String (Dict String (Value D F U))}
    (h : DefaultsOf c items globals) (elements : List (List XesNode)) :
    List.Forall₂ EventOf ((elements.map (fun ch => (defaultsOf c items, fieldsOf c ch))).filter Complete)
      (elements.filterMap (eventRead c globals)) := by
  induction elements with
  | nil => exact .nil
  | cons ch chs ih =>
    rw [List.map_cons, List.filter_cons, List.filterMap_cons]
    rcases eventRead_of_defaults h ch with ⟨h1, h2⟩ | ⟨e, h1, h2, h3⟩
    · rw [h1, h2]
      exact ih
    · rw [h1, h2]
      exact .cons h3 ih

theorem tracesIn_append (a b : List Item) : ∀ before, tracesIn before (a ++ b) = tracesIn before a ++ tracesIn (before ++ a) b := by
  induction a with
  | nil => intro before; simp [tracesIn]
  | cons i a ih =>
    intro before
    cases i <;> simp [tracesIn, ih]

theorem firstGlobal_append (c : Codec D F U) (a b : List Item) (scope : String) :
    firstGlobal c (a ++ b) scope = (firstGlobal c a scope).or (firstGlobal c b scope) := by
  unfold firstGlobal
  rw [List.filterMap_append, List.head?_append]

theorem addTag_extensions (c : Codec D F U) (name : String) (attrs : List (String × String)) (l : Log D F U) :
    (addTag c name attrs l).extensions = l.extensions ++ (if name = "extension" then readExtension attrs else none).toList ∧
    (addTag c name attrs l).classifiers = l.classifiers ++ (if name = "classifier" then readClassifier attrs else none).toList ∧
    (addTag c name attrs l).properties = l.properties ++ (field c (name, attrs)).toList ∧
    (addTag c name attrs l).traces = l.traces ∧ (addTag c name attrs l).globals = l.globals := by
  unfold addTag addField
  by_cases h1 : name = "extension"
  · subst h1
    rw [field_tag_none attrs (extract_other (by decide))]
    cases readExtension attrs <;> simp
  · by_cases h2 : name = "classifier"
    · subst h2
      rw [field_tag_none attrs (extract_other (by decide))]
      cases readClassifier attrs <;> simp
    · simp only [if_neg h1, if_neg h2]
      cases field c (name, attrs) <;> simp

theorem filterMap_concat {α β : Type} (f : α → Option β) (a : List α) (x : α) :
    (a ++ [x]).filterMap f = a.filterMap f ++ (f x).toList := by
  rw [List.filterMap_append]
  cases h : f x <;> simp [h]

theorem logOf_fold (c : Codec D F U) (items : List Item) :
    LogOf c items (items.foldl (addItem c) .nothing) ∧ DefaultsOf c items (items.foldl (addItem c) .nothing).globals := by
  induction items using List.reverseRecOn with
  | nil =>
    refine ⟨⟨.nil, fun scope => rfl, rfl, rfl, rfl⟩, fun scope => rfl, fun scope d h => ?_⟩
    cases h
  | append_singleton items i ih =>
    rw [List.foldl_append]
    simp only [List.foldl_cons, List.foldl_nil]
    generalize items.foldl (addItem c) .nothing = l at ih ⊢
    obtain ⟨⟨ht, hg, he, hc, hp⟩, hd⟩ := ih
    cases i with
    | trace ch =>
      have hg' : ∀ scope, firstGlobal c (items ++ [Item.trace ch]) scope = firstGlobal c items scope := by
        intro scope
        rw [firstGlobal_append]
        exact Option.or_none
      refine ⟨⟨?_, ?_, ?_, ?_, ?_⟩, ?_, ?_⟩
      · rw [tracesIn_append]
        exact List.rel_append ht (.cons (trace_of_defaults hd _) .nil)
      · intro scope
        rw [hg']
        exact hg scope
      · rw [filterMap_concat]
        simp only [addItem, he, Option.toList_none, List.append_nil]
      · rw [filterMap_concat]
        simp only [addItem, hc, Option.toList_none, List.append_nil]
      · rw [filterMap_concat]
        simp only [addItem, hp, Option.toList_none, List.append_nil]
      · intro scope
        rw [hg']
        exact hg scope
      · exact hd.2
    | global scope ch =>
      have hone : ∀ s, firstGlobal c [Item.global scope ch] s =
          if scope = s ∧ (emptiesOf ch).any (fun x => (keyText c x.2).isSome) then some ch else none := by
        intro s
        unfold firstGlobal
        by_cases h : scope = s ∧ (emptiesOf ch).any (fun x => (keyText c x.2).isSome) = true
        · rw [if_pos h]
          simp only [List.filterMap_cons]
          rw [if_pos h]
          rfl
        · rw [if_neg h]
          simp only [List.filterMap_cons]
          rw [if_neg h]
          rfl
      have key : DefaultsOf c (items ++ [Item.global scope ch]) (addItem c l (Item.global scope ch)).globals ∧
          (addItem c l (Item.global scope ch)).traces = l.traces ∧
          (addItem c l (Item.global scope ch)).extensions = l.extensions ∧
          (addItem c l (Item.global scope ch)).classifiers = l.classifiers ∧
          (addItem c l (Item.global scope ch)).properties = l.properties := by
        simp only [addItem, globalAdd_fold]
        by_cases hany : (emptiesOf ch).any (fun x => (keyText c x.2).isSome) = true
        · rw [if_pos (Or.inr hany)]
          simp only
          by_cases hcon : l.globals.contains scope = true
          · rw [if_pos hcon]
            refine ⟨⟨fun s => ?_, hd.2⟩, rfl, rfl, rfl, rfl⟩
            rw [firstGlobal_append, hone]
            by_cases hs : scope = s
            · subst hs
              have hsome : (firstGlobal c items scope).isSome := by
                have := congrArg Option.isSome (hg scope)
                simp only [Option.isSome_map] at this
                rw [← this]
                exact hcon
              obtain ⟨ch', hch'⟩ := Option.isSome_iff_exists.1 hsome
              rw [hg scope, hch']
              rfl
            · rw [if_neg (fun h => hs h.1), Option.or_none]
              exact hg s
          · rw [if_neg hcon]
            refine ⟨⟨fun s => ?_, fun s d h => ?_⟩, rfl, rfl, rfl, rfl⟩
            · rw [firstGlobal_append, hone, Dict.get?_set]
              by_cases hs : scope = s
              · subst hs
                have hnone : firstGlobal c items scope = none := by
                  have := congrArg Option.isSome (hg scope)
                  simp only [Option.isSome_map] at this
                  cases hf : firstGlobal c items scope with
                  | none => rfl
                  | some x =>
                    rw [hf] at this
                    exact absurd this hcon
                rw [if_pos rfl, hnone, if_pos ⟨rfl, hany⟩]
                simp only [Option.map_some, Option.none_or, Option.some.injEq]
                funext key
                rw [sets_get]
                simp only [Option.getD_none, Dict.get?_nil, Option.or_none]
                rfl
              · rw [if_neg hs, if_neg (fun h => hs h.1), Option.or_none]
                exact hg s
            · rw [Dict.get?_set] at h
              by_cases hs : scope = s
              · rw [if_pos hs] at h
                cases h
                exact sets_wf _ _ Dict.WF_nil
              · rw [if_neg hs] at h
                exact hd.2 _ _ h
        · rw [if_neg (by simpa using hany)]
          refine ⟨⟨fun s => ?_, hd.2⟩, rfl, rfl, rfl, rfl⟩
          rw [firstGlobal_append, hone, if_neg (fun h => hany h.2), Option.or_none]
          exact hg s
      obtain ⟨k1, k2, k3, k4, k5⟩ := key
      refine ⟨⟨?_, k1.1, ?_, ?_, ?_⟩, k1⟩
      · rw [tracesIn_append, k2]
        simpa [tracesIn] using ht
      · rw [filterMap_concat, k3, he]
        simp
      · rw [filterMap_concat, k4, hc]
        simp
      · rw [filterMap_concat, k5, hp]
        simp
    | tag name attrs =>
      obtain ⟨k1, k2, k3, k4, k5⟩ := addTag_extensions c name attrs l
      have hg' : ∀ scope, firstGlobal c (items ++ [Item.tag name attrs]) scope = firstGlobal c items scope := by
        intro scope
        rw [firstGlobal_append]
        exact Option.or_none
      have kd : DefaultsOf c (items ++ [Item.tag name attrs]) (addItem c l (Item.tag name attrs)).globals := by
        refine ⟨fun scope => ?_, ?_⟩
        · rw [hg']
          simp only [addItem, k5]
          exact hg scope
        · simp only [addItem, k5]
          exact hd.2
      refine ⟨⟨?_, kd.1, ?_, ?_, ?_⟩, kd⟩
      · simp only [addItem, k4]
        rw [tracesIn_append]
        simpa [tracesIn] using ht
      · rw [filterMap_concat]
        simp only [addItem, k1, he]
      · rw [filterMap_concat]
        simp only [addItem, k2, hc]
      · rw [filterMap_concat]
        simp only [addItem, k3, hp]

end Ficus.RsXes
