import Verif.Proofs.RsXes
import Mathlib.Data.String.Basic

/-! Helper lemmas for XES logs that are written and read again. -/

namespace Ficus.RsXes
open Spec

variable {D F U : Type}

/-! ### What is written, as a document -/

def fieldXml (c : Codec D F U) (e : String × Value D F U) : XesNode := .empty e.2.tag [("key", c.escape e.1), ("value", c.escape (e.2.text c))]

def kids (c : Codec D F U) (d : List (String × Value D F U)) : List XesNode := (sortByFirst d).map (fieldXml c)

def eventXml (c : Codec D F U) (e : Event D F U) : XesNode :=
  .node "event" [] (fieldXml c ("concept:name", .str e.name) :: fieldXml c ("time:timestamp", .date e.date) :: kids c e.payload)

def traceXml (c : Codec D F U) (t : List (Event D F U)) : XesNode := .node "trace" [] (t.map (eventXml c))

def globalXml (c : Codec D F U) (g : String × Dict String (Value D F U)) : XesNode := .node "global" [("scope", c.escape g.1)] (kids c g.2)

def extensionXml (c : Codec D F U) (x : Extension) : XesNode :=
  .empty "extension" [("name", c.escape x.name), ("uri", c.escape x.uri), ("prefix", c.escape x.pre)]

def classifierXml (c : Codec D F U) (x : Classifier) : XesNode :=
  .empty "classifier" [("name", c.escape x.name), ("keys", c.escape (" ".intercalate x.keys))]

def logXml (c : Codec D F U) (l : Log D F U) : List XesNode :=
  [.node "log" [] (l.extensions.map (extensionXml c) ++ l.classifiers.map (classifierXml c) ++ (sortByFirst l.properties).map (fieldXml c) ++
    (sortByFirst l.globals).map (globalXml c) ++ (l.traces.filter (fun t => !t.isEmpty)).map (traceXml c))]

theorem forestTokens_append (a b : List XesNode) : forestTokens (a ++ b) = forestTokens a ++ forestTokens b := by
  induction a with
  | nil => rfl
  | cons x a ih => simp [forestTokens, ih]

theorem forestTokens_map {α : Type} (f : α → XesNode) (g : α → List Token) (h : ∀ x, (f x).tokens = g x) (xs : List α) :
    forestTokens (xs.map f) = xs.flatMap g := by
  induction xs with
  | nil => rfl
  | cons x xs ih => simp [forestTokens, ih, h]

theorem forestTokens_map_one {α : Type} (f : α → XesNode) (g : α → Token) (h : ∀ x, (f x).tokens = [g x]) (xs : List α) :
    forestTokens (xs.map f) = xs.map g := by
  induction xs with
  | nil => rfl
  | cons x xs ih => simp [forestTokens, ih, h]

theorem kids_tokens (c : Codec D F U) (d : List (String × Value D F U)) : forestTokens (kids c d) = (sortByFirst d).map (writeField c) :=
  forestTokens_map_one _ _ (fun _ => rfl) _

theorem eventXml_tokens (c : Codec D F U) (e : Event D F U) : (eventXml c e).tokens = writeEvent c e := by
  simp only [eventXml, XesNode.tokens, forestTokens, kids_tokens, writeEvent, fieldXml]
  rfl

theorem traceXml_tokens (c : Codec D F U) (ts : List (List (Event D F U))) :
    forestTokens ((ts.filter (fun t => !t.isEmpty)).map (traceXml c)) = ts.flatMap (writeTrace c) := by
  induction ts with
  | nil => rfl
  | cons t ts ih =>
    rw [List.filter_cons, List.flatMap_cons]
    cases h : t.isEmpty with
    | true =>
      have : writeTrace c t = [] := by unfold writeTrace; rw [h]; rfl
      rw [this]
      exact ih
    | false =>
      have : writeTrace c t = .start "trace" [] :: (t.flatMap (writeEvent c) ++ [.stop "trace"]) := by unfold writeTrace; rw [h]; rfl
      rw [this]
      simp only [Bool.not_false, if_true, List.map_cons, forestTokens, ih, traceXml, XesNode.tokens,
        forestTokens_map _ _ (eventXml_tokens c)]

theorem globalXml_tokens (c : Codec D F U) (g : String × Dict String (Value D F U)) : (globalXml c g).tokens = writeGlobal c g := by
  simp only [globalXml, XesNode.tokens, kids_tokens, writeGlobal]

theorem logXml_tokens (c : Codec D F U) (l : Log D F U) : forestTokens (logXml c l) = writeLog c l := by
  simp only [logXml, forestTokens, XesNode.tokens, forestTokens_append, List.append_nil, traceXml_tokens,
    forestTokens_map _ _ (globalXml_tokens c), writeLog]
  rw [forestTokens_map_one (extensionXml c) (fun x => writeEmpty c "extension" [("name", x.name), ("uri", x.uri), ("prefix", x.pre)])
      (fun _ => rfl),
    forestTokens_map_one (classifierXml c) (fun x => writeEmpty c "classifier" [("name", x.name), ("keys", " ".intercalate x.keys)])
      (fun _ => rfl), forestTokens_map_one (fieldXml c) (writeField c) (fun _ => rfl)]

/-! ### It is a proper document -/

theorem forall_map {α : Type} (P : List XesNode → Prop) (Q : XesNode → Prop) (hn : P []) (hc : ∀ x xs, Q x → P xs → P (x :: xs)) (f : α → XesNode)
    (xs : List α) (h : ∀ x ∈ xs, Q (f x)) : P (xs.map f) := by
  induction xs with
  | nil => exact hn
  | cons x xs ih => exact hc _ _ (h x (by simp)) (ih (fun y hy => h y (by simp [hy])))

theorem forall_append (P : List XesNode → Prop) (Q : XesNode → Prop) (hc : ∀ x xs, P (x :: xs) ↔ Q x ∧ P xs) (a b : List XesNode) (ha : P a)
    (hb : P b) : P (a ++ b) := by
  induction a with
  | nil => exact hb
  | cons x a ih => exact (hc _ _).2 ⟨((hc _ _).1 ha).1, ih ((hc _ _).1 ha).2⟩

theorem kids_without (c : Codec D F U) (tag : String) (d : List (String × Value D F U)) : ForestWithout tag (kids c d) :=
  forall_map (ForestWithout tag) (XesNode.Without tag) (by simp [ForestWithout]) (fun x xs h h' => by simp [ForestWithout, h, h']) _ _
    (fun x _ => by simp [fieldXml, XesNode.Without])

theorem kids_readable {c : Codec D F U} (he : Escapes c) (d : List (String × Value D F U)) : ForestReadable c (kids c d) :=
  forall_map (ForestReadable c) (XesNode.Readable c) (by simp [ForestReadable]) (fun x xs h h' => by simp [ForestReadable, h, h']) _ _
    (fun x _ => by simp [fieldXml, XesNode.Readable, AttrsReadable, he.unescape])

theorem eventXml_readable {c : Codec D F U} (he : Escapes c) (e : Event D F U) : (eventXml c e).Readable c := by
  simp [eventXml, XesNode.Readable, ForestReadable, kids_readable he, fieldXml, AttrsReadable, he.unescape]

theorem logXml_readable {c : Codec D F U} (he : Escapes c) (l : Log D F U) : ForestReadable c (logXml c l) := by
  have hcons : ∀ (x : XesNode) (xs : List XesNode), ForestReadable c (x :: xs) ↔ x.Readable c ∧ ForestReadable c xs := fun x xs => by
    simp [ForestReadable]
  have hmap : ∀ {α : Type} (f : α → XesNode) (xs : List α), (∀ x ∈ xs, (f x).Readable c) → ForestReadable c (xs.map f) := fun f xs h =>
    forall_map (ForestReadable c) (XesNode.Readable c) (by simp [ForestReadable]) (fun x xs h h' => (hcons x xs).2 ⟨h, h'⟩) f xs h
  have happ := forall_append (ForestReadable c) (XesNode.Readable c) hcons
  simp only [logXml, ForestReadable, XesNode.Readable, and_true]
  refine ⟨by simp [AttrsReadable], ?_⟩
  refine happ _ _ (happ _ _ (happ _ _ (happ _ _ (hmap _ _ ?_) (hmap _ _ ?_)) (hmap _ _ ?_)) (hmap _ _ ?_)) (hmap _ _ ?_)
  · intro x _
    simp [extensionXml, XesNode.Readable, AttrsReadable, he.unescape]
  · intro x _
    simp [classifierXml, XesNode.Readable, AttrsReadable, he.unescape]
  · intro x _
    simp [fieldXml, XesNode.Readable, AttrsReadable, he.unescape]
  · intro x _
    simp [globalXml, XesNode.Readable, AttrsReadable, he.unescape, kids_readable he]
  · intro t _
    simp only [traceXml, XesNode.Readable]
    exact ⟨by simp [AttrsReadable], hmap _ _ (fun e _ => eventXml_readable he e)⟩

theorem logXml_proper (c : Codec D F U) (l : Log D F U) : ProperAll (logXml c l) := by
  have hcons : ∀ (x : XesNode) (xs : List XesNode), ProperAll (x :: xs) ↔ x.Proper ∧ ProperAll xs := fun x xs => by simp [ProperAll]
  have hmap : ∀ {α : Type} (f : α → XesNode) (xs : List α), (∀ x ∈ xs, (f x).Proper) → ProperAll (xs.map f) := fun f xs h =>
    forall_map ProperAll XesNode.Proper (by simp [ProperAll]) (fun x xs h h' => (hcons x xs).2 ⟨h, h'⟩) f xs h
  have happ := forall_append ProperAll XesNode.Proper hcons
  simp only [logXml, ProperAll, XesNode.Proper, if_neg (show ¬ "log" = "trace" by decide), if_neg (show ¬ "log" = "global" by decide), and_true]
  refine happ _ _ (happ _ _ (happ _ _ (happ _ _ (hmap _ _ ?_) (hmap _ _ ?_)) (hmap _ _ ?_)) (hmap _ _ ?_)) (hmap _ _ ?_)
  · intro x _
    simp [extensionXml, XesNode.Proper]
  · intro x _
    simp [classifierXml, XesNode.Proper]
  · intro x _
    simp [fieldXml, XesNode.Proper]
  · intro x _
    simp [globalXml, XesNode.Proper, attr?, Dict.get?, kids_without]
  · intro t _
    simp only [traceXml, XesNode.Proper, if_true]
    refine ⟨?_, ?_⟩
    · refine forall_map (ForestWithout "trace") (XesNode.Without "trace") (by simp [ForestWithout])
        (fun x xs h h' => by simp [ForestWithout, h, h']) _ _ (fun e _ => ?_)
      simp [eventXml, XesNode.Without, ForestWithout, kids_without, fieldXml]
    · refine forall_map EventsFlatAll XesNode.EventsFlat (by simp [EventsFlatAll])
        (fun x xs h h' => by simp [EventsFlatAll, h, h']) _ _ (fun e _ => ?_)
      simp [eventXml, XesNode.EventsFlat, ForestWithout, XesNode.Without, kids_without, fieldXml]

/-! ### Its parts -/

theorem itemsOf_append (a b : List XesNode) : itemsOf (a ++ b) = itemsOf a ++ itemsOf b := by
  induction a with
  | nil => rfl
  | cons x a ih => simp [itemsOf, ih]

theorem itemsOf_map {α : Type} (f : α → XesNode) (g : α → Item) (h : ∀ x, (f x).items = [g x]) (xs : List α) :
    itemsOf (xs.map f) = xs.map g := by
  induction xs with
  | nil => rfl
  | cons x xs ih => simp [itemsOf, ih, h]

def fieldItem (c : Codec D F U) (e : String × Value D F U) : Item := .tag e.2.tag [("key", c.escape e.1), ("value", c.escape (e.2.text c))]
def extensionItem (c : Codec D F U) (x : Extension) : Item :=
  .tag "extension" [("name", c.escape x.name), ("uri", c.escape x.uri), ("prefix", c.escape x.pre)]
def classifierItem (c : Codec D F U) (x : Classifier) : Item :=
  .tag "classifier" [("name", c.escape x.name), ("keys", c.escape (" ".intercalate x.keys))]
def globalItem (c : Codec D F U) (g : String × Dict String (Value D F U)) : Item := .global (c.escape g.1) (kids c g.2)
def traceItem (c : Codec D F U) (t : List (Event D F U)) : Item := .trace (t.map (eventXml c))

def headItems (c : Codec D F U) (l : Log D F U) : List Item :=
  .tag "log" [] :: (l.extensions.map (extensionItem c) ++ l.classifiers.map (classifierItem c) ++
    (sortByFirst l.properties).map (fieldItem c) ++ (sortByFirst l.globals).map (globalItem c))

theorem logXml_items (c : Codec D F U) (l : Log D F U) :
    itemsOf (logXml c l) = headItems c l ++ (l.traces.filter (fun t => !t.isEmpty)).map (traceItem c) := by
  simp only [logXml, itemsOf, XesNode.items, if_neg (show ¬ "log" = "trace" by decide), if_neg (show ¬ "log" = "global" by decide),
    itemsOf_append, List.append_nil, headItems]
  rw [itemsOf_map (extensionXml c) (extensionItem c) (fun _ => rfl), itemsOf_map (classifierXml c) (classifierItem c) (fun _ => rfl),
    itemsOf_map (fieldXml c) (fieldItem c) (fun _ => rfl), itemsOf_map (traceXml c) (traceItem c) (fun _ => rfl),
    itemsOf_map (globalXml c) (globalItem c) (fun x => by simp [globalXml, XesNode.items, attr?, Dict.get?, globalItem])]
  simp

theorem items_filterMap {β : Type} (c : Codec D F U) (l : Log D F U) (f : Item → Option β) (fe : Extension → Option β)
    (fc : Classifier → Option β) (fp : String × Value D F U → Option β) (h0 : f (.tag "log" []) = none)
    (he : ∀ x, f (extensionItem c x) = fe x) (hc : ∀ x, f (classifierItem c x) = fc x) (hp : ∀ x, f (fieldItem c x) = fp x)
    (hg : ∀ x, f (globalItem c x) = none) (ht : ∀ x, f (traceItem c x) = none) :
    (headItems c l ++ (l.traces.filter (fun t => !t.isEmpty)).map (traceItem c)).filterMap f =
      l.extensions.filterMap fe ++ l.classifiers.filterMap fc ++ (sortByFirst l.properties).filterMap fp := by
  have e1 : f ∘ extensionItem c = fe := funext he
  have e2 : f ∘ classifierItem c = fc := funext hc
  have e3 : f ∘ fieldItem c = fp := funext hp
  have e4 : f ∘ globalItem c = fun _ => none := funext hg
  have e5 : f ∘ traceItem c = fun _ => none := funext ht
  unfold headItems
  simp only [List.cons_append, List.filterMap_cons, h0, List.filterMap_append, List.filterMap_map, e1, e2, e3, e4, e5]
  simp

/-! ### The values -/

/-- A key and its value as they are read back. -/
def backPair (c : Codec D F U) (e : String × Value D F U) : Option (String × Value D F U) := (back c e.2).map (fun v => (e.1, v))

theorem keyText_field {c : Codec D F U} (he : Escapes c) (k t : String) :
    keyText c [("key", c.escape k), ("value", c.escape t)] = some (k, t) := by
  simp [keyText, attr?, Dict.get?, he.unescape]

theorem field_back {c : Codec D F U} (he : Escapes c) (e : String × Value D F U) :
    field c (e.2.tag, [("key", c.escape e.1), ("value", c.escape (e.2.text c))]) = backPair c e := by
  unfold field backPair back
  rw [keyText_field he]
  simp only [Option.bind_eq_bind, Option.bind_some]
  cases extractValue c e.2.tag (e.2.text c) <;> rfl

theorem emptiesOf_map {α : Type} (f : α → XesNode) (g : α → String × List (String × String)) (h : ∀ x, (f x).empties = [g x]) (xs : List α) :
    emptiesOf (xs.map f) = xs.map g := by
  induction xs with
  | nil => rfl
  | cons x xs ih => simp [emptiesOf, ih, h]

theorem emptiesOf_kids (c : Codec D F U) (d : List (String × Value D F U)) :
    emptiesOf (kids c d) = (sortByFirst d).map (fun e => (e.2.tag, [("key", c.escape e.1), ("value", c.escape (e.2.text c))])) :=
  emptiesOf_map _ _ (fun _ => rfl) _

theorem fieldsOf_kids {c : Codec D F U} (he : Escapes c) (d : List (String × Value D F U)) :
    fieldsOf c (kids c d) = (sortByFirst d).filterMap (backPair c) := by
  unfold fieldsOf
  rw [emptiesOf_kids, List.filterMap_map]
  congr 1
  funext e
  exact field_back he e

theorem sortByFirst_perm {V : Type} (l : List (String × V)) : (sortByFirst l).Perm l := List.perm_insertionSort _ _

theorem sortByFirst_sorted {V : Type} (l : List (String × V)) : (sortByFirst l).Pairwise (fun a b => a.1 ≤ b.1) := by
  have : Std.Total (fun a b : String × V => a.1 ≤ b.1) := ⟨fun a b => String.le_total a.1 b.1⟩
  have : IsTrans (String × V) (fun a b => a.1 ≤ b.1) := ⟨fun a b c => String.le_trans⟩
  exact List.pairwise_insertionSort _ _

theorem sortByFirst_wf {V : Type} (l : List (String × V)) (h : Dict.WF l) : Dict.WF (sortByFirst l) :=
  (List.Perm.nodup_iff ((sortByFirst_perm l).map Prod.fst)).2 h

theorem sortByFirst_get {V : Type} (l : List (String × V)) (h : Dict.WF l) (key : String) :
    Dict.get? (sortByFirst l) key = Dict.get? l key := (Dict.get?_eq_of_perm h (sortByFirst_perm l).symm key).symm

theorem wf_cons {V : Type} {k : String} {v : V} {r : List (String × V)} (h : Dict.WF ((k, v) :: r)) : k ∉ Dict.keys r ∧ Dict.WF r := by
  unfold Dict.WF Dict.keys at h
  exact ⟨(List.nodup_cons.1 h).1, (List.nodup_cons.1 h).2⟩

theorem lastField_backs (c : Codec D F U) (fs : List (String × Value D F U)) (h : Dict.WF fs) (key : String) :
    lastField (fs.filterMap (backPair c)) key = (Dict.get? fs key).bind (back c) := by
  induction fs with
  | nil => rfl
  | cons p r ih =>
    obtain ⟨k, v⟩ := p
    obtain ⟨h1, h2⟩ := wf_cons h
    rw [List.filterMap_cons, Dict.get?_cons]
    unfold backPair
    by_cases hk : k = key
    · subst hk
      have hr : lastField (r.filterMap (backPair c)) k = none := by
        rw [ih h2, (Dict.get?_eq_none_iff r k).2 h1]
        rfl
      rw [if_pos rfl, Option.bind_some]
      cases hb : back c v with
      | none => exact hr
      | some w =>
        simp only [Option.map_some]
        rw [lastField_cons]
        have : lastField (r.filterMap fun e => (back c e.2).map fun v => (e.1, v)) k = none := hr
        rw [this]
        simp
    · rw [if_neg hk, ← ih h2]
      cases hb : back c v with
      | none => rfl
      | some w =>
        simp only [Option.map_some]
        rw [lastField_cons]
        simp only [if_neg hk, Option.or_none]
        rfl

theorem lastName_none (fs : List (String × Value D F U)) (h : ∀ e ∈ fs, e.1 ≠ "concept:name") : lastName fs = none := by
  induction fs with
  | nil => rfl
  | cons e fs ih =>
    rw [lastName_cons, ih (fun x hx => h x (by simp [hx]))]
    have := h e (by simp)
    cases e.2 <;> simp [this]

theorem lastDate_none (fs : List (String × Value D F U)) (h : ∀ e ∈ fs, e.1 ≠ "time:timestamp") : lastDate fs = none := by
  induction fs with
  | nil => rfl
  | cons e fs ih =>
    rw [lastDate_cons, ih (fun x hx => h x (by simp [hx]))]
    have := h e (by simp)
    cases e.2 <;> simp [this]

theorem backs_keys (c : Codec D F U) (d : List (String × Value D F U)) (key : String) (h : Dict.get? d key = none) :
    ∀ e ∈ (sortByFirst d).filterMap (backPair c), e.1 ≠ key := by
  intro e he hk
  obtain ⟨x, hx, hb⟩ := List.mem_filterMap.1 he
  unfold backPair at hb
  obtain ⟨v, _, hv⟩ := Option.map_eq_some_iff.1 hb
  subst hv
  simp only at hk
  rw [Dict.get?_eq_none_iff] at h
  exact h (hk ▸ List.mem_map_of_mem ((sortByFirst_perm d).mem_iff.1 hx))

/-! ### Globals -/

theorem escape_injective {c : Codec D F U} (he : Escapes c) : Function.Injective c.escape := by
  intro a b h
  have := he.unescape a
  rw [h, he.unescape b] at this
  exact (Option.some.inj this).symm

theorem firstGlobal_cons (c : Codec D F U) (i : Item) (items : List Item) (scope : String) :
    firstGlobal c (i :: items) scope = (firstGlobal c [i] scope).or (firstGlobal c items scope) := firstGlobal_append c [i] items scope

theorem firstGlobal_none (c : Codec D F U) (items : List Item) (scope : String) (h : ∀ i ∈ items, ∀ s ch, i = .global s ch → s ≠ scope) :
    firstGlobal c items scope = none := by
  induction items with
  | nil => rfl
  | cons i items ih =>
    rw [firstGlobal_cons, ih (fun x hx => h x (by simp [hx])), Option.or_none]
    cases i with
    | trace ch => rfl
    | tag n a => rfl
    | global s ch =>
      have := h _ (List.mem_cons_self ..) s ch rfl
      unfold firstGlobal
      simp [this]

theorem firstGlobal_globals {c : Codec D F U} (he : Escapes c) (gs : List (String × Dict String (Value D F U))) (hw : Dict.WF gs)
    (scope : String) : firstGlobal c (gs.map (globalItem c)) (c.escape scope) =
      (Dict.get? gs scope).bind (fun d => if d.isEmpty then none else some (kids c d)) := by
  induction gs with
  | nil => rfl
  | cons g gs ih =>
    obtain ⟨s, d⟩ := g
    obtain ⟨h1, h2⟩ := wf_cons hw
    rw [List.map_cons, firstGlobal_cons, Dict.get?_cons]
    have hany : (emptiesOf (kids c d)).any (fun x => (keyText c x.2).isSome) = !d.isEmpty := by
      rw [emptiesOf_kids, List.any_map]
      have : ((fun x : String × List (String × String) => (keyText c x.2).isSome) ∘
          fun e : String × Value D F U => (e.2.tag, [("key", c.escape e.1), ("value", c.escape (e.2.text c))])) = fun _ => true := by
        funext e
        simp [keyText_field he]
      rw [this]
      have hl := (sortByFirst_perm d).length_eq
      cases hd : d with
      | nil => rfl
      | cons x xs =>
        rw [hd] at hl
        cases hs : sortByFirst (x :: xs) with
        | nil => rw [hs] at hl; cases hl
        | cons y ys => simp
    have hone : firstGlobal c [globalItem c (s, d)] (c.escape scope) =
        if s = scope ∧ (!d.isEmpty) = true then some (kids c d) else none := by
      unfold firstGlobal globalItem
      by_cases h : s = scope ∧ (!d.isEmpty) = true
      · rw [if_pos h]
        simp only [List.filterMap_cons]
        rw [if_pos ⟨congrArg c.escape h.1, hany.trans h.2⟩]
        rfl
      · rw [if_neg h]
        simp only [List.filterMap_cons]
        rw [if_neg (fun hh => h ⟨escape_injective he hh.1, hany.symm.trans hh.2⟩)]
        rfl
    rw [hone]
    by_cases hs : s = scope
    · subst hs
      have hrest : firstGlobal c (gs.map (globalItem c)) (c.escape s) = none := by
        rw [ih h2, (Dict.get?_eq_none_iff gs s).2 h1]
        rfl
      rw [hrest, Option.or_none, if_pos rfl, Option.bind_some]
      cases d.isEmpty <;> simp
    · rw [if_neg (fun h => hs h.1), if_neg hs, ← ih h2]
      rfl

theorem firstGlobal_head {c : Codec D F U} (he : Escapes c) (l : Log D F U) (hw : Dict.WF l.globals) (scope : String) :
    firstGlobal c (headItems c l) (c.escape scope) =
      (l.globals.get? scope).bind (fun d => if d.isEmpty then none else some (kids c d)) := by
  unfold headItems
  rw [firstGlobal_cons, firstGlobal_append, firstGlobal_globals he _ (sortByFirst_wf _ hw), sortByFirst_get _ hw]
  rw [firstGlobal_none c (_ ++ _ ++ _)]
  · rfl
  · intro i hi s ch hg
    simp only [List.mem_append, List.mem_map] at hi
    rcases hi with (⟨x, _, rfl⟩ | ⟨x, _, rfl⟩) | ⟨x, _, rfl⟩ <;> cases hg

/-! ### Traces -/

theorem eventElementsOf_map (c : Codec D F U) (t : List (Event D F U)) :
    eventElementsOf (t.map (eventXml c)) =
      t.map (fun e => fieldXml c ("concept:name", .str e.name) :: fieldXml c ("time:timestamp", .date e.date) :: kids c e.payload) := by
  induction t with
  | nil => rfl
  | cons e t ih => simp [eventElementsOf, ih, eventXml, XesNode.eventElements]

theorem forall₂_tracesIn (c : Codec D F U) (defs : List (String × Value D F U)) (L : List (List (Event D F U)))
    (T : List (List XesNode)) : ∀ before, defaultsOf c before = defs →
    List.Forall₂ (fun t trace => List.Forall₂ EventOf ((eventFields c t).filter Complete) trace) (tracesIn before (T.map Item.trace)) L →
    List.Forall₂ (fun ch trace => List.Forall₂ EventOf (((eventElementsOf ch).map (fun x => (defs, fieldsOf c x))).filter Complete) trace)
      T L := by
  induction T generalizing L with
  | nil =>
    intro before _ h
    cases h
    exact .nil
  | cons ch T ih =>
    intro before hb h
    simp only [List.map_cons, tracesIn] at h
    cases h with
    | cons h1 h2 =>
      refine .cons ?_ (ih _ _ ?_ h2)
      · unfold eventFields at h1
        rw [hb] at h1
        exact h1
      · unfold defaultsOf at hb ⊢
        rw [firstGlobal_append]
        have : firstGlobal c [Item.trace ch] "event" = none := rfl
        rw [this, Option.or_none]
        exact hb

/-- The fields of an event that was written. -/
theorem fieldsOf_event {c : Codec D F U} (he : Escapes c) (e : Event D F U) :
    fieldsOf c (fieldXml c ("concept:name", .str e.name) :: fieldXml c ("time:timestamp", .date e.date) :: kids c e.payload) =
      ("concept:name", .str e.name) :: ((((c.parseDate (c.showDate e.date)).map (fun d => ("time:timestamp", Value.date d))).toList) ++
        (sortByFirst e.payload).filterMap (backPair c)) := by
  rw [← fieldsOf_kids he]
  unfold fieldsOf
  simp only [emptiesOf, fieldXml, XesNode.empties, List.singleton_append, List.filterMap_cons]
  have h1 := field_back he ("concept:name", (.str e.name : Value D F U))
  have h2 := field_back he ("time:timestamp", (.date e.date : Value D F U))
  simp only at h1 h2
  rw [h1, h2]
  have b1 : backPair c ("concept:name", (.str e.name : Value D F U)) = some ("concept:name", .str e.name) := rfl
  have b2 : backPair c ("time:timestamp", (.date e.date : Value D F U)) =
      (c.parseDate (c.showDate e.date)).map (fun d => ("time:timestamp", Value.date d)) := by
    unfold backPair back extractValue Value.tag Value.text
    simp only [if_true, Option.map_map]
    rfl
  rw [b1, b2]
  cases c.parseDate (c.showDate e.date) <;> simp

theorem event_back {c : Codec D F U} (he : Escapes c) (l : Log D F U) (hw : Dict.WF l.globals) (hd : ∀ g ∈ l.globals, Dict.WF g.2)
    (e : Event D F U) (hp : Dict.WF e.payload ∧ e.payload.get? "concept:name" = none ∧ e.payload.get? "time:timestamp" = none) :
    let own := fieldsOf c (fieldXml c ("concept:name", .str e.name) :: fieldXml c ("time:timestamp", .date e.date) :: kids c e.payload)
    nameOf (defaultsOf c (headItems c l)) own = some e.name ∧ dateOf (defaultsOf c (headItems c l)) own = dateBack c l e ∧
      ∀ key, key ≠ "concept:name" → key ≠ "time:timestamp" →
        (lastField own key).or (lastField (defaultsOf c (headItems c l)) key) =
          ((e.payload.get? key).bind (back c)).or (defaultBack c l key) := by
  intro own
  have hdef : ∀ key, lastField (defaultsOf c (headItems c l)) key = defaultBack c l key := by
    intro key
    unfold defaultsOf defaultBack
    have := firstGlobal_head he l hw "event"
    rw [he.event] at this
    rw [this]
    cases hg : l.globals.get? "event" with
    | none => rfl
    | some d =>
      simp only [Option.bind_some]
      cases hemp : d.isEmpty with
      | true =>
        rw [List.isEmpty_iff.1 hemp]
        rfl
      | false =>
        simp only [Bool.false_eq_true, if_false]
        have hwd := hd _ (Dict.mem_of_get? hg)
        rw [fieldsOf_kids he, lastField_backs c _ (sortByFirst_wf _ hwd), sortByFirst_get _ hwd]
  have hown : own = _ := fieldsOf_event he e
  have hn := backs_keys c e.payload "concept:name" hp.2.1
  have ht := backs_keys c e.payload "time:timestamp" hp.2.2
  refine ⟨?_, ?_, ?_⟩
  · unfold nameOf
    rw [hown, lastName_cons, lastName_none]
    · rfl
    · intro x hx
      rcases List.mem_append.1 hx with h | h
      · obtain ⟨d, _, rfl⟩ := Option.map_eq_some_iff.1 (Option.mem_toList.1 h)
        simp
      · exact hn x h
  · unfold dateOf dateBack
    rw [hdef, hown, lastDate_cons]
    have : lastDate ((((c.parseDate (c.showDate e.date)).map (fun d => ("time:timestamp", Value.date d))).toList) ++
        (sortByFirst e.payload).filterMap (backPair c)) = c.parseDate (c.showDate e.date) := by
      cases c.parseDate (c.showDate e.date) with
      | none =>
        simp only [Option.map_none, Option.toList_none, List.nil_append]
        exact lastDate_none _ ht
      | some d =>
        simp only [Option.map_some, Option.toList_some, List.singleton_append]
        rw [lastDate_cons, lastDate_none _ ht]
        simp
    rw [this]
    simp
  · intro key h1 h2
    rw [hdef, hown, lastField_cons]
    have : lastField ((((c.parseDate (c.showDate e.date)).map (fun d => ("time:timestamp", Value.date d))).toList) ++
        (sortByFirst e.payload).filterMap (backPair c)) key = (e.payload.get? key).bind (back c) := by
      rw [← sortByFirst_get e.payload hp.1, ← lastField_backs c _ (sortByFirst_wf _ hp.1)]
      cases c.parseDate (c.showDate e.date) with
      | none => rfl
      | some d =>
        simp only [Option.map_some, Option.toList_some, List.singleton_append]
        rw [lastField_cons]
        simp [Ne.symm h2]
    rw [this]
    simp [Ne.symm h1]

theorem trace_back {c : Codec D F U} (he : Escapes c) (l : Log D F U) (hw : Dict.WF l.globals) (hd : ∀ g ∈ l.globals, Dict.WF g.2) :
    ∀ (t : List (Event D F U)), (∀ e ∈ t, Dict.WF e.payload ∧ e.payload.get? "concept:name" = none ∧ e.payload.get? "time:timestamp" = none) →
    ∀ (t' : List (Event D F U)),
      List.Forall₂ EventOf (((eventElementsOf (t.map (eventXml c))).map
        (fun x => (defaultsOf c (headItems c l), fieldsOf c x))).filter Complete) t' →
      List.Forall₂ (EventBack c l) (t.filter (fun e => (dateBack c l e).isSome)) t' := by
  intro t
  induction t with
  | nil =>
    intro _ t' h
    cases h
    exact .nil
  | cons e t ih =>
    intro hp t' h
    rw [eventElementsOf_map] at h
    rw [List.map_cons, List.map_cons, List.filter_cons] at h
    rw [← eventElementsOf_map] at h
    obtain ⟨h1, h2, h3⟩ := event_back he l hw hd e (hp e (by simp))
    have hcomp : Complete (defaultsOf c (headItems c l), fieldsOf c (fieldXml c ("concept:name", .str e.name) ::
        fieldXml c ("time:timestamp", .date e.date) :: kids c e.payload)) = (dateBack c l e).isSome := by
      unfold Complete
      simp only [h1, h2]
      rfl
    rw [hcomp] at h
    rw [List.filter_cons]
    have hp' := fun x (hx : x ∈ t) => hp x (List.mem_cons_of_mem _ hx)
    cases hs : (dateBack c l e).isSome with
    | false =>
      rw [hs] at h
      exact ih hp' t' h
    | true =>
      rw [hs] at h
      simp only [if_true] at h ⊢
      cases h with
      | cons ha hb =>
        refine .cons ?_ (ih hp' _ hb)
        obtain ⟨a1, a2, a3⟩ := ha
        simp only at a1 a2 a3
        refine ⟨?_, ?_, fun key => ?_⟩
        · rw [h1] at a1
          exact (Option.some.inj a1).symm
        · rw [← a2, h2]
        · rw [a3 key]
          split
          · rfl
          · rename_i hk
            exact h3 key (fun h => hk (Or.inl h)) (fun h => hk (Or.inr h))

/-! ### Logs that were read -/

theorem once_of_extract {c : Codec D F U} (hp : Parses c) {tag text : String} {v : Value D F U} (h : extractValue c tag text = some v) :
    back c v = some v := by
  unfold extractValue at h
  unfold back
  split at h
  · obtain ⟨d, hd, rfl⟩ := Option.map_eq_some_iff.1 h
    simp [Value.tag, Value.text, extractValue, hp.date _ _ hd]
  split at h
  · obtain ⟨d, hd, rfl⟩ := Option.map_eq_some_iff.1 h
    simp [Value.tag, Value.text, extractValue, hp.int _ _ hd]
  split at h
  · obtain ⟨d, hd, rfl⟩ := Option.map_eq_some_iff.1 h
    simp [Value.tag, Value.text, extractValue, hp.float _ _ hd]
  split at h
  · cases h
    rfl
  split at h
  · split at h
    · cases h
      rfl
    · split at h
      · cases h
        rfl
      · cases h
  split at h
  · obtain ⟨d, hd, rfl⟩ := Option.map_eq_some_iff.1 h
    simp [Value.tag, Value.text, extractValue, hp.guid _ _ hd]
  · cases h

theorem field_extract {c : Codec D F U} {x : String × List (String × String)} {k : String} {v : Value D F U} (h : field c x = some (k, v)) :
    ∃ text, extractValue c x.1 text = some v := by
  unfold field at h
  cases hk : keyText c x.2 with
  | none => rw [hk] at h; cases h
  | some kt =>
    rw [hk] at h
    simp only [Option.bind_eq_bind, Option.bind_some] at h
    cases he : extractValue c x.1 kt.2 with
    | none => rw [he] at h; cases h
    | some w =>
      rw [he] at h
      cases h
      exact ⟨_, he⟩

theorem fieldsOf_once {c : Codec D F U} (hp : Parses c) {ch : List XesNode} {k : String} {v : Value D F U} (h : (k, v) ∈ fieldsOf c ch) :
    back c v = some v := by
  obtain ⟨x, _, hx⟩ := List.mem_filterMap.1 h
  obtain ⟨text, ht⟩ := field_extract hx
  exact once_of_extract hp ht

theorem lastField_mem {fs : List (String × Value D F U)} {key : String} {v : Value D F U} (h : lastField fs key = some v) :
    (key, v) ∈ fs := by
  obtain ⟨e, he, hv⟩ := List.mem_filterMap.1 (List.mem_of_getLast? h)
  split at hv
  · rename_i hk
    cases hv
    rw [← hk]
    exact he
  · cases hv

theorem lastDate_mem {fs : List (String × Value D F U)} {d : D} (h : lastDate fs = some d) : ("time:timestamp", Value.date d) ∈ fs := by
  obtain ⟨⟨k, v⟩, he, hv⟩ := List.mem_filterMap.1 (List.mem_of_getLast? h)
  cases v <;> simp only at hv <;> try cases hv
  split at hv
  · rename_i hk
    cases hv
    subst hk
    exact he
  · cases hv

theorem defaultsOf_once {c : Codec D F U} (hp : Parses c) {items : List Item} {k : String} {v : Value D F U}
    (h : (k, v) ∈ defaultsOf c items) : back c v = some v := by
  unfold defaultsOf at h
  cases hf : firstGlobal c items "event" with
  | none => rw [hf] at h; cases h
  | some ch => rw [hf] at h; exact fieldsOf_once hp h

/-- The maps of a log have different keys. -/
def MapsWF (l : Log D F U) : Prop :=
  Dict.WF l.globals ∧ (∀ g ∈ l.globals, Dict.WF g.2) ∧ ∀ t ∈ l.traces, ∀ e ∈ t, Dict.WF e.payload

theorem updates_wf (fs : List (String × Value D F U)) : ∀ d : Draft D F U, Dict.WF d.payload → Dict.WF (updates d fs).payload := by
  induction fs with
  | nil => intro d h; exact h
  | cons e es ih =>
    intro d h
    have hone : Dict.WF (d.update e.1 e.2).payload := by
      unfold Draft.update
      split
      · split <;> exact h
      · split
        · split <;> exact h
        · exact Dict.WF_set h _ _
    exact ih _ hone

theorem start_wf (globals : Dict String (Dict String (Value D F U))) : Dict.WF (Draft.start globals).payload := by
  unfold Draft.start
  split
  · exact Dict.WF_nil
  · exact updates_wf _ _ Dict.WF_nil

theorem mapsWF_item (c : Codec D F U) (l : Log D F U) (h : MapsWF l) (i : Item) : MapsWF (addItem c l i) := by
  obtain ⟨h1, h2, h3⟩ := h
  cases i with
  | trace ch =>
    refine ⟨h1, h2, ?_⟩
    intro t ht e he
    rcases List.mem_append.1 ht with ht | ht
    · exact h3 t ht e he
    · rw [List.mem_singleton.1 ht] at he
      obtain ⟨x, _, hx⟩ := List.mem_filterMap.1 he
      unfold eventRead Draft.finish at hx
      split at hx
      · cases hx
        exact updates_wf _ _ (start_wf _)
      · cases hx
  | global scope ch =>
    simp only [addItem, globalAdd_fold]
    split
    · rename_i defaults heq
      split
      · exact ⟨h1, h2, h3⟩
      · refine ⟨Dict.WF_set h1 _ _, ?_, h3⟩
        intro g hg
        have hget := Dict.get?_of_mem (Dict.WF_set h1 scope defaults) (k := g.1) (v := g.2) hg
        rw [Dict.get?_set] at hget
        split at hget
        · have hd := Option.some.inj hget
          rw [← hd]
          split at heq
          · rw [← Option.some.inj heq]
            exact sets_wf _ _ Dict.WF_nil
          · cases heq
        · exact h2 (g.1, g.2) (Dict.mem_of_get? hget)
    · exact ⟨h1, h2, h3⟩
  | tag name attrs =>
    obtain ⟨_, _, _, k4, k5⟩ := addTag_extensions c name attrs l
    unfold MapsWF
    simp only [addItem]
    rw [k4, k5]
    exact ⟨h1, h2, h3⟩

theorem mapsWF_fold (c : Codec D F U) (items : List Item) : ∀ l : Log D F U, MapsWF l → MapsWF (items.foldl (addItem c) l) := by
  induction items with
  | nil => intro l h; exact h
  | cons i items ih => intro l h; exact ih _ (mapsWF_item c l h i)

theorem mapsWF_nothing : MapsWF (.nothing : Log D F U) :=
  ⟨Dict.WF_nil, (fun g h => by cases h), (fun t h => by cases h)⟩

theorem forall₂_right {α β : Type} {R : α → β → Prop} {as : List α} {bs : List β} (h : List.Forall₂ R as bs) (b : β) (hb : b ∈ bs) :
    ∃ a ∈ as, R a b := by
  induction h with
  | nil => cases hb
  | cons h1 _ ih =>
    rcases List.mem_cons.1 hb with rfl | hb
    · exact ⟨_, List.mem_cons_self .., h1⟩
    · obtain ⟨a, ha, hr⟩ := ih hb
      exact ⟨a, List.mem_cons_of_mem _ ha, hr⟩

/-- Where the events of a log come from. -/
theorem event_origin {c : Codec D F U} {items : List Item} {l : Log D F U} (h : LogOf c items l) (t : List (Event D F U))
    (ht : t ∈ l.traces) (e : Event D F U) (he : e ∈ t) :
    ∃ before ch ch', (before, ch) ∈ tracesIn [] items ∧ EventOf (defaultsOf c before, fieldsOf c ch') e := by
  obtain ⟨⟨before, ch⟩, hm, hr⟩ := forall₂_right h.traces t ht
  obtain ⟨f, hf, hev⟩ := forall₂_right hr e he
  obtain ⟨ch', _, rfl⟩ := List.mem_map.1 (List.mem_of_mem_filter hf)
  exact ⟨before, ch, ch', hm, hev⟩

end Ficus.RsXes
