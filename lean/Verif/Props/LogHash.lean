import Verif.Model.LogHash
import Verif.Spec.LogHash
import Verif.Proofs.Hash
import Verif.Props.Hash
import Verif.Props.Heap

/-! Properties C90, C91: comparing logs with `==`. -/

namespace Ficus
open Spec

theorem dictHash_same {V : Type} (strV : V → String) {d e : Dict String V} (h : SameDict d e) :
    dictHash (fun s => s) strV d = dictHash (fun s => s) strV e :=
  (C02_event_hash_insertion_order _ strV d e h.1 h.2.1 h.2.2).1

theorem traceHash_same (strV : Val → String) {s t : Trace Payload} (h : SameEvents s t) :
    traceHash (fun s => s) strV s.events = traceHash (fun s => s) strV t.events := by
  have hm : s.events.map (dictHash (fun s => s) strV) = t.events.map (dictHash (fun s => s) strV) := by
    refine List.forall₂_eq_eq_eq ▸ ?_
    exact List.forall₂_map_left_iff.2 (List.forall₂_map_right_iff.2 (h.imp fun _ _ h => dictHash_same strV h))
  simpa [traceEq] using C03_trace_equality_of_events _ strV s.events t.events hm

/-- C90, content: logs with the same content compare equal, whatever the insertion orders of their dictionaries and however
python prints values and hashes pairs. -/
theorem C90_same_content (pairHash : Int → Int → Int) (str : Strs) (a b : Log Payload) (h : SameContent a b) :
    logEq pairHash str a b = true := by
  have ht : a.traces.map (fun t => traceHash (fun s => s) str.value t.events) =
      b.traces.map (fun t => traceHash (fun s => s) str.value t.events) := by
    refine List.forall₂_eq_eq_eq ▸ ?_
    exact List.forall₂_map_left_iff.2 (List.forall₂_map_right_iff.2 (h.traces.imp fun _ _ h => traceHash_same str.value h))
  simp only [logEq, logHash, ht, dictHash_same _ h.attributes, dictHash_same _ h.extensions, dictHash_same _ h.classifiers,
    dictHash_same _ h.properties, decide_true]

/-- Two orders of the attributes of an event and of the attributes of a log. -/
example (pairHash : Int → Int → Int) (str : Strs) :
    logEq pairHash str
      { traces := [{ events := [[("concept:name", .str "a"), ("n", .int 1)]] }], attributes := [("x", "1"), ("y", "2")] }
      { traces := [{ events := [[("n", .int 1), ("concept:name", .str "a")]], attributes := [("id", .str "t")] }],
        attributes := [("y", "2"), ("x", "1")] } = true := by
  refine C90_same_content _ _ _ _ ⟨?_, ?_, ?_, ?_, ?_⟩
  · refine .cons (.cons ⟨by decide, by decide, fun k => ?_⟩ .nil) .nil
    by_cases h1 : "concept:name" = k
    · subst h1; decide
    · simp [Dict.get?, h1]
  · refine ⟨by decide, by decide, fun k => ?_⟩
    by_cases h1 : "x" = k
    · subst h1; decide
    · simp [Dict.get?, h1]
  all_goals exact ⟨by decide, by decide, fun _ => rfl⟩

/-- C90, relation: `==` on logs is reflexive, symmetric and transitive, and equal logs have equal hashes. -/
theorem C90_equivalence (pairHash : Int → Int → Int) (str : Strs) :
    Equivalence (fun a b => logEq pairHash str a b = true) ∧
      ∀ a b, logEq pairHash str a b = true ↔ logHash pairHash str a = logHash pairHash str b := by
  refine ⟨⟨fun a => by simp [logEq], fun h => ?_, fun h g => ?_⟩, fun a b => by simp [logEq]⟩
  · simp only [logEq, decide_eq_true_eq] at h ⊢; exact h.symm
  · simp only [logEq, decide_eq_true_eq] at h g ⊢; exact h.trans g

/-- C91, blindness: changing the attributes of the traces and the global values of a log in any way leaves the log equal to
what it was. -/
theorem C91_blind (pairHash : Int → Int → Int) (str : Strs) (log : Log Payload) (f : Trace Payload → Dict String Val)
    (globals : Dict String (Dict String Val)) :
    logEq pairHash str log
      { log with traces := log.traces.map (fun t => { t with attributes := f t }), globals := globals } = true := by
  simp only [logEq, logHash, List.map_map, decide_eq_true_eq]
  rfl

/-- C90, copies: a shallow copy and a deep copy of a log compare equal to the log. The shallow copy stays equal to the log
whatever is done to traces and events afterwards, since it shares them. -/
theorem C90_copies (pairHash : Int → Int → Int) (str : Strs) (h : Heap) (l : Nat) (hs : Sound h l) (ops : List HeapOp)
    (hops : ∀ op ∈ ops, op.target ≠ some (.log l) ∧ op.target ≠ some (.log (h.copyLog l).1)) :
    logEq pairHash str ((heapHistory ops (h.copyLog l).2).viewLog l)
      ((heapHistory ops (h.copyLog l).2).viewLog (h.copyLog l).1) = true ∧
    logEq pairHash str ((h.deepcopyLog l).2.viewLog l) ((h.deepcopyLog l).2.viewLog (h.deepcopyLog l).1) = true := by
  constructor
  · have hl : l < h.logs.length := hs (.log l) (.inl rfl)
    have hobj : (h.copyLog l).2.logObj (h.copyLog l).1 = { (h.logObj l) with globals := [] } := newLog_logObj _ _
    have hobj' : (h.copyLog l).2.logObj l = h.logObj l := (extends_newLog h _).logObj hl
    have h1 := history_logs ops (h.copyLog l).2 l (by simp [Heap.copyLog, Heap.newLog]; omega) (fun op ho => (hops op ho).1)
    have h2 := history_logs ops (h.copyLog l).2 (h.copyLog l).1 (by simp [Heap.copyLog, Heap.newLog])
      (fun op ho => (hops op ho).2)
    rw [hobj'] at h1
    rw [hobj] at h2
    simp only [logEq, decide_eq_true_eq]
    simp only [logHash, Heap.viewLog, h1, h2]
  · obtain ⟨h1, h2⟩ := C50_deepcopy_value h l hs
    rw [h1, h2]
    exact C91_blind pairHash str (h.viewLog l) (fun _ => []) []

/-- An event is renamed after the log was copied. -/
example (pairHash : Int → Int → Int) (str : Strs) :
    logEq pairHash str ((heapHistory [.setAttr 0 "concept:name" (.str "z")] (sharedHeap.copyLog 0).2).viewLog 0)
      ((heapHistory [.setAttr 0 "concept:name" (.str "z")] (sharedHeap.copyLog 0).2).viewLog (sharedHeap.copyLog 0).1) = true :=
  (C90_copies _ _ _ _ (sharedHeap_sound 0 (by omega)) _ (by simp [HeapOp.target])).1

/-- C91 refuted: two different logs compare equal, however python prints values and hashes pairs: trace attributes are not
consulted, and neither are global values; and a log without traces equals a log with one empty trace. -/
theorem C91_content_equality_refuted (pairHash : Int → Int → Int) (str : Strs) :
    logEq pairHash str { traces := [{ events := [], attributes := [("concept:name", .str "case 1")] }] }
      { traces := [{ events := [], attributes := [("concept:name", .str "case 2")] }] } = true ∧
    logEq pairHash str {} { globals := [("event", [("n", .int 1)])] } = true ∧
    logEq pairHash str {} { traces := [{}] } = true := by
  refine ⟨?_, ?_, ?_⟩ <;> simp only [logEq, decide_eq_true_eq] <;> rfl

theorem foldl_pair_inj {f : Int → Int → Int} : ∀ (l m : List Int) (x y : Int),
    (∀ p ∈ hashedPairs f x l, ∀ q ∈ hashedPairs f y m, f p.1 p.2 = f q.1 q.2 → p = q) →
    l.length = m.length → l.foldl f x = m.foldl f y → x = y ∧ l = m := by
  intro l
  induction l with
  | nil => intro m x y _ hl h; cases m with
    | nil => exact ⟨h, rfl⟩
    | cons _ _ => simp at hl
  | cons a l ih => intro m x y hf hl h; cases m with
    | nil => simp at hl
    | cons b m =>
      simp only [List.foldl_cons] at h
      obtain ⟨h1, h2⟩ := ih m _ _ (fun p hp q hq => hf p (by simp [hashedPairs, hp]) q (by simp [hashedPairs, hq]))
        (by simpa using hl) h
      have := hf (x, a) (by simp [hashedPairs]) (y, b) (by simp [hashedPairs]) h1
      simp only [Prod.mk.injEq] at this
      exact ⟨this.1, by rw [this.2, h2]⟩

/-- The hashes that are combined to the hash of a log: of the traces, of attributes, extensions, classifiers and
properties; the first one is 0 if there are no traces. -/
def partHashes (str : Strs) (log : Log Payload) : List Int :=
  (if log.traces = [] then [0] else log.traces.map (fun t => traceHash (fun s => s) str.value t.events)) ++
    [dictHash (fun s => s) (fun s => s) log.attributes, dictHash (fun s => s) str.extension log.extensions,
      dictHash (fun s => s) str.classifier log.classifiers, dictHash (fun s => s) str.value log.properties]

theorem logHash_fold (f : Int → Int → Int) (str : Strs) (log : Log Payload) :
    logHash f str log = ((partHashes str log).tail).foldl f ((partHashes str log).headD 0) := by
  unfold logHash partHashes
  cases h : log.traces with
  | nil => simp [combineListOfHashes]
  | cons t ts => simp [combineListOfHashes]

/-- C91 partial (what is missing: hashes can collide, and neither trace attributes nor global values are compared). If
python's hash of pairs does not collide on the pairs that are hashed for the two logs, logs with the same number of traces
compare equal exactly if their traces compare equal position by position and their attributes, extensions, classifiers and
properties have equal hashes. -/
theorem C91_equality_partial (pairHash : Int → Int → Int) (str : Strs) (a b : Log Payload)
    (hinj : ∀ p ∈ hashedPairs pairHash ((partHashes str a).headD 0) (partHashes str a).tail,
      ∀ q ∈ hashedPairs pairHash ((partHashes str b).headD 0) (partHashes str b).tail,
        pairHash p.1 p.2 = pairHash q.1 q.2 → p = q)
    (hl : a.traces.length = b.traces.length) :
    logEq pairHash str a b = true ↔
      (∀ i (ha : i < a.traces.length) (hb : i < b.traces.length),
        traceEq (fun s => s) str.value a.traces[i].events b.traces[i].events = true) ∧
      dictHash (fun s => s) (fun s => s) a.attributes = dictHash (fun s => s) (fun s => s) b.attributes ∧
      dictHash (fun s => s) str.extension a.extensions = dictHash (fun s => s) str.extension b.extensions ∧
      dictHash (fun s => s) str.classifier a.classifiers = dictHash (fun s => s) str.classifier b.classifiers ∧
      dictHash (fun s => s) str.value a.properties = dictHash (fun s => s) str.value b.properties := by
  have hmap : (a.traces.map (fun t => traceHash (fun s => s) str.value t.events) =
      b.traces.map (fun t => traceHash (fun s => s) str.value t.events)) ↔
      ∀ i (ha : i < a.traces.length) (hb : i < b.traces.length),
        traceEq (fun s => s) str.value a.traces[i].events b.traces[i].events = true := by
    constructor
    · intro h i ha hb
      have := congrArg (·[i]?) h
      simp only [List.getElem?_map, List.getElem?_eq_getElem ha, List.getElem?_eq_getElem hb, Option.map_some,
        Option.some.injEq] at this
      simpa [traceEq] using this
    · intro h
      refine List.ext_getElem (by simpa using hl) fun i h1 h2 => ?_
      have := h i (by simpa using h1) (by simpa using h2)
      simpa [traceEq] using this
  rw [← hmap, logEq, decide_eq_true_eq]
  constructor
  · intro h
    rw [logHash_fold, logHash_fold] at h
    have hlen : (partHashes str a).length = (partHashes str b).length := by
      unfold partHashes
      have : a.traces = [] ↔ b.traces = [] := by rw [← List.length_eq_zero_iff, ← List.length_eq_zero_iff, hl]
      by_cases ha : a.traces = []
      · simp [ha, this.1 ha]
      · simp [ha, mt this.2 ha, hl]
    obtain ⟨h1, h2⟩ := foldl_pair_inj _ _ _ _ hinj (by simp [hlen]) h
    have hne : ∀ log, partHashes str log ≠ [] := fun log => by simp [partHashes]
    have hp : partHashes str a = partHashes str b := by
      obtain ⟨x, l, hx⟩ := List.exists_cons_of_ne_nil (hne a)
      obtain ⟨y, m, hy⟩ := List.exists_cons_of_ne_nil (hne b)
      rw [hx, hy] at h1 h2 ⊢
      simp only [List.headD_cons, List.tail_cons] at h1 h2
      rw [h1, h2]
    unfold partHashes at hp
    obtain ⟨h3, h4⟩ := List.append_inj' hp rfl
    simp only [List.cons.injEq, and_true] at h4
    refine ⟨?_, h4⟩
    by_cases ha : a.traces = []
    · rw [ha] at hl ⊢; rw [List.length_eq_zero_iff.1 hl.symm]
    · have hb : b.traces ≠ [] := fun hb => by rw [hb] at hl; exact ha (List.length_eq_zero_iff.1 hl)
      simpa only [ha, hb, if_false] using h3
  · rintro ⟨h1, h2, h3, h4, h5⟩
    simp only [logHash, h1, h2, h3, h4, h5]

/-- Two logs with the same traces in a different order, and a hash of pairs that does not collide on them. -/
example : logEq (fun a b => a * 1000000007 + b) ⟨fun _ => "", fun _ => "", fun _ => ""⟩
    { traces := [{}, { events := [[("x", .int 1)]] }] } { traces := [{ events := [[("x", .int 1)]] }, {}] } = false := by
  rw [Bool.eq_false_iff]
  intro h
  have := ((C91_equality_partial _ _ _ _ (by decide +kernel) (by rfl)).1 h).1 0 (by decide) (by decide)
  exact absurd this (by decide +kernel)

end Ficus
