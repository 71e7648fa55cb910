import Verif.Spec.Nets
import Verif.Proofs.Dict
import Verif.Proofs.Info
import Std.Data.String.ToNat

/-! Lemmas about dictionaries filled from lists, the text of integers, and drawn graphs. -/

namespace Ficus
open Spec

/-! ### Dictionaries filled from lists -/

section Fold
variable {A V K : Type} [DecidableEq K] (key : A → K) (val : A → V)

theorem foldSet_nodup (l : List A) (d : Dict K V) (h : (d.keys ++ l.map key).Nodup) :
    l.foldl (fun d a => d.set (key a) (val a)) d = d ++ l.map (fun a => (key a, val a)) := by
  induction l generalizing d with
  | nil => simp
  | cons a l ih =>
    have hk : key a ∉ d.keys := by
      intro hm
      rw [List.nodup_append] at h
      exact h.2.2 _ hm (key a) (by simp) rfl
    rw [List.foldl_cons, set_append_of_notMem d _ _ hk, ih]
    · simp
    · simpa [Dict.keys] using h

theorem foldSet_get? (l : List A) (d : Dict K V) (k : K) :
    (l.foldl (fun d a => d.set (key a) (val a)) d).get? k =
      match lastWith key l k with
      | some a => some (val a)
      | none => d.get? k := by
  induction l using List.reverseRecOn with
  | nil => rfl
  | append_singleton l a ih =>
    rw [List.foldl_append, List.foldl_cons, List.foldl_nil, Dict.get?_set]
    unfold lastWith at ih ⊢
    rw [List.reverse_append, List.reverse_singleton, List.singleton_append, List.find?_cons]
    by_cases h : key a = k
    · simp [h]
    · simp only [h, if_false, decide_false]
      rw [ih]

theorem foldSet_keys (l : List A) :
    Dict.keys (l.foldl (fun (d : Dict K V) a => d.set (key a) (val a)) []) = (l.map key).eraseDups := by
  induction l using List.reverseRecOn with
  | nil => rfl
  | append_singleton l a ih =>
    rw [List.foldl_append, List.foldl_cons, List.foldl_nil, Dict.keys_set, ih, List.map_append,
      List.eraseDups_append]
    simp only [List.map_cons, List.map_nil, List.removeAll, List.filter_cons, List.filter_nil]
    by_cases h : key a ∈ l.map key
    · have h' : key a ∈ (l.map key).eraseDups := by simpa using h
      rw [if_pos h']
      simp only [List.elem_eq_mem, h, decide_true, Bool.not_true]
      simp
    · have h' : key a ∉ (l.map key).eraseDups := by simpa using h
      rw [if_neg h']
      simp only [List.elem_eq_mem, h, decide_false, Bool.not_false, if_true]
      rfl

theorem foldSet_keyed (l : List A) (d : Dict K V) (P : K → V → Prop) (hd : ∀ kv ∈ d, P kv.1 kv.2)
    (hl : ∀ a ∈ l, P (key a) (val a)) :
    ∀ kv ∈ l.foldl (fun d a => d.set (key a) (val a)) d, P kv.1 kv.2 := by
  have hset : ∀ (d : Dict K V) (k : K) (v : V), (∀ kv ∈ d, P kv.1 kv.2) → P k v → ∀ kv ∈ d.set k v, P kv.1 kv.2 := by
    intro d k v h1 h2
    induction d with
    | nil => intro kv hkv; simp only [Dict.set, List.mem_singleton] at hkv; subst hkv; exact h2
    | cons x d ih =>
      obtain ⟨a, b⟩ := x
      intro kv hkv
      simp only [Dict.set] at hkv
      split at hkv
      · rcases List.mem_cons.1 hkv with rfl | hkv
        · exact h2
        · exact h1 _ (by simp [hkv])
      · rcases List.mem_cons.1 hkv with rfl | hkv
        · exact h1 _ (by simp)
        · exact ih (fun kv hkv => h1 kv (by simp [hkv])) kv hkv
  induction l generalizing d with
  | nil => exact hd
  | cons a l ih =>
    rw [List.foldl_cons]
    exact ih _ (hset d _ _ hd (hl a (by simp))) (fun b hb => hl b (by simp [hb]))

end Fold

/-! ### The text of integers -/

theorem natText (n : Nat) : (toString n : String).toList = Nat.toDigits 10 n := Nat.toList_repr

theorem natText_isDigit (n : Nat) (c : Char) (h : c ∈ (toString n : String).toList) : c.isDigit = true := by
  rw [natText] at h
  exact Nat.isDigit_of_mem_toDigits (by omega) (by omega) h

theorem natText_ne_nil (n : Nat) : (toString n : String).toList ≠ [] := by
  rw [natText]
  intro h
  have := Nat.ofDigitChars_ten_toDigits (n := n)
  have h2 := Nat.length_toDigits_pos (b := 10) (n := n)
  rw [h] at h2
  simp at h2

theorem intText_ofNat (n : Nat) : (toString (Int.ofNat n) : String) = toString n := rfl

theorem intText_negSucc (n : Nat) : (toString (Int.negSucc n) : String) = "-" ++ toString (n + 1) := rfl

theorem intText_injective {a b : Int} (h : (toString a : String) = toString b) : a = b := by
  have hminus : ∀ n m : Nat, (toString n : String) ≠ "-" ++ toString m := by
    intro n m h
    have h' := congrArg String.toList h
    rw [String.toList_append] at h'
    have : '-' ∈ (toString n : String).toList := by rw [h']; simp
    exact absurd (natText_isDigit n '-' this) (by decide)
  cases a with
  | ofNat n =>
    cases b with
    | ofNat m => rw [intText_ofNat, intText_ofNat] at h; rw [Nat.repr_injective h]
    | negSucc m => rw [intText_ofNat, intText_negSucc] at h; exact absurd h (hminus _ _)
  | negSucc n =>
    cases b with
    | ofNat m => rw [intText_ofNat, intText_negSucc] at h; exact absurd h.symm (hminus _ _)
    | negSucc m =>
      rw [intText_negSucc, intText_negSucc] at h
      have h' := congrArg String.toList h
      rw [String.toList_append, String.toList_append] at h'
      have h2 := List.append_cancel_left h'
      have h3 : (toString (n + 1) : String) = toString (m + 1) := String.toList_injective h2
      have := Nat.repr_injective h3
      congr 1; omega

theorem natText_injective {a b : Nat} (h : (toString a : String) = toString b) : a = b := Nat.repr_injective h

theorem endNode_of_noColon (s : String) (h : ':' ∉ s.toList) : endNode s = s := by
  unfold endNode
  have : s.toList.takeWhile (fun c => decide (c ≠ ':')) = s.toList := by
    generalize s.toList = l at h
    induction l with
    | nil => rfl
    | cons c l ih =>
      simp only [List.mem_cons, not_or] at h
      rw [List.takeWhile_cons_of_pos (by simpa using fun e => h.1 e.symm), ih h.2]
  rw [this]
  exact String.ofList_toList

theorem natText_noColon (n : Nat) : ':' ∉ (toString n : String).toList := fun h =>
  absurd (natText_isDigit n ':' h) (by decide)

theorem intText_noColon (i : Int) : ':' ∉ (toString i : String).toList := by
  cases i with
  | ofNat n => rw [intText_ofNat]; exact natText_noColon n
  | negSucc n =>
    rw [intText_negSucc, String.toList_append]
    intro h
    rcases List.mem_append.1 h with h | h
    · exact absurd h (by decide)
    · exact natText_noColon _ h

@[simp] theorem endNode_int (i : Int) : endNode (toString i) = toString i := endNode_of_noColon _ (intText_noColon i)

theorem endNode_intRepr (i : Int) : endNode i.repr = i.repr := endNode_int i

@[simp] theorem endNode_nat (n : Nat) : endNode (toString n) = toString n := endNode_of_noColon _ (natText_noColon n)

/-! ### Statements -/

@[simp] theorem nodeNames_append (a b : List DotStmt) : nodeNames (a ++ b) = nodeNames a ++ nodeNames b := by
  simp [nodeNames]

@[simp] theorem edges_append (a b : List DotStmt) : edges (a ++ b) = edges a ++ edges b := by
  simp [edges]

theorem mem_nodeNames (l : List DotStmt) (n : String) : n ∈ nodeNames l ↔ ∃ lab sh, DotStmt.node n lab sh ∈ l := by
  unfold nodeNames
  rw [List.mem_filterMap]
  constructor
  · rintro ⟨s, hs, h⟩
    cases s with
    | node m lab sh => simp only [Option.some.injEq] at h; subst h; exact ⟨lab, sh, hs⟩
    | edge _ _ _ => simp at h
  · rintro ⟨lab, sh, h⟩
    exact ⟨_, h, rfl⟩

/-- What a place looks like. -/
def placeLook (showNames : Bool) (initial final : List Int) (p : Place) : String × String :=
  if p.id ∈ initial then ("<&#9679;>", "circle")
  else if p.id ∈ final then ("<&#9679;>", "doublecircle")
  else (if showNames then p.name else "", "circle")

theorem drawPlace_eq (showNames : Bool) (initial final : List Int) (p : Place) :
    drawPlace showNames initial final p =
      .node (toString p.id) (some (placeLook showNames initial final p).1)
        (some (placeLook showNames initial final p).2) := by
  unfold drawPlace placeLook
  split
  · rfl
  · split <;> rfl

theorem edges_drawArcs (ann : Option (Dict Int String)) (t : Transition) :
    edges (drawArcs ann t) =
      t.incoming.map (fun a => ((toString a.placeId : String), (toString t.id : String), some (arcLabel ann a))) ++
      t.outgoing.map (fun a => ((toString t.id : String), (toString a.placeId : String), some (arcLabel ann a))) := by
  unfold drawArcs
  rw [edges_append]
  simp [edges, dotEdge, List.filterMap_map, endNode_intRepr]

theorem nodeNames_drawArcs (ann : Option (Dict Int String)) (t : Transition) : nodeNames (drawArcs ann t) = [] := by
  simp [drawArcs, nodeNames, dotEdge]

theorem edges_drawNet (net : Net) (sn : Bool) (ann : Option (Dict Int String)) :
    edges (drawNet net sn ann) = net.transitions.flatMap (fun kv =>
      kv.2.incoming.map (fun a => ((toString a.placeId : String), (toString kv.2.id : String), some (arcLabel ann a))) ++
      kv.2.outgoing.map (fun a => ((toString kv.2.id : String), (toString a.placeId : String), some (arcLabel ann a)))) := by
  unfold drawNet
  rw [edges_append, edges_append]
  have h1 : edges (net.places.map (fun kv => drawPlace sn (markedPlaces net.initial) (markedPlaces net.final) kv.2)) = [] := by
    simp [edges, drawPlace_eq]
  have h2 : edges (net.transitions.map (fun kv => DotStmt.node (toString kv.2.id) kv.2.data (some "box"))) = [] := by
    simp [edges]
  rw [h1, h2, List.nil_append, List.nil_append]
  induction net.transitions with
  | nil => rfl
  | cons kv r ih => rw [List.map_cons, List.flatten_cons, edges_append, ih, edges_drawArcs, List.flatMap_cons]

theorem nodeNames_drawNet (net : Net) (sn : Bool) (ann : Option (Dict Int String)) :
    nodeNames (drawNet net sn ann) =
      net.places.map (fun kv => toString kv.2.id) ++ net.transitions.map (fun kv => toString kv.2.id) := by
  unfold drawNet
  rw [nodeNames_append, nodeNames_append]
  have h3 : nodeNames (net.transitions.map (fun kv => drawArcs ann kv.2)).flatten = [] := by
    induction net.transitions with
    | nil => rfl
    | cons kv r ih => rw [List.map_cons, List.flatten_cons, nodeNames_append, ih, nodeNames_drawArcs]; rfl
  rw [h3, List.append_nil]
  congr 1
  · simp [nodeNames, drawPlace_eq, List.filterMap_map]
  · simp [nodeNames, List.filterMap_map]

theorem mem_drawNet_node (net : Net) (sn : Bool) (ann : Option (Dict Int String)) (n : String) (lab sh : Option String) :
    DotStmt.node n lab sh ∈ drawNet net sn ann ↔
      (∃ kv ∈ net.places, n = toString kv.2.id ∧
        lab = some (placeLook sn (markedPlaces net.initial) (markedPlaces net.final) kv.2).1 ∧
        sh = some (placeLook sn (markedPlaces net.initial) (markedPlaces net.final) kv.2).2) ∨
      (∃ kv ∈ net.transitions, n = toString kv.2.id ∧ lab = kv.2.data ∧ sh = some "box") := by
  unfold drawNet
  rw [List.mem_append, List.mem_append]
  have h3 : DotStmt.node n lab sh ∉ (net.transitions.map (fun kv => drawArcs ann kv.2)).flatten := by
    rw [List.mem_flatten]
    rintro ⟨l, hl, h⟩
    obtain ⟨kv, _, rfl⟩ := List.mem_map.1 hl
    have := (mem_nodeNames (drawArcs ann kv.2) n).2 ⟨lab, sh, h⟩
    rw [nodeNames_drawArcs] at this
    simp at this
  simp only [h3, or_false, List.mem_map, drawPlace_eq, DotStmt.node.injEq]
  constructor
  · rintro (⟨kv, hkv, h1, h2, h3⟩ | ⟨kv, hkv, h1, h2, h3⟩)
    · exact Or.inl ⟨kv, hkv, h1.symm, h2.symm, h3.symm⟩
    · exact Or.inr ⟨kv, hkv, h1.symm, h2.symm, h3.symm⟩
  · rintro (⟨kv, hkv, h1, h2, h3⟩ | ⟨kv, hkv, h1, h2, h3⟩)
    · exact Or.inl ⟨kv, hkv, h1.symm, h2.symm, h3.symm⟩
    · exact Or.inr ⟨kv, hkv, h1.symm, h2.symm, h3.symm⟩

end Ficus
