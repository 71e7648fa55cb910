import Verif.Model.RsSuffix
import Verif.Proofs.Dict
import Mathlib.Tactic.Set

/-! The suffix tree of the backend: invariants of its construction. -/

namespace Ficus.Rs
open Dict

/-- The word with its end mark. -/
def marked (w : List Nat) : List (Option Nat) := w.map some ++ [none]

/-- The part of a list between two positions. -/
def seg {A : Type} (l : List A) (a b : Nat) : List A := (l.drop a).take (b - a)

theorem marked_length (w : List Nat) : (marked w).length = w.length + 1 := by simp [marked]

theorem marked_get (w : List Nat) (i : Nat) (h : i < (marked w).length) : (marked w)[i]? = some (w[i]?) := by
  rw [marked_length] at h
  unfold marked
  by_cases hi : i < w.length
  · rw [List.getElem?_append_left (by simpa using hi)]
    simp [hi]
  · have : i = w.length := by omega
    subst this
    rw [List.getElem?_append_right (by simp)]
    simp

theorem seg_self {A : Type} (l : List A) (a : Nat) : seg l a a = [] := by simp [seg]

theorem seg_length {A : Type} (l : List A) (a b : Nat) (h : b ≤ l.length) : (seg l a b).length = b - a := by
  simp [seg]; omega

theorem seg_append {A : Type} (l : List A) (a b c : Nat) (h1 : a ≤ b) (h2 : b ≤ c) : seg l a b ++ seg l b c = seg l a c := by
  unfold seg
  have e1 : l.drop b = (l.drop a).drop (b - a) := by rw [List.drop_drop]; congr 1; omega
  have e2 : c - a = (b - a) + (c - b) := by omega
  rw [e1, e2, List.take_add]

theorem seg_succ (w : List Nat) (a : Nat) (h : a < (marked w).length) : seg (marked w) a (a + 1) = [w[a]?] := by
  have := marked_get w a h
  unfold seg
  rw [Nat.add_sub_cancel_left]
  rw [List.getElem?_eq_getElem h] at this
  rw [List.drop_eq_getElem_cons h, List.take_succ_cons, List.take_zero, Option.some.inj this]

theorem seg_cons (w : List Nat) (a b : Nat) (h : a < b) (hb : b ≤ (marked w).length) :
    seg (marked w) a b = w[a]? :: seg (marked w) (a + 1) b := by
  rw [← seg_append (marked w) a (a + 1) b (by omega) (by omega), seg_succ w a (by omega)]
  rfl

theorem seg_end {A : Type} (l : List A) (a : Nat) : seg l a l.length = l.drop a := by
  unfold seg
  rw [List.take_of_length_le (by simp)]

/-- The nodes are a trie: `str v` is the word on the way to the node `v`; it is prefix of one of the first `j` suffixes, and these
suffixes are the words of the leaves. Links lead to the word without its first letter. Nodes in `ex` need not have a link nor two
children. -/
structure Trie (w : List Nat) (j : Nat) (nodes : List SNode) (str : Nat → List (Option Nat)) (ex : Nat → Prop) : Prop where
  root : ∃ n : SNode, nodes[0]? = some n ∧ n.left = 0 ∧ n.right = 0 ∧ n.parent = none ∧ n.link = none
  str0 : str 0 = []
  up : ∀ (v : Nat) (n : SNode), v ≠ 0 → nodes[v]? = some n → ∃ (p : Nat) (m : SNode), n.parent = some p ∧ nodes[p]? = some m ∧ n.left < n.right ∧
    n.right ≤ (marked w).length ∧ str v = str p ++ seg (marked w) n.left n.right ∧ m.children.get? (w[n.left]?) = some v
  down : ∀ (p : Nat) (m : SNode) (c : Option Nat) (v : Nat), nodes[p]? = some m → m.children.get? c = some v →
    v ≠ 0 ∧ ∃ n : SNode, nodes[v]? = some n ∧ n.parent = some p ∧ w[n.left]? = c
  wf : ∀ (p : Nat) (m : SNode), nodes[p]? = some m → m.children.WF
  leafIff : ∀ (v : Nat) (n : SNode), v ≠ 0 → nodes[v]? = some n → (n.children = [] ↔ none ∈ str v)
  pre : ∀ (v : Nat) (n : SNode), v ≠ 0 → nodes[v]? = some n → ∃ i, i < j ∧ str v <+: (marked w).drop i
  suf : ∀ i, i < j → ∃ (v : Nat) (n : SNode), nodes[v]? = some n ∧ str v = (marked w).drop i
  link : ∀ (v : Nat) (n : SNode) (l : Nat), nodes[v]? = some n → n.link = some l → (∃ m : SNode, nodes[l]? = some m) ∧ str l = (str v).tail ∧ n.children ≠ []
  linked : ∀ (v : Nat) (n : SNode), v ≠ 0 → nodes[v]? = some n → n.children ≠ [] → ¬ ex v → n.link ≠ none
  two : ∀ (v : Nat) (n : SNode), v ≠ 0 → nodes[v]? = some n → n.children ≠ [] → ¬ ex v →
    ∃ c d, c ≠ d ∧ n.children.get? c ≠ none ∧ n.children.get? d ≠ none

section
variable {w : List Nat} {j : Nat} {nodes : List SNode} {str : Nat → List (Option Nat)} {ex : Nat → Prop}

theorem Trie.str_ne {v : Nat} {n : SNode} (h : Trie w j nodes str ex) (hv : v ≠ 0) (hn : nodes[v]? = some n) : str v ≠ [] := by
  obtain ⟨p, m, -, -, h1, h2, h3, -⟩ := h.up v n hv hn
  intro he
  have := congrArg List.length he
  rw [h3, List.length_append, seg_length _ _ _ h2] at this
  simp at this
  omega

/-- The word of a node begins with the one of its parent and its key. -/
theorem Trie.key {v p : Nat} {n : SNode} (h : Trie w j nodes str ex) (hv : v ≠ 0) (hn : nodes[v]? = some n) (hp : n.parent = some p) :
    str p ++ [w[n.left]?] <+: str v ∧ (str p).length < (str v).length := by
  obtain ⟨p', m, h0, -, h1, h2, h3, -⟩ := h.up v n hv hn
  rw [hp] at h0
  cases h0
  rw [h3, seg_cons w _ _ h1 h2]
  refine ⟨⟨seg (marked w) (n.left + 1) n.right, by simp⟩, by simp⟩

theorem prefix_cases {A : Type} {a b c : List A} (x : A) (h1 : a ++ [x] <+: c) (h2 : b <+: c) :
    a ++ [x] <+: b ∨ b <+: a := by
  by_cases hl : a.length + 1 ≤ b.length
  · exact .inl (List.prefix_of_prefix_length_le h1 h2 (by simpa using hl))
  · exact .inr (List.prefix_of_prefix_length_le h2 ((List.prefix_append a [x]).trans h1) (by omega))

/-- The word of a node determines it, and a word that has the first letter of an edge has all of it. -/
theorem Trie.unique_aux (h : Trie w j nodes str ex) (N : Nat) :
    (∀ a b m n, nodes[a]? = some m → nodes[b]? = some n → (str a).length ≤ N → str a = str b → a = b) ∧
    (∀ v n p b m, v ≠ 0 → nodes[v]? = some n → n.parent = some p → nodes[b]? = some m → (str b).length ≤ N →
      str p ++ [w[n.left]?] <+: str b → str v <+: str b) := by
  induction N using Nat.strong_induction_on with
  | _ N ih =>
  have child_eq : ∀ p v n v' n', v ≠ 0 → v' ≠ 0 → nodes[v]? = some n → nodes[v']? = some n' → n.parent = some p → n'.parent = some p →
      w[n.left]? = w[n'.left]? → v = v' := by
    intro p v n v' n' hv hv' hn hn' hp hp' hk
    obtain ⟨q, m, h0, h1, -, -, -, h2⟩ := h.up v n hv hn
    obtain ⟨q', m', h0', h1', -, -, -, h2'⟩ := h.up v' n' hv' hn'
    rw [hp] at h0
    rw [hp'] at h0'
    cases h0
    cases h0'
    rw [h1] at h1'
    cases h1'
    rw [hk, h2'] at h2
    cases h2
    rfl
  refine ⟨?_, ?_⟩
  · intro a b m n ha hb hl hab
    by_cases ha0 : a = 0
    · subst ha0
      by_contra hne
      exact h.str_ne (Ne.symm hne) hb (by rw [← hab, h.str0])
    by_cases hb0 : b = 0
    · subst hb0
      exact absurd (by rw [hab, h.str0]) (h.str_ne ha0 ha)
    obtain ⟨p, mp, hp, hmp, -⟩ := h.up a m ha0 ha
    obtain ⟨q, mq, hq, hmq, -⟩ := h.up b n hb0 hb
    obtain ⟨ka, la⟩ := h.key ha0 ha hp
    obtain ⟨kb, lb⟩ := h.key hb0 hb hq
    have hlen : (str a).length = (str b).length := by rw [hab]
    rcases Nat.lt_trichotomy (str p).length (str q).length with hlt | heq | hgt
    · have hx : str p ++ [w[m.left]?] <+: str q := by
        refine List.prefix_of_prefix_length_le ka ?_ (by simp; omega)
        rw [hab]
        exact (List.prefix_append _ _).trans kb
      have := ((ih (str q).length (by omega)).2 a m p q mq ha0 ha hp hmq (Nat.le_refl _) hx).length_le
      omega
    · have hpq : str p = str q := by
        have h1 : str p <+: str b := by rw [← hab]; exact (List.prefix_append _ _).trans ka
        have h2 : str q <+: str b := (List.prefix_append _ _).trans kb
        exact (List.prefix_of_prefix_length_le h1 h2 (by omega)).eq_of_length heq
      have : p = q := (ih (str p).length (by omega)).1 p q mp mq hmp hmq (Nat.le_refl _) hpq
      subst this
      refine child_eq p a m b n ha0 hb0 ha hb hp hq ?_
      have h1 : str p ++ [w[m.left]?] = str p ++ [w[n.left]?] := by
        rw [hab] at ka
        exact (List.prefix_of_prefix_length_le ka kb (by simp)).eq_of_length (by simp)
      simpa using h1
    · have hx : str q ++ [w[n.left]?] <+: str p := by
        refine List.prefix_of_prefix_length_le kb ?_ (by simp; omega)
        rw [← hab]
        exact (List.prefix_append _ _).trans ka
      have := ((ih (str p).length (by omega)).2 b n q p mp hb0 hb hq hmp (Nat.le_refl _) hx).length_le
      omega
  · intro v n p b m hv hn hp hb hl hx
    by_cases hb0 : b = 0
    · subst hb0
      rw [h.str0] at hx
      exact absurd (List.prefix_nil.1 hx) (by simp)
    obtain ⟨q, mq, hq, hmq, -⟩ := h.up b m hb0 hb
    obtain ⟨p', mp, hp', hmp, -⟩ := h.up v n hv hn
    rw [hp] at hp'
    cases hp'
    obtain ⟨kb, lb⟩ := h.key hb0 hb hq
    rcases prefix_cases _ hx ((List.prefix_append _ _).trans kb) with h1 | h1
    · exact ((ih (str q).length (by omega)).2 v n p q mq hv hn hp hmq (Nat.le_refl _) h1).trans ((List.prefix_append _ _).trans kb)
    · have hpl : (str p).length < (str b).length := by have := hx.length_le; simp at this; omega
      rcases Nat.lt_or_eq_of_le h1.length_le with h2 | h2
      · have h3 : str q ++ [w[m.left]?] <+: str p :=
          List.prefix_of_prefix_length_le kb ((List.prefix_append _ _).trans hx) (by simp; omega)
        have := ((ih (str p).length (by omega)).2 b m q p mp hb0 hb hq hmp (Nat.le_refl _) h3).length_le
        omega
      · have hqp : str q = str p := h1.eq_of_length h2
        have : q = p := (ih (str q).length (by omega)).1 q p mq mp hmq hmp (Nat.le_refl _) hqp
        subst this
        have h4 : str q ++ [w[n.left]?] = str q ++ [w[m.left]?] :=
          (List.prefix_of_prefix_length_le hx kb (by simp)).eq_of_length (by simp)
        have := child_eq q v n b m hv hb0 hn hb hp hq (by simpa using h4)
        rw [this]
        exact List.prefix_refl _

theorem Trie.inj (h : Trie w j nodes str ex) {a b : Nat} {m n : SNode} (ha : nodes[a]? = some m) (hb : nodes[b]? = some n)
    (e : str a = str b) : a = b := (h.unique_aux _).1 a b m n ha hb (Nat.le_refl _) e

theorem Trie.edge (h : Trie w j nodes str ex) {v p b : Nat} {n m : SNode} (hv : v ≠ 0) (hn : nodes[v]? = some n)
    (hp : n.parent = some p) (hb : nodes[b]? = some m) (hx : str p ++ [w[n.left]?] <+: str b) : str v <+: str b :=
  (h.unique_aux _).2 v n p b m hv hn hp hb (Nat.le_refl _) hx

/-- A node whose word goes on in the trie has a child for the next letter. -/
theorem Trie.child (h : Trie w j nodes str ex) {v b : Nat} {n m : SNode} {c : Option Nat} (hn : nodes[v]? = some n)
    (hb : nodes[b]? = some m) (hx : str v ++ [c] <+: str b) : ∃ z, n.children.get? c = some z := by
  induction hN : (str b).length using Nat.strong_induction_on generalizing b m with
  | _ N ih =>
  subst hN
  by_cases hb0 : b = 0
  · subst hb0
    rw [h.str0] at hx
    exact absurd (List.prefix_nil.1 hx) (by simp)
  obtain ⟨q, mq, hq, hmq, -, -, -, hch⟩ := h.up b m hb0 hb
  obtain ⟨kb, lb⟩ := h.key hb0 hb hq
  rcases prefix_cases _ hx ((List.prefix_append _ _).trans kb) with h1 | h1
  · exact ih _ lb hmq h1 rfl
  · rcases Nat.lt_or_eq_of_le h1.length_le with h2 | h2
    · have h3 : str q ++ [w[m.left]?] <+: str v :=
        List.prefix_of_prefix_length_le kb ((List.prefix_append _ _).trans hx) (by simp; omega)
      have h4 := (h.edge hb0 hb hq hn h3).length_le
      have h5 := hx.length_le
      simp at h5
      omega
    · have : q = v := h.inj hmq hn (h1.eq_of_length h2)
      subst this
      rw [hn] at hmq
      cases hmq
      have h4 : str q ++ [c] = str q ++ [w[m.left]?] :=
        (List.prefix_of_prefix_length_le hx kb (by simp)).eq_of_length (by simp)
      have h5 : c = w[m.left]? := by simpa using h4
      exact ⟨b, by rw [h5]; exact hch⟩

/-- The state stands on the word `x`. -/
def At (w : List Nat) (nodes : List SNode) (str : Nat → List (Option Nat)) (st : BuildState) (x : List (Option Nat)) : Prop :=
  ∃ v n, st.node = some v ∧ nodes[v]? = some n ∧ ((v = 0 ∧ st.pos = 0 ∧ x = []) ∨
    (v ≠ 0 ∧ st.pos ≤ n.edgeLen ∧ ∃ p, n.parent = some p ∧ x = str p ++ seg (marked w) n.left (n.left + st.pos)))

/-- It is not at the upper end of an edge. -/
def Proper (st : BuildState) : Prop := st.pos = 0 → st.node = some 0

theorem At.full (h : Trie w j nodes str ex) {st : BuildState} {x : List (Option Nat)} {v : Nat} {n : SNode}
    (hat : At w nodes str st x) (hs : st.node = some v) (hn : nodes[v]? = some n) (hp : st.pos = n.edgeLen) : x = str v := by
  obtain ⟨v', n', e1, e2, h1⟩ := hat
  rw [hs] at e1
  cases e1
  rw [hn] at e2
  cases e2
  rcases h1 with ⟨rfl, -, rfl⟩ | ⟨hv, -, p, hpp, rfl⟩
  · rw [h.str0]
  · obtain ⟨q, m, hq, -, hlt, -, hstr, -⟩ := h.up v n hv hn
    rw [hpp] at hq
    cases hq
    rw [hstr, hp]
    congr 2
    simp [SNode.edgeLen]
    omega

theorem At.length (h : Trie w j nodes str ex) {st : BuildState} {x : List (Option Nat)} {v p : Nat} {n : SNode}
    (hn : nodes[v]? = some n) (hv : v ≠ 0) (hle : st.pos ≤ n.edgeLen)
    (hx : x = str p ++ seg (marked w) n.left (n.left + st.pos)) : x.length = (str p).length + st.pos := by
  obtain ⟨q, m, hq, -, hlt, hN, hstr, -⟩ := h.up v n hv hn
  simp only [SNode.edgeLen] at hle
  rw [hx, List.length_append, seg_length _ _ _ (by omega)]
  omega

/-- A word that goes on inside of an edge has the whole edge. -/
theorem Trie.inside (h : Trie w j nodes str ex) {v p b k : Nat} {n m : SNode} (hv : v ≠ 0) (hn : nodes[v]? = some n)
    (hp : n.parent = some p) (hb : nodes[b]? = some m) (hk : 0 < k) (hk2 : k ≤ n.edgeLen)
    (hx : str p ++ seg (marked w) n.left (n.left + k) <+: str b) : str v <+: str b := by
  refine h.edge hv hn hp hb (List.IsPrefix.trans ?_ hx)
  obtain ⟨q, m, hq, -, hlt, hN, hstr, -⟩ := h.up v n hv hn
  simp only [SNode.edgeLen] at hk2
  rw [seg_cons w n.left (n.left + k) (by omega) (by omega)]
  exact ⟨seg (marked w) (n.left + 1) (n.left + k), by simp⟩

theorem single_equals {w : List Nat} {a b : Nat} (ha : a < w.length) (hb : b < w.length) :
    ((Slice.single w).equals a b = true ↔ w[a]? = w[b]?) := by
  simp [Slice.single, Nat.not_le.2 ha, Nat.not_le.2 hb]

theorem some_of_not_none {w : List Nat} {a b : Nat} (h : none ∉ seg (marked w) a b) (hab : a < b) (hb : b ≤ (marked w).length) :
    b ≤ w.length := by
  by_contra hc
  rw [marked_length] at hb
  have hb' : b = w.length + 1 := by omega
  apply h
  rw [← seg_append (marked w) a w.length b (by omega) (by omega), hb', seg_succ w _ (by rw [marked_length]; omega)]
  simp

/-- Going along a word that is in the trie ends on the word. -/
theorem go_spec (h : Trie w j nodes str ex) (b : Nat) (mb : SNode) (hb : nodes[b]? = some mb) :
    ∀ (fuel : Nat) (st : BuildState) (x : List (Option Nat)) (left right v : Nat) (n : SNode), At w nodes str st x → st.node = some v →
      nodes[v]? = some n → (st.pos = 0 → v ≠ 0 → left < right ∧ w[n.left]? = w[left]?) →
      left ≤ right → right ≤ (marked w).length → none ∉ seg (marked w) left right →
      x ++ seg (marked w) left right <+: str b →
      (if st.pos = n.edgeLen then 2 * (right - left) + 1 ≤ fuel else left < right ∧ 2 * (right - left) ≤ fuel) →
      ∃ st', SGo (Slice.single w) nodes fuel st left right = some st' ∧ At w nodes str st' (x ++ seg (marked w) left right) ∧ Proper st' := by
  intro fuel
  induction fuel with
  | zero =>
    intro st x left right v n _ _ _ _ _ _ _ _ hf
    split at hf <;> omega
  | succ fuel ih =>
  intro st x left right v n hat hs hn hkey hlr hr hnn hpre hf
  by_cases hlt : left < right
  swap
  · have : left = right := by omega
    subst this
    refine ⟨st, by simp [SGo], by simpa [seg_self] using hat, ?_⟩
    intro h0
    by_contra hne
    have hv : v ≠ 0 := fun hv => hne (by rw [hs, hv])
    exact absurd (hkey h0 hv).1 (by omega)
  have hseg := seg_cons w left right hlt hr
  have hright : right ≤ w.length := some_of_not_none hnn hlt hr
  by_cases hend : st.pos = n.edgeLen
  · have hx : x = str v := hat.full h hs hn hend
    have hc : str v ++ [w[left]?] <+: str b := by
      refine List.IsPrefix.trans ?_ hpre
      rw [hx, hseg]
      exact ⟨seg (marked w) (left + 1) right, by simp⟩
    obtain ⟨z, hz⟩ := h.child hn hb hc
    obtain ⟨hz0, nz, hnz, hzp, hzk⟩ := h.down v n _ z hn hz
    obtain ⟨q, m, hq, -, hzlt, -, -, -⟩ := h.up z nz hz0 hnz
    have hne : (0 : Nat) ≠ nz.edgeLen := by simp only [SNode.edgeLen]; omega
    rw [if_pos hend] at hf
    obtain ⟨st', h1, h2, h3⟩ := ih ⟨0, some z⟩ x left right z nz
      ⟨z, nz, rfl, hnz, .inr ⟨hz0, Nat.zero_le _, v, hzp, by simp [seg_self, hx]⟩⟩ rfl hnz (fun _ _ => ⟨hlt, hzk⟩) hlr hr hnn hpre
      (by rw [if_neg hne]; omega)
    refine ⟨st', ?_, h2, h3⟩
    rw [SGo, if_pos hlt, hs]
    simp only [hn]
    rw [if_pos hend]
    have : (Slice.single w).get left = w[left]? := rfl
    rw [this, hz]
    exact h1
  · have hat' := hat
    obtain ⟨v', n', e1, e2, h1⟩ := hat'
    rw [hs] at e1
    cases e1
    rw [hn] at e2
    cases e2
    have hv : v ≠ 0 := by
      intro hv
      rcases h1 with ⟨-, h2, -⟩ | ⟨h2, -⟩
      · obtain ⟨r, hr1, hr2, hr3, -⟩ := h.root
        rw [hv, hr1] at hn
        cases hn
        apply hend
        simp [SNode.edgeLen, h2, hr2, hr3]
      · exact h2 hv
    rcases h1 with ⟨h2, -⟩ | ⟨-, hle, p, hp, hx⟩
    · exact absurd h2 hv
    obtain ⟨q, m, hq, hmp, hvlt, hN, hstr, -⟩ := h.up v n hv hn
    rw [hp] at hq
    cases hq
    rw [if_neg hend] at hf
    have hlen := At.length (st := st) h hn hv hle hx
    have hlenv : (str v).length = (str p).length + n.edgeLen := by
      rw [hstr, List.length_append, seg_length _ _ _ hN]; rfl
    have hvb : str v <+: str b := by
      by_cases h0 : st.pos = 0
      · have hk := (hkey h0 hv).2
        refine h.edge hv hn hp hb (List.IsPrefix.trans ?_ hpre)
        rw [hx, h0, Nat.add_zero, seg_self, List.append_nil, hseg, hk]
        exact ⟨seg (marked w) (left + 1) right, by simp⟩
      · refine h.inside hv hn hp hb (by omega) hle (List.IsPrefix.trans ?_ hpre)
        rw [← hx]
        exact List.prefix_append _ _
    have hsl : (x ++ seg (marked w) left right).length = x.length + (right - left) := by
      rw [List.length_append, seg_length _ _ _ hr]
    -- the next letter of the edge
    have hnext : w[n.left + st.pos]? = w[left]? := by
      simp only [SNode.edgeLen] at hle hend
      have e1 : str p ++ seg (marked w) n.left (n.left + st.pos + 1) <+: str v := by
        rw [hstr, ← seg_append (marked w) n.left (n.left + st.pos + 1) n.right (by omega) (by omega), ← List.append_assoc]
        exact List.prefix_append _ _
      have e2 : x ++ [w[n.left + st.pos]?] <+: str b := by
        refine List.IsPrefix.trans ?_ (e1.trans hvb)
        rw [← seg_append (marked w) n.left (n.left + st.pos) (n.left + st.pos + 1) (by omega) (by omega), seg_succ w _ (by omega), hx,
          List.append_assoc]
        exact List.prefix_refl _
      have e3 : x ++ [w[left]?] <+: str b := by
        refine List.IsPrefix.trans ?_ hpre
        rw [hseg]
        exact ⟨seg (marked w) (left + 1) right, by simp⟩
      have := (List.prefix_of_prefix_length_le e2 e3 (by simp)).eq_of_length (by simp)
      simpa using this
    have hnl : n.left + st.pos < w.length := by
      by_contra hc
      rw [List.getElem?_eq_none (by omega)] at hnext
      rw [List.getElem?_eq_getElem (show left < w.length by omega)] at hnext
      exact absurd hnext (by simp)
    have heq : (Slice.single w).equals (n.left + st.pos) left = true := (single_equals hnl (by omega)).2 hnext
    rw [SGo, if_pos hlt, hs]
    simp only [hn]
    rw [if_neg hend, if_neg (by simp [heq])]
    by_cases hshort : right - left < n.edgeLen - st.pos
    · rw [if_pos hshort]
      refine ⟨_, rfl, ⟨v, n, rfl, hn, .inr ⟨hv, by simp only; omega, p, hp, ?_⟩⟩, fun h0 => absurd h0 (by simp only; omega)⟩
      simp only [SNode.edgeLen] at hle hend hshort
      have e1 : str p ++ seg (marked w) n.left (n.left + (st.pos + (right - left))) <+: str b := by
        refine List.IsPrefix.trans ?_ hvb
        rw [hstr, ← seg_append (marked w) n.left (n.left + (st.pos + (right - left))) n.right (by omega) (by omega), ← List.append_assoc]
        exact List.prefix_append _ _
      refine (List.prefix_of_prefix_length_le hpre e1 ?_).eq_of_length ?_
      all_goals
        rw [hsl, hlen, List.length_append, seg_length _ _ _ (by omega)]
        omega
    · rw [if_neg hshort]
      set d := n.edgeLen - st.pos with hd
      have hdpos : 0 < d := by omega
      have hxd : x ++ seg (marked w) left (left + d) = str v := by
        have e1 : x ++ seg (marked w) left (left + d) <+: str b := by
          refine List.IsPrefix.trans ?_ hpre
          rw [← seg_append (marked w) left (left + d) right (by omega) (by omega), ← List.append_assoc]
          exact List.prefix_append _ _
        refine (List.prefix_of_prefix_length_le e1 hvb ?_).eq_of_length ?_
        all_goals
          rw [hlenv, List.length_append, seg_length _ _ _ (by omega), hlen]
          omega
      have hsplit : x ++ seg (marked w) left right = str v ++ seg (marked w) (left + d) right := by
        rw [← seg_append (marked w) left (left + d) right (by omega) (by omega), ← List.append_assoc, hxd]
      have hnn' : none ∉ seg (marked w) (left + d) right := by
        intro hm
        apply hnn
        rw [← seg_append (marked w) left (left + d) right (by omega) (by omega)]
        exact List.mem_append_right _ hm
      rw [hsplit]
      refine ih ⟨n.edgeLen, some v⟩ (str v) (left + d) right v n ?_ rfl hn ?_ (by omega) hr hnn' (by rw [← hsplit]; exact hpre)
        (by rw [if_pos rfl]; omega)
      · refine ⟨v, n, rfl, hn, .inr ⟨hv, Nat.le_refl _, p, hp, ?_⟩⟩
        rw [hstr]
        congr 2
        simp only [SNode.edgeLen]
        omega
      · intro h0
        simp only [SNode.edgeLen] at h0
        omega

/-- One letter that does not go on in the trie. -/
theorem go_fail (h : Trie w j nodes str ex) {st : BuildState} {x : List (Option Nat)} {pos : Nat} (hat : At w nodes str st x)
    (hno : ∀ (b : Nat) (mb : SNode), nodes[b]? = some mb → ¬ x ++ [w[pos]?] <+: str b) (fuel : Nat) :
    SGo (Slice.single w) nodes (fuel + 2) st pos (pos + 1) = some ⟨0, none⟩ := by
  have hat' := hat
  obtain ⟨v, n, hs, hn, h1⟩ := hat'
  rw [SGo, if_pos (by omega), hs]
  simp only [hn]
  by_cases hend : st.pos = n.edgeLen
  · rw [if_pos hend]
    have hx : x = str v := hat.full h hs hn hend
    have : (Slice.single w).get pos = w[pos]? := rfl
    rw [this]
    cases hz : n.children.get? (w[pos]?) with
    | none => rfl
    | some z =>
      obtain ⟨hz0, nz, hnz, hzp, hzk⟩ := h.down v n _ z hn hz
      refine absurd ?_ (hno z nz hnz)
      rw [hx, ← hzk]
      exact (h.key hz0 hnz hzp).1
  · rw [if_neg hend]
    rw [if_pos]
    by_contra hc
    have hc' : (Slice.single w).equals (n.left + st.pos) pos = true := by simpa using hc
    have hlt1 : n.left + st.pos < w.length := by
      by_contra hx
      simp [Slice.single] at hc'
      omega
    have hlt2 : pos < w.length := by
      by_contra hx
      simp [Slice.single] at hc'
      omega
    have hk := (single_equals hlt1 hlt2).1 hc'
    rcases h1 with ⟨hv, h2, -⟩ | ⟨hv, hle, p, hp, hx⟩
    · obtain ⟨r, hr1, hr2, hr3, -⟩ := h.root
      rw [hv, hr1] at hn
      cases hn
      apply hend
      simp [SNode.edgeLen, h2, hr2, hr3]
    · obtain ⟨q, m, hq, hmp, hvlt, hN, hstr, -⟩ := h.up v n hv hn
      rw [hp] at hq
      cases hq
      simp only [SNode.edgeLen] at hle hend
      apply hno v n hn
      rw [hx, ← hk, ← seg_succ w (n.left + st.pos) (by omega), List.append_assoc,
        seg_append (marked w) _ _ _ (by omega) (by omega), hstr,
        ← seg_append (marked w) n.left (n.left + st.pos + 1) n.right (by omega) (by omega), ← List.append_assoc]
      exact List.prefix_append _ _

/-- The nodes after an edge was split: the edge to `index` below `p`, after `k` letters. -/
def splitNodes (w : List Nat) (nodes : List SNode) (p index k : Nat) (n : SNode) : List SNode :=
  (((nodes ++ [(⟨n.left, n.left + k, none, some p, []⟩ : SNode)]).modify p (SNode.updateChild (w[n.left]?) nodes.length)).modify nodes.length
    (SNode.updateChild (w[n.left + k]?) index)).modify index (fun n => { n with parent := some nodes.length, left := n.left + k })

theorem split_new {p index k : Nat} {n : SNode} (hp : p < nodes.length) (hi : index < nodes.length) :
    (splitNodes w nodes p index k n)[nodes.length]? = some ⟨n.left, n.left + k, none, some p, [(w[n.left + k]?, index)]⟩ := by
  unfold splitNodes
  simp only [List.getElem?_modify]
  rw [List.getElem?_append_right (Nat.le_refl _)]
  simp [Nat.ne_of_lt hp, Nat.ne_of_lt hi, SNode.updateChild, Dict.set]

theorem split_index {p index k : Nat} {n : SNode} (hi : nodes[index]? = some n) (hpi : p ≠ index) :
    (splitNodes w nodes p index k n)[index]? = some { n with parent := some nodes.length, left := n.left + k } := by
  have hl : index < nodes.length := (List.getElem?_eq_some_iff.1 hi).1
  unfold splitNodes
  simp only [List.getElem?_modify]
  rw [List.getElem?_append_left hl, hi]
  simp [hpi, Nat.ne_of_gt hl]

theorem split_parent {p index k : Nat} {n m : SNode} (hi : nodes[p]? = some m) (hpi : p ≠ index) :
    (splitNodes w nodes p index k n)[p]? = some (m.updateChild (w[n.left]?) nodes.length) := by
  have hl : p < nodes.length := (List.getElem?_eq_some_iff.1 hi).1
  unfold splitNodes
  simp only [List.getElem?_modify]
  rw [List.getElem?_append_left hl, hi]
  simp [Ne.symm hpi, Nat.ne_of_gt hl]

theorem split_other {p index k v : Nat} {n : SNode} (h1 : v ≠ nodes.length) (h2 : v ≠ index) (h3 : v ≠ p) :
    (splitNodes w nodes p index k n)[v]? = nodes[v]? := by
  unfold splitNodes
  simp only [List.getElem?_modify]
  have : (nodes ++ [(⟨n.left, n.left + k, none, some p, []⟩ : SNode)])[v]? = nodes[v]? := by
    by_cases hl : v < nodes.length
    · rw [List.getElem?_append_left hl]
    · rw [List.getElem?_eq_none (by simp; omega), List.getElem?_eq_none (by omega)]
  rw [this]
  simp [Ne.symm h1, Ne.symm h2, Ne.symm h3]

/-- What of a node stays when others are changed. -/
def Keeps (n n' : SNode) : Prop :=
  n'.link = n.link ∧ (∀ c, n'.children.get? c = none ↔ n.children.get? c = none) ∧ (n'.children = [] ↔ n.children = [])

theorem set_ne_nil {K V : Type} [DecidableEq K] (d : Dict K V) (k : K) (v : V) : d.set k v ≠ [] := by
  intro h
  have := get?_set_self d k v
  rw [h] at this
  cases this

theorem get_some_ne_nil {K V : Type} [DecidableEq K] {d : Dict K V} {k : K} {v : V} (h : d.get? k = some v) : d ≠ [] := by
  intro e
  rw [e] at h
  cases h

/-- The words with one for one more node. -/
def withWord (str : Nat → List (Option Nat)) (v0 : Nat) (x : List (Option Nat)) (v : Nat) : List (Option Nat) := if v = v0 then x else str v

theorem withWord_self (str : Nat → List (Option Nat)) (v : Nat) (x : List (Option Nat)) : withWord str v x v = x := by simp [withWord]

theorem withWord_ne (str : Nat → List (Option Nat)) {v v0 : Nat} (x : List (Option Nat)) (h : v ≠ v0) : withWord str v0 x v = str v := by
  simp [withWord, h]

/-- Splitting an edge inside of it keeps the trie. -/
theorem split_trie (h : Trie w j nodes str ex) {p index k : Nat} {n : SNode} (hi0 : index ≠ 0) (hi : nodes[index]? = some n)
    (hp : n.parent = some p) (hk : 0 < k) (hk2 : k < n.edgeLen)
    (hnn : none ∉ str p ++ seg (marked w) n.left (n.left + k)) :
    Trie w j (splitNodes w nodes p index k n)
      (withWord str nodes.length (str p ++ seg (marked w) n.left (n.left + k))) (fun v => ex v ∨ v = nodes.length) ∧
    ∀ (v : Nat) (m : SNode), nodes[v]? = some m → ∃ m', (splitNodes w nodes p index k n)[v]? = some m' ∧ Keeps m m' := by
  obtain ⟨p', m, hp', hm, hlt, hN, hstr, hch⟩ := h.up index n hi0 hi
  rw [hp] at hp'
  cases hp'
  have hil : index < nodes.length := (List.getElem?_eq_some_iff.1 hi).1
  have hpl : p < nodes.length := (List.getElem?_eq_some_iff.1 hm).1
  have hplen := (h.key hi0 hi hp).2
  have hpi : p ≠ index := fun e => by rw [e] at hplen; omega
  simp only [SNode.edgeLen] at hk2
  have gN := split_new (w := w) (nodes := nodes) (k := k) (n := n) hpl hil
  have gI := split_index (w := w) (k := k) hi hpi
  have gP := split_parent (w := w) (k := k) (n := n) hm hpi
  have hmne : m.children ≠ [] := get_some_ne_nil hch
  have hpset : ∀ c, (m.updateChild (w[n.left]?) nodes.length).children.get? c = none ↔ m.children.get? c = none := by
    intro c
    simp only [SNode.updateChild]
    by_cases hc : c = w[n.left]?
    · rw [hc, get?_set_self, hch]; simp
    · rw [get?_set_ne _ _ (Ne.symm hc)]
  have keep : ∀ (v : Nat) (a : SNode), nodes[v]? = some a → ∃ a', (splitNodes w nodes p index k n)[v]? = some a' ∧ Keeps a a' := by
    intro v a ha
    have hvl : v < nodes.length := (List.getElem?_eq_some_iff.1 ha).1
    by_cases h1 : v = index
    · subst h1
      rw [hi] at ha
      cases ha
      exact ⟨_, gI, rfl, fun c => Iff.rfl, Iff.rfl⟩
    by_cases h2 : v = p
    · subst h2
      rw [hm] at ha
      cases ha
      exact ⟨_, gP, rfl, hpset, by simp only [SNode.updateChild]; exact ⟨fun e => absurd e (set_ne_nil _ _ _), fun e => absurd e hmne⟩⟩
    · exact ⟨a, by rw [split_other (by omega) h1 h2, ha], rfl, fun c => Iff.rfl, Iff.rfl⟩
  refine ⟨?_, keep⟩
  have cases4 : ∀ (v : Nat) (a : SNode), (splitNodes w nodes p index k n)[v]? = some a →
      (v = nodes.length ∧ a = ⟨n.left, n.left + k, none, some p, [(w[n.left + k]?, index)]⟩) ∨
      (v = index ∧ a = { n with parent := some nodes.length, left := n.left + k }) ∨
      (v = p ∧ a = m.updateChild (w[n.left]?) nodes.length) ∨
      (v ≠ nodes.length ∧ v ≠ index ∧ v ≠ p ∧ nodes[v]? = some a) := by
    intro v a ha
    by_cases h1 : v = nodes.length
    · subst h1; rw [gN] at ha; exact .inl ⟨rfl, (Option.some.inj ha).symm⟩
    by_cases h2 : v = index
    · subst h2; rw [gI] at ha; exact .inr (.inl ⟨rfl, (Option.some.inj ha).symm⟩)
    by_cases h3 : v = p
    · subst h3; rw [gP] at ha; exact .inr (.inr (.inl ⟨rfl, (Option.some.inj ha).symm⟩))
    rw [split_other h1 h2 h3] at ha
    exact .inr (.inr (.inr ⟨h1, h2, h3, ha⟩))
  -- a node of the new trie other than the new one was there
  have old : ∀ (v : Nat) (a : SNode), v ≠ nodes.length → (splitNodes w nodes p index k n)[v]? = some a →
      ∃ a', nodes[v]? = some a' ∧ Keeps a' a := by
    intro v a hv ha
    rcases cases4 v a ha with ⟨h1, -⟩ | ⟨h1, -⟩ | ⟨h1, -⟩ | ⟨-, -, -, h1⟩
    · exact absurd h1 hv
    · subst h1
      obtain ⟨a', h2, h3⟩ := keep v n hi
      rw [ha] at h2; cases h2
      exact ⟨n, hi, h3⟩
    · subst h1
      obtain ⟨a', h2, h3⟩ := keep v m hm
      rw [ha] at h2; cases h2
      exact ⟨m, hm, h3⟩
    · obtain ⟨a', h2, h3⟩ := keep v a h1
      rw [ha] at h2; cases h2
      exact ⟨a, h1, h3⟩
  have hlt' : ∀ (v : Nat) (a : SNode), nodes[v]? = some a → v ≠ nodes.length := fun v a ha =>
    Nat.ne_of_lt (List.getElem?_eq_some_iff.1 ha).1
  have lenI : (str p).length < (str index).length := hplen
  refine ⟨?_, ?_, ?_, ?_, ?_, ?_, ?_, ?_, ?_, ?_, ?_⟩
  · obtain ⟨r, hr, e1, e2, e3, e4⟩ := h.root
    by_cases hp0 : p = 0
    · subst hp0
      rw [hm] at hr
      cases hr
      exact ⟨_, gP, e1, e2, e3, e4⟩
    · exact ⟨r, by rw [split_other (by omega) (Ne.symm hi0) (Ne.symm hp0), hr], e1, e2, e3, e4⟩
  · rw [withWord_ne _ _ (by omega), h.str0]
  · intro v a hv ha
    rcases cases4 v a ha with ⟨rfl, rfl⟩ | ⟨rfl, rfl⟩ | ⟨rfl, rfl⟩ | ⟨h1, h2, h3, h4⟩
    · refine ⟨p, _, rfl, gP, by simp only; omega, by simp only; omega, ?_, ?_⟩
      · rw [withWord_self, withWord_ne _ _ (by omega)]
      · simp only [SNode.updateChild]
        exact get?_set_self _ _ _
    · refine ⟨nodes.length, _, rfl, gN, by simp only; omega, hN, ?_, ?_⟩
      · change _ = _ ++ seg (marked w) (n.left + k) n.right
        rw [withWord_self, withWord_ne _ _ (by omega), hstr, List.append_assoc, seg_append _ _ _ _ (by omega) (by omega)]
      · simp [Dict.get?]
    · obtain ⟨q, mq, hq, hmq, e1, e2, e3, e4⟩ := h.up v m hv hm
      have hql := (h.key hv hm hq).2
      refine ⟨q, mq, hq, ?_, e1, e2, ?_, e4⟩
      · rw [split_other (hlt' _ _ hmq) (fun e => by rw [e] at hql; omega) (fun e => by rw [e] at hql; omega), hmq]
      · rw [withWord_ne _ _ (by omega), withWord_ne _ _ (hlt' _ _ hmq), e3]
        rfl
    · obtain ⟨q, mq, hq, hmq, e1, e2, e3, e4⟩ := h.up v a hv h4
      have hs : withWord str nodes.length (str p ++ seg (marked w) n.left (n.left + k)) v =
          withWord str nodes.length (str p ++ seg (marked w) n.left (n.left + k)) q ++ seg (marked w) a.left a.right := by
        rw [withWord_ne _ _ h1, withWord_ne _ _ (hlt' _ _ hmq), e3]
      by_cases hqi : q = index
      · subst hqi
        rw [hi] at hmq
        cases hmq
        exact ⟨q, _, hq, gI, e1, e2, hs, e4⟩
      by_cases hqp : q = p
      · subst hqp
        rw [hm] at hmq
        cases hmq
        refine ⟨q, _, hq, gP, e1, e2, hs, ?_⟩
        have : w[a.left]? ≠ w[n.left]? := by
          intro e
          rw [e, hch] at e4
          exact h2 (Option.some.inj e4).symm
        simp only [SNode.updateChild]
        rw [get?_set_ne _ _ (Ne.symm this), e4]
      · exact ⟨q, mq, hq, by rw [split_other (hlt' _ _ hmq) hqi hqp, hmq], e1, e2, hs, e4⟩
  · intro q a c v ha hc
    rcases cases4 q a ha with ⟨rfl, rfl⟩ | ⟨rfl, rfl⟩ | ⟨rfl, rfl⟩ | ⟨h1, h2, h3, h4⟩
    · simp only [Dict.get?] at hc
      by_cases e : w[n.left + k]? = c
      · have : v = index := by simpa [e] using hc.symm
        subst this
        exact ⟨hi0, _, gI, rfl, e⟩
      · simp [e] at hc
    · obtain ⟨hv, nv, hnv, hvp, hvk⟩ := h.down q n c v hi hc
      have hvl := (h.key hv hnv hvp).2
      refine ⟨hv, nv, ?_, hvp, hvk⟩
      rw [split_other (hlt' _ _ hnv) (fun e => by rw [e] at hvl; omega) (fun e => by rw [e] at hvl; omega), hnv]
    · simp only [SNode.updateChild] at hc
      by_cases e : c = w[n.left]?
      · rw [e, get?_set_self] at hc
        cases hc
        exact ⟨by omega, _, gN, rfl, e.symm⟩
      · rw [get?_set_ne _ _ (Ne.symm e)] at hc
        obtain ⟨hv, nv, hnv, hvp, hvk⟩ := h.down q m c v hm hc
        have hvl := (h.key hv hnv hvp).2
        refine ⟨hv, nv, ?_, hvp, hvk⟩
        rw [split_other (hlt' _ _ hnv) ?_ (fun e => by rw [e] at hvl; omega), hnv]
        intro e2
        subst e2
        rw [hi] at hnv
        cases hnv
        exact e hvk.symm
    · obtain ⟨hv, nv, hnv, hvp, hvk⟩ := h.down q a c v h4 hc
      have hvi : v ≠ index := by
        intro e
        subst e
        rw [hi] at hnv
        cases hnv
        rw [hp] at hvp
        exact h3 (Option.some.inj hvp).symm
      by_cases hvp' : v = p
      · subst hvp'
        rw [hm] at hnv
        cases hnv
        exact ⟨hv, _, gP, hvp, hvk⟩
      · exact ⟨hv, nv, by rw [split_other (hlt' _ _ hnv) hvi hvp', hnv], hvp, hvk⟩
  · intro q a ha
    rcases cases4 q a ha with ⟨rfl, rfl⟩ | ⟨rfl, rfl⟩ | ⟨rfl, rfl⟩ | ⟨h1, h2, h3, h4⟩
    · exact WF_set (d := []) WF_nil (w[n.left + k]?) index
    · exact h.wf _ n hi
    · exact WF_set (h.wf _ _ hm) _ _
    · exact h.wf _ _ h4
  · intro v a hv ha
    by_cases h1 : v = nodes.length
    · subst h1
      rw [gN] at ha
      cases ha
      rw [withWord_self]
      exact ⟨fun e => absurd e (by simp), fun e => absurd e hnn⟩
    · obtain ⟨a', h2, h3⟩ := old v a h1 ha
      rw [withWord_ne _ _ h1]
      rw [h3.2.2]
      exact h.leafIff v a' hv h2
  · intro v a hv ha
    by_cases h1 : v = nodes.length
    · subst h1
      obtain ⟨i, hi1, hi2⟩ := h.pre index n hi0 hi
      refine ⟨i, hi1, ?_⟩
      rw [withWord_self]
      refine List.IsPrefix.trans ?_ hi2
      rw [hstr, ← seg_append (marked w) n.left (n.left + k) n.right (by omega) (by omega), ← List.append_assoc]
      exact List.prefix_append _ _
    · obtain ⟨a', h2, h3⟩ := old v a h1 ha
      rw [withWord_ne _ _ h1]
      exact h.pre v a' hv h2
  · intro i hi'
    obtain ⟨v, a, ha, e⟩ := h.suf i hi'
    obtain ⟨a', ha', -⟩ := keep v a ha
    refine ⟨v, a', ha', ?_⟩
    rw [withWord_ne _ _ (hlt' _ _ ha), e]
  · intro v a l ha hl
    by_cases h1 : v = nodes.length
    · subst h1
      rw [gN] at ha
      cases ha
      simp at hl
    · obtain ⟨a', h2, h3⟩ := old v a h1 ha
      rw [h3.1] at hl
      obtain ⟨⟨ml, hml⟩, e1, e2⟩ := h.link v a' l h2 hl
      obtain ⟨ml', hml', -⟩ := keep l ml hml
      refine ⟨⟨ml', hml'⟩, ?_, fun e => e2 (h3.2.2.1 e)⟩
      rw [withWord_ne _ _ (hlt' _ _ hml), withWord_ne _ _ h1, e1]
  · intro v a hv ha hc hx
    have h1 : v ≠ nodes.length := fun e => hx (.inr e)
    obtain ⟨a', h2, h3⟩ := old v a h1 ha
    rw [h3.1]
    exact h.linked v a' hv h2 (fun e => hc (h3.2.2.2 e)) (fun e => hx (.inl e))
  · intro v a hv ha hc hx
    have h1 : v ≠ nodes.length := fun e => hx (.inr e)
    obtain ⟨a', h2, h3⟩ := old v a h1 ha
    obtain ⟨c, d, hcd, e1, e2⟩ := h.two v a' hv h2 (fun e => hc (h3.2.2.2 e)) (fun e => hx (.inl e))
    exact ⟨c, d, hcd, fun e => e1 ((h3.2.1 c).1 e), fun e => e2 ((h3.2.1 d).1 e)⟩

/-- The nodes after a leaf was added below `mid`. -/
def leafNodes (w : List Nat) (nodes : List SNode) (mid pos : Nat) : List SNode :=
  (nodes ++ [(⟨pos, (Slice.single w).len, none, some mid, []⟩ : SNode)]).modify mid (SNode.updateChild (w[pos]?) nodes.length)

/-- A new leaf below a node keeps the trie. -/
theorem leaf_trie (h : Trie w j nodes str ex) {mid pos : Nat} {m : SNode} (hm : nodes[mid]? = some m)
    (hx : str mid = seg (marked w) j pos) (hjp : j ≤ pos) (hpos : pos < (marked w).length) (hnn : none ∉ str mid)
    (hno : m.children.get? (w[pos]?) = none) :
    Trie w (j + 1) (leafNodes w nodes mid pos) (withWord str nodes.length ((marked w).drop j)) ex ∧
    (leafNodes w nodes mid pos)[mid]? = some (m.updateChild (w[pos]?) nodes.length) := by
  have hml : mid < nodes.length := (List.getElem?_eq_some_iff.1 hm).1
  have hlen : (Slice.single w).len = (marked w).length := by rw [marked_length]; rfl
  have gM : (leafNodes w nodes mid pos)[mid]? = some (m.updateChild (w[pos]?) nodes.length) := by
    unfold leafNodes
    rw [List.getElem?_modify, List.getElem?_append_left hml, hm]
    simp
  have gL : (leafNodes w nodes mid pos)[nodes.length]? = some ⟨pos, (marked w).length, none, some mid, []⟩ := by
    unfold leafNodes
    rw [List.getElem?_modify, List.getElem?_append_right (Nat.le_refl _)]
    simp [Nat.ne_of_lt hml, hlen]
  have gO : ∀ v : Nat, v ≠ nodes.length → v ≠ mid → (leafNodes w nodes mid pos)[v]? = nodes[v]? := by
    intro v h1 h2
    unfold leafNodes
    rw [List.getElem?_modify]
    have : (nodes ++ [(⟨pos, (Slice.single w).len, none, some mid, []⟩ : SNode)])[v]? = nodes[v]? := by
      by_cases hl : v < nodes.length
      · rw [List.getElem?_append_left hl]
      · rw [List.getElem?_eq_none (by simp; omega), List.getElem?_eq_none (by omega)]
    rw [this]
    simp [Ne.symm h2]
  refine ⟨?_, gM⟩
  have hlt' : ∀ (v : Nat) (a : SNode), nodes[v]? = some a → v ≠ nodes.length := fun v a ha =>
    Nat.ne_of_lt (List.getElem?_eq_some_iff.1 ha).1
  have cases3 : ∀ (v : Nat) (a : SNode), (leafNodes w nodes mid pos)[v]? = some a →
      (v = nodes.length ∧ a = ⟨pos, (marked w).length, none, some mid, []⟩) ∨
      (v = mid ∧ a = m.updateChild (w[pos]?) nodes.length) ∨ (v ≠ nodes.length ∧ v ≠ mid ∧ nodes[v]? = some a) := by
    intro v a ha
    by_cases h1 : v = nodes.length
    · subst h1; rw [gL] at ha; exact .inl ⟨rfl, (Option.some.inj ha).symm⟩
    by_cases h2 : v = mid
    · subst h2; rw [gM] at ha; exact .inr (.inl ⟨rfl, (Option.some.inj ha).symm⟩)
    rw [gO v h1 h2] at ha
    exact .inr (.inr ⟨h1, h2, ha⟩)
  have keep : ∀ (v : Nat) (a : SNode), nodes[v]? = some a → ∃ a', (leafNodes w nodes mid pos)[v]? = some a' ∧ a'.link = a.link ∧
      a'.left = a.left ∧ a'.right = a.right ∧ a'.parent = a.parent ∧ (∀ c, a.children.get? c ≠ none → a'.children.get? c = a.children.get? c) := by
    intro v a ha
    by_cases h2 : v = mid
    · subst h2
      rw [hm] at ha
      cases ha
      refine ⟨_, gM, rfl, rfl, rfl, rfl, fun c hc => ?_⟩
      simp only [SNode.updateChild]
      exact get?_set_ne _ _ (fun e => hc (by rw [← e, hno]))
    · exact ⟨a, by rw [gO v (hlt' _ _ ha) h2, ha], rfl, rfl, rfl, rfl, fun _ _ => rfl⟩
  have old : ∀ (v : Nat) (a : SNode), v ≠ nodes.length → (leafNodes w nodes mid pos)[v]? = some a →
      ∃ a', nodes[v]? = some a' ∧ a.link = a'.link ∧ a.left = a'.left ∧ a.right = a'.right ∧ a.parent = a'.parent ∧
        (∀ c, a'.children.get? c ≠ none → a.children.get? c = a'.children.get? c) ∧ (v ≠ 0 → (a.children = [] ↔ a'.children = [])) := by
    intro v a hv ha
    rcases cases3 v a ha with ⟨h1, -⟩ | ⟨h1, h2⟩ | ⟨-, -, h1⟩
    · exact absurd h1 hv
    · subst h1
      obtain ⟨a', e1, e2, e3, e4, e5, e6⟩ := keep v m hm
      rw [ha] at e1
      cases e1
      refine ⟨m, hm, e2, e3, e4, e5, e6, fun hv0 => ⟨fun e => ?_, fun e => ?_⟩⟩
      · rw [h2] at e
        exact absurd e (set_ne_nil _ _ _)
      · exact absurd ((h.leafIff v m hv0 hm).1 e) hnn
    · exact ⟨a, h1, rfl, rfl, rfl, rfl, fun _ _ => rfl, fun _ => Iff.rfl⟩
  refine ⟨?_, ?_, ?_, ?_, ?_, ?_, ?_, ?_, ?_, ?_, ?_⟩
  · obtain ⟨r, hr, e1, e2, e3, e4⟩ := h.root
    obtain ⟨r', f1, f2, f3, f4, f5, -⟩ := keep 0 r hr
    exact ⟨r', f1, by rw [f3, e1], by rw [f4, e2], by rw [f5, e3], by rw [f2, e4]⟩
  · rw [withWord_ne _ _ (by omega), h.str0]
  · intro v a hv ha
    by_cases h1 : v = nodes.length
    · subst h1
      rw [gL] at ha
      cases ha
      refine ⟨mid, _, rfl, gM, hpos, Nat.le_refl _, ?_, ?_⟩
      · change _ = _ ++ seg (marked w) pos (marked w).length
        rw [withWord_self, withWord_ne _ _ (by omega), hx, seg_append _ _ _ _ hjp (by omega), seg_end]
      · simp only [SNode.updateChild]
        exact get?_set_self _ _ _
    · obtain ⟨a', h2, -, h3, h4, h5, -⟩ := old v a h1 ha
      obtain ⟨q, mq, hq, hmq, e1, e2, e3, e4⟩ := h.up v a' hv h2
      obtain ⟨mq', g1, -, -, -, -, g2⟩ := keep q mq hmq
      refine ⟨q, mq', by rw [h5, hq], g1, by omega, by omega, ?_, ?_⟩
      · rw [withWord_ne _ _ h1, withWord_ne _ _ (hlt' _ _ hmq), e3, h3, h4]
      · rw [h3, g2 _ (by rw [e4]; simp), e4]
  · intro q a c v ha hc
    have main : ∀ (b : SNode), nodes[q]? = some b → b.children.get? c = some v →
        v ≠ 0 ∧ ∃ n : SNode, (leafNodes w nodes mid pos)[v]? = some n ∧ n.parent = some q ∧ w[n.left]? = c := by
      intro b hb hbc
      obtain ⟨hv, nv, hnv, hvp, hvk⟩ := h.down q b c v hb hbc
      obtain ⟨nv', g1, -, g2, -, g3, -⟩ := keep v nv hnv
      exact ⟨hv, nv', g1, by rw [g3, hvp], by rw [g2, hvk]⟩
    rcases cases3 q a ha with ⟨rfl, rfl⟩ | ⟨rfl, rfl⟩ | ⟨h1, h2, h4⟩
    · simp [Dict.get?] at hc
    · simp only [SNode.updateChild] at hc
      by_cases e : c = w[pos]?
      · rw [e, get?_set_self] at hc
        cases hc
        exact ⟨by omega, _, gL, rfl, e.symm⟩
      · rw [get?_set_ne _ _ (Ne.symm e)] at hc
        exact main m hm hc
    · exact main a h4 hc
  · intro q a ha
    rcases cases3 q a ha with ⟨rfl, rfl⟩ | ⟨rfl, rfl⟩ | ⟨h1, h2, h4⟩
    · exact WF_nil
    · exact WF_set (h.wf _ _ hm) _ _
    · exact h.wf _ _ h4
  · intro v a hv ha
    by_cases h1 : v = nodes.length
    · subst h1
      rw [gL] at ha
      cases ha
      rw [withWord_self]
      refine ⟨fun _ => ?_, fun _ => rfl⟩
      rw [← seg_end, marked_length, ← seg_append (marked w) j w.length (w.length + 1) (by rw [marked_length] at hpos; omega) (by omega),
        seg_succ w _ (by rw [marked_length]; omega)]
      simp
    · obtain ⟨a', h2, -, -, -, -, -, h3⟩ := old v a h1 ha
      rw [withWord_ne _ _ h1, h3 hv]
      exact h.leafIff v a' hv h2
  · intro v a hv ha
    by_cases h1 : v = nodes.length
    · subst h1
      exact ⟨j, by omega, by rw [withWord_self]; exact List.prefix_refl _⟩
    · obtain ⟨a', h2, -⟩ := old v a h1 ha
      obtain ⟨i, hi, hpre⟩ := h.pre v a' hv h2
      exact ⟨i, by omega, by rw [withWord_ne _ _ h1]; exact hpre⟩
  · intro i hi
    by_cases hij : i = j
    · subst hij
      exact ⟨nodes.length, _, gL, withWord_self _ _ _⟩
    · obtain ⟨v, a, ha, e⟩ := h.suf i (by omega)
      obtain ⟨a', ha', -⟩ := keep v a ha
      exact ⟨v, a', ha', by rw [withWord_ne _ _ (hlt' _ _ ha), e]⟩
  · intro v a l ha hl
    by_cases h1 : v = nodes.length
    · subst h1
      rw [gL] at ha
      cases ha
      simp at hl
    · obtain ⟨a', h2, h3, -, -, -, h5, h6⟩ := old v a h1 ha
      rw [h3] at hl
      obtain ⟨⟨ml, hml⟩, e1, e2⟩ := h.link v a' l h2 hl
      obtain ⟨ml', hml', -⟩ := keep l ml hml
      have hv0 : v ≠ 0 := by
        intro e
        subst e
        obtain ⟨r, hr, -, -, -, hr4⟩ := h.root
        rw [hr] at h2
        cases h2
        rw [hr4] at hl
        cases hl
      refine ⟨⟨ml', hml'⟩, ?_, fun e => e2 ((h6 hv0).1 e)⟩
      rw [withWord_ne _ _ (hlt' _ _ hml), withWord_ne _ _ h1, e1]
  · intro v a hv ha hc hx'
    by_cases h1 : v = nodes.length
    · subst h1
      rw [gL] at ha
      cases ha
      exact absurd rfl hc
    · obtain ⟨a', h2, h3, -, -, -, h5, h6⟩ := old v a h1 ha
      rw [h3]
      exact h.linked v a' hv h2 (fun e => hc ((h6 hv).2 e)) hx'
  · intro v a hv ha hc hx'
    by_cases h1 : v = nodes.length
    · subst h1
      rw [gL] at ha
      cases ha
      exact absurd rfl hc
    · obtain ⟨a', h2, h3, -, -, -, h5, h6⟩ := old v a h1 ha
      obtain ⟨c, d, hcd, e1, e2⟩ := h.two v a' hv h2 (fun e => hc ((h6 hv).2 e)) hx'
      exact ⟨c, d, hcd, by rw [h5 c e1]; exact e1, by rw [h5 d e2]; exact e2⟩

/-- Nodes that have a link and two children need no exemption. -/
theorem Trie.settle (h : Trie w j nodes str ex) {ex' : Nat → Prop}
    (hs : ∀ (v : Nat) (n : SNode), v ≠ 0 → ex v → ¬ ex' v → nodes[v]? = some n → n.children ≠ [] →
      n.link ≠ none ∧ ∃ c d, c ≠ d ∧ n.children.get? c ≠ none ∧ n.children.get? d ≠ none) : Trie w j nodes str ex' where
  root := h.root
  str0 := h.str0
  up := h.up
  down := h.down
  wf := h.wf
  leafIff := h.leafIff
  pre := h.pre
  suf := h.suf
  link := h.link
  linked v n hv hn hc hx := by
    by_cases he : ex v
    · exact (hs v n hv he hx hn hc).1
    · exact h.linked v n hv hn hc he
  two v n hv hn hc hx := by
    by_cases he : ex v
    · exact (hs v n hv he hx hn hc).2
    · exact h.two v n hv hn hc he

/-- Setting the link of a node keeps the trie. -/
theorem link_trie (h : Trie w j nodes str ex) {mid l : Nat} {m ml : SNode} (hm : nodes[mid]? = some m) (hm0 : mid ≠ 0)
    (hl : nodes[l]? = some ml) (hstr : str l = (str mid).tail)
    (htwo : ∃ c d, c ≠ d ∧ m.children.get? c ≠ none ∧ m.children.get? d ≠ none) :
    Trie w j (nodes.modify mid (fun n => { n with link := some l })) str (fun v => ex v ∧ v ≠ mid) := by
  have hmne : m.children ≠ [] := by
    obtain ⟨c, d, -, h1, -⟩ := htwo
    intro e
    rw [e] at h1
    exact h1 rfl
  have get : ∀ (v : Nat) (a : SNode), (nodes.modify mid (fun n => { n with link := some l }))[v]? = some a →
      ∃ b, nodes[v]? = some b ∧ ((v = mid ∧ a = { b with link := some l }) ∨ (v ≠ mid ∧ a = b)) := by
    intro v a ha
    rw [List.getElem?_modify] at ha
    cases hb : nodes[v]? with
    | none => simp [hb] at ha
    | some b =>
      refine ⟨b, rfl, ?_⟩
      by_cases hv : v = mid
      · subst hv
        simp [hb] at ha
        exact .inl ⟨rfl, ha.symm⟩
      · simp [hb, Ne.symm hv] at ha
        exact .inr ⟨hv, ha.symm⟩
  have put : ∀ (v : Nat) (b : SNode), nodes[v]? = some b → ∃ a, (nodes.modify mid (fun n => { n with link := some l }))[v]? = some a ∧
      ((v = mid ∧ a = { b with link := some l }) ∨ (v ≠ mid ∧ a = b)) := by
    intro v b hb
    rw [List.getElem?_modify, hb]
    by_cases hv : v = mid
    · subst hv
      exact ⟨_, by simp, .inl ⟨rfl, rfl⟩⟩
    · exact ⟨b, by simp [Ne.symm hv], .inr ⟨hv, rfl⟩⟩
  refine ⟨?_, h.str0, ?_, ?_, ?_, ?_, ?_, ?_, ?_, ?_, ?_⟩
  · obtain ⟨r, hr, e⟩ := h.root
    obtain ⟨a, ha, h1 | h1⟩ := put 0 r hr
    · exact absurd h1.1.symm hm0
    · exact ⟨a, ha, by rw [h1.2]; exact e⟩
  · intro v a hv ha
    obtain ⟨b, hb, hab⟩ := get v a ha
    obtain ⟨q, mq, hq, hmq, e1, e2, e3, e4⟩ := h.up v b hv hb
    obtain ⟨mq', hmq', hq'⟩ := put q mq hmq
    have hc : mq'.children = mq.children := by rcases hq' with ⟨-, rfl⟩ | ⟨-, rfl⟩ <;> rfl
    rcases hab with ⟨-, rfl⟩ | ⟨-, rfl⟩
    · exact ⟨q, mq', hq, hmq', e1, e2, e3, by rw [hc]; exact e4⟩
    · exact ⟨q, mq', hq, hmq', e1, e2, e3, by rw [hc]; exact e4⟩
  · intro q a c v ha hc
    obtain ⟨b, hb, hab⟩ := get q a ha
    have hcc : a.children = b.children := by rcases hab with ⟨-, rfl⟩ | ⟨-, rfl⟩ <;> rfl
    rw [hcc] at hc
    obtain ⟨hv, nv, hnv, hvp, hvk⟩ := h.down q b c v hb hc
    obtain ⟨nv', hnv', h1⟩ := put v nv hnv
    refine ⟨hv, nv', hnv', ?_⟩
    rcases h1 with ⟨-, rfl⟩ | ⟨-, rfl⟩ <;> exact ⟨hvp, hvk⟩
  · intro q a ha
    obtain ⟨b, hb, hab⟩ := get q a ha
    rcases hab with ⟨-, rfl⟩ | ⟨-, rfl⟩
    · exact h.wf q b hb
    · exact h.wf q _ hb
  · intro v a hv ha
    obtain ⟨b, hb, hab⟩ := get v a ha
    rcases hab with ⟨-, rfl⟩ | ⟨-, rfl⟩
    · exact h.leafIff v b hv hb
    · exact h.leafIff v _ hv hb
  · intro v a hv ha
    obtain ⟨b, hb, -⟩ := get v a ha
    exact h.pre v b hv hb
  · intro i hi
    obtain ⟨v, b, hb, e⟩ := h.suf i hi
    obtain ⟨a, ha, -⟩ := put v b hb
    exact ⟨v, a, ha, e⟩
  · intro v a l' ha hl'
    obtain ⟨b, hb, hab⟩ := get v a ha
    rcases hab with ⟨rfl, rfl⟩ | ⟨-, rfl⟩
    · cases hl'
      rw [hm] at hb
      cases hb
      obtain ⟨a, ha, -⟩ := put l ml hl
      exact ⟨⟨a, ha⟩, hstr, hmne⟩
    · obtain ⟨⟨ml', h1⟩, h2, h3⟩ := h.link v a l' hb hl'
      obtain ⟨a', ha', -⟩ := put l' ml' h1
      exact ⟨⟨a', ha'⟩, h2, h3⟩
  · intro v a hv ha hc hx
    obtain ⟨b, hb, hab⟩ := get v a ha
    rcases hab with ⟨rfl, rfl⟩ | ⟨h1, rfl⟩
    · simp
    · exact h.linked v a hv hb hc (fun e => hx ⟨e, h1⟩)
  · intro v a hv ha hc hx
    obtain ⟨b, hb, hab⟩ := get v a ha
    rcases hab with ⟨rfl, rfl⟩ | ⟨h1, rfl⟩
    · rw [hm] at hb
      cases hb
      exact htwo
    · exact h.two v a hv hb hc (fun e => hx ⟨e, h1⟩)

/-- What splitting does at a state inside of the trie: nothing on a node, and a new node with one child otherwise. -/
theorem split_spec (h : Trie w j nodes str ex) {st : BuildState} {x : List (Option Nat)} (hat : At w nodes str st x) (hprop : Proper st)
    (hnn : none ∉ x) :
    (∃ (mid : Nat) (n : SNode), SSplit (Slice.single w) nodes st = some (nodes, some mid) ∧ nodes[mid]? = some n ∧ st.node = some mid ∧
      str mid = x ∧ st.pos = n.edgeLen) ∨
    (∃ (nodes' : List SNode) (str' : Nat → List (Option Nat)) (n : SNode), SSplit (Slice.single w) nodes st = some (nodes', some nodes.length) ∧
      nodes.length ≠ 0 ∧ nodes'.length = nodes.length + 1 ∧ Trie w j nodes' str' (fun v => ex v ∨ v = nodes.length) ∧ str' nodes.length = x ∧
      nodes'[nodes.length]? = some n ∧ n.link = none ∧ (∃ c i, n.children = [(c, i)]) ∧
      (∃ (v : Nat) (m : SNode), st.node = some v ∧ nodes[v]? = some m ∧ st.pos ≠ m.edgeLen) ∧
      ∀ (v : Nat) (a : SNode), nodes[v]? = some a → str' v = str v ∧ ∃ a', nodes'[v]? = some a' ∧ Keeps a a') := by
  have hat' := hat
  obtain ⟨v, n, hs, hn, h1⟩ := hat'
  by_cases hend : st.pos = n.edgeLen
  · refine .inl ⟨v, n, ?_, hn, hs, (hat.full h hs hn hend).symm, hend⟩
    simp [SSplit, hs, hn, hend]
  · right
    rcases h1 with ⟨hv, h2, -⟩ | ⟨hv, hle, p, hp, hx⟩
    · obtain ⟨r, hr1, hr2, hr3, -⟩ := h.root
      rw [hv, hr1] at hn
      cases hn
      exact absurd (by simp [SNode.edgeLen, h2, hr2, hr3]) hend
    · have hpos : st.pos ≠ 0 := by
        intro h0
        have := hprop h0
        rw [hs] at this
        exact hv (Option.some.inj this)
      have hvl : v < nodes.length := (List.getElem?_eq_some_iff.1 hn).1
      obtain ⟨t1, t2⟩ := split_trie h hv hn hp (Nat.pos_of_ne_zero hpos) (by omega) (by rw [← hx]; exact hnn)
      obtain ⟨p', m, hp', hm, -⟩ := h.up v n hv hn
      rw [hp] at hp'
      cases hp'
      have hpl : p < nodes.length := (List.getElem?_eq_some_iff.1 hm).1
      refine ⟨splitNodes w nodes p v st.pos n, _, _, ?_, by omega, by simp [splitNodes], t1, ?_, split_new hpl hvl, rfl, ⟨_, _, rfl⟩, ⟨v, n, hs, hn, hend⟩, ?_⟩
      · simp [SSplit, hs, hn, hend, hpos, hp, splitNodes, Slice.single]
      · rw [withWord_self, hx]
      · intro v' a ha
        exact ⟨withWord_ne _ _ (Nat.ne_of_lt (List.getElem?_eq_some_iff.1 ha).1), t2 v' a ha⟩

theorem at_node (h : Trie w j nodes str ex) {v : Nat} {n : SNode} (hn : nodes[v]? = some n) :
    At w nodes str ⟨n.edgeLen, some v⟩ (str v) ∧ Proper ⟨n.edgeLen, some v⟩ := by
  by_cases hv : v = 0
  · subst hv
    obtain ⟨r, hr1, hr2, hr3, -⟩ := h.root
    have hr1' := hr1
    rw [hn] at hr1'
    cases hr1'
    exact ⟨⟨0, n, rfl, hn, .inl ⟨rfl, by simp [SNode.edgeLen, hr2, hr3], h.str0⟩⟩, fun _ => rfl⟩
  · obtain ⟨p, m, hp, hm, e1, e2, e3, -⟩ := h.up v n hv hn
    refine ⟨⟨v, n, rfl, hn, .inr ⟨hv, Nat.le_refl _, p, hp, ?_⟩⟩, fun h0 => ?_⟩
    · rw [e3]
      congr 2
      simp only [SNode.edgeLen]
      omega
    · simp only [SNode.edgeLen] at h0
      omega

/-- The link of a node leads to its word without the first letter; a node made for it has one child, with a letter other than `a`. -/
theorem link_spec (h : Trie w j nodes str ex) (a : Option Nat) {mid : Nat} {m : SNode} (hm : nodes[mid]? = some m)
    (hex : ∀ v, ex v → v = mid)
    (htwo : mid ≠ 0 → ∃ c d, c ≠ d ∧ m.children.get? c ≠ none ∧ m.children.get? d ≠ none)
    (htail : mid ≠ 0 → ∃ (b : Nat) (mb : SNode) (c : Option Nat), nodes[b]? = some mb ∧ c ≠ a ∧ (str mid).tail ++ [c] <+: str b)
    (fuel : Nat) :
    ∃ (nodes' : List SNode) (str' : Nat → List (Option Nat)) (l : Nat) (n' : SNode) (ex' : Nat → Prop),
      SLink (Slice.single w) (fuel + 2) nodes mid = some (nodes', l) ∧ Trie w j nodes' str' ex' ∧ nodes'[l]? = some n' ∧
      str' l = (str mid).tail ∧ ∀ v, ex' v → v = l ∧ ∃ c, c ≠ a ∧ ∀ d, n'.children.get? d ≠ none → d = c := by
  by_cases hm0 : mid = 0
  · subst hm0
    obtain ⟨r, hr1, -, -, hr2, hr3⟩ := h.root
    rw [hm] at hr1
    cases hr1
    refine ⟨nodes, str, 0, m, fun _ => False, ?_, h.settle ?_, hm, by rw [h.str0]; rfl, fun v hv => hv.elim⟩
    · simp [SLink, hm, hr2, hr3]
    · intro v n hv he
      exact absurd (hex v he) hv
  have htwo' := htwo hm0
  cases hlink : m.link with
  | some l =>
    obtain ⟨⟨ml, hml⟩, e1, -⟩ := h.link mid m l hm hlink
    refine ⟨nodes, str, l, ml, fun _ => False, by simp [SLink, hm, hlink], h.settle ?_, hml, e1, fun v hv => hv.elim⟩
    intro v n hv he _ hn _
    have := hex v he
    subst this
    rw [hm] at hn
    cases hn
    exact ⟨by simp [hlink], htwo'⟩
  | none =>
    obtain ⟨p, mp, hp, hmp, hlt, hN, hstr, hch⟩ := h.up mid m hm0 hm
    have hpm : p ≠ mid := by
      intro e
      have := (h.key hm0 hm hp).2
      rw [e] at this
      omega
    have hmne : m.children ≠ [] := by
      obtain ⟨c, d, -, h1, -⟩ := htwo'
      intro e
      rw [e] at h1
      exact h1 rfl
    have hnn : none ∉ str mid := fun e => hmne ((h.leafIff mid m hm0 hm).2 e)
    -- the link of the parent
    obtain ⟨to', mt, hto1, hto2, hto3⟩ : ∃ (to' : Nat) (mt : SNode), SLink (Slice.single w) (fuel + 1) nodes p = some (nodes, to') ∧ nodes[to']? = some mt ∧
        str to' = (str p).tail := by
      by_cases hp0 : p = 0
      · subst hp0
        obtain ⟨r, hr1, -, -, hr2, hr3⟩ := h.root
        rw [hmp] at hr1
        cases hr1
        exact ⟨0, mp, by simp [SLink, hmp, hr2, hr3], hmp, by rw [h.str0]; rfl⟩
      · have hl := h.linked p mp hp0 hmp (get_some_ne_nil hch) (fun e => hpm (hex p e))
        obtain ⟨l, hl⟩ := Option.ne_none_iff_exists'.1 hl
        obtain ⟨⟨ml, hml⟩, e1, -⟩ := h.link p mp l hmp hl
        exact ⟨l, ml, by simp [SLink, hmp, hl], hml, e1⟩
    set left := m.left + (if p = 0 then 1 else 0) with hleft
    have hleft2 : left ≤ m.right := by rw [hleft]; split <;> omega
    have htailstr : str to' ++ seg (marked w) left m.right = (str mid).tail := by
      rw [hto3, hstr, hleft]
      by_cases hp0 : p = 0
      · rw [if_pos hp0, hp0, h.str0, seg_cons w m.left m.right hlt hN]
        rfl
      · rw [if_neg hp0]
        have := h.str_ne hp0 hmp
        rw [List.tail_append_of_ne_nil this]
        rfl
    have hnt : none ∉ str to' ++ seg (marked w) left m.right := by
      rw [htailstr]
      exact fun e => hnn (List.mem_of_mem_tail e)
    obtain ⟨b, mb, c, hb, hca, hpre⟩ := htail hm0
    obtain ⟨hat1, hprop1⟩ := at_node h hto2
    obtain ⟨st', hgo, hat2, hprop2⟩ := go_spec h b mb hb (2 * (m.right - left) + 1) ⟨mt.edgeLen, some to'⟩ (str to') left m.right to' mt hat1 rfl
      hto2 (fun h0 hv => absurd (Option.some.inj (hprop1 h0)) hv) hleft2 hN (fun e => hnt (List.mem_append_right _ e))
      (by rw [htailstr]; exact (List.prefix_append _ _).trans hpre) (by simp)
    have hSL : ∀ (nodes1 : List SNode) (l : Nat), SSplit (Slice.single w) nodes st' = some (nodes1, some l) →
        SLink (Slice.single w) (fuel + 2) nodes mid = some (nodes1.modify mid (fun n => { n with link := some l }), l) := by
      intro nodes1 l hsp
      rw [SLink]
      simp only [hm, hlink, hp]
      rw [hto1]
      simp only [Option.bind_eq_bind, Option.bind_some, hto2, ← hleft]
      rw [hgo]
      simp only [Option.bind_some]
      rw [hsp]
      rfl
    rcases split_spec h hat2 hprop2 hnt with ⟨l, nl, hsp, hnl, -, hsl, -⟩ | ⟨nodes1, str1, nl, hsp, hl0, hlen, ht1, hsl, hnl, hll, ⟨c', i', hcc⟩, -, hold⟩
    · have hsl' : str l = (str mid).tail := by rw [hsl, htailstr]
      have ht := link_trie h hm hm0 hnl hsl' htwo'
      have hget : ∃ n', (nodes.modify mid (fun n => { n with link := some l }))[l]? = some n' := by
        rw [List.getElem?_modify, hnl]
        exact ⟨_, rfl⟩
      obtain ⟨n', hn'⟩ := hget
      refine ⟨_, str, l, n', fun _ => False, hSL nodes l hsp, ht.settle ?_, hn', hsl', fun v hv => hv.elim⟩
      intro v n hv he
      exact absurd (hex v he.1) he.2
    · obtain ⟨hsm, m1, hm1, hk⟩ := hold mid m hm
      have hsl' : str1 nodes.length = (str1 mid).tail := by rw [hsl, htailstr, hsm]
      have hml : mid < nodes.length := (List.getElem?_eq_some_iff.1 hm).1
      have htwo1 : ∃ c d, c ≠ d ∧ m1.children.get? c ≠ none ∧ m1.children.get? d ≠ none := by
        obtain ⟨c1, d1, hcd, e1, e2⟩ := htwo'
        exact ⟨c1, d1, hcd, fun e => e1 ((hk.2.1 c1).1 e), fun e => e2 ((hk.2.1 d1).1 e)⟩
      have ht := link_trie ht1 hm1 hm0 hnl hsl' htwo1
      refine ⟨_, str1, nodes.length, nl, _, hSL nodes1 _ hsp, ht, ?_, by rw [hsl', hsm], ?_⟩
      · rw [List.getElem?_modify, hnl]
        simp [Nat.ne_of_lt hml]
      · intro v hv
        obtain ⟨hv1 | hv1, hv2⟩ := hv
        · exact absurd (hex v hv1) hv2
        refine ⟨hv1, c, hca, ?_⟩
        obtain ⟨hsb, mb1, hmb1, -⟩ := hold b mb hb
        obtain ⟨z, hz⟩ := ht1.child hnl hmb1 (c := c) (by rw [hsl', hsm, hsb]; exact hpre)
        rw [hcc] at hz ⊢
        have hcc' : c' = c := by
          by_contra hne
          simp [Dict.get?, hne] at hz
        intro d hd
        by_contra hne
        apply hd
        simp [Dict.get?, hcc', Ne.symm hne]

/-- What holds between the rounds of the construction at `pos`. -/
structure TreeBuilding (w : List Nat) (j pos : Nat) (nodes : List SNode) (st : BuildState) (str : Nat → List (Option Nat)) (ex : Nat → Prop) : Prop where
  trie : Trie w j nodes str ex
  at_ : At w nodes str st (seg (marked w) j pos)
  proper : Proper st
  le : j ≤ pos
  fresh : ∀ v, ex v → v ≠ 0 → ∃ n : SNode, st.node = some v ∧ nodes[v]? = some n ∧ st.pos = n.edgeLen ∧
    ∃ c, c ≠ w[pos]? ∧ ∀ d, n.children.get? d ≠ none → d = c

theorem no_mark_before {a b : Nat} (hb : b ≤ w.length) : none ∉ seg (marked w) a b := by
  intro hm
  unfold seg marked at hm
  by_cases hab : a ≤ b
  · rw [List.drop_append_of_le_length (by simp; omega), List.take_append_of_le_length (by simp; omega)] at hm
    have := List.mem_of_mem_drop (List.mem_of_mem_take hm)
    simp at this
  · have : b - a = 0 := by omega
    rw [this] at hm
    simp at hm

/-- The end mark is nowhere in the trie before the last suffix. -/
theorem mark_is_new (h : Trie w j nodes str ex) (hj : j ≤ w.length) {b : Nat} {mb : SNode} (hb : nodes[b]? = some mb) :
    ¬ seg (marked w) j w.length ++ [w[w.length]?] <+: str b := by
  intro hpre
  have hb0 : b ≠ 0 := by
    intro e
    rw [e, h.str0] at hpre
    exact absurd (List.prefix_nil.1 hpre) (by simp)
  obtain ⟨i, hi, hpre2⟩ := h.pre b mb hb0 hb
  have h1 := hpre.trans hpre2
  rw [← seg_succ w w.length (by rw [marked_length]; omega), seg_append _ _ _ _ hj (by omega), ← marked_length, seg_end] at h1
  obtain ⟨t, ht⟩ := h1
  have h2 : ((marked w).drop j ++ t)[w.length - j]? = ((marked w).drop i)[w.length - j]? := by rw [ht]
  rw [List.getElem?_append_left (by rw [List.length_drop, marked_length]; omega), List.getElem?_drop, List.getElem?_drop,
    marked_get w _ (by rw [marked_length]; omega), marked_get w _ (by rw [marked_length]; omega)] at h2
  rw [List.getElem?_eq_none (show w.length ≤ j + (w.length - j) by omega),
    List.getElem?_eq_getElem (show i + (w.length - j) < w.length by omega)] at h2
  simp at h2

/-- All rounds at one position. -/
theorem buildAt_spec (pos : Nat) (hpos : pos ≤ w.length) : ∀ (fuel j : Nat) (nodes : List SNode) (st : BuildState)
    (str : Nat → List (Option Nat)) (ex : Nat → Prop), TreeBuilding w j pos nodes st str ex → pos - j + 1 ≤ fuel →
    ∃ nodes' st' str' j', buildAt (Slice.single w) pos fuel nodes st = some (nodes', st') ∧
      TreeBuilding w j' (pos + 1) nodes' st' str' (fun _ => False) ∧ (pos = w.length → j' = w.length + 1) := by
  intro fuel
  induction fuel with
  | zero => intro j nodes st str ex _ hf; omega
  | succ fuel ih =>
  intro j nodes st str ex B hf
  have h := B.trie
  have hN : pos < (marked w).length := by rw [marked_length]; omega
  have hnn : none ∉ seg (marked w) j pos := no_mark_before hpos
  by_cases hin : ∃ (b : Nat) (mb : SNode), nodes[b]? = some mb ∧ seg (marked w) j pos ++ [w[pos]?] <+: str b
  · obtain ⟨b, mb, hb, hpre⟩ := hin
    have hlt : pos ≠ w.length := by
      intro e
      rw [e] at hpre
      exact mark_is_new h (by have := B.le; omega) hb hpre
    obtain ⟨v, n, hs, hn, -⟩ := B.at_
    have hsegs : seg (marked w) j pos ++ seg (marked w) pos (pos + 1) = seg (marked w) j (pos + 1) :=
      seg_append _ _ _ _ B.le (by omega)
    obtain ⟨st', hgo, hat', hprop'⟩ := go_spec h b mb hb 3 st (seg (marked w) j pos) pos (pos + 1) v n B.at_ hs hn
      (fun h0 hv => absurd (Option.some.inj (hs.symm.trans (B.proper h0))) hv) (by omega) (by omega) (no_mark_before (by omega))
      (by rw [seg_succ w pos hN]; exact hpre) (by split <;> omega)
    rw [hsegs] at hat'
    obtain ⟨v', n', hs', hn', -⟩ := id hat'
    have hfalse : Trie w j nodes str (fun _ => False) := by
      refine h.settle ?_
      intro u nu hu he _ hnu _
      obtain ⟨n2, e1, e2, e3, c, hc1, hc2⟩ := B.fresh u he hu
      have hx := B.at_.full h e1 e2 e3
      rw [hx] at hpre
      obtain ⟨z, hz⟩ := h.child e2 hb hpre
      exact absurd (hc2 _ (by rw [hz]; simp)).symm hc1
    refine ⟨nodes, st', str, j, ?_, ⟨hfalse, hat', hprop', by have := B.le; omega, fun v hv => hv.elim⟩, fun e => absurd e hlt⟩
    rw [buildAt, hgo]
    obtain ⟨sp, sn⟩ := st'
    simp only at hs'
    subst hs'
    rfl
  · have hno : ∀ (b : Nat) (mb : SNode), nodes[b]? = some mb → ¬ seg (marked w) j pos ++ [w[pos]?] <+: str b :=
      fun b mb hb hp => hin ⟨b, mb, hb, hp⟩
    have hgo := go_fail h B.at_ hno 1
    -- the node for the leaf
    obtain ⟨nodes1, str1, mid, m, hsp, ht1, hm, hsm, hmc, hmchild⟩ : ∃ (nodes1 : List SNode) (str1 : Nat → List (Option Nat)) (mid : Nat) (m : SNode),
        SSplit (Slice.single w) nodes st = some (nodes1, some mid) ∧ Trie w j nodes1 str1 (fun v => v = mid) ∧ nodes1[mid]? = some m ∧
        str1 mid = seg (marked w) j pos ∧ m.children.get? (w[pos]?) = none ∧ (mid ≠ 0 → ∃ c z, m.children.get? c = some z) := by
      rcases split_spec h B.at_ B.proper hnn with ⟨mid, m, hsp, hm, hs, hsm, hend⟩ | ⟨nodes1, str1, m, hsp, hl0, hlen, ht1, hsm, hm, -, ⟨c', i', hcc⟩, ⟨v, n, hs, hn, hne⟩, hold⟩
      · refine ⟨nodes, str, mid, m, hsp, h.settle ?_, hm, hsm, ?_, ?_⟩
        · intro v n hv he hne
          obtain ⟨-, e1, -⟩ := B.fresh v he hv
          rw [hs] at e1
          exact absurd (Option.some.inj e1).symm hne
        · cases hz : m.children.get? (w[pos]?) with
          | none => rfl
          | some z =>
            obtain ⟨hz0, nz, hnz, hzp, hzk⟩ := h.down mid m _ z hm hz
            refine absurd ?_ (hno z nz hnz)
            rw [← hsm, ← hzk]
            exact (h.key hz0 hnz hzp).1
        · intro hm0
          have hne : m.children ≠ [] := fun e => hnn (by rw [← hsm]; exact (h.leafIff mid m hm0 hm).1 e)
          obtain ⟨⟨c, z⟩, rest, hcz⟩ := List.exists_cons_of_ne_nil hne
          exact ⟨c, z, by rw [hcz]; simp [Dict.get?]⟩
      · refine ⟨nodes1, str1, nodes.length, m, hsp, ht1.settle ?_, hm, hsm, ?_, fun _ => ⟨c', i', by rw [hcc]; simp [Dict.get?]⟩⟩
        · intro u nu hu he hne' _ _
          rcases he with he | he
          · obtain ⟨n2, e1, e2, e3, -⟩ := B.fresh u he hu
            rw [hs] at e1
            cases e1
            rw [hn] at e2
            cases e2
            exact absurd e3 hne
          · exact absurd he hne'
        · cases hz : m.children.get? (w[pos]?) with
          | none => rfl
          | some z =>
            obtain ⟨hz0, nz, hnz, hzp, hzk⟩ := ht1.down _ m _ z hm hz
            have hkey := ht1.key hz0 hnz hzp
            have hzl : z < nodes1.length := (List.getElem?_eq_some_iff.1 hnz).1
            have hzne : z ≠ nodes.length := by
              intro e
              rw [e] at hkey
              omega
            have hz' : nodes[z]? = some nodes[z] := List.getElem?_eq_getElem (by omega)
            obtain ⟨hzs, -⟩ := hold z _ hz'
            refine absurd ?_ (hno z _ hz')
            rw [← hsm, ← hzk, ← hzs]
            exact hkey.1
    obtain ⟨ht2, hm2⟩ := leaf_trie ht1 hm hsm B.le hN (by rw [hsm]; exact hnn) hmc
    have hml : mid < nodes1.length := (List.getElem?_eq_some_iff.1 hm).1
    have hsm2 : withWord str1 nodes1.length ((marked w).drop j) mid = seg (marked w) j pos := by
      rw [withWord_ne _ _ (by omega), hsm]
    obtain ⟨fl, hfl⟩ : ∃ fl, (leafNodes w nodes1 mid pos).length = fl + 2 := by
      have : (leafNodes w nodes1 mid pos).length = nodes1.length + 1 := by simp [leafNodes]
      exact ⟨nodes1.length - 1, by omega⟩
    have hA : mid ≠ 0 → ∃ c d, c ≠ d ∧ (m.updateChild (w[pos]?) nodes1.length).children.get? c ≠ none ∧
        (m.updateChild (w[pos]?) nodes1.length).children.get? d ≠ none := by
      intro hm0
      obtain ⟨c, z, hcz⟩ := hmchild hm0
      refine ⟨c, w[pos]?, fun e => ?_, ?_, ?_⟩
      · rw [e, hmc] at hcz
        cases hcz
      · simp only [SNode.updateChild]
        rw [get?_set_ne _ _ (fun e => by rw [← e, hmc] at hcz; cases hcz), hcz]
        simp
      · simp only [SNode.updateChild]
        rw [get?_set_self]
        simp
    have hB : mid ≠ 0 → ∃ (b : Nat) (mb : SNode) (c : Option Nat), (leafNodes w nodes1 mid pos)[b]? = some mb ∧ c ≠ w[pos]? ∧
        (withWord str1 nodes1.length ((marked w).drop j) mid).tail ++ [c] <+: withWord str1 nodes1.length ((marked w).drop j) b := by
      intro hm0
      obtain ⟨c, z, hcz⟩ := hmchild hm0
      obtain ⟨hz0, nz, hnz, hzp, hzk⟩ := ht1.down mid m c z hm hcz
      obtain ⟨i, hi, hpre⟩ := ht1.pre z nz hz0 hnz
      obtain ⟨b, mb, hb, hbs⟩ := ht2.suf (i + 1) (by omega)
      refine ⟨b, mb, c, hb, fun e => (by rw [e, hmc] at hcz; cases hcz), ?_⟩
      rw [hbs, hsm2, ← hsm]
      have h1 : str1 mid ++ [c] <+: (marked w).drop i := by
        rw [← hzk]
        exact (ht1.key hz0 hnz hzp).1.trans hpre
      have h2 := ht1.str_ne hm0 hm
      rw [← List.tail_append_of_ne_nil h2, ← List.tail_drop]
      obtain ⟨t, ht⟩ := h1
      exact ⟨t, by rw [← ht, List.tail_append_of_ne_nil h2, List.append_assoc, List.append_assoc, List.tail_append_of_ne_nil h2]⟩
    obtain ⟨nodes3, str3, l, n3, ex3, hlk, ht3, hn3, hsl, hfr⟩ := link_spec ht2 (w[pos]?) hm2 (fun v hv => hv) hA hB fl
    obtain ⟨hat3, hprop3⟩ := at_node ht3 hn3
    have hrun : buildAt (Slice.single w) pos (fuel + 1) nodes st =
        if mid = 0 then some (nodes3, ⟨n3.edgeLen, some l⟩) else buildAt (Slice.single w) pos fuel nodes3 ⟨n3.edgeLen, some l⟩ := by
      rw [buildAt, hgo]
      simp only [Option.bind_eq_bind]
      rw [hsp]
      simp only [Option.bind_some]
      have e1 : (nodes1 ++ [(⟨pos, (Slice.single w).len, none, some mid, []⟩ : SNode)]).modify mid
          (SNode.updateChild ((Slice.single w).get pos) ((nodes1 ++ [(⟨pos, (Slice.single w).len, none, some mid, []⟩ : SNode)]).length - 1)) =
          leafNodes w nodes1 mid pos := by
        simp [leafNodes, Slice.single]
      rw [e1, hfl, hlk]
      simp only [Option.bind_some, hn3]
      rfl
    rw [hrun]
    by_cases hm0 : mid = 0
    · rw [if_pos hm0]
      have hjp : j = pos := by
        have h1 : (seg (marked w) j pos).length = 0 := by rw [← hsm, hm0, ht1.str0]; rfl
        rw [seg_length _ _ _ (by omega)] at h1
        have := B.le
        omega
      have hsl0 : str3 l = [] := by
        rw [hsl, hsm2, hjp, seg_self]
        rfl
      have hl0 : l = 0 := by
        by_contra hne
        exact ht3.str_ne hne hn3 hsl0
      refine ⟨nodes3, _, str3, j + 1, rfl, ⟨ht3.settle ?_, ?_, hprop3, by omega, fun v hv => hv.elim⟩, fun e => by omega⟩
      · intro v n hv he
        exact absurd ((hfr v he).1.trans hl0) hv
      · rw [hjp, seg_self]
        rw [hsl0] at hat3
        exact hat3
    · rw [if_neg hm0]
      have hjp : j < pos := by
        have h1 := ht1.str_ne hm0 hm
        rw [hsm] at h1
        by_contra hc
        have := B.le
        have : j = pos := by omega
        rw [this, seg_self] at h1
        exact h1 rfl
      refine ih (j + 1) nodes3 ⟨n3.edgeLen, some l⟩ str3 ex3 ⟨ht3, ?_, hprop3, hjp, ?_⟩ (by omega)
      · rw [hsl, hsm2, seg_cons w j pos hjp (by omega)] at hat3
        exact hat3
      · intro v hv hv0
        obtain ⟨e1, c, hc1, hc2⟩ := hfr v hv
        subst e1
        exact ⟨n3, rfl, hn3, rfl, c, hc1, hc2⟩

theorem trie_root (w : List Nat) : TreeBuilding w 0 0 [SNode.root] ⟨0, some 0⟩ (fun _ => []) (fun _ => False) := by
  have one : ∀ (v : Nat) (n : SNode), [SNode.root][v]? = some n → v = 0 ∧ n = SNode.root := by
    intro v n h
    cases v with
    | zero => simpa using h.symm
    | succ v => simp at h
  refine ⟨⟨⟨SNode.root, rfl, rfl, rfl, rfl, rfl⟩, rfl, ?_, ?_, ?_, ?_, ?_, ?_, ?_, ?_, ?_⟩, ⟨0, SNode.root, rfl, rfl, .inl ⟨rfl, rfl, by simp [seg]⟩⟩, fun _ => rfl,
    Nat.le_refl _, fun v hv => hv.elim⟩
  · intro v n hv h; exact absurd (one v n h).1 hv
  · intro p m c v h hc
    rw [(one p m h).2] at hc
    simp [SNode.root] at hc
  · intro p m h
    rw [(one p m h).2]
    exact WF_nil
  · intro v n hv h; exact absurd (one v n h).1 hv
  · intro v n hv h; exact absurd (one v n h).1 hv
  · intro i hi; omega
  · intro v n l h hl
    rw [(one v n h).2] at hl
    simp [SNode.root] at hl
  · intro v n hv h; exact absurd (one v n h).1 hv
  · intro v n hv h; exact absurd (one v n h).1 hv

/-- The construction of the tree of a word ends, and its result is the trie of all of its suffixes. -/
theorem buildTree_spec (w : List Nat) : ∃ nodes str, buildTree (Slice.single w) = some nodes ∧
    Trie w (w.length + 1) nodes str (fun _ => False) := by
  have key : ∀ k, k ≤ w.length + 1 → ∃ nodes st str j, (List.range k).foldlM
      (fun (st : List SNode × BuildState) pos => buildAt (Slice.single w) pos ((Slice.single w).len + 1) st.1 st.2)
      ([SNode.root], (⟨0, some 0⟩ : BuildState)) = some (nodes, st) ∧ TreeBuilding w j k nodes st str (fun _ => False) ∧
      (k = w.length + 1 → j = w.length + 1) := by
    intro k
    induction k with
    | zero => intro _; exact ⟨_, _, _, 0, rfl, trie_root w, fun e => by omega⟩
    | succ k ih =>
      intro hk
      obtain ⟨nodes, st, str, j, h1, B, -⟩ := ih (by omega)
      have hl : (Slice.single w).len = w.length + 1 := rfl
      obtain ⟨nodes', st', str', j', h2, B', hj⟩ := buildAt_spec k (by omega) ((Slice.single w).len + 1) j nodes st str _ B (by rw [hl]; omega)
      refine ⟨nodes', st', str', j', ?_, B', fun e => hj (by omega)⟩
      rw [List.range_succ, List.foldlM_append, h1]
      simp only [Option.bind_eq_bind, Option.bind_some, List.foldlM_cons, List.foldlM_nil]
      rw [h2]
      rfl
  obtain ⟨nodes, st, str, j, h1, B, hj⟩ := key (w.length + 1) (Nat.le_refl _)
  refine ⟨nodes, str, ?_, by have := B.trie; rw [hj rfl] at this; exact this⟩
  unfold buildTree
  have : (Slice.single w).len = w.length + 1 := rfl
  rw [this] at h1 ⊢
  rw [h1]
  rfl

end

end Ficus.Rs
