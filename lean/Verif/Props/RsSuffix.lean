import Verif.Spec.RsSuffix
import Verif.Proofs.RsRepeats

/-! Property C138: the suffix tree of the backend is the suffix tree of the word. -/

namespace Ficus.Rs
open Spec

section
variable {w : List Nat} {nodes : List SNode} {str : Nat → List (Option Nat)}

theorem pathTo_iff (h : FullTrie w nodes str) {v : Nat} {x : List (Option Nat)} :
    PathTo w nodes v x ↔ v < nodes.length ∧ x = str v := by
  constructor
  · intro hp
    induction hp with
    | root =>
      obtain ⟨n, hn, -⟩ := h.root
      exact ⟨(List.getElem?_eq_some_iff.1 hn).1, h.str0.symm⟩
    | @step p v m n c x _ hm hc hn ih =>
      refine ⟨(List.getElem?_eq_some_iff.1 hn).1, ?_⟩
      have hget := (Dict.get?_eq_some_iff (h.wf p m hm)).2 hc
      obtain ⟨hv, n', hn', hpar, -⟩ := h.down p m c v hm hget
      rw [hn] at hn'
      cases hn'
      obtain ⟨p', m', hp', -, -, -, hs, -⟩ := h.up v n hv hn
      rw [hpar] at hp'
      cases hp'
      rw [hs, ih.2]
      rfl
  · rintro ⟨hv, rfl⟩
    induction hN : (str v).length using Nat.strong_induction_on generalizing v with
    | _ N ih =>
    subst hN
    by_cases h0 : v = 0
    · rw [h0, h.str0]
      exact .root
    · have hn := List.getElem?_eq_getElem hv
      obtain ⟨p, m, hp, hm, -, -, hs, hk⟩ := h.up v _ h0 hn
      have hl := (h.key h0 hn hp).2
      have := PathTo.step (ih _ hl (List.getElem?_eq_some_iff.1 hm).1 rfl) hm ((Dict.get?_eq_some_iff (h.wf p m hm)).1 hk) hn
      rw [hs]
      exact this

theorem infix_ended {x : List (Option Nat)} {c : Option Nat} : x ++ [c] <:+: ended w ↔ ∃ i, i ∈ occ w (x ++ [c]) := by
  constructor
  · rintro ⟨pre, post, e⟩
    have e' : marked w = pre ++ (x ++ [c] ++ post) := by
      rw [← List.append_assoc]
      exact e.symm
    have hl := congrArg List.length e'
    rw [marked_length] at hl
    simp only [List.length_append, List.length_singleton] at hl
    refine ⟨pre.length, mem_occ.2 ⟨by omega, ?_⟩⟩
    rw [e', List.drop_left]
    exact List.prefix_append _ _
  · rintro ⟨i, hi⟩
    exact (mem_occ.1 hi).2.isInfix.trans (List.drop_suffix i (marked w)).isInfix

end

/-- C138: for every word the code builds, without a panic, the suffix tree of the word with an end mark: one way to every node, leaves for
the suffixes, inner nodes for the words that different letters follow, and links that cut the first letter. -/
theorem C138_suffix_tree (w : List Nat) : ∃ nodes, buildTree (Slice.single w) = some nodes ∧ SuffixTreeOf w nodes := by
  obtain ⟨nodes, str, hb, h⟩ := buildTree_spec w
  have hin : ∀ {v : Nat} {n : SNode}, nodes[v]? = some n → v < nodes.length := fun hn => (List.getElem?_eq_some_iff.1 hn).1
  refine ⟨nodes, hb, ⟨?_, ?_, ?_, ?_, ?_, ?_⟩⟩
  · intro v hv
    exact ⟨str v, fun y => ⟨fun hy => ((pathTo_iff h).1 hy).2, fun hy => (pathTo_iff h).2 ⟨hv, hy⟩⟩⟩
  · intro u v x hu hv
    obtain ⟨h1, rfl⟩ := (pathTo_iff h).1 hu
    obtain ⟨h2, e⟩ := (pathTo_iff h).1 hv
    exact h.inj (List.getElem?_eq_getElem h1) (List.getElem?_eq_getElem h2) e
  · intro x
    constructor
    · rintro ⟨v, n, hn, hc, hp⟩
      obtain ⟨-, rfl⟩ := (pathTo_iff h).1 hp
      have hv : v ≠ 0 := by
        rintro rfl
        exact root_inner h hn hc
      obtain ⟨i, hi, hs, -⟩ := occ_leaf h hv hn hc
      exact ⟨i, hi, hs⟩
    · rintro ⟨i, hi, rfl⟩
      obtain ⟨v, n, hn, hs⟩ := h.suf i (by omega)
      have hmem : none ∈ str v := by
        rw [hs]
        unfold marked
        rw [List.drop_append_of_le_length (by simpa using hi)]
        simp
      have hv : v ≠ 0 := by
        rintro rfl
        rw [h.str0] at hmem
        cases hmem
      exact ⟨v, n, hn, (h.leafIff v n hv hn).2 hmem, (pathTo_iff h).2 ⟨hin hn, hs.symm⟩⟩
  · intro x hx
    constructor
    · rintro ⟨v, n, hn, hc, hp⟩
      obtain ⟨-, rfl⟩ := (pathTo_iff h).1 hp
      have hv : v ≠ 0 := by
        rintro rfl
        exact hx h.str0
      obtain ⟨c, d, hcd, hgc, hgd⟩ := h.two v n hv hn hc (fun e => e)
      have below : ∀ c, n.children.get? c ≠ none → str v ++ [c] <:+: ended w := by
        intro c hc
        obtain ⟨z, hz⟩ := Option.ne_none_iff_exists'.1 hc
        obtain ⟨hz0, m, hm, hpar, hk⟩ := h.down v n c z hn hz
        obtain ⟨i, -, hpre⟩ := h.pre z m hz0 hm
        have := (h.key hz0 hm hpar).1
        rw [hk] at this
        exact (this.trans hpre).isInfix.trans (List.drop_suffix i (marked w)).isInfix
      exact ⟨c, d, hcd, below c hgc, below d hgd⟩
    · rintro ⟨c, d, hcd, h1, h2⟩
      obtain ⟨i, hi⟩ := infix_ended.1 h1
      obtain ⟨k, hk⟩ := infix_ended.1 h2
      obtain ⟨v, n, hn, hs, hc⟩ := branch_node h hcd hi hk
      exact ⟨v, n, hn, hc, (pathTo_iff h).2 ⟨hin hn, hs.symm⟩⟩
  · intro p v m n c hm hc hn
    have hget := (Dict.get?_eq_some_iff (h.wf p m hm)).2 hc
    obtain ⟨hv, n', hn', hpar, hk⟩ := h.down p m c v hm hget
    rw [hn] at hn'
    cases hn'
    obtain ⟨p', m', -, -, h1, h2, -, -⟩ := h.up v n hv hn
    have := seg_cons w _ _ h1 h2
    change (seg (marked w) n.left n.right).head? = some c
    rw [this, hk]
    rfl
  · intro v n x hv hn hc hp
    obtain ⟨-, rfl⟩ := (pathTo_iff h).1 hp
    obtain ⟨l, hl⟩ := Option.ne_none_iff_exists'.1 (h.linked v n hv hn hc (fun e => e))
    obtain ⟨⟨m, hm⟩, hs, -⟩ := h.link v n l hn hl
    exact ⟨l, hl, (pathTo_iff h).2 ⟨hin hm, hs.symm⟩⟩

/-- Three inner nodes (root, "ab", "b"), and a leaf for every suffix of "abcabd". -/
example : (buildTree (Slice.single [1, 2, 3, 1, 2, 4])).map (fun nodes =>
    (nodes.length, (nodes.filter (fun n => n.children ≠ [])).length)) = some (10, 3) := by decide +kernel

end Ficus.Rs
