import Verif.Proofs.RsNfcArrows

/-! C166: the relation between distant classes of Alpha++ NFC. -/

namespace Ficus.Rs
open Rs.Nfc Spec.Nfc

/-- **C166** (first question). Asked for the first time about two classes, whatever was asked and added before, the provider tells that
they are distant exactly when they are, with the causal relations that were added so far. -/
theorem C166_first (p : Provider) (calls : List ProviderCall) (a b : String) (h : ProviderCall.double a b ∉ calls) :
    (p.double (calls.foldl p.step .new) a b).1 = true ↔ Distant p (Added calls) a b := by
  rw [← calculate_after]
  unfold Provider.double
  rw [tryGet_never calls _ a b h]
  rfl

/-- **C166** (later questions). Asked again, the provider tells what held when it was first asked: the causal relations that were added
since do not count. -/
theorem C166_again (p : Provider) (before later : List ProviderCall) (a b : String) (h : ProviderCall.double a b ∉ before) :
    (p.double ((before ++ .double a b :: later).foldl p.step .new) a b).1 = true ↔ Distant p (Added before) a b := by
  rw [← C166_first p before a b h, List.foldl_append, List.foldl_cons]
  have h1 : (p.step (before.foldl p.step .new) (.double a b)).cache.tryGet a b =
      some (p.double (before.foldl p.step .new) a b).1 := by
    rw [tryGet_step, if_pos rfl]
    unfold Provider.double
    cases (before.foldl p.step .new).cache.tryGet a b <;> rfl
  have h2 := tryGet_kept (p := p) later _ a b _ h1
  conv_lhs => unfold Provider.double
  simp only [h2]

/-- The provider of a log with one trace `a d c b`. -/
def oneTrace : Provider where
  direct a b := decide ((a, b) ∈ [("a", "d"), ("d", "c"), ("c", "b")])
  unrelated a b := decide ((a, b) ∉ [("a", "d"), ("d", "c"), ("c", "b")] ∧ (b, a) ∉ [("a", "d"), ("d", "c"), ("c", "b")])
  triangle _ _ := false
  classes := ["a", "b", "c", "d"]
  known n := decide (n ∈ ["a", "b", "c", "d"])
  log := [["a", "d", "c", "b"]]

/-- Both theorems apply: nothing was asked before. -/
example : (oneTrace.double (([] : List ProviderCall).foldl oneTrace.step .new) "a" "b").1 = true ∧
    ProviderCall.double "a" "b" ∉ [ProviderCall.add "d" "a", .double "a" "c"] := by decide +kernel

/-- **C166** (stale answers). So the answer depends on whether the question was asked before a causal relation was added: then the
classes are not distant, and the provider tells that they are. -/
theorem C166_stale : ∃ (p : Provider) (calls : List ProviderCall) (a b : String),
    (p.double (calls.foldl p.step .new) a b).1 = true ∧ ¬ Distant p (Added calls) a b ∧
    (p.double ((calls.filter (· ≠ .double a b)).foldl p.step .new) a b).1 = false := by
  refine ⟨oneTrace, [.double "a" "b", .add "d" "a"], "a", "b", by decide +kernel, ?_, by decide +kernel⟩
  rw [← calculate_after]
  decide +kernel

/-- **C166** (never directly). Classes that follow each other directly, and a class and itself, are never distant, whatever was asked
and added before. -/
theorem C166_never (p : Provider) (calls : List ProviderCall) (a b : String) (h : p.direct a b = true ∨ a = b) :
    (p.double (calls.foldl p.step .new) a b).1 = false := by
  have hd : ∀ f, ¬ Distant p f a b := fun f hf => h.elim (fun e => by rw [hf.1] at e; cases e) hf.2.1
  rw [← Bool.not_eq_true]
  by_cases hm : ProviderCall.double a b ∈ calls
  · obtain ⟨before, later, e, hb⟩ := List.eq_append_cons_of_mem hm
    rw [e, C166_again p before later a b hb]
    exact hd _
  · rw [C166_first p calls a b hm]
    exact hd _

example : oneTrace.direct "a" "d" = true := by decide

end Ficus.Rs
