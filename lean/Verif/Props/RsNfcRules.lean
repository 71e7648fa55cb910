import Verif.Proofs.RsNfcRules

/-! C167: the relations of implicit dependencies of Alpha++ NFC. -/

namespace Ficus.Rs
open Rs.Nfc Spec.Nfc

/-- A choice that decides a later one: the provider of the log with the traces `a c d` and `b c e`. -/
def twoTraces : Provider where
  direct x y := decide ((x, y) ∈ [("a", "c"), ("b", "c"), ("c", "d"), ("c", "e")])
  unrelated x y := decide ((x, y) ∉ [("a", "c"), ("b", "c"), ("c", "d"), ("c", "e")] ∧ (y, x) ∉ [("a", "c"), ("b", "c"), ("c", "d"), ("c", "e")])
  triangle _ _ := false
  classes := ["a", "b", "c", "d", "e"]
  known n := decide (n ∈ ["a", "b", "c", "d", "e"])
  log := [["a", "c", "d"], ["b", "c", "e"]]

/-- The net that Alpha+ finds for it. -/
def twoTracesNet : NetView where
  find n := Dict.get? [("a", [0], [1]), ("b", [0], [1]), ("c", [1], [2]), ("d", [2], [3]), ("e", [2], [3])] n
  pre n := (Dict.get? [(1, ["a", "b"]), (2, ["c"]), (3, ["d", "e"])] n).getD []
  post n := (Dict.get? [(0, ["a", "b"]), (1, ["c"]), (2, ["d", "e"])] n).getD []

/-- The third kind is found between `a` and `d`, not between `a` and `e`. -/
example : ((runCalls twoTraces .new [.rule .w1 twoTracesNet "a" "d", .add "b" "d", .rule .w3 twoTracesNet "a" "e"]).bind
      (fun s => (Rule.w3.ask twoTraces twoTracesNet "a" "d" s).map Prod.fst)) = some true ∧
    ((runCalls twoTraces .new [.rule .w3 twoTracesNet "a" "d"]).bind
      (fun s => (Rule.w3.ask twoTraces twoTracesNet "a" "e" s).map Prod.fst)) = some false := by decide +kernel

/-- All classes are transitions of the net; without transitions there is no answer. -/
example : (∀ c ∈ twoTraces.classes, (twoTracesNet.find c).isSome) ∧
    (Rule.w3.ask twoTraces ⟨fun _ => none, fun _ => [], fun _ => []⟩ "a" "d" .new).isNone := by decide +kernel

/-- The relations of a provider with dependencies of the first two kinds. -/
def exRules : Provider where
  direct x y := decide ((x, y) ∈ [("d", "b"), ("d", "c"), ("x", "c"), ("a", "k"), ("c", "k"), ("c", "z")])
  unrelated x y := decide ((x, y) ∈ [("b", "c"), ("a", "c")])
  triangle _ _ := false
  classes := ["a", "b", "c", "d", "k", "m", "x", "z"]
  known n := decide (n ∈ ["a", "b", "c", "d", "k", "m", "x", "z"])
  log := [["a", "m", "b"]]

/-- A net with dependencies of the first two kinds. -/
def exRulesNet : NetView where
  find n := Dict.get? [("a", [0], [1, 2]), ("b", [3, 4], [5]), ("c", [2, 6], [7])] n
  pre n := (Dict.get? [(2, ["a"]), (3, ["z"]), (6, ["m"])] n).getD []
  post n := (Dict.get? [(1, ["x"]), (6, ["c", "b"])] n).getD []

/-- The first two kinds are found. -/
example : (Rule.w1.ask exRules exRulesNet "a" "b" .new).map Prod.fst = some true ∧
    (Rule.w21.ask exRules exRulesNet "a" "b" .new).map Prod.fst = some true ∧
    (Rule.w22.ask exRules exRulesNet "a" "b" .new).map Prod.fst = some true ∧
    (Rule.w21.ask exRules exRulesNet "a" "c" .new).map Prod.fst = some false := by decide +kernel

/-- **C167** (first question). Asked for the first time about two classes, whatever was asked and added before, an answer is `true`
exactly when the dependency is there, by the net of the question, the relations added so far and the present answers about distant
classes. -/
theorem C167_first (p : Provider) (calls : List AnyCall) (s : AllState) (hr : runCalls p .new calls = some s) (r : Rule) (net : NetView)
    (a b : String) (h : ∀ net', AnyCall.rule r net' a b ∉ calls) (v : Bool) (s' : AllState) (e : r.ask p net a b s = some (v, s')) :
    v = true ↔ Implicit p net (fun x y => (p.double s.base x y).1 = true) (AddedBy calls) r a b := by
  have hn := runCalls_never hr r a b h
  have hnone : (s.caches r).tryGet a b = none := by rw [hn]; rfl
  have := (ask_spec (knows_self s) e).2.1
  rw [hnone] at this
  have ha : (fun a b => (a, b) ∈ s.base.extra) = AddedBy calls := by
    funext x y
    rw [runCalls_extra hr (x, y)]
    simp [AllState.new, ProviderState.new]
  rw [ha] at this
  simpa using this

/-- **C167** (later questions). Asked again, even with another net, the answer is the same as the first time, whatever was asked and
added since. -/
theorem C167_again (p : Provider) (later : List AnyCall) (s s1 s2 : AllState) (r : Rule) (net net' : NetView) (a b : String) (v : Bool)
    (e : r.ask p net a b s = some (v, s1)) (hl : runCalls p s1 later = some s2) : ∃ s3, r.ask p net' a b s2 = some (v, s3) := by
  have h1 : (s1.caches r).tryGet a b = some v := by rw [(ask_spec (knows_self s) e).2.2]; simp
  have h2 := runCalls_kept hl r a b v h1
  exact ⟨_, by simp only [Rule.ask, askBind, h2]; rfl⟩

/-- **C167** (distant classes). The answers about distant classes on which these relations build are those of some earlier time: they
hold with the relations that were added until then. -/
theorem C167_far (p : Provider) (calls : List AnyCall) (s : AllState) (hr : runCalls p .new calls = some s) (x y : String) :
    ∃ before, before <+: calls ∧ ((p.double s.base x y).1 = true ↔ Distant p (AddedBy before) x y) := runCalls_far calls hr x y

/-- **C167** (before anything is added). As long as no relation is added, as in the search for the first kind of dependencies, the order
of the questions does not matter: the answer says whether the dependency is there by the log and the net. -/
theorem C167_before_additions (p : Provider) (calls : List AnyCall) (hc : ∀ x y, AnyCall.add x y ∉ calls) (s : AllState)
    (hr : runCalls p .new calls = some s) (r : Rule) (net : NetView) (a b : String) (h : ∀ net', AnyCall.rule r net' a b ∉ calls)
    (v : Bool) (s' : AllState) (e : r.ask p net a b s = some (v, s')) :
    v = true ↔ Implicit p net (Distant p (fun _ _ => False)) (fun _ _ => False) r a b := by
  rw [C167_first p calls s hr r net a b h v s' e]
  have h1 : (fun x y => (p.double s.base x y).1 = true) = Distant p (fun _ _ => False) := by
    funext x y
    obtain ⟨before, hb, hd⟩ := C167_far p calls s hr x y
    rw [hd]
    refine propext (distant_congr (fun u w => ?_) x y)
    simp only [iff_false]
    exact fun hm => hc u w (hb.subset hm)
  have h2 : AddedBy calls = fun _ _ => False := by
    funext x y
    simpa [AddedBy] using hc x y
  rw [h1, h2]

/-- **C167** (no panic). Questions about the first two kinds are always answered; those about the third kind if all classes and the two
asked for are transitions of the net. -/
theorem C167_answers (p : Provider) (s : AllState) (r : Rule) (net : NetView) (a b : String)
    (h : r = .w3 → (net.find a).isSome ∧ (net.find b).isSome ∧ ∀ c ∈ p.classes, (net.find c).isSome) :
    ∃ v s', r.ask p net a b s = some (v, s') := by
  have key : ∃ v t, r.calc p net a b s = some (v, t) := by
    have hs := knows_self (p := p) s
    cases r with
    | w1 => obtain ⟨v, hv, _⟩ := asks_w1 (p := p) (net := net) a b; obtain ⟨t, ht, _⟩ := hv s hs; exact ⟨v, t, ht⟩
    | w21 => obtain ⟨v, hv, _⟩ := asks_w21 (p := p) (net := net) a b; obtain ⟨t, ht, _⟩ := hv s hs; exact ⟨v, t, ht⟩
    | w22 => obtain ⟨v, hv, _⟩ := asks_w22 (p := p) (net := net) a b; obtain ⟨t, ht, _⟩ := hv s hs; exact ⟨v, t, ht⟩
    | w3 =>
      obtain ⟨ha, hb, hc⟩ := h rfl
      obtain ⟨v, hv, _⟩ := asks_w3 (p := p) (net := net) a b ha hb hc; obtain ⟨t, ht, _⟩ := hv s hs; exact ⟨v, t, ht⟩
  obtain ⟨v, t, ht⟩ := key
  simp only [Rule.ask, askBind]
  cases hg : (s.caches r).tryGet a b with
  | some w => exact ⟨w, _, rfl⟩
  | none => simp only [ht]; exact ⟨v, _, rfl⟩

end Ficus.Rs
