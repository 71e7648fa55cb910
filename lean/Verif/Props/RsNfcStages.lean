import Verif.Proofs.RsNfcStages

/-! C169: the implicit dependencies that the discovery of Alpha++ NFC finds one kind after the other. -/

namespace Ficus.Rs
open Rs.Nfc Spec.Nfc

/-- The third kind is found in the log with the traces `a c d` and `b c e`. -/
example : ((stages .plain twoTraces twoTracesNet (fun _ => twoTracesNet) (fun _ _ => [("a", "e")]) .new).map Prod.fst) =
    some ⟨[], [], [], [("a", "d"), ("b", "e")]⟩ := by decide +kernel

/-- The net `exRulesNet` with a transition for each class. -/
def exStagesNet : NetView where
  find n := Dict.get? [("a", [0], [1, 2]), ("b", [3, 4], [5]), ("c", [2, 6], [7]), ("d", [8], [8]), ("k", [9], [9]), ("m", [10], [10]),
    ("x", [11], [11]), ("z", [12], [12])] n
  pre := exRulesNet.pre
  post := exRulesNet.post

/-- The first two kinds are found with the provider `exRules`. -/
example : ((stages .plain exRules exStagesNet (fun _ => exStagesNet) (fun _ _ => []) .new).map Prod.fst) =
    some ⟨[("a", "b"), ("a", "c")], [("a", "b")], [("a", "b")], []⟩ := by decide +kernel

theorem Nfc.Good.later {p : Provider} {far : String → String → Bool} {extra : List (String × String)}
    {T T' : Rule → Option (String → String → Prop)} {s : AllState} (h : Good p far extra T s) (ht : ∀ r, T' r = T r ∨ T r = none) :
    Good p far extra T' s := by
  refine ⟨h.knows, fun r => ?_⟩
  have hr := h.caches r
  rcases ht r with e | e
  · rw [e]; exact hr
  · rw [e] at hr
    cases hT : T' r with
    | none => exact hr
    | some P =>
      intro a b v hv
      rw [hr a b] at hv
      cases hv

/-- **C169** (what is found). Of the first kind exactly the dependencies by the log and the first net are found. Then these are causes,
and of the second kind exactly the dependencies by the net with them are found, where some answers about distant classes may be as
before; those stay that no class between explains. Then these are causes too, and of the third kind exactly the dependencies by the
next net are found, where again some answers about distant classes may be as before. The orders of iteration and the questions that are
asked in between do not matter otherwise. -/
theorem C169_found (it : Iter) (p : Provider) (first : NetView) (netOf : List (String × String) → NetView)
    (questions : List (String × String) → List (String × String) → List (String × String)) (r : Stages) (s : AllState)
    (e : stages it p first netOf questions .new = some (r, s)) :
    ExactlyPairs p r.w1 (Implicit1 p first (Distant p Nothing) Nothing) ∧
    ∃ far2 far3 : String → String → Prop,
      Mixed far2 (Distant p Nothing) (Distant p (Listed r.w1)) ∧
      ExactlyPairs p r.w2 (Implicit2 p (netOf r.w1) far2 (Listed r.w1)) ∧
      ExactlyPairs p r.kept (fun a b => Implicit2 p (netOf r.w1) far2 (Listed r.w1) a b ∧
        ¬ Explained p (netOf r.w1) far2 (Listed r.w1) a b) ∧
      Mixed far3 far2 (Distant p (Listed (r.w1 ++ r.kept))) ∧
      ExactlyPairs p r.w3 (Implicit3 p (netOf (r.w1 ++ r.kept)) far3 (Listed (r.w1 ++ r.kept))) := by
  obtain ⟨w1, s1, e1, e⟩ := bind_some e
  obtain ⟨_, s2, e2, e⟩ := bind_some e
  obtain ⟨w2, s3, e3, e⟩ := bind_some e
  obtain ⟨kept, s4, e4, e⟩ := bind_some e
  obtain ⟨_, s5, e5, e⟩ := bind_some e
  obtain ⟨_, s6, e6, e⟩ := bind_some e
  obtain ⟨w3, s7, e7, e⟩ := bind_some e
  cases e
  have hfar : (fun a b => (p.double AllState.new.base a b).1 = true) = Distant p Nothing := by
    funext x y; exact propext (double_new x y)
  have hadd : (fun a b => (a, b) ∈ AllState.new.base.extra) = Nothing := by
    funext x y; exact propext (by simp [AllState.new, ProviderState.new, Nothing])
  -- the first kind
  obtain ⟨g1, m1⟩ := says_collect (p := p) (T := fun r => if r = .w1 then some (Implicit p first
      (fun a b => (p.double AllState.new.base a b).1 = true) (fun a b => (a, b) ∈ AllState.new.base.extra) .w1) else none)
    (classPairs it 10 p.classes) (fun a b _ => says_rule .w1 (by simp) a b) _ _ _
    ⟨knows_self _, fun r => by
      cases r
      · intro a b v hv; cases hv
      all_goals exact fun _ _ => rfl⟩ e1
  rw [hfar, hadd] at m1
  -- the second kind
  obtain ⟨far2, ex2, g2, x2, f2⟩ := addAll_good g1 e2
  have a2 : (fun a b => (a, b) ∈ ex2) = Listed w1 := by
    funext x y
    refine propext ?_
    rw [x2, (it.perm _ _ _).mem_iff]
    simp [AllState.new, ProviderState.new, Listed]
  have g2' := g2.later (T' := fun r => match r with
      | .w1 => some (Implicit p first (fun a b => (p.double AllState.new.base a b).1 = true)
          (fun a b => (a, b) ∈ AllState.new.base.extra) .w1)
      | .w21 => some (Implicit p (netOf w1) (fun a b => far2 a b = true) (fun a b => (a, b) ∈ ex2) .w21)
      | .w22 => some (Implicit p (netOf w1) (fun a b => far2 a b = true) (fun a b => (a, b) ∈ ex2) .w22)
      | .w3 => none) (by intro r; cases r <;> simp)
  obtain ⟨g3, m3⟩ := says_collect (classPairs it 12 p.classes) (fun a b _ => says_w2 (net := netOf w1) rfl rfl a b) _ _ _ g2' e3
  obtain ⟨g4, m4⟩ := says_rule1 (net := netOf w1) rfl rfl _ (fun x => (it.perm _ _ _).mem_iff) _ _ _ _ g3 e4
  obtain ⟨g5, _⟩ := says_doubles (questions w1 kept) _ _ _ g4 e5
  rw [a2] at m3 m4 f2
  -- the third kind
  obtain ⟨far3, ex3, g6, x6, f6⟩ := addAll_good g5 e6
  have a3 : (fun a b => (a, b) ∈ ex3) = Listed (w1 ++ kept) := by
    funext x y
    refine propext ?_
    rw [x6, (it.perm _ _ _).mem_iff]
    have : (x, y) ∈ ex2 ↔ (x, y) ∈ w1 := by rw [show ((x, y) ∈ ex2) = Listed w1 x y from congrFun (congrFun a2 x) y]; rfl
    rw [this]
    simp [Listed]
  have g6' := g6.later (T' := fun r => match r with
      | .w1 => some (Implicit p first (fun a b => (p.double AllState.new.base a b).1 = true)
          (fun a b => (a, b) ∈ AllState.new.base.extra) .w1)
      | .w21 => some (Implicit p (netOf w1) (fun a b => far2 a b = true) (fun a b => (a, b) ∈ ex2) .w21)
      | .w22 => some (Implicit p (netOf w1) (fun a b => far2 a b = true) (fun a b => (a, b) ∈ ex2) .w22)
      | .w3 => some (Implicit p (netOf (w1 ++ kept)) (fun a b => far3 a b = true) (fun a b => (a, b) ∈ ex3) .w3))
    (by intro r; cases r <;> simp)
  obtain ⟨_, m7⟩ := says_collect (classPairs it 15 p.classes) (fun a b _ => says_rule (net := netOf (w1 ++ kept)) .w3 rfl a b) _ _ _ g6' e7
  rw [a3] at m7 f6
  refine ⟨fun a b => ?_, fun a b => far2 a b = true, fun a b => far3 a b = true, fun x y => ?_, fun a b => ?_, fun a b => ?_,
    fun x y => ?_, fun a b => ?_⟩
  · rw [m1, mem_classPairs, and_assoc]; rfl
  · rcases f2 x y with h | h
    · exact Or.inl (by show far2 x y = true ↔ _; rw [h]; exact double_new x y)
    · exact Or.inr h
  · rw [m3, mem_classPairs, and_assoc]
  · rw [m4, (it.perm _ _ _).mem_iff, m3, mem_classPairs, and_assoc, and_assoc]
  · rcases f6 x y with h | h
    · exact Or.inl (by show far3 x y = true ↔ far2 x y = true; rw [h])
    · exact Or.inr h
  · rw [m7, mem_classPairs, and_assoc]; rfl

/-- **C169** (without the first kind). If there is no dependency of the first kind, no answer is out of date in the search for the second
kind; if none of the second kind is kept either, nor in the search for the third. -/
theorem C169_up_to_date (it : Iter) (p : Provider) (first : NetView) (netOf : List (String × String) → NetView)
    (questions : List (String × String) → List (String × String) → List (String × String)) (r : Stages) (s : AllState)
    (e : stages it p first netOf questions .new = some (r, s)) (h : r.w1 = []) :
    ExactlyPairs p r.w2 (Implicit2 p (netOf []) (Distant p Nothing) Nothing) ∧
    ExactlyPairs p r.kept (fun a b => Implicit2 p (netOf []) (Distant p Nothing) Nothing a b ∧
      ¬ Explained p (netOf []) (Distant p Nothing) Nothing a b) ∧
    (r.kept = [] → ExactlyPairs p r.w3 (Implicit3 p (netOf []) (Distant p Nothing) Nothing)) := by
  obtain ⟨_, far2, far3, h2, h3, h4, h5, h6⟩ := C169_found it p first netOf questions r s e
  have hl : Listed [] = Nothing := by funext x y; exact propext (by simp [Listed, Nothing])
  rw [h, hl] at h2 h3 h4
  have hf : far2 = Distant p Nothing := by funext x y; exact propext ((h2 x y).elim id id)
  rw [hf] at h3 h4 h5
  refine ⟨h3, h4, fun hk => ?_⟩
  rw [h, hk, List.nil_append, hl] at h5 h6
  have hf3 : far3 = Distant p Nothing := by funext x y; exact propext ((h5 x y).elim id id)
  rw [hf3] at h6
  exact h6

/-- **C169** (no panic). If all classes are transitions of the last net, the searches do not panic. -/
theorem C169_answers (it : Iter) (p : Provider) (first : NetView) (netOf : List (String × String) → NetView)
    (questions : List (String × String) → List (String × String) → List (String × String))
    (h : ∀ l, ∀ c ∈ p.classes, ((netOf l).find c).isSome) (s : AllState) : ∃ r s', stages it p first netOf questions s = some (r, s') := by
  refine total_bind (total_collect _ (fun a b _ => total_rule _ _ _ _ (fun h => by cases h))) (fun w1 => ?_) s
  refine total_bind (fun _ => ⟨_, _, rfl⟩) (fun _ => total_bind (total_collect _ (fun a b _ => total_w2 _ _ _)) (fun w2 => ?_))
  refine total_bind (total_rule1 _ _ _) (fun kept => total_bind (total_doubles _) (fun _ => total_bind (fun _ => ⟨_, _, rfl⟩) (fun _ => ?_)))
  refine total_bind (total_collect _ (fun a b hm => total_rule _ _ _ _ (fun _ => ?_))) (fun _ => total_pure _)
  obtain ⟨ha, hb⟩ := (mem_classPairs it _ _ a b).mp hm
  exact ⟨h _ a ha, h _ b hb, h _⟩

example : ∀ c ∈ twoTraces.classes, (twoTracesNet.find c).isSome := by decide +kernel

end Ficus.Rs
