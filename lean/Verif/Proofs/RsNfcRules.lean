import Verif.Spec.RsNfcRules
import Verif.Proofs.RsNfcArrows

/-! Proofs about the relations of implicit dependencies of Alpha++ NFC. -/

namespace Ficus.Rs.Nfc
open Spec.Nfc

variable {p : Provider} {net : NetView}

theorem double_val (s : ProviderState) (a b : String) :
    (p.double s a b).1 = (s.cache.tryGet a b).getD (p.calculateDouble s.extra a b) := by
  unfold Provider.double
  cases s.cache.tryGet a b <;> rfl

theorem double_extra (s : ProviderState) (a b : String) : (p.double s a b).2.extra = s.extra := rfl

theorem double_double (s : ProviderState) (a b c d : String) : (p.double (p.double s a b).2 c d).1 = (p.double s c d).1 := by
  rw [double_val, double_val, double_extra]
  have : (p.double s a b).2.cache = s.cache.put a b (p.double s a b).1 := rfl
  rw [this, tryGet_put]
  split
  · rename_i h
    obtain ⟨rfl, rfl⟩ := h
    rw [double_val]
    cases s.cache.tryGet c d <;> simp
  · rfl

/-- What the provider knows: the added relations and the answers about distant classes. -/
structure Knows (p : Provider) (far : String → String → Bool) (extra : List (String × String)) (s : AllState) : Prop where
  extra : s.base.extra = extra
  far : ∀ a b, (p.double s.base a b).1 = far a b

/-- A method answers `v` and does not change what is known. -/
def Asks {α : Type} (p : Provider) (far : String → String → Bool) (extra : List (String × String)) (f : Ask α) (v : α) : Prop :=
  ∀ s, Knows p far extra s → ∃ s', f s = some (v, s') ∧ Knows p far extra s' ∧ s'.caches = s.caches

variable {far : String → String → Bool} {extra : List (String × String)} {α β : Type}

theorem asks_pure (v : α) : Asks p far extra (askPure v) v := fun s h => ⟨s, rfl, h, rfl⟩

theorem asks_bind {f : Ask α} {g : α → Ask β} {v : α} {w : β} (hf : Asks p far extra f v) (hg : Asks p far extra (g v) w) :
    Asks p far extra (askBind f g) w := by
  intro s h
  obtain ⟨s1, e1, h1, c1⟩ := hf s h
  obtain ⟨s2, e2, h2, c2⟩ := hg s1 h1
  exact ⟨s2, by simp only [askBind, e1, e2], h2, c2.trans c1⟩

theorem asks_if {c : Ask Bool} {t e : Ask α} {vc : Bool} {v w : α} (hc : Asks p far extra c vc)
    (ht : vc = true → Asks p far extra t v) (he : vc = false → Asks p far extra e w) :
    Asks p far extra (askIf c t e) (if vc then v else w) := by
  refine asks_bind hc ?_
  cases vc
  · simpa using he rfl
  · simpa using ht rfl

theorem asks_any {f : α → Ask Bool} {g : α → Bool} (l : List α) (h : ∀ x ∈ l, Asks p far extra (f x) (g x)) :
    Asks p far extra (askAny f l) (l.any g) := by
  induction l with
  | nil => exact asks_pure false
  | cons x l ih =>
    have := asks_if (h x (by simp)) (fun _ => asks_pure true) (fun _ => ih (fun y hy => h y (by simp [hy])))
    rw [List.any_cons]
    cases hx : g x <;> simpa [hx, askAny] using this

theorem asks_double (a b : String) : Asks p far extra (askDouble p a b) (far a b) := by
  intro s h
  refine ⟨{ s with base := (p.double s.base a b).2 }, by simp only [askDouble, h.far], ⟨?_, ?_⟩, rfl⟩
  · rw [← h.extra]; rfl
  · intro c d; simp only [double_double, h.far]

theorem asks_causal (a b : String) : Asks p far extra (askCausal p a b) (p.causal extra a b) :=
  fun s h => ⟨s, by simp only [askCausal, h.extra], h, rfl⟩

theorem asks_left (a b : String) : Asks p far extra (askLeft p a b) (p.leftTriangle extra a b) :=
  fun s h => ⟨s, by simp only [askLeft, h.extra], h, rfl⟩

theorem asks_right (a b : String) : Asks p far extra (askRight p a b) (p.rightTriangle extra a b) :=
  fun s h => ⟨s, by simp only [askRight, h.extra], h, rfl⟩

/-- `Near` as a value. -/
def near (p : Provider) (far : String → String → Bool) (extra : List (String × String)) (a b : String) : Bool :=
  p.causal extra a b || far a b || p.parallel a b

theorem asks_concave (a b : String) : Asks p far extra (askConcave p a b) (p.causal extra a b || far a b) := by
  have := asks_if (asks_causal (far := far) (extra := extra) (p := p) a b) (fun _ => asks_pure true) (fun _ => asks_double a b)
  cases h : p.causal extra a b <;> simpa [h, askConcave] using this

theorem asks_near (a b : String) : Asks p far extra (askNear p a b) (near p far extra a b) := by
  have := asks_if (asks_concave (far := far) (extra := extra) (p := p) a b) (fun _ => asks_pure true) (fun _ => asks_pure (p.parallel a b))
  unfold near
  cases h : (p.causal extra a b || far a b) <;> simpa [h, askNear] using this

theorem asks_nearParallel (a b : String) : Asks p far extra (askNearParallel p a b) (near p far extra a b) := by
  have := asks_if (asks_pure (far := far) (extra := extra) (p := p) (p.parallel a b)) (fun _ => asks_pure true) (fun _ => asks_concave a b)
  unfold near
  cases h : p.parallel a b <;> simpa [h, askNearParallel] using this

theorem near_iff_spec (a b : String) :
    near p far extra a b = true ↔ Near p (fun a b => far a b = true) (fun a b => (a, b) ∈ extra) a b := by
  unfold near Near Provider.parallel
  simp only [Bool.or_eq_true, causal_iff, Bool.and_eq_true, Bool.not_eq_true', Bool.or_eq_false_iff, and_assoc, or_assoc]

theorem asks_congr {f : Ask α} {v w : α} (h : Asks p far extra f v) (e : v = w) : Asks p far extra f w := e ▸ h

/-! ### The first kind -/

theorem asks_w1 (a b : String) : ∃ v, Asks p far extra (calcW1 p net a b) v ∧
    (v = true ↔ Implicit1 p net (fun a b => far a b = true) (fun a b => (a, b) ∈ extra) a b) := by
  unfold calcW1
  by_cases hd : p.direct a b = true
  · exact ⟨false, by rw [if_pos hd]; exact asks_pure false, by simp [Implicit1, hd]⟩
  · rw [if_neg hd]
    let inner : Nat → Nat → Bool := fun p1 p2 =>
      !(p1 == p2) && decide (a ∈ net.pre p1) && !decide (a ∈ net.pre p2) && decide (b ∈ net.post p2) &&
        !((net.pre p2).any (fun x => near p far extra x a))
    let outer : String → Bool := fun c => match net.find c with
      | none => false
      | some (ins, _) => ins.any (fun p1 => ins.any (inner p1))
    refine ⟨p.classes.any outer, asks_any _ (fun c _ => ?_), ?_⟩
    · simp only [outer]
      cases hf : net.find c with
      | none => exact asks_pure false
      | some t =>
        obtain ⟨ins, outs⟩ := t
        refine asks_any _ (fun p1 _ => asks_any _ (fun p2 _ => ?_))
        simp only [inner]
        by_cases h1 : p1 = p2
        · simp only [h1, if_true]; exact asks_congr (asks_pure false) (by simp)
        · rw [if_neg h1]
          by_cases h2 : a ∈ net.pre p1
          · rw [if_neg (not_not.mpr h2)]
            by_cases h3 : a ∈ net.pre p2
            · rw [if_pos h3]; exact asks_congr (asks_pure false) (by simp [h3])
            · rw [if_neg h3]
              by_cases h4 : b ∈ net.post p2
              · rw [if_neg (not_not.mpr h4)]
                refine asks_congr (asks_if (asks_any _ (fun x _ => asks_near x a)) (fun _ => asks_pure false) (fun _ => asks_pure true)) ?_
                have e : (p1 == p2) = false := by simpa using h1
                simp only [e, h2, h3, h4]
                cases (net.pre p2).any (fun x => near p far extra x a) <;> rfl
              · rw [if_pos h4]; exact asks_congr (asks_pure false) (by simp [h4])
          · rw [if_pos h2]; exact asks_congr (asks_pure false) (by simp [h2])
    · have key : ∀ c, outer c = true ↔ ∃ ins outs, net.find c = some (ins, outs) ∧ ∃ x ∈ ins, ∃ y ∈ ins, inner x y = true := by
        intro c
        simp only [outer]
        cases hf : net.find c with
        | none => simp
        | some t => obtain ⟨ins, outs⟩ := t; simp
      have hd' : p.direct a b = false := by simpa using hd
      unfold Implicit1
      rw [and_iff_right hd']
      simp only [List.any_eq_true, key]
      simp only [inner, Bool.and_eq_true, Bool.not_eq_true', ← Bool.not_eq_true, beq_iff_eq, decide_eq_true_eq, List.any_eq_true,
        near_iff_spec, not_exists, not_and, and_assoc, ne_eq]

/-! ### The second kind -/

theorem asks_conditions {f g : String → Ask Bool} {vf vg : String → Bool} (hf : ∀ t, Asks p far extra (f t) (vf t))
    (hg : ∀ t, Asks p far extra (g t) (vg t)) (ts : List String) (c1 c2 : Bool) :
    Asks p far extra (askConditions f g c1 c2 ts) (!(c1 || ts.any vf) && (c2 || ts.any vg)) := by
  induction ts generalizing c1 c2 with
  | nil => rw [askConditions]; exact asks_congr (asks_pure _) (by simp)
  | cons t ts ih =>
    rw [askConditions]
    have h1 : Asks p far extra (if c1 then askPure true else f t) (c1 || vf t) := by
      cases c1
      · simpa using hf t
      · simpa using asks_pure true
    have h2 : Asks p far extra (if c2 then askPure true else g t) (c2 || vg t) := by
      cases c2
      · simpa using hg t
      · simpa using asks_pure true
    refine asks_congr (asks_bind h1 (asks_bind h2 (ih _ _))) ?_
    simp [Bool.or_assoc]

theorem left_iff (a b : String) : p.leftTriangle extra a b = true ↔ p.unrelated a b = true ∧
    ∃ d ∈ p.classes, Causes p (fun a b => (a, b) ∈ extra) d a ∧ Causes p (fun a b => (a, b) ∈ extra) d b := by
  unfold Provider.leftTriangle
  cases h : p.unrelated a b <;> simp [causal_iff]

theorem right_iff (a b : String) : p.rightTriangle extra a b = true ↔ p.unrelated a b = true ∧
    ∃ d ∈ p.classes, Causes p (fun a b => (a, b) ∈ extra) a d ∧ Causes p (fun a b => (a, b) ∈ extra) b d := by
  unfold Provider.rightTriangle
  cases h : p.unrelated a b <;> simp [causal_iff]

theorem asks_w21 (a b : String) : ∃ v, Asks p far extra (calcW21 p net a b) v ∧
    (v = true ↔ Implicit21 p net (fun a b => far a b = true) (fun a b => (a, b) ∈ extra) a b) := by
  unfold calcW21
  cases hf : net.find a with
  | none =>
    refine ⟨_, asks_if (asks_double a b) (fun _ => asks_pure false) (fun _ => asks_pure false), ?_⟩
    simp [Implicit21, hf]
  | some t =>
    obtain ⟨ins, outs⟩ := t
    by_cases hl : outs.length ≤ 1
    · refine ⟨_, asks_if (v := false) (asks_double a b) (fun _ => ?_) (fun _ => asks_pure false), ?_⟩
      · simp only [if_pos hl]; exact asks_pure false
      · simp only [Implicit21, hf, Option.some.injEq, Prod.mk.injEq]
        constructor
        · simp
        · rintro ⟨_, i, o, ⟨rfl, rfl⟩, h, _⟩; omega
    · refine ⟨_, asks_if (v := p.classes.any (fun c => if p.leftTriangle extra b c then outs.any (fun x =>
          !(false || (net.post x).any (fun t => near p far extra t b)) && (false || (net.post x).any (fun t => near p far extra t c)))
          else false)) (asks_double a b) (fun _ => ?_) (fun _ => asks_pure false), ?_⟩
      · simp only [if_neg hl]
        exact asks_any _ (fun c _ => asks_if (asks_left b c)
          (fun _ => asks_any _ (fun x _ => asks_conditions (fun t => asks_near t b) (fun t => asks_near t c) _ _ _)) (fun _ => asks_pure false))
      · cases hfar : far a b
        · simp [Implicit21, hfar]
        · have h2 : 2 ≤ outs.length := by omega
          simp only [if_true, List.any_eq_true, Bool.if_false_right, Bool.and_eq_true, decide_eq_true_eq, Bool.false_or,
            Bool.not_eq_true', ← Bool.not_eq_true, near_iff_spec, left_iff, not_exists, not_and, Implicit21, hf, hfar, Option.some.injEq,
            Prod.mk.injEq, true_and]
          constructor
          · rintro ⟨c, hc, h⟩; exact ⟨ins, outs, ⟨rfl, rfl⟩, h2, c, hc, h⟩
          · rintro ⟨_, _, ⟨rfl, rfl⟩, _, c, hc, h⟩; exact ⟨c, hc, h⟩

theorem asks_w22 (a b : String) : ∃ v, Asks p far extra (calcW22 p net a b) v ∧
    (v = true ↔ Implicit22 p net (fun a b => far a b = true) (fun a b => (a, b) ∈ extra) a b) := by
  unfold calcW22
  cases hf : net.find b with
  | none =>
    refine ⟨_, asks_if (asks_double a b) (fun _ => asks_pure false) (fun _ => asks_pure false), ?_⟩
    simp [Implicit22, hf]
  | some t =>
    obtain ⟨ins, outs⟩ := t
    by_cases hl : ins.length ≤ 1
    · refine ⟨_, asks_if (v := false) (asks_double a b) (fun _ => ?_) (fun _ => asks_pure false), ?_⟩
      · simp only [if_pos hl]; exact asks_pure false
      · simp only [Implicit22, hf, Option.some.injEq, Prod.mk.injEq]
        constructor
        · simp
        · rintro ⟨_, i, o, ⟨rfl, rfl⟩, h, _⟩; omega
    · refine ⟨_, asks_if (v := p.classes.any (fun c => if p.rightTriangle extra a c then ins.any (fun x =>
          !(false || (net.pre x).any (fun t => near p far extra a t)) && (false || (net.pre x).any (fun t => near p far extra c t)))
          else false)) (asks_double a b) (fun _ => ?_) (fun _ => asks_pure false), ?_⟩
      · simp only [if_neg hl]
        exact asks_any _ (fun c _ => asks_if (asks_right a c)
          (fun _ => asks_any _ (fun x _ => asks_conditions (fun t => asks_near a t) (fun t => asks_near c t) _ _ _)) (fun _ => asks_pure false))
      · cases hfar : far a b
        · simp [Implicit22, hfar]
        · have h2 : 2 ≤ ins.length := by omega
          simp only [if_true, List.any_eq_true, Bool.if_false_right, Bool.and_eq_true, decide_eq_true_eq, Bool.false_or,
            Bool.not_eq_true', ← Bool.not_eq_true, near_iff_spec, right_iff, not_exists, not_and, Implicit22, hf, hfar, Option.some.injEq,
            Prod.mk.injEq, true_and]
          constructor
          · rintro ⟨c, hc, h⟩; exact ⟨ins, outs, ⟨rfl, rfl⟩, h2, c, hc, h⟩
          · rintro ⟨_, _, ⟨rfl, rfl⟩, _, c, hc, h⟩; exact ⟨c, hc, h⟩

/-! ### The third kind -/

theorem asks_rightSet (a c d : String) (insB : List Nat) (tasks : List String) (ht : ∀ t ∈ tasks, (net.find t).isSome) :
    ∃ r, Asks p far extra (askRightSet p net a c d insB tasks) r ∧ ∀ x, x ∈ r ↔ ∃ t ∈ tasks, far a t = false ∧ far c t = true ∧
      near p far extra d t = true ∧ ∃ insT outsT, net.find t = some (insT, outsT) ∧ Meet insB insT ∧ x ∈ insT := by
  induction tasks with
  | nil => exact ⟨[], asks_pure [], by simp⟩
  | cons t ts ih =>
    obtain ⟨r, hr, hx⟩ := ih (fun t h => ht t (by simp [h]))
    obtain ⟨⟨insT, outsT⟩, hfind⟩ := Option.isSome_iff_exists.mp (ht t (by simp))
    rw [askRightSet]
    refine ⟨_, asks_bind (asks_if (v := []) (asks_double a t) (fun _ => asks_pure []) (fun _ => asks_if (asks_double c t)
      (fun _ => asks_if (v := if insB.any (· ∈ insT) then insT else []) (asks_nearParallel d t) (fun _ => ?_) (fun _ => asks_pure []))
      (fun _ => asks_pure []))) (asks_bind hr (asks_pure _)), ?_⟩
    · rw [hfind]; exact asks_pure _
    · intro x
      simp only [List.mem_append, hx, List.mem_cons, exists_eq_or_imp]
      refine or_congr ?_ Iff.rfl
      cases far a t <;> cases far c t <;> cases near p far extra d t <;> simp [hfind, Meet]

theorem asks_w3 (a b : String) (ha : (net.find a).isSome) (hb : (net.find b).isSome) (hc : ∀ c ∈ p.classes, (net.find c).isSome) :
    ∃ v, Asks p far extra (calcW3 p net a b) v ∧
      (v = true ↔ Implicit3 p net (fun a b => far a b = true) (fun a b => (a, b) ∈ extra) a b) := by
  obtain ⟨⟨insA, outsA⟩, fa⟩ := Option.isSome_iff_exists.mp ha
  obtain ⟨⟨insB, outsB⟩, fb⟩ := Option.isSome_iff_exists.mp hb
  obtain ⟨good, hgood⟩ : ∃ g : String → String → Bool, ∀ c d, g c d = true ↔ c ≠ d ∧ ∃ insC outsC insD outsD, net.find c = some (insC, outsC) ∧
    net.find d = some (insD, outsD) ∧ Meet outsA outsC ∧ Meet insB insD ∧ far a d = false ∧ far c b = false ∧ far c d = true ∧
    ∀ x ∈ insB, x ∈ insD ∨ ∃ t ∈ p.classes, far a t = false ∧ far c t = true ∧ near p far extra d t = true ∧
      ∃ insT outsT, net.find t = some (insT, outsT) ∧ Meet insB insT ∧ x ∈ insT := by
    classical
    exact ⟨fun c d => decide _, fun c d => decide_eq_true_iff⟩
  refine ⟨_, asks_if (v := p.classes.any (fun c => p.classes.any (fun d => good c d))) (asks_double a b) (fun _ => ?_)
    (fun _ => asks_pure false), ?_⟩
  · rw [fa, fb]
    refine asks_any _ (fun c hcm => asks_any _ (fun d hdm => ?_))
    obtain ⟨⟨insC, outsC⟩, fc⟩ := Option.isSome_iff_exists.mp (hc c hcm)
    obtain ⟨⟨insD, outsD⟩, fd⟩ := Option.isSome_iff_exists.mp (hc d hdm)
    have no : ¬ good c d = true → false = good c d := fun h => by simpa using h
    by_cases hcd : c = d
    · rw [if_pos hcd]
      exact asks_congr (asks_pure false) (no (fun h => ((hgood c d).mp h).1 hcd))
    · rw [if_neg hcd, fc, fd]
      simp only
      have hg : good c d = true ↔ Meet outsA outsC ∧ Meet insB insD ∧ far a d = false ∧ far c b = false ∧ far c d = true ∧
          ∀ x ∈ insB, x ∈ insD ∨ ∃ t ∈ p.classes, far a t = false ∧ far c t = true ∧ near p far extra d t = true ∧
            ∃ insT outsT, net.find t = some (insT, outsT) ∧ Meet insB insT ∧ x ∈ insT := by
        rw [hgood]
        constructor
        · rintro ⟨_, i, o, i', o', e1, e2, h⟩
          rw [fc] at e1; rw [fd] at e2
          cases e1; cases e2
          exact h
        · intro h; exact ⟨hcd, _, _, _, _, fc, fd, h⟩
      by_cases m1 : Meet outsA outsC
      · have e1 : outsA.any (· ∈ outsC) = true := by simpa [Meet] using m1
        rw [if_neg (by simp only [e1]; decide)]
        by_cases m2 : Meet insB insD
        · have e2 : insB.any (· ∈ insD) = true := by simpa [Meet] using m2
          rw [if_neg (by simp only [e2]; decide)]
          obtain ⟨r, hr, hx⟩ := asks_rightSet (p := p) (net := net) (far := far) (extra := extra) a c d insB p.classes hc
          refine asks_congr (asks_if (asks_double a d) (fun _ => asks_pure false) (fun _ => asks_if (asks_double c b) (fun _ => asks_pure false)
            (fun _ => asks_if (asks_double c d) (fun _ => asks_bind hr (asks_pure _)) (fun _ => asks_pure false)))) ?_
          simp only [← hx] at hg
          rw [eq_comm, Bool.eq_iff_iff, hg]
          cases far a d <;> cases far c b <;> cases far c d <;> simp [m1, m2, or_comm]
        · have e2 : insB.any (· ∈ insD) = false := by
            rw [← Bool.not_eq_true]; intro h; exact m2 (by simpa [Meet] using h)
          rw [if_pos (by simp only [e2]; decide)]
          exact asks_congr (asks_pure false) (no (fun h => m2 (hg.mp h).2.1))
      · have e1 : outsA.any (· ∈ outsC) = false := by
          rw [← Bool.not_eq_true]; intro h; exact m1 (by simpa [Meet] using h)
        rw [if_pos (by simp only [e1]; decide)]
        exact asks_congr (asks_pure false) (no (fun h => m1 (hg.mp h).1))
  · unfold Implicit3
    cases hfar : far a b
    · simp [hfar]
    · simp only [hfar, if_true, List.any_eq_true, true_and, hgood, near_iff_spec, ← Bool.not_eq_true]
      constructor
      · rintro ⟨c, hcm, d, hdm, h⟩
        exact ⟨insA, outsA, insB, outsB, fa, fb, c, hcm, d, hdm, h⟩
      · rintro ⟨i, o, i', o', e1, e2, c, hcm, d, hdm, h⟩
        rw [fa] at e1; rw [fb] at e2
        cases e1; cases e2
        exact ⟨c, hcm, d, hdm, h⟩

/-! ### Methods that may panic -/

/-- If a method answers, the answer is as `P` says, and what is known does not change. -/
def Tells (p : Provider) (far : String → String → Bool) (extra : List (String × String)) (f : Ask α) (P : α → Prop) : Prop :=
  ∀ s v s', Knows p far extra s → f s = some (v, s') → Knows p far extra s' ∧ s'.caches = s.caches ∧ P v

theorem Asks.tells {f : Ask α} {v : α} (h : Asks p far extra f v) : Tells p far extra f (· = v) := by
  intro s w s' hs e
  obtain ⟨s1, e1, h1, c1⟩ := h s hs
  rw [e] at e1
  cases e1
  exact ⟨h1, c1, rfl⟩

theorem Tells.imp {f : Ask α} {P Q : α → Prop} (h : Tells p far extra f P) (hi : ∀ v, P v → Q v) : Tells p far extra f Q := by
  intro s v s' hs e
  obtain ⟨h1, h2, h3⟩ := h s v s' hs e
  exact ⟨h1, h2, hi v h3⟩

theorem tells_panic (P : α → Prop) : Tells p far extra (fun _ => none : Ask α) P := by
  intro s v s' _ e
  cases e

theorem tells_pure {v : α} {P : α → Prop} (h : P v) : Tells p far extra (askPure v) P := (asks_pure v).tells.imp (fun _ e => e ▸ h)

theorem tells_bind {f : Ask α} {g : α → Ask β} {P : α → Prop} {Q : β → Prop} (hf : Tells p far extra f P)
    (hg : ∀ v, P v → Tells p far extra (g v) Q) : Tells p far extra (askBind f g) Q := by
  intro s w s' hs e
  unfold askBind at e
  split at e
  · cases e
  · rename_i v s1 e1
    obtain ⟨h1, c1, hv⟩ := hf s v s1 hs e1
    obtain ⟨h2, c2, hw⟩ := hg v hv s1 w s' h1 e
    exact ⟨h2, c2.trans c1, hw⟩

theorem tells_if {c : Ask Bool} {t e : Ask α} {vc : Bool} {Q : α → Prop} (hc : Asks p far extra c vc)
    (ht : vc = true → Tells p far extra t Q) (he : vc = false → Tells p far extra e Q) : Tells p far extra (askIf c t e) Q := by
  refine tells_bind hc.tells (fun v hv => ?_)
  subst hv
  cases v
  · simpa using he rfl
  · simpa using ht rfl

theorem tells_any {f : α → Ask Bool} {Q : α → Prop} (l : List α) (h : ∀ x ∈ l, Tells p far extra (f x) (fun v => v = true ↔ Q x)) :
    Tells p far extra (askAny f l) (fun v => v = true ↔ ∃ x ∈ l, Q x) := by
  induction l with
  | nil => exact tells_pure (by simp)
  | cons x l ih =>
    rw [askAny]
    refine tells_bind (h x (by simp)) (fun v hv => ?_)
    cases v
    · simp only [Bool.false_eq_true, if_false]
      refine (ih (fun y hy => h y (by simp [hy]))).imp (fun w hw => ?_)
      simp only [Bool.false_eq_true, false_iff] at hv
      simp [hw, hv]
    · simp only [if_true]
      exact tells_pure (by simp [hv.mp rfl])

theorem tells_rightSet (a c d : String) (insB : List Nat) (tasks : List String) :
    Tells p far extra (askRightSet p net a c d insB tasks) (fun r => ∀ x, x ∈ r ↔ ∃ t ∈ tasks, far a t = false ∧ far c t = true ∧
      near p far extra d t = true ∧ ∃ insT outsT, net.find t = some (insT, outsT) ∧ Meet insB insT ∧ x ∈ insT) := by
  induction tasks with
  | nil => exact tells_pure (by simp)
  | cons t ts ih =>
    rw [askRightSet]
    refine tells_bind (P := fun r => ∀ x, x ∈ r ↔ far a t = false ∧ far c t = true ∧ near p far extra d t = true ∧
      ∃ insT outsT, net.find t = some (insT, outsT) ∧ Meet insB insT ∧ x ∈ insT) ?_ (fun r hr => tells_bind ih (fun q hq => tells_pure ?_))
    · refine tells_if (asks_double a t) (fun h => tells_pure (by simp [h])) (fun h1 => ?_)
      refine tells_if (asks_double c t) (fun h2 => ?_) (fun h => tells_pure (by simp [h]))
      refine tells_if (asks_nearParallel d t) (fun h3 => ?_) (fun h => tells_pure (by simp [h]))
      cases hfind : net.find t with
      | none => exact tells_panic _
      | some k =>
        obtain ⟨insT, outsT⟩ := k
        refine tells_pure (fun x => ?_)
        simp [h1, h2, h3, Meet]
    · intro x
      simp only [List.mem_append, hr, hq, List.mem_cons, exists_eq_or_imp]

theorem tells_w3 (a b : String) : Tells p far extra (calcW3 p net a b)
    (fun v => v = true ↔ Implicit3 p net (fun a b => far a b = true) (fun a b => (a, b) ∈ extra) a b) := by
  unfold calcW3
  refine tells_if (asks_double a b) (fun hfar => ?_) (fun h => tells_pure (by simp [Implicit3, h]))
  cases fa : net.find a with
  | none => exact tells_panic _
  | some A =>
    cases fb : net.find b with
    | none => exact tells_panic _
    | some B =>
      obtain ⟨insA, outsA⟩ := A
      obtain ⟨insB, outsB⟩ := B
      simp only
      have hgoal : Implicit3 p net (fun a b => far a b = true) (fun a b => (a, b) ∈ extra) a b ↔ ∃ c ∈ p.classes, ∃ d ∈ p.classes,
          c ≠ d ∧ ∃ insC outsC insD outsD, net.find c = some (insC, outsC) ∧ net.find d = some (insD, outsD) ∧
          Meet outsA outsC ∧ Meet insB insD ∧ far a d = false ∧ far c b = false ∧ far c d = true ∧
          ∀ x ∈ insB, x ∈ insD ∨ ∃ t ∈ p.classes, far a t = false ∧ far c t = true ∧ near p far extra d t = true ∧
            ∃ insT outsT, net.find t = some (insT, outsT) ∧ Meet insB insT ∧ x ∈ insT := by
        unfold Implicit3
        simp only [hfar, true_and, near_iff_spec, ← Bool.not_eq_true]
        constructor
        · rintro ⟨i, o, i', o', e1, e2, h⟩
          rw [fa] at e1; rw [fb] at e2
          cases e1; cases e2
          exact h
        · intro h
          exact ⟨insA, outsA, insB, outsB, fa, fb, h⟩
      simp only [hgoal]
      refine tells_any _ (fun c _ => tells_any _ (fun d _ => ?_))
      by_cases hcd : c = d
      · rw [if_pos hcd]
        exact tells_pure (by simp [hcd])
      · rw [if_neg hcd]
        cases fc : net.find c with
        | none => exact tells_panic _
        | some C =>
          cases fd : net.find d with
          | none => exact tells_panic _
          | some D =>
            obtain ⟨insC, outsC⟩ := C
            obtain ⟨insD, outsD⟩ := D
            simp only
            have hg : (c ≠ d ∧ ∃ insC' outsC' insD' outsD', some (insC, outsC) = some (insC', outsC') ∧
                some (insD, outsD) = some (insD', outsD') ∧
                Meet outsA outsC' ∧ Meet insB insD' ∧ far a d = false ∧ far c b = false ∧ far c d = true ∧
                ∀ x ∈ insB, x ∈ insD' ∨ ∃ t ∈ p.classes, far a t = false ∧ far c t = true ∧ near p far extra d t = true ∧
                  ∃ insT outsT, net.find t = some (insT, outsT) ∧ Meet insB insT ∧ x ∈ insT) ↔
                (Meet outsA outsC ∧ Meet insB insD ∧ far a d = false ∧ far c b = false ∧ far c d = true ∧
                ∀ x ∈ insB, x ∈ insD ∨ ∃ t ∈ p.classes, far a t = false ∧ far c t = true ∧ near p far extra d t = true ∧
                  ∃ insT outsT, net.find t = some (insT, outsT) ∧ Meet insB insT ∧ x ∈ insT) := by
              constructor
              · rintro ⟨_, i, o, i', o', e1, e2, h⟩
                cases e1; cases e2
                exact h
              · intro h; exact ⟨hcd, _, _, _, _, rfl, rfl, h⟩
            simp only [hg]
            by_cases m1 : Meet outsA outsC
            · have e1 : outsA.any (· ∈ outsC) = true := by simpa [Meet] using m1
              rw [if_neg (by simp only [e1]; decide)]
              by_cases m2 : Meet insB insD
              · have e2 : insB.any (· ∈ insD) = true := by simpa [Meet] using m2
                rw [if_neg (by simp only [e2]; decide)]
                refine tells_if (asks_double a d) (fun h => tells_pure (by simp [h])) (fun h1 => ?_)
                refine tells_if (asks_double c b) (fun h => tells_pure (by simp [h])) (fun h2 => ?_)
                refine tells_if (asks_double c d) (fun h3 => ?_) (fun h => tells_pure (by simp [h]))
                refine tells_bind (tells_rightSet a c d insB p.classes) (fun r hr => tells_pure ?_)
                simp only [← hr]
                simp [m1, m2, h1, h2, h3, or_comm]
              · have e2 : insB.any (· ∈ insD) = false := by
                  rw [← Bool.not_eq_true]; intro h; exact m2 (by simpa [Meet] using h)
                rw [if_pos (by simp only [e2]; decide)]
                exact tells_pure (by simp [m2])
            · have e1 : outsA.any (· ∈ outsC) = false := by
                rw [← Bool.not_eq_true]; intro h; exact m1 (by simpa [Meet] using h)
              rw [if_pos (by simp only [e1]; decide)]
              exact tells_pure (by simp [m1])

theorem tells_calc (r : Rule) (a b : String) : Tells p far extra (r.calc p net a b)
    (fun v => v = true ↔ Implicit p net (fun a b => far a b = true) (fun a b => (a, b) ∈ extra) r a b) := by
  cases r with
  | w1 => obtain ⟨v, h1, h2⟩ := asks_w1 (p := p) (net := net) (far := far) (extra := extra) a b
          exact h1.tells.imp (fun w e => e ▸ h2)
  | w21 => obtain ⟨v, h1, h2⟩ := asks_w21 (p := p) (net := net) (far := far) (extra := extra) a b
           exact h1.tells.imp (fun w e => e ▸ h2)
  | w22 => obtain ⟨v, h1, h2⟩ := asks_w22 (p := p) (net := net) (far := far) (extra := extra) a b
           exact h1.tells.imp (fun w e => e ▸ h2)
  | w3 => exact tells_w3 a b

/-! ### Calls -/

theorem double_new (x y : String) : (p.double AllState.new.base x y).1 = true ↔ Distant p (fun _ _ => False) x y := by
  have : (p.double AllState.new.base x y).1 = p.calculateDouble [] x y := by rw [double_val]; rfl
  rw [this, calculateDouble_iff]
  exact distant_congr (by simp) x y

theorem knows_self (s : AllState) : Knows p (fun a b => (p.double s.base a b).1) s.base.extra s := ⟨rfl, fun _ _ => rfl⟩

theorem ask_spec {s s' : AllState} {v : Bool} {r : Rule} {a b : String} (hs : Knows p far extra s)
    (e : r.ask p net a b s = some (v, s')) : Knows p far extra s' ∧
      (v = true ↔ ((s.caches r).tryGet a b = some true ∨ (s.caches r).tryGet a b = none ∧
        Implicit p net (fun a b => far a b = true) (fun a b => (a, b) ∈ extra) r a b)) ∧
      ∀ q c d, (s'.caches q).tryGet c d = if q = r ∧ c = a ∧ d = b then some v else (s.caches q).tryGet c d := by
  unfold Rule.ask askBind at e
  have hput : ∀ (t : AllState), t.caches = s.caches → ((s.caches r).tryGet a b).getD v = v → ∀ q c d,
      ((if q = r then (t.caches q).put a b v else t.caches q) : RelCache).tryGet c d =
        if q = r ∧ c = a ∧ d = b then some v else (s.caches q).tryGet c d := by
    intro t ht hv q c d
    rw [ht]
    by_cases hq : q = r
    · subst hq
      simp only [if_true, true_and, tryGet_put, hv]
    · simp [hq]
  split at e
  · cases e
  · rename_i w t ew
    cases e
    dsimp only at ew
    split at ew
    · rename_i u hu
      cases ew
      exact ⟨⟨hs.extra, hs.far⟩, by simp [hu], hput s rfl (by simp [hu])⟩
    · rename_i hu
      obtain ⟨h1, h2, h3⟩ := tells_calc r a b s v t hs ew
      exact ⟨⟨h1.extra, h1.far⟩, by simp [hu, h3], hput t h2 (by simp [hu])⟩

theorem runCalls_append (s : AllState) (xs ys : List AnyCall) :
    runCalls p s (xs ++ ys) = (runCalls p s xs).bind (fun t => runCalls p t ys) := by
  induction xs generalizing s with
  | nil => rfl
  | cons c cs ih =>
    simp only [List.cons_append, runCalls]
    cases c.run p s with
    | none => rfl
    | some t => exact ih t

theorem run_far {s s' : AllState} {c : AnyCall} (e : c.run p s = some s') (hc : ∀ x y, c ≠ .add x y) :
    s'.base.extra = s.base.extra ∧ ∀ x y, (p.double s'.base x y).1 = (p.double s.base x y).1 := by
  cases c with
  | add x y => exact absurd rfl (hc x y)
  | double x y =>
    simp only [AnyCall.run, askDouble, Option.map_some, Option.some.injEq] at e
    subst e
    exact ⟨rfl, fun _ _ => double_double _ _ _ _ _⟩
  | rule r net x y =>
    simp only [AnyCall.run, Option.map_eq_some_iff] at e
    obtain ⟨⟨v, t⟩, e, rfl⟩ := e
    obtain ⟨h, _⟩ := ask_spec (knows_self s) e
    exact ⟨h.extra, h.far⟩

theorem run_extra {s s' : AllState} {c : AnyCall} (e : c.run p s = some s') (x : String × String) :
    x ∈ s'.base.extra ↔ x ∈ s.base.extra ∨ c = .add x.1 x.2 := by
  cases c with
  | add a b =>
    simp only [AnyCall.run, Option.some.injEq] at e
    subst e
    have := foldl_extra (p := p) [.add a b] s.base x
    simp only [List.foldl_cons, List.foldl_nil, Added, List.mem_singleton, ProviderCall.add.injEq] at this
    rw [this, AnyCall.add.injEq]
    simp only [eq_comm]
  | double x y => rw [(run_far e (by simp)).1]; simp
  | rule r net x y => rw [(run_far e (by simp)).1]; simp

theorem runCalls_extra {calls : List AnyCall} {s s' : AllState} (e : runCalls p s calls = some s') (x : String × String) :
    x ∈ s'.base.extra ↔ x ∈ s.base.extra ∨ AddedBy calls x.1 x.2 := by
  unfold AddedBy
  induction calls generalizing s with
  | nil => cases e; simp
  | cons c cs ih =>
    rw [runCalls] at e
    split at e
    · cases e
    · rename_i t ht
      rw [ih e, run_extra ht, List.mem_cons, or_assoc, eq_comm (a := c)]

theorem run_cache {s s' : AllState} {c : AnyCall} (e : c.run p s = some s') (r : Rule) (a b : String) :
    (∀ v, (s.caches r).tryGet a b = some v → (s'.caches r).tryGet a b = some v) ∧
    ((∀ net, c ≠ .rule r net a b) → (s'.caches r).tryGet a b = (s.caches r).tryGet a b) := by
  cases c with
  | add x y =>
    simp only [AnyCall.run, Option.some.injEq] at e
    subst e
    exact ⟨fun _ h => h, fun _ => rfl⟩
  | double x y =>
    simp only [AnyCall.run, askDouble, Option.map_some, Option.some.injEq] at e
    subst e
    exact ⟨fun _ h => h, fun _ => rfl⟩
  | rule q net x y =>
    simp only [AnyCall.run, Option.map_eq_some_iff] at e
    obtain ⟨⟨w, t⟩, e, rfl⟩ := e
    obtain ⟨_, h2, h3⟩ := ask_spec (knows_self s) e
    constructor
    · intro v hv
      rw [h3]
      split
      · rename_i h
        obtain ⟨rfl, rfl, rfl⟩ := h
        rw [hv] at h2
        simp only [Option.some.injEq, reduceCtorEq, false_and, or_false] at h2
        rw [Bool.eq_iff_iff.mpr h2]
      · exact hv
    · intro hn
      rw [h3, if_neg]
      rintro ⟨rfl, rfl, rfl⟩
      exact hn net rfl

theorem runCalls_never {calls : List AnyCall} {s s' : AllState} (e : runCalls p s calls = some s') (r : Rule) (a b : String)
    (h : ∀ net, AnyCall.rule r net a b ∉ calls) : (s'.caches r).tryGet a b = (s.caches r).tryGet a b := by
  induction calls generalizing s with
  | nil => cases e; rfl
  | cons c cs ih =>
    rw [runCalls] at e
    split at e
    · cases e
    · rename_i t ht
      rw [ih e (fun net hm => h net (by simp [hm])), (run_cache ht r a b).2 (fun net hm => h net (by simp [hm]))]

theorem runCalls_kept {calls : List AnyCall} {s s' : AllState} (e : runCalls p s calls = some s') (r : Rule) (a b : String) (v : Bool)
    (h : (s.caches r).tryGet a b = some v) : (s'.caches r).tryGet a b = some v := by
  induction calls generalizing s with
  | nil => cases e; exact h
  | cons c cs ih =>
    rw [runCalls] at e
    split at e
    · cases e
    · rename_i t ht
      exact ih e ((run_cache ht r a b).1 v h)

theorem runCalls_far (calls : List AnyCall) {s : AllState} (e : runCalls p .new calls = some s) (x y : String) :
    ∃ before, before <+: calls ∧ ((p.double s.base x y).1 = true ↔ Distant p (AddedBy before) x y) := by
  induction calls using List.reverseRecOn generalizing s with
  | nil =>
    cases e
    refine ⟨[], List.prefix_refl _, ?_⟩
    rw [double_new]
    exact distant_congr (by simp [AddedBy]) x y
  | append_singleton calls c ih =>
    have e0 := e
    rw [runCalls_append] at e
    obtain ⟨t, h1, h2⟩ := Option.bind_eq_some_iff.mp e
    have h2 : c.run p t = some s := by
      simp only [runCalls] at h2
      split at h2
      · cases h2
      · rename_i u hu
        cases h2
        exact hu
    obtain ⟨before, hb, hd⟩ := ih h1
    by_cases hc : ∃ a b, c = .add a b
    · obtain ⟨a, b, rfl⟩ := hc
      simp only [AnyCall.run, Option.some.injEq] at h2
      cases hg : t.base.cache.tryGet x y with
      | some v =>
        refine ⟨before, hb.trans (List.prefix_append _ _), ?_⟩
        rw [← hd, ← h2, double_val, double_val]
        simp [Provider.step, hg]
      | none =>
        refine ⟨calls ++ [.add a b], List.prefix_refl _, ?_⟩
        have : (p.double s.base x y).1 = p.calculateDouble s.base.extra x y := by
          rw [double_val, ← h2]
          simp [Provider.step, hg]
        rw [this, calculateDouble_iff]
        refine distant_congr (fun u w => ?_) x y
        rw [runCalls_extra e0]
        simp [AllState.new, ProviderState.new]
    · refine ⟨before, hb.trans (List.prefix_append _ _), ?_⟩
      rw [← hd, (run_far h2 (fun a b h => hc ⟨a, b, h⟩)).2]

end Ficus.Rs.Nfc
