import Verif.Model.Py
import Mathlib.Data.List.Basic
import Mathlib.Data.List.Nodup

/-! Lemmas about the insertion-ordered dictionary. -/

namespace Ficus.Dict
variable {K V : Type} [DecidableEq K]

@[simp] theorem get?_nil (k : K) : get? ([] : Dict K V) k = none := rfl

theorem get?_cons (k' k : K) (v : V) (r : Dict K V) :
    get? ((k', v) :: r) k = if k' = k then some v else get? r k := rfl

theorem get?_set (d : Dict K V) (k k' : K) (v : V) :
    get? (set d k v) k' = if k = k' then some v else get? d k' := by
  induction d with
  | nil => simp [set, get?]
  | cons p r ih =>
    obtain ⟨a, b⟩ := p
    simp only [set]
    by_cases h : a = k
    · subst h; simp only [if_true, get?_cons]; split <;> simp_all
    · simp only [h, if_false, get?_cons, ih]
      by_cases h2 : a = k'
      · subst h2; simp [Ne.symm h]
      · simp [h2]

@[simp] theorem get?_set_self (d : Dict K V) (k : K) (v : V) : get? (set d k v) k = some v := by
  simp [get?_set]

theorem get?_set_ne (d : Dict K V) {k k' : K} (v : V) (h : k ≠ k') :
    get? (set d k v) k' = get? d k' := by simp [get?_set, h]

theorem get?_eq_none_iff (d : Dict K V) (k : K) : get? d k = none ↔ k ∉ keys d := by
  induction d with
  | nil => simp [keys]
  | cons p r ih =>
    obtain ⟨a, b⟩ := p
    simp only [get?_cons, keys, List.map_cons, List.mem_cons, not_or]
    by_cases h : a = k
    · simp [h]
    · simp only [h, if_false, ih, keys]; constructor
      · intro h2; exact ⟨fun e => h e.symm, h2⟩
      · exact fun h2 => h2.2

theorem mem_keys_iff (d : Dict K V) (k : K) : k ∈ keys d ↔ ∃ v, get? d k = some v := by
  have := get?_eq_none_iff d k
  rw [← Option.ne_none_iff_exists']
  simp only [ne_eq, this, not_not]

theorem contains_iff (d : Dict K V) (k : K) : contains d k = true ↔ k ∈ keys d := by
  rw [mem_keys_iff, contains, Option.isSome_iff_exists]

theorem get?_of_mem {d : Dict K V} (hd : WF d) {k : K} {v : V} (h : (k, v) ∈ d) :
    get? d k = some v := by
  induction d with
  | nil => simp at h
  | cons p r ih =>
    obtain ⟨a, b⟩ := p
    simp only [WF, keys, List.map_cons, List.nodup_cons] at hd
    rw [get?_cons]
    rcases List.mem_cons.1 h with h1 | h1
    · cases h1; simp
    · have : a ≠ k := by
        rintro rfl; exact hd.1 (List.mem_map.2 ⟨(a, v), h1, rfl⟩)
      simp only [this, if_false]; exact ih hd.2 h1

theorem mem_of_get? {d : Dict K V} {k : K} {v : V} (h : get? d k = some v) : (k, v) ∈ d := by
  induction d with
  | nil => simp at h
  | cons p r ih =>
    obtain ⟨a, b⟩ := p
    rw [get?_cons] at h
    by_cases h2 : a = k
    · simp only [h2, if_true, Option.some.injEq] at h; simp [h2, h]
    · simp only [h2, if_false] at h; exact List.mem_cons_of_mem _ (ih h)

theorem get?_eq_some_iff {d : Dict K V} (hd : WF d) {k : K} {v : V} :
    get? d k = some v ↔ (k, v) ∈ d := ⟨mem_of_get?, get?_of_mem hd⟩

theorem keys_set (d : Dict K V) (k : K) (v : V) :
    keys (set d k v) = if k ∈ keys d then keys d else keys d ++ [k] := by
  induction d with
  | nil => simp [set, keys]
  | cons p r ih =>
    obtain ⟨a, b⟩ := p
    simp only [set]
    by_cases h : a = k
    · simp [h, keys]
    · simp only [h, if_false]
      simp only [keys, List.map_cons, List.mem_cons] at ih ⊢
      rw [ih]
      have : ¬ k = a := fun e => h e.symm
      by_cases hm : k ∈ List.map Prod.fst r <;> simp [hm, this]

theorem mem_keys_set (d : Dict K V) (k k' : K) (v : V) :
    k' ∈ keys (set d k v) ↔ k' = k ∨ k' ∈ keys d := by
  rw [keys_set]; split
  · constructor
    · exact Or.inr
    · rintro (rfl | h) <;> assumption
  · simp [or_comm]

theorem WF_nil : WF ([] : Dict K V) := by simp [WF, keys]

theorem WF_set {d : Dict K V} (hd : WF d) (k : K) (v : V) : WF (set d k v) := by
  unfold WF at *; rw [keys_set]; split
  · exact hd
  · rw [List.nodup_append]; refine ⟨hd, by simp, ?_⟩
    intro a ha b hb; simp at hb; subst hb; rintro rfl; contradiction

theorem keys_del (d : Dict K V) (k : K) : keys (del d k) = (keys d).filter (fun a => decide (a ≠ k)) := by
  unfold keys del
  rw [List.filter_map]; rfl

theorem WF_del {d : Dict K V} (hd : WF d) (k : K) : WF (del d k) := by
  unfold WF at *; rw [keys_del]; exact hd.filter _

theorem get?_del (d : Dict K V) (k k' : K) :
    get? (del d k) k' = if k = k' then none else get? d k' := by
  induction d with
  | nil => simp [del]
  | cons p r ih =>
    obtain ⟨a, b⟩ := p
    unfold del at ih ⊢
    by_cases h : a = k
    · subst h
      simp only [List.filter_cons, ne_eq, not_true, decide_false, Bool.false_eq_true, if_false, ih, get?_cons]
      by_cases h2 : a = k' <;> simp [h2]
    · simp only [List.filter_cons, ne_eq, h, not_false_iff, decide_true, if_true, get?_cons, ih]
      by_cases h2 : a = k'
      · subst h2; simp [Ne.symm h]
      · simp [h2]

/-- Two well-formed dictionaries with the same lookups have the same entries up to order. -/
theorem perm_of_get?_eq {d e : Dict K V} (hd : WF d) (he : WF e)
    (h : ∀ k, get? d k = get? e k) : d.Perm e := by
  apply (List.perm_ext_iff_of_nodup (List.Nodup.of_map _ hd) (List.Nodup.of_map _ he)).2
  rintro ⟨k, v⟩
  rw [← get?_eq_some_iff hd, ← get?_eq_some_iff he, h]

theorem get?_eq_of_perm {d e : Dict K V} (hd : WF d) (hp : d.Perm e) (k : K) :
    get? d k = get? e k := by
  have he : WF e := (List.Perm.nodup_iff (hp.map _)).1 hd
  apply Option.ext; intro v
  rw [get?_eq_some_iff hd, get?_eq_some_iff he, hp.mem_iff]

end Ficus.Dict
