import Verif.Proofs.RsEnds
import Verif.Props.RsNet
import Verif.Props.RsNfcStages
import Verif.Model.RsNfcNets
import Verif.Spec.RsNfcNets

/-! The nets of Alpha and Alpha+ for any relations and any hash. -/

namespace Ficus.Rs.Nfc
open Spec Spec.Ends Spec.Nfc

variable {E : Type} [HasName E]

theorem kept_keys (it : Iter) (log : List (List E)) (ignored : Option (List String)) (c : String) :
    c ∈ (createInfo it log ignored).classes.keys ↔ c ∈ (namesOf log).flatten ∧ c ∉ ignored.getD [] := by
  have hperm := classes_perm it log ignored
  rw [kept_eq] at hperm
  rw [← hperm.mem_iff, List.mem_dedup, mem_without]

theorem sides_net {names : List String} {x : ASet} (h : Sides names x) :
    x.left.Nodup ∧ x.right.Nodup ∧ (∀ c ∈ x.left, c ∈ names) ∧ (∀ c ∈ x.right, c ∈ names) :=
  ⟨h.1.imp (fun h => ne_of_lt h), h.2.1.imp (fun h => ne_of_lt h), h.2.2.1, h.2.2.2⟩

theorem createNet_none (it : Iter) (next : Nat) (log : List (List E)) (ignored : Option (List String)) (sets : List ASet)
    (hs : ∀ x ∈ sets, Sides (createInfo it log ignored).classes.keys x) :
    createNet it next (createInfo it log ignored) sets = none ↔
      ∃ c ∈ ignored.getD [], IsFirst (namesOf log) c ∨ IsLast (namesOf log) c := by
  obtain ⟨_, _, hn1, hn2⟩ := C110_starts_ends it log ignored false ""
  rw [(createNet_spec it next (createInfo it log ignored) sets (classes_WF it log ignored) (fun x hx => sides_net (hs x hx)) hn1 hn2).1]
  refine exists_congr (fun c => ?_)
  rw [(starts_iff it log ignored c).1, (starts_iff it log ignored c).2, kept_keys, and_comm]
  refine and_congr_left (fun hc => ?_)
  have hm := first_mem _ _ hc
  exact ⟨fun h => by_contra (fun hn => h ⟨hm, hn⟩), fun h hn => hn.2 h⟩

theorem plusNet_some (it : Iter) (next : Nat) (log : List (List E)) (ignored : Option (List String)) (loops : List String)
    (rel : Relations) (sets : List ASet) (hs : ∀ x ∈ sets, Sides (createInfo it log ignored).classes.keys x ∧ x.Good rel)
    (hok : ¬ ∃ c ∈ ignored.getD [], IsFirst (namesOf log) c ∨ IsLast (namesOf log) c) :
    ∃ s, (createNet it next (createInfo it log ignored) sets).bind (addLoops it log loops) = some s ∧
      PlusNet (namesOf log) (ignored.getD []) loops rel.C rel.U s.net := by
  obtain ⟨base, hcn⟩ := Option.ne_none_iff_exists'.mp (fun h => hok ((createNet_none it next log ignored sets (fun x hx => (hs x hx).1)).mp h))
  obtain ⟨_, _, hn1, hn2⟩ := C110_starts_ends it log ignored false ""
  obtain ⟨pids, st, en, hl, hfb, hpl, _, _, hnm, hv⟩ := (createNet_spec it next (createInfo it log ignored) sets (classes_WF it log ignored)
    (fun x hx => sides_net (hs x hx).1) hn1 hn2).2 base hcn
  obtain ⟨s, extra, added, a1, hfr, _, _, hpe, hex, _, hvs, a9, hav⟩ := addLoops_spec it (createInfo it log)
    (it.order "one_length_loop_transitions" 0 loops).zipIdx hfb
  have hadd : (added.map View.name).Perm loops := by
    rw [a9, List.zipIdx_map_fst]
    exact it.perm _ _ _
  have hd := distinct_of_fresh hfr
  have hpn : (s.net.places.map Place.id).Nodup := (List.nodup_append.mp (List.nodup_append.mp hd).1).1
  have hbn : (base.net.places.map Place.id).Nodup := by
    rw [hpe, List.map_append] at hpn; exact (List.nodup_append.mp hpn).1
  have hex2 : ∀ p ∈ extra, p.set = none ∧ p.name ≠ "StartPlace" ∧ p.name ≠ "EndPlace" := by
    intro p hp
    obtain ⟨e1, e2, _⟩ := hex p hp
    refine ⟨e1, fun h => e2 ⟨st, "StartPlace", none⟩ ?_ h.symm, fun h => e2 ⟨en, "EndPlace", none⟩ ?_ h.symm⟩ <;>
    · rw [hpl]; simp
  have hnet : ∀ v ∈ base.views, _ := fun v hvm =>
    net_of_views (first := IsFirst (namesOf log)) (last := IsLast (namesOf log)) (fun c => (starts_iff it log ignored c).1)
      (fun c => (starts_iff it log ignored c).2) hl hpl hbn extra hex2 (by rw [← hpe]; exact hpn) v (hv v hvm).2.1
      (hv v hvm).2.2
  have hview : ∀ t ∈ s.net.transitions, t.view ∈ base.views ∨ (t.view ∈ added ∧ t.name ∈ loops) := by
    intro t ht
    have : t.view ∈ s.views := List.mem_map_of_mem ht
    rw [hvs] at this
    rcases List.mem_append.mp this with h | h
    · exact Or.inl h
    · have hm : t.view.name ∈ added.map View.name := List.mem_map_of_mem h
      exact Or.inr ⟨h, hadd.mem_iff.mp hm⟩
  refine ⟨s, by rw [hcn]; exact a1, ⟨hd, ?_⟩, ?_, ?_, ?_, ?_⟩
  · intro t ht a ha
    have hm : a.place ∈ t.view.ins ++ t.view.outs := by
      simp only [Trans.view, ← List.map_append]; exact List.mem_map_of_mem ha
    rcases hview t ht with h | ⟨h, _⟩
    · obtain ⟨p, hp, he⟩ := (hnet _ h).2 a.place hm
      exact ⟨p, by rw [hpe]; exact hp, he⟩
    · obtain ⟨_, q, hq, _, q1, q2⟩ := hav _ h
      rw [q1, q2] at hm
      simp only [List.cons_append, List.nil_append, List.mem_cons, List.not_mem_nil, or_false, or_self] at hm
      exact ⟨q, hq, hm.symm⟩
  · have e : s.net.transitions.map Trans.name = s.views.map View.name := by
      unfold Building.views; rw [List.map_map]; rfl
    rw [e, hvs, List.map_append, hnm]
    have hperm := classes_perm it log ignored
    rw [kept_eq] at hperm
    exact List.Perm.append ((it.perm _ _ _).trans hperm.symm) hadd
  · intro p hp x hx
    rw [hpe] at hp
    rcases List.mem_append.mp hp with hp | hp
    · rw [hpl] at hp
      rcases List.mem_append.mp hp with hp | hp
      · have hxs : x ∈ sets := by
          have hm : (p.name, p.set) ∈ (setPlaces pids sets).map (fun p : Place => (p.name, p.set)) := List.mem_map_of_mem hp
          rw [(setPlaces_ids pids sets hl).2] at hm
          obtain ⟨y, hy, he⟩ := List.mem_map.mp hm
          have : some y = p.set := congrArg Prod.snd he
          rw [hx] at this
          cases this
          exact hy
        obtain ⟨h1, h2⟩ := hs x hxs
        refine ⟨fun c hc => (kept_keys it log ignored c).mp ?_, h2.pair⟩
        rcases List.mem_append.mp hc with hc | hc
        · exact h1.2.2.1 c hc
        · exact h1.2.2.2 c hc
      · simp only [List.mem_cons, List.not_mem_nil, or_false] at hp
        rcases hp with rfl | rfl <;> cases hx
    · rw [(hex p hp).1] at hx; cases hx
  · intro t ht hnl
    rcases hview t ht with h | ⟨_, h⟩
    · refine ⟨(hv _ h).1, fun p hp => ?_⟩
      exact (hnet _ h).1 p (by rw [← hpe]; exact hp)
    · exact absurd h hnl
  · intro c hc
    obtain ⟨v, hvm, hvc⟩ := List.mem_map.mp (hadd.mem_iff.mpr hc)
    have hvs' : v ∈ s.views := by rw [hvs]; exact List.mem_append_right _ hvm
    obtain ⟨t, ht, he⟩ := List.mem_map.mp hvs'
    obtain ⟨_, q, hq, q1, q2, q3⟩ := hav v hvm
    rw [← he] at q1 q2 q3 hvc
    refine ⟨t, ht, hvc, q, hq, ?_, q2, q3⟩
    rw [q1, hvc]
    exact loopSet_name it log c

/-- The net of Alpha+ for any relations: it panics exactly if a class that is left out begins or ends a trace. -/
theorem plusNet_ends (it : Iter) (hash : List String → Nat) (next : Nat) (log : List (List E)) (ignored : Option (List String))
    (loops : List String) (rel : Relations) :
    (∃ s, EndsWith (fun fuel => plusNet it hash fuel next log ignored loops rel) s ∧
      PlusNet (namesOf log) (ignored.getD []) loops rel.C rel.U s.net ∧ ¬ ∃ c ∈ ignored.getD [], IsFirst (namesOf log) c ∨ IsLast (namesOf log) c) ∨
    ((∀ fuel, plusNet it hash fuel next log ignored loops rel = none) ∧ ∃ c ∈ ignored.getD [], IsFirst (namesOf log) c ∨ IsLast (namesOf log) c) := by
  obtain ⟨sets, ⟨n, hn⟩, hs⟩ := alphaSets_end it hash (createInfo it log ignored) rel
  by_cases hok : ∃ c ∈ ignored.getD [], IsFirst (namesOf log) c ∨ IsLast (namesOf log) c
  · refine Or.inr ⟨fun fuel => ?_, hok⟩
    unfold plusNet
    cases hf : alphaSets it hash fuel (createInfo it log ignored) rel with
    | none => rfl
    | some r =>
      have hr : r = sets := by
        unfold alphaSets at hf
        obtain ⟨m, hm, rfl⟩ := Option.map_eq_some_iff.mp hf
        have h2 := hn (max n fuel) (le_max_left _ _)
        simp only [alphaSets] at h2
        rw [maximize_more it _ _ _ _ _ _ _ hm (le_max_right _ _)] at h2
        exact Option.some.inj h2
      rw [hr, Option.bind_some, (createNet_none it next log ignored sets (fun x hx => (hs x hx).1)).mpr hok]
      rfl
  · obtain ⟨s, h1, h2⟩ := plusNet_some it next log ignored loops rel sets hs hok
    refine Or.inl ⟨s, ⟨n, fun fuel hf => ?_⟩, h2, hok⟩
    have := hn fuel hf
    simp only at this
    simp only [plusNet, this, Option.bind_some]
    exact h1

end Ficus.Rs.Nfc
