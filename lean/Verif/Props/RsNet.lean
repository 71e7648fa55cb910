import Verif.Proofs.RsNet
import Verif.Props.RsAlpha
import Verif.Spec.RsNet

/-! C113, C114: the nets of the alpha algorithms. -/

namespace Ficus.Rs
open Spec
variable {E : Type} [HasName E]

/-! ### From lists of identifiers to arcs -/

theorem placesWith_count (pids : List Nat) (sets : List ASet) (hl : pids.length = sets.length) (hn : pids.Nodup)
    (f : ASet → Bool) : ∀ p ∈ setPlaces pids sets, ∃ x, p.set = some x ∧ x ∈ sets ∧ p.name = x.text ∧
      (placesWith pids sets f).count p.id = if f x then 1 else 0 := by
  induction pids generalizing sets with
  | nil => simp [setPlaces]
  | cons i pids ih =>
    cases sets with
    | nil => simp at hl
    | cons x sets =>
      rw [List.nodup_cons] at hn
      have hsub : ∀ j ∈ placesWith pids sets f, j ∈ pids := by
        intro j hj
        obtain ⟨⟨a, b⟩, h1, rfl⟩ := List.mem_map.mp hj
        exact (List.of_mem_zip (List.mem_filter.mp h1).1).1
      have hcons : placesWith (i :: pids) (x :: sets) f = if f x then i :: placesWith pids sets f else placesWith pids sets f := by
        unfold placesWith
        rw [List.zip_cons_cons, List.filter_cons]
        split <;> rfl
      intro p hp
      rcases List.mem_cons.mp hp with rfl | hp
      · refine ⟨x, rfl, by simp, rfl, ?_⟩
        have h0 : (placesWith pids sets f).count i = 0 := List.count_eq_zero.mpr (fun h => hn.1 (hsub i h))
        rw [hcons]
        split
        · rw [List.count_cons_self, h0]
        · exact h0
      · obtain ⟨y, h1, h2, h3, h4⟩ := ih sets (by simpa using hl) hn.2 p hp
        refine ⟨y, h1, by simp [h2], h3, ?_⟩
        have hp2 : p.id ∈ pids := by
          rw [List.mem_iff_getElem] at hp
          obtain ⟨k, hk, rfl⟩ := hp
          simp
        have hne : i ≠ p.id := fun h => hn.1 (h ▸ hp2)
        rw [hcons]
        split
        · rw [List.count_cons_of_ne hne, h4]
        · exact h4

theorem setPlaces_ids (pids : List Nat) (sets : List ASet) (hl : pids.length = sets.length) :
    (setPlaces pids sets).map Place.id = pids ∧ (setPlaces pids sets).map (fun p => (p.name, p.set)) =
      sets.map (fun x => (x.text, some x)) := by
  induction pids generalizing sets with
  | nil => cases sets <;> simp_all [setPlaces]
  | cons i pids ih =>
    cases sets with
    | nil => simp at hl
    | cons x sets =>
      obtain ⟨h1, h2⟩ := ih sets (by simpa using hl)
      unfold setPlaces at h1 h2 ⊢
      simp [h1, h2]

theorem text_ne_start (x : ASet) : x.text ≠ "StartPlace" ∧ x.text ≠ "EndPlace" := by
  unfold ASet.text
  constructor <;>
  · intro h
    have := congrArg (fun s : String => s.toList.head?) h
    simp [String.toList_append] at this

theorem drawn_of_fresh {lo : Nat} {s : Building} (h : Fresh lo s) : Drawn s := by
  have hb := h.2.1
  refine ⟨fun p hp => (hb _ (List.mem_append_left _ (List.mem_map_of_mem hp))).2, fun t ht => ?_⟩
  have ht' : ∀ i ∈ t.ids, i < s.next := fun i hi => (hb i (List.mem_append_right _ (List.mem_flatMap.mpr ⟨t, ht, hi⟩))).2
  refine ⟨ht' _ List.mem_cons_self, fun a ha => ht' _ (List.mem_cons_of_mem _ ?_)⟩
  rw [← List.map_append]
  exact List.mem_map_of_mem ha

theorem ids_perm (net : Net) : net.ids.Perm (net.places.map Place.id ++ net.transitions.map Trans.id ++
    net.transitions.flatMap (fun t => (t.incoming ++ t.outgoing).map Arc.id)) := by
  unfold Net.ids
  rw [List.append_assoc]
  refine List.Perm.append_left _ ?_
  generalize net.transitions = l
  induction l with
  | nil => simp
  | cons t l ih =>
    simp only [List.flatMap_cons, List.map_cons, Trans.ids, List.map_append, List.cons_append]
    refine List.Perm.cons _ ?_
    refine (List.Perm.append_left _ ih).trans ?_
    rw [← List.append_assoc, ← List.append_assoc]
    simp only [List.map_append]
    exact List.Perm.append_right _ List.perm_append_comm

theorem distinct_of_fresh {lo : Nat} {s : Building} (h : Fresh lo s) :
    (s.net.places.map Place.id ++ s.net.transitions.map Trans.id ++
      s.net.transitions.flatMap (fun t => (t.incoming ++ t.outgoing).map Arc.id)).Nodup :=
  (ids_perm s.net).nodup_iff.mp h.1

/-- What `createNet_spec` says in terms of arcs. -/
theorem net_of_views {s : Building} {sets : List ASet} {pids : List Nat} {st en : Nat} {first last : String → Prop}
    {starts ends : List String} (h1 : ∀ c, c ∈ starts ↔ first c) (h2 : ∀ c, c ∈ ends ↔ last c)
    (hl : pids.length = sets.length) (hp : s.net.places = setPlaces pids sets ++ [⟨st, "StartPlace", none⟩, ⟨en, "EndPlace", none⟩])
    (hn : (s.net.places.map Place.id).Nodup) (extra : List Place) (hx : ∀ p ∈ extra, p.set = none ∧ p.name ≠ "StartPlace" ∧ p.name ≠ "EndPlace")
    (hnx : ((s.net.places ++ extra).map Place.id).Nodup) (v : View)
    (hi : v.ins = placesWith pids sets (fun x => decide (v.name ∈ x.right)) ++ (if v.name ∈ starts then [st] else []))
    (ho : v.outs = placesWith pids sets (fun x => decide (v.name ∈ x.left)) ++ (if v.name ∈ ends then [en] else [])) :
    (∀ p ∈ s.net.places ++ extra, (ComesAfter first p v.name → v.ins.count p.id = 1) ∧
      (¬ ComesAfter first p v.name → v.ins.count p.id = 0) ∧
      (ComesBefore last p v.name → v.outs.count p.id = 1) ∧ (¬ ComesBefore last p v.name → v.outs.count p.id = 0)) ∧
    ∀ i ∈ v.ins ++ v.outs, ∃ p ∈ s.net.places ++ extra, p.id = i := by
  obtain ⟨hid, _⟩ := setPlaces_ids pids sets hl
  have hpid : s.net.places.map Place.id = pids ++ [st, en] := by rw [hp, List.map_append, hid]; rfl
  rw [hpid] at hn
  obtain ⟨n1, n2, n3⟩ := List.nodup_append.mp hn
  have hst : st ∉ pids := fun h => n3 st h st (by simp) rfl
  have hen : en ∉ pids := fun h => n3 en h en (by simp) rfl
  have hse : st ≠ en := by simpa using n2
  have hsub : ∀ f, ∀ j ∈ placesWith pids sets f, j ∈ pids := by
    intro f j hj
    obtain ⟨⟨a, b⟩, h1, rfl⟩ := List.mem_map.mp hj
    exact (List.of_mem_zip (List.mem_filter.mp h1).1).1
  constructor
  · intro p hpm
    rcases List.mem_append.mp hpm with hpm | hpm
    · rw [hp] at hpm
      rcases List.mem_append.mp hpm with hpm | hpm
      · obtain ⟨x, a1, a2, a3, a4⟩ := placesWith_count pids sets hl n1 (fun x => decide (v.name ∈ x.right)) p hpm
        obtain ⟨y, b1, b2, b3, b4⟩ := placesWith_count pids sets hl n1 (fun x => decide (v.name ∈ x.left)) p hpm
        rw [a1] at b1; cases b1
        have hpi : p.id ∈ pids := by rw [← hid]; exact List.mem_map_of_mem hpm
        have k1 : p.id ≠ st := fun h => hst (h ▸ hpi)
        have k2 : p.id ≠ en := fun h => hen (h ▸ hpi)
        have c1 : ComesAfter first p v.name ↔ v.name ∈ x.right := by simp [ComesAfter, a1]
        have c2 : ComesBefore last p v.name ↔ v.name ∈ x.left := by simp [ComesBefore, a1]
        have e1 : v.ins.count p.id = if v.name ∈ x.right then 1 else 0 := by
          rw [hi, List.count_append, a4]
          simp only [decide_eq_true_eq]
          have : (if v.name ∈ starts then [st] else []).count p.id = 0 := by
            split
            · simp [Ne.symm k1]
            · rfl
          rw [this]; rfl
        have e2 : v.outs.count p.id = if v.name ∈ x.left then 1 else 0 := by
          rw [ho, List.count_append, b4]
          simp only [decide_eq_true_eq]
          have : (if v.name ∈ ends then [en] else []).count p.id = 0 := by
            split
            · simp [Ne.symm k2]
            · rfl
          rw [this]; rfl
        rw [c1, c2, e1, e2]
        exact ⟨fun h => if_pos h, fun h => if_neg h, fun h => if_pos h, fun h => if_neg h⟩
      · have z1 : ∀ f, (placesWith pids sets f).count st = 0 := fun f => List.count_eq_zero.mpr (fun h => hst (hsub f _ h))
        have z2 : ∀ f, (placesWith pids sets f).count en = 0 := fun f => List.count_eq_zero.mpr (fun h => hen (hsub f _ h))
        simp only [List.mem_cons, List.not_mem_nil, or_false] at hpm
        rcases hpm with rfl | rfl
        · have c1 : ComesAfter first ⟨st, "StartPlace", none⟩ v.name ↔ v.name ∈ starts := by simp [ComesAfter, h1]
          have c2 : ¬ ComesBefore last ⟨st, "StartPlace", none⟩ v.name := by simp [ComesBefore]
          rw [c1, hi, ho, List.count_append, List.count_append, z1, z1]
          refine ⟨fun h => by simp [h], fun h => by simp [h], fun h => absurd h c2, fun _ => ?_⟩
          split
          · simp [Ne.symm hse]
          · rfl
        · have c1 : ComesBefore last ⟨en, "EndPlace", none⟩ v.name ↔ v.name ∈ ends := by simp [ComesBefore, h2]
          have c2 : ¬ ComesAfter first ⟨en, "EndPlace", none⟩ v.name := by simp [ComesAfter]
          rw [c1, hi, ho, List.count_append, List.count_append, z2, z2]
          refine ⟨fun h => absurd h c2, fun _ => ?_, fun h => by simp [h], fun h => by simp [h]⟩
          split
          · simp [hse]
          · rfl
    · obtain ⟨x1, x2, x3⟩ := hx p hpm
      have c1 : ¬ ComesAfter first p v.name := by simp [ComesAfter, x1, x2]
      have c2 : ¬ ComesBefore last p v.name := by simp [ComesBefore, x1, x3]
      rw [List.map_append, hpid] at hnx
      have hd := (List.nodup_append.mp hnx).2.2
      have hpn : p.id ∉ pids ++ [st, en] := fun h => hd p.id h p.id (List.mem_map_of_mem hpm) rfl
      simp only [List.mem_append, List.mem_cons, List.not_mem_nil, or_false, not_or] at hpn
      obtain ⟨m1, m2, m3⟩ := hpn
      refine ⟨fun h => absurd h c1, fun _ => ?_, fun h => absurd h c2, fun _ => ?_⟩
      · rw [hi, List.count_eq_zero]
        intro h
        rcases List.mem_append.mp h with h | h
        · exact m1 (hsub _ _ h)
        · split at h
          · exact m2 (by simpa using h)
          · cases h
      · rw [ho, List.count_eq_zero]
        intro h
        rcases List.mem_append.mp h with h | h
        · exact m1 (hsub _ _ h)
        · split at h
          · exact m3 (by simpa using h)
          · cases h
  · intro i him
    have him2 : i ∈ pids ++ [st, en] := by
      rcases List.mem_append.mp him with h | h
      · rw [hi] at h
        rcases List.mem_append.mp h with h | h
        · exact List.mem_append_left _ (hsub _ _ h)
        · split at h
          · rw [List.mem_singleton] at h; simp [h]
          · cases h
      · rw [ho] at h
        rcases List.mem_append.mp h with h | h
        · exact List.mem_append_left _ (hsub _ _ h)
        · split at h
          · rw [List.mem_singleton] at h; simp [h]
          · cases h
    rw [← hpid] at him2
    obtain ⟨p, hp1, hp2⟩ := List.mem_map.mp him2
    exact ⟨p, List.mem_append_left _ hp1, hp2⟩

theorem starts_iff (it : Iter) (log : List (List E)) (ignored : Option (List String)) (c : String) :
    (c ∈ (createInfo it log ignored).starts ↔ IsFirst (namesOf log) c) ∧
    (c ∈ (createInfo it log ignored).ends ↔ IsLast (namesOf log) c) := by
  obtain ⟨h1, h2, _, _⟩ := C110_starts_ends it log ignored false c
  rw [h1, h2]
  unfold IsFirst IsLast namesOf
  constructor
  · constructor
    · rintro ⟨t, ht, e, he, rfl⟩; exact ⟨t.map name, List.mem_map_of_mem ht, by simp [he]⟩
    · rintro ⟨t, ht, he⟩
      obtain ⟨u, hu, rfl⟩ := List.mem_map.mp ht
      rw [List.head?_map, Option.map_eq_some_iff] at he
      obtain ⟨e, he, rfl⟩ := he
      exact ⟨u, hu, e, he, rfl⟩
  · constructor
    · rintro ⟨t, ht, e, he, rfl⟩; exact ⟨t.map name, List.mem_map_of_mem ht, by simp [he]⟩
    · rintro ⟨t, ht, he⟩
      obtain ⟨u, hu, rfl⟩ := List.mem_map.mp ht
      rw [List.getLast?_map, Option.map_eq_some_iff] at he
      obtain ⟨e, he, rfl⟩ := he
      exact ⟨u, hu, e, he, rfl⟩

theorem first_mem (log : List (List String)) (c : String) (h : IsFirst log c ∨ IsLast log c) : c ∈ log.flatten := by
  rcases h with ⟨t, ht, h⟩ | ⟨t, ht, h⟩
  · exact List.mem_flatten.mpr ⟨t, ht, List.mem_of_head? h⟩
  · exact List.mem_flatten.mpr ⟨t, ht, List.mem_of_getLast? h⟩

theorem sets_ok {info : Info} {c u : String → String → Prop} {sets : List ASet}
    (h0 : ∀ x ∈ sets, x.left.Pairwise (· < ·) ∧ x.right.Pairwise (· < ·))
    (h1 : ∀ p, p ∈ sets.map sides ↔ MaximalPair c u p) (hk : ∀ a b, c a b → a ∈ info.classes.keys ∧ b ∈ info.classes.keys) :
    ∀ x ∈ sets, x.left.Nodup ∧ x.right.Nodup ∧ (∀ a ∈ x.left, a ∈ info.classes.keys) ∧ (∀ a ∈ x.right, a ∈ info.classes.keys) := by
  intro x hx
  have hm := ((h1 (sides x)).mp (List.mem_map_of_mem hx)).1
  obtain ⟨a, ha⟩ := hm.left
  obtain ⟨b, hb⟩ := hm.right
  refine ⟨(h0 x hx).1.imp (fun h => ne_of_lt h), (h0 x hx).2.imp (fun h => ne_of_lt h), ?_, ?_⟩
  · intro d hd; exact (hk _ _ (hm.causal d (List.mem_toFinset.mpr hd) b hb)).1
  · intro d hd; exact (hk _ _ (hm.causal a ha d (List.mem_toFinset.mpr hd))).2

theorem kept_eq (log : List (List E)) (loops : List String) : keptNamesOf loops log = (withoutLoops (namesOf log) loops).flatten := by
  unfold keptNamesOf namesOf withoutLoops
  rw [List.flatMap_def, List.map_map]
  congr 1

theorem directly_mem {log : List (List String)} {a b : String} (h : Directly log a b) : a ∈ log.flatten ∧ b ∈ log.flatten := by
  obtain ⟨t, ht, h⟩ := h
  exact ⟨List.mem_flatten.mpr ⟨t, ht, h.subset (by simp)⟩, List.mem_flatten.mpr ⟨t, ht, h.subset (by simp)⟩⟩

theorem classes_WF (it : Iter) (log : List (List E)) (ignored : Option (List String)) : (createInfo it log ignored).classes.WF := by
  rw [createInfo_eq]; exact counter_WF _

/-- A place for each set, and the start and the end place. -/
theorem places_shape {pids : List Nat} {sets : List ASet} (hl : pids.length = sets.length) (st en : Nat) (extra : List Place) :
    ((setPlaces pids sets ++ [⟨st, "StartPlace", none⟩, ⟨en, "EndPlace", none⟩] ++ extra : List Place)).map (fun p : Place => (p.name, p.set)) =
      sets.map (fun x => (x.text, some x)) ++ [("StartPlace", none), ("EndPlace", none)] ++
        extra.map (fun p => (p.name, p.set)) := by
  rw [List.map_append, List.map_append, (setPlaces_ids pids sets hl).2]
  rfl

/-- C113: if the hash tells the sequences of names apart that can occur, the alpha algorithm always gives a net, for every order of
iteration: it has one transition for every class and no silent ones; one place for every maximal pair of sets, a start place and an
end place; the arcs are exactly those of the algorithm, each once; the markings have one token in the start and the end place; the
identifiers are all different. -/
theorem C113_alpha_net (it : Iter) (hash : List String → Nat) (next : Nat) (log : List (List E))
    (hh : TellsApart hash (namesOf log).flatten.dedup) (fuel : Nat) (hf : (namesOf log).flatten.dedup.length < fuel) :
    ∃ (s : Building) (sets : List ASet), discoverAlpha it hash fuel next log = some s ∧ WellFormed s.net ∧
      (∀ x ∈ sets, x.left.Pairwise (· < ·) ∧ x.right.Pairwise (· < ·)) ∧ (sets.map sides).Nodup ∧
      (∀ p, p ∈ sets.map sides ↔ MaximalPair (Causal (namesOf log)) (Unrelated (namesOf log)) p) ∧
      s.net.places.map (fun p => (p.name, p.set)) =
        sets.map (fun x => (x.text, some x)) ++ [("StartPlace", none), ("EndPlace", none)] ∧
      (s.net.transitions.map Trans.name).Perm (namesOf log).flatten.dedup ∧
      (∀ t ∈ s.net.transitions, Connected (IsFirst (namesOf log)) (IsLast (namesOf log)) s.net t) ∧
      ∃ st ∈ s.net.places, ∃ en ∈ s.net.places, st.name = "StartPlace" ∧ en.name = "EndPlace" ∧
        s.net.initial = some [(st.id, 1)] ∧ s.net.final = some [(en.id, 1)] ∧ Drawn s := by
  obtain ⟨sets, hs, hsort, hnd, hmax⟩ := C112_alpha_sets_partial it hash log hh fuel hf
  have hperm := classes_perm it log none
  rw [Option.getD_none, keptNamesOf_nil] at hperm
  have hok := sets_ok (info := createInfo it log) hsort hmax (fun a b h => by
    obtain ⟨k1, k2⟩ := directly_mem h.1
    exact ⟨hperm.mem_iff.mp (List.mem_dedup.mpr k1), hperm.mem_iff.mp (List.mem_dedup.mpr k2)⟩)
  obtain ⟨_, _, hn1, hn2⟩ := C110_starts_ends it log none false ""
  obtain ⟨k1, k2⟩ := createNet_spec it next (createInfo it log) sets (classes_WF it log none) hok hn1 hn2
  have hsome : createNet it next (createInfo it log) sets ≠ none := by
    rw [Ne, k1]
    rintro ⟨c, hc, hnc⟩
    rw [(starts_iff it log none c).1, (starts_iff it log none c).2] at hc
    exact hnc (hperm.mem_iff.mp (List.mem_dedup.mpr (first_mem _ _ hc)))
  obtain ⟨s, hcn⟩ := Option.ne_none_iff_exists'.mp hsome
  obtain ⟨pids, st, en, hl, hfr, hpl, hin, hfi, hnm, hv⟩ := k2 s hcn
  have hd := distinct_of_fresh hfr
  have hpn : (s.net.places.map Place.id).Nodup := (List.nodup_append.mp (List.nodup_append.mp hd).1).1
  have hview : ∀ t ∈ s.net.transitions, t.view ∈ s.views := fun t ht => List.mem_map_of_mem ht
  have hnet : ∀ t ∈ s.net.transitions, _ := fun t ht =>
    net_of_views (first := IsFirst (namesOf log)) (last := IsLast (namesOf log)) (fun c => (starts_iff it log none c).1)
      (fun c => (starts_iff it log none c).2) hl hpl hpn [] (by simp) (by simpa using hpn) t.view (hv _ (hview t ht)).2.1
      (hv _ (hview t ht)).2.2
  refine ⟨s, sets, ?_, ⟨hd, ?_⟩, hsort, hnd, hmax, ?_, ?_, ?_, ?_⟩
  · unfold discoverAlpha; simp only [hs, Option.bind_some, hcn]
  · intro t ht a ha
    obtain ⟨p, hp, he⟩ := (hnet t ht).2 a.place (by
      simp only [Trans.view, ← List.map_append]
      exact List.mem_map_of_mem ha)
    exact ⟨p, by simpa using hp, he⟩
  · rw [hpl]; simpa using places_shape hl st en []
  · have : s.views.map View.name = s.net.transitions.map Trans.name := by
      unfold Building.views; rw [List.map_map]; rfl
    rw [← this, hnm]
    exact (it.perm _ _ _).trans hperm.symm
  · intro t ht
    refine ⟨(hv _ (hview t ht)).1, fun p hp => ?_⟩
    exact (hnet t ht).1 p (by simpa using hp)
  · exact ⟨⟨st, "StartPlace", none⟩, by rw [hpl]; simp, ⟨en, "EndPlace", none⟩, by rw [hpl]; simp, rfl, rfl, hin, hfi, drawn_of_fresh hfr⟩

/-- The log of the example has a choice and a parallel part. -/
example : ((discoverAlpha .plain exHash 6 0 exAlpha).map (fun s => s.net.places.map Place.name)) =
      some ["({a}, {b,e})", "({a}, {c,e})", "({b,e}, {d})", "({c,e}, {d})", "StartPlace", "EndPlace"] ∧
    TellsApart exHash (namesOf exAlpha).flatten.dedup ∧ (namesOf exAlpha).flatten.dedup.length < 6 := by
  refine ⟨by decide +kernel, exHash_apart _, by decide +kernel⟩

/-! ### Alpha+ -/

theorem tellsApart_sub {hash : List String → Nat} {l m : List String} (h : TellsApart hash l) (hn : m.Nodup) (hs : ∀ x ∈ m, x ∈ l) :
    TellsApart hash m := by
  have hlen : m.length ≤ l.length := (List.subperm_of_subset hn hs).length_le
  intro s t h1 h2 h3 h4 h5
  exact h s t (le_trans h1 hlen) (le_trans h2 hlen) (fun x hx => hs x (h3 x hx)) (fun x hx => hs x (h4 x hx)) h5

theorem mem_without (log : List (List String)) (loops : List String) (c : String) :
    c ∈ (withoutLoops log loops).flatten ↔ c ∈ log.flatten ∧ c ∉ loops := by
  unfold withoutLoops
  simp only [List.mem_flatten, List.mem_map]
  constructor
  · rintro ⟨_, ⟨t, ht, rfl⟩, h⟩
    rw [List.mem_filter, decide_eq_true_eq] at h
    exact ⟨⟨t, ht, h.1⟩, h.2⟩
  · rintro ⟨⟨t, ht, h⟩, hn⟩
    exact ⟨_, ⟨t, ht, rfl⟩, List.mem_filter.mpr ⟨h, by simpa using hn⟩⟩

theorem loopSet_name (it : Iter) (log : List (List E)) (c : String) :
    LoopName (namesOf log) c (loopSet (createInfo it log) c).text := by
  have key : ∀ (d : Dict String (Dict String Nat)) (a x : String),
      x ∈ ((d.get? a).getD []).keys ↔ ∃ n m, d.get? a = some m ∧ m.get? x = some n := by
    intro d a x
    cases h : d.get? a with
    | none => simp [Dict.keys]
    | some m =>
      rw [Option.getD_some, Dict.mem_keys_iff _ _]
      constructor
      · rintro ⟨n, hn⟩; exact ⟨n, m, rfl, hn⟩
      · rintro ⟨n, m', hm, hn⟩; cases hm; exact ⟨n, hn⟩
  refine ⟨loopSet (createInfo it log) c, (sortedSet_spec _).1, (sortedSet_spec _).1, ?_, ?_, rfl⟩
  · intro a
    unfold loopSet
    rw [(sortedSet_spec _).2, List.mem_filter, decide_eq_true_eq, key, ← directly_iff]
    refine and_congr ?_ Iff.rfl
    constructor
    · rintro ⟨n, hn⟩
      obtain ⟨h1, h2⟩ := ((C110_followers it log none false a c n).2).mp hn
      exact List.count_pos_iff.mp (h1 ▸ h2)
    · intro h
      exact ⟨_, ((C110_followers it log none false a c _).2).mpr ⟨rfl, List.count_pos_iff.mpr h⟩⟩
  · intro a
    unfold loopSet
    rw [(sortedSet_spec _).2, List.mem_filter, decide_eq_true_eq, key, ← directly_iff]
    refine and_congr ?_ Iff.rfl
    constructor
    · rintro ⟨n, hn⟩
      obtain ⟨h1, h2⟩ := ((C110_followers it log none false c a n).1).mp hn
      exact List.count_pos_iff.mp (h1 ▸ h2)
    · intro h
      exact ⟨_, ((C110_followers it log none false c a _).1).mpr ⟨rfl, List.count_pos_iff.mpr h⟩⟩

/-- What Alpha+ does, in the terms of the proofs. -/
theorem alphaPlus_shape (it : Iter) (hash : List String → Nat) (next : Nat) (log : List (List E))
    (hh : TellsApart hash (namesOf log).flatten.dedup) (fuel : Nat) (hf : (namesOf log).flatten.dedup.length < fuel) :
    (discoverAlphaPlus it hash fuel next log = none ↔ (∃ t ∈ namesOf log, t.length < 2) ∨
      ∃ c, Directly (namesOf log) c c ∧ (IsFirst (namesOf log) c ∨ IsLast (namesOf log) c)) ∧
    ∀ s, discoverAlphaPlus it hash fuel next log = some s → ∃ loops sets base pids st en extra added,
      oneLoops (namesOf log) = some loops ∧
      (∀ x ∈ sets, x.left.Pairwise (· < ·) ∧ x.right.Pairwise (· < ·)) ∧ (sets.map sides).Nodup ∧
      (∀ p, p ∈ sets.map sides ↔
        MaximalPair (PlusCausal (namesOf log) loops) (Unrelated (withoutLoops (namesOf log) loops)) p) ∧
      pids.length = sets.length ∧ Fresh next base ∧ Fresh next s ∧
      base.net.places = setPlaces pids sets ++ [⟨st, "StartPlace", none⟩, ⟨en, "EndPlace", none⟩] ∧
      s.net.initial = some [(st, 1)] ∧ s.net.final = some [(en, 1)] ∧
      base.views.map View.name = (createInfo it log (some loops)).allClasses it 2 ∧
      (∀ v ∈ base.views, v.silent = false ∧
        v.ins = placesWith pids sets (fun x => decide (v.name ∈ x.right)) ++
          (if v.name ∈ (createInfo it log (some loops)).starts then [st] else []) ∧
        v.outs = placesWith pids sets (fun x => decide (v.name ∈ x.left)) ++
          (if v.name ∈ (createInfo it log (some loops)).ends then [en] else [])) ∧
      s.net.places = base.net.places ++ extra ∧
      (∀ p ∈ extra, p.set = none ∧ (∀ b ∈ base.net.places, b.name ≠ p.name) ∧
        ∃ c ∈ loops, p.name = (loopSet (createInfo it log) c).text) ∧
      (extra.map Place.name).Nodup ∧ s.views = base.views ++ added ∧ (added.map View.name).Perm loops ∧
      ∀ v ∈ added, v.silent = false ∧
        ∃ q ∈ s.net.places, q.name = (loopSet (createInfo it log) v.name).text ∧ v.ins = [q.id] ∧ v.outs = [q.id] := by
  unfold discoverAlphaPlus
  change (((oneLoops (namesOf log)).bind _) = none ↔ _) ∧ _
  obtain ⟨o1, o2⟩ := oneLoops_spec (namesOf log)
  obtain ⟨t1, t2⟩ := triangles_spec (namesOf log)
  change _ ∧ ∀ s, ((oneLoops (namesOf log)).bind _) = some s → _
  cases hloops : oneLoops (namesOf log) with
  | none =>
    refine ⟨?_, fun s hs => by cases hs⟩
    simp only [Option.bind_none, true_iff]
    exact Or.inl ⟨[], o1.mp hloops, by simp⟩
  | some loops =>
    obtain ⟨ln, lm⟩ := o2 loops hloops
    simp only [Option.bind_some]
    change ((triangles (namesOf log)).bind _ = none ↔ _) ∧ ∀ s, (triangles (namesOf log)).bind _ = some s → _
    cases htri : triangles (namesOf log) with
    | none =>
      refine ⟨?_, fun s hs => by cases hs⟩
      simp only [Option.bind_none, true_iff]
      exact Or.inl (t1.mp htri)
    | some tri =>
      simp only [Option.bind_some]
      have hshort : ¬ ∃ t ∈ namesOf log, t.length < 2 := by rw [← t1, htri]; simp
      have hsub : ∀ x ∈ (withoutLoops (namesOf log) loops).flatten.dedup, x ∈ (namesOf log).flatten.dedup := by
        intro x hx
        rw [List.mem_dedup] at hx ⊢
        exact ((mem_without _ _ _).mp hx).1
      have hlen := (List.subperm_of_subset (List.nodup_dedup _) hsub).length_le
      obtain ⟨sets, hs, hsort, hnd, hmax⟩ := C112_alpha_plus_sets_partial it hash log loops tri htri
        (tellsApart_sub hh (List.nodup_dedup _) hsub) fuel (lt_of_le_of_lt hlen hf)
      have hperm := classes_perm it log (some loops)
      rw [Option.getD_some, kept_eq] at hperm
      have hkeys : ∀ c, c ∈ (createInfo it log (some loops)).classes.keys ↔ c ∈ (namesOf log).flatten ∧ c ∉ loops := by
        intro c
        rw [← hperm.mem_iff, List.mem_dedup, mem_without]
      have hok := sets_ok (info := createInfo it log (some loops)) (c := PlusCausal (namesOf log) loops) hsort hmax (fun a b h => by
        obtain ⟨k1, k2⟩ := directly_mem h.1
        exact ⟨hperm.mem_iff.mp (List.mem_dedup.mpr k1), hperm.mem_iff.mp (List.mem_dedup.mpr k2)⟩)
      obtain ⟨_, _, hn1, hn2⟩ := C110_starts_ends it log (some loops) false ""
      obtain ⟨k1, k2⟩ := createNet_spec it next (createInfo it log (some loops)) sets (classes_WF it log _) hok hn1 hn2
      have hnone : createNet it next (createInfo it log (some loops)) sets = none ↔ (∃ t ∈ namesOf log, t.length < 2) ∨
          ∃ c, Directly (namesOf log) c c ∧ (IsFirst (namesOf log) c ∨ IsLast (namesOf log) c) := by
        rw [k1, or_iff_right hshort]
        refine exists_congr (fun c => ?_)
        rw [(starts_iff it log (some loops) c).1, (starts_iff it log (some loops) c).2, hkeys, ← lm c, and_comm]
        refine and_congr_left (fun hc => ?_)
        have hm := first_mem _ _ hc
        exact ⟨fun h => by_contra (fun hn => h ⟨hm, hn⟩), fun h hn => hn.2 h⟩
      simp only [hs, Option.bind_some]
      cases hcn : createNet it next (createInfo it log (some loops)) sets with
      | none => exact ⟨by simp only [Option.bind_none, true_iff]; exact hnone.mp hcn, fun s hs => by cases hs⟩
      | some base =>
        obtain ⟨pids, st, en, hl, hfr, hpl, hin, hfi, hnm, hv⟩ := k2 base hcn
        obtain ⟨s', extra, added, a1, a2, a3, a4, a5, a6, a7, a8, a9, a10⟩ := addLoops_spec it (createInfo it log)
          (it.order "one_length_loop_transitions" 0 loops).zipIdx hfr
        have hmem : ∀ c ∈ (it.order "one_length_loop_transitions" 0 loops).zipIdx, c.1 ∈ loops := by
          rintro ⟨c, n⟩ hc
          exact ((it.perm _ _ _).mem_iff).mp (List.fst_mem_of_mem_zipIdx hc)
        have hal : addLoops it log loops base = some s' := a1
        simp only [Option.bind_some, hal]
        constructor
        · constructor
          · intro h; cases h
          · intro h; rw [hnone.mpr h] at hcn; cases hcn
        · rintro s ⟨⟩
          refine ⟨loops, sets, base, pids, st, en, extra, added, rfl, hsort, hnd, hmax, hl, hfr, a2, hpl, a3.trans hin,
            a4.trans hfi, hnm, hv, a5, ?_, a7, a8, ?_, a10⟩
          · intro p hp
            obtain ⟨b1, b2, c, hc, b3⟩ := a6 p hp
            exact ⟨b1, b2, c.1, hmem c hc, b3⟩
          · rw [a9, List.zipIdx_map_fst]
            exact it.perm _ _ _

/-- C114a: Alpha+ panics exactly if some trace has fewer than two events, or if a class that comes directly after itself is the first
or the last one of a trace. -/
theorem C114_panics_iff (it : Iter) (hash : List String → Nat) (next : Nat) (log : List (List E))
    (hh : TellsApart hash (namesOf log).flatten.dedup) (fuel : Nat) (hf : (namesOf log).flatten.dedup.length < fuel) :
    discoverAlphaPlus it hash fuel next log = none ↔ (∃ t ∈ namesOf log, t.length < 2) ∨
      ∃ c, Directly (namesOf log) c c ∧ (IsFirst (namesOf log) c ∨ IsLast (namesOf log) c) :=
  (alphaPlus_shape it hash next log hh fuel hf).1

example : discoverAlphaPlus .plain exHash 3 0 [["a", "a", "b"]] = none ∧ discoverAlphaPlus .plain exHash 3 0 [["a", "b"], ["a"]] = none ∧
    (discoverAlphaPlus .plain exHash 4 0 [["a", "l", "l", "b"]]).isSome = true := by decide +kernel

/-- C114b: otherwise the net of Alpha+ is that of the maximal pairs of the log without the classes that come directly after
themselves, with one more transition for each of these: it takes the token of one place, whose name says which classes come directly
before and after the class, and puts it back. If there is no such place a new one is made. Missing: that the added transition can
occur, which fails for the places that are made (`C114_dead_loop`). -/
theorem C114_alpha_plus_net_partial (it : Iter) (hash : List String → Nat) (next : Nat) (log : List (List E))
    (hh : TellsApart hash (namesOf log).flatten.dedup) (fuel : Nat) (hf : (namesOf log).flatten.dedup.length < fuel)
    (s : Building) (hs : discoverAlphaPlus it hash fuel next log = some s) :
    ∃ (loops : List String) (sets : List ASet) (old extra : List Place), WellFormed s.net ∧
      (∀ a, a ∈ loops ↔ Directly (namesOf log) a a) ∧
      (∀ x ∈ sets, x.left.Pairwise (· < ·) ∧ x.right.Pairwise (· < ·)) ∧ (sets.map sides).Nodup ∧
      (∀ p, p ∈ sets.map sides ↔
        MaximalPair (PlusCausal (namesOf log) loops) (Unrelated (withoutLoops (namesOf log) loops)) p) ∧
      s.net.places = old ++ extra ∧
      old.map (fun p => (p.name, p.set)) = sets.map (fun x => (x.text, some x)) ++ [("StartPlace", none), ("EndPlace", none)] ∧
      (∀ p ∈ extra, p.set = none ∧ p.name ∉ old.map Place.name ∧ (∃ c ∈ loops, LoopName (namesOf log) c p.name) ∧
        ∀ t ∈ s.net.transitions, arcsInto p t = arcsOutOf t p) ∧
      (extra.map Place.name).Nodup ∧
      (s.net.transitions.map Trans.name).Perm (namesOf log).flatten.dedup ∧
      (∀ t ∈ s.net.transitions, t.name ∉ loops → Connected (IsFirst (namesOf log)) (IsLast (namesOf log)) s.net t) ∧
      (∀ t ∈ s.net.transitions, t.name ∈ loops → t.silent = false ∧ ∃ q ∈ s.net.places, LoopName (namesOf log) t.name q.name ∧
        t.incoming.map Arc.place = [q.id] ∧ t.outgoing.map Arc.place = [q.id]) ∧
      ∃ st ∈ old, ∃ en ∈ old, st.name = "StartPlace" ∧ en.name = "EndPlace" ∧
        s.net.initial = some [(st.id, 1)] ∧ s.net.final = some [(en.id, 1)] := by
  obtain ⟨loops, sets, base, pids, st, en, extra, added, h1, hsort, hnd, hmax, hl, hfb, hfr, hpl, hin, hfi, hnm, hv, hpe, hex, hen,
    hvs, hadd, hav⟩ := (alphaPlus_shape it hash next log hh fuel hf).2 s hs
  obtain ⟨ln, lm⟩ := (oneLoops_spec (namesOf log)).2 loops h1
  have hperm := classes_perm it log (some loops)
  rw [Option.getD_some, kept_eq] at hperm
  have hkeys : ∀ c, c ∈ (createInfo it log (some loops)).allClasses it 2 ↔ c ∈ (namesOf log).flatten ∧ c ∉ loops := by
    intro c
    unfold Info.allClasses
    rw [(it.perm _ _ _).mem_iff, ← hperm.mem_iff, List.mem_dedup, mem_without]
  have hd := distinct_of_fresh hfr
  have hpn : (s.net.places.map Place.id).Nodup := (List.nodup_append.mp (List.nodup_append.mp hd).1).1
  have hbn : (base.net.places.map Place.id).Nodup := by
    rw [hpe, List.map_append] at hpn; exact (List.nodup_append.mp hpn).1
  have hex2 : ∀ p ∈ extra, p.set = none ∧ p.name ≠ "StartPlace" ∧ p.name ≠ "EndPlace" := by
    intro p hp
    obtain ⟨e1, e2, _⟩ := hex p hp
    refine ⟨e1, fun h => e2 ⟨st, "StartPlace", none⟩ ?_ h.symm, fun h => e2 ⟨en, "EndPlace", none⟩ ?_ h.symm⟩ <;>
    · rw [hpl]; simp
  have hnet : ∀ v ∈ base.views, _ := fun v hvm =>
    net_of_views (first := IsFirst (namesOf log)) (last := IsLast (namesOf log)) (fun c => (starts_iff it log (some loops) c).1)
      (fun c => (starts_iff it log (some loops) c).2) hl hpl hbn extra hex2 (by rw [← hpe]; exact hpn) v (hv v hvm).2.1
      (hv v hvm).2.2
  have hview : ∀ t ∈ s.net.transitions, (t.view ∈ base.views ∧ t.name ∉ loops) ∨ (t.view ∈ added ∧ t.name ∈ loops) := by
    intro t ht
    have : t.view ∈ s.views := List.mem_map_of_mem ht
    rw [hvs] at this
    rcases List.mem_append.mp this with h | h
    · refine Or.inl ⟨h, ?_⟩
      have hm : t.view.name ∈ base.views.map View.name := List.mem_map_of_mem h
      rw [hnm] at hm
      exact ((hkeys _).mp hm).2
    · refine Or.inr ⟨h, ?_⟩
      have hm : t.view.name ∈ added.map View.name := List.mem_map_of_mem h
      exact hadd.mem_iff.mp hm
  refine ⟨loops, sets, base.net.places, extra, ⟨hd, ?_⟩, lm, hsort, hnd, hmax, hpe, ?_, ?_, hen, ?_, ?_, ?_, ?_⟩
  · intro t ht a ha
    have hm : a.place ∈ t.view.ins ++ t.view.outs := by
      simp only [Trans.view, ← List.map_append]; exact List.mem_map_of_mem ha
    rcases hview t ht with ⟨h, _⟩ | ⟨h, _⟩
    · obtain ⟨p, hp, he⟩ := (hnet _ h).2 a.place hm
      exact ⟨p, by rw [hpe]; exact hp, he⟩
    · obtain ⟨_, q, hq, _, q1, q2⟩ := hav _ h
      rw [q1, q2] at hm
      simp only [List.cons_append, List.nil_append, List.mem_cons, List.not_mem_nil, or_false, or_self] at hm
      exact ⟨q, hq, hm.symm⟩
  · rw [hpl]; simpa using places_shape hl st en []
  · intro p hp
    obtain ⟨e1, e2, c, hc, e3⟩ := hex p hp
    refine ⟨e1, ?_, ⟨c, hc, e3 ▸ loopSet_name it log c⟩, ?_⟩
    · intro h
      obtain ⟨b, hb, he⟩ := List.mem_map.mp h
      exact e2 b hb he
    · intro t ht
      rcases hview t ht with ⟨h, _⟩ | ⟨h, _⟩
      · obtain ⟨x1, x2, x3⟩ := hex2 p hp
        have hc := (hnet _ h).1 p (List.mem_append_right _ hp)
        have z1 : arcsInto p t = 0 := hc.2.1 (by simp [ComesAfter, x1, x2])
        have z2 : arcsOutOf t p = 0 := hc.2.2.2 (by simp [ComesBefore, x1, x3])
        rw [z1, z2]
      · obtain ⟨_, q, hq, _, q1, q2⟩ := hav _ h
        show t.view.ins.count p.id = t.view.outs.count p.id
        rw [q1, q2]
  · have e : s.net.transitions.map Trans.name = s.views.map View.name := by
      unfold Building.views; rw [List.map_map]; rfl
    rw [e, hvs, List.map_append, hnm]
    have hn0 : ((createInfo it log (some loops)).allClasses it 2).Nodup :=
      (it.perm _ _ _).nodup_iff.mpr (classes_WF it log (some loops))
    have hn2 : (added.map View.name).Nodup := hadd.nodup_iff.mpr ln
    refine (List.perm_ext_iff_of_nodup ?_ (List.nodup_dedup _)).mpr (fun c => ?_)
    · refine List.nodup_append.mpr ⟨hn0, hn2, ?_⟩
      rintro a ha b hb rfl
      exact ((hkeys a).mp ha).2 (hadd.mem_iff.mp hb)
    · rw [List.mem_append, hkeys, hadd.mem_iff, List.mem_dedup]
      constructor
      · rintro (h | h)
        · exact h.1
        · exact (directly_mem ((lm c).mp h)).1
      · intro h
        by_cases hc : c ∈ loops
        · exact Or.inr hc
        · exact Or.inl ⟨h, hc⟩
  · intro t ht hnl
    rcases hview t ht with ⟨h, _⟩ | ⟨_, h⟩
    · refine ⟨(hv _ h).1, fun p hp => ?_⟩
      exact (hnet _ h).1 p (by rw [← hpe]; exact hp)
    · exact absurd h hnl
  · intro t ht hlp
    rcases hview t ht with ⟨_, h⟩ | ⟨h, _⟩
    · exact absurd hlp h
    · obtain ⟨q0, q, hq, q1, q2, q3⟩ := hav _ h
      exact ⟨q0, q, hq, q1 ▸ loopSet_name it log t.name, q2, q3⟩
  · exact ⟨⟨st, "StartPlace", none⟩, by rw [hpl]; simp, ⟨en, "EndPlace", none⟩, by rw [hpl]; simp, rfl, rfl, hin, hfi⟩

/-- A loop whose place is found: `l` comes between `a` and `b`, and only there. -/
example : (discoverAlphaPlus .plain exHash 4 0 [["a", "l", "l", "b"]]).map (fun s => (s.net.places.map Place.name,
      s.net.transitions.map (fun t => (t.name, t.incoming.map Arc.place, t.outgoing.map Arc.place)))) =
      some (["({a}, {b})", "StartPlace", "EndPlace"], [("a", [5], [2]), ("b", [2], [7]), ("l", [2], [2])]) ∧
    TellsApart exHash (namesOf [["a", "l", "l", "b"]]).flatten.dedup := by
  refine ⟨by decide +kernel, exHash_apart _⟩

/-- C114c: the class of a loop can lose its place in the net. The classes around the loop are not the sides of a place of the net
here, so that the transition of the loop gets a place of its own, which no other transition is connected with and which is not marked:
it can never fire, although its class occurs in the log. -/
theorem C114_dead_loop : ∃ (log : List (List String)) (s : Building) (t : Trans) (p : Place),
    discoverAlphaPlus .plain exHash 6 0 log = some s ∧ TellsApart exHash (namesOf log).flatten.dedup ∧
    (namesOf log).flatten.dedup.length < 6 ∧ t ∈ s.net.transitions ∧ t.name = "l" ∧
    p ∈ s.net.places ∧ t.incoming.map Arc.place = [p.id] ∧ s.net.initial ≠ none ∧ (∀ m, s.net.initial = some m → p.id ∉ m.map Prod.fst) ∧
    ∀ u ∈ s.net.transitions, u ≠ t → arcsOutOf u p = 0 := by
  have h : (discoverAlphaPlus .plain exHash 6 0 [["a", "l", "l", "b", "d"], ["a", "c", "d"]]).isSome = true := by decide +kernel
  obtain ⟨s, hs⟩ := Option.isSome_iff_exists.mp h
  have key : ∀ s, discoverAlphaPlus .plain exHash 6 0 [["a", "l", "l", "b", "d"], ["a", "c", "d"]] = some s →
      ∃ t ∈ s.net.transitions, ∃ p ∈ s.net.places, t.name = "l" ∧ t.incoming.map Arc.place = [p.id] ∧
        s.net.initial.all (fun m => decide (p.id ∉ m.map Prod.fst)) = true ∧ s.net.initial ≠ none ∧
        ∀ u ∈ s.net.transitions, u ≠ t → arcsOutOf u p = 0 := by
    intro s hs
    have : ((discoverAlphaPlus .plain exHash 6 0 [["a", "l", "l", "b", "d"], ["a", "c", "d"]]).all (fun s =>
      decide (∃ t ∈ s.net.transitions, ∃ p ∈ s.net.places, t.name = "l" ∧ t.incoming.map Arc.place = [p.id] ∧
        s.net.initial.all (fun m => decide (p.id ∉ m.map Prod.fst)) = true ∧ s.net.initial ≠ none ∧
        ∀ u ∈ s.net.transitions, u ≠ t → (u.outgoing.map Arc.place).count p.id = 0))) = true := by decide +kernel
    rw [hs] at this
    simpa [arcsOutOf] using this
  obtain ⟨t, ht, p, hp, k1, k2, k3, k4, k5⟩ := key s hs
  refine ⟨_, s, t, p, hs, exHash_apart _, by decide +kernel, ht, k1, hp, k2, k4, ?_, k5⟩
  intro m hm
  rw [hm] at k3
  simpa using k3

/-! ### Alpha++ -/

/-- C115: Alpha++ gives the net of Alpha+, which it extends by nothing, whatever the log is; but it panics as well if no place was
made from a set, neither in this net nor before in the process. -/
theorem C115_alpha_plus_plus (it : Iter) (hash : List String → Nat) (ready : Bool) (next : Nat) (log : List (List E))
    (hh : TellsApart hash (namesOf log).flatten.dedup) (fuel : Nat) (hf : (namesOf log).flatten.dedup.length < fuel) :
    discoverAlphaPlusPlus it hash ready fuel next log = (discoverAlphaPlus it hash fuel next log).bind (fun s =>
      if ready = true ∨ ∃ p ∈ s.net.places, p.set ≠ none then some s else none) := by
  unfold discoverAlphaPlusPlus
  cases hs : discoverAlphaPlus it hash fuel next log with
  | none => simp
  | some s =>
    obtain ⟨loops, sets, base, pids, st, en, extra, added, h1, hsort, hnd, hmax, hl, _, hfr, hpl, _, _, _, _, hpe, hex, _⟩ :=
      (alphaPlus_shape it hash next log hh fuel hf).2 s hs
    have h1' : oneLoops (log.map (fun t => t.map name)) = some loops := h1
    rw [h1', Option.bind_some, Option.bind_some, Option.bind_some]
    apply addPlusPlus_spec
    have hpn : (s.net.places.map Place.id).Nodup :=
      (List.nodup_append.mp (List.nodup_append.mp (distinct_of_fresh hfr)).1).1
    intro p hp q hq x y hx hy hsub
    have hin : ∀ p ∈ s.net.places, ∀ x, p.set = some x → p ∈ setPlaces pids sets ∧ x ∈ sets := by
      intro p hp x hx
      rw [hpe, hpl] at hp
      have hp1 : p ∈ setPlaces pids sets := by
        rcases List.mem_append.mp hp with hp | hp
        · rcases List.mem_append.mp hp with hp | hp
          · exact hp
          · simp only [List.mem_cons, List.not_mem_nil, or_false] at hp
            rcases hp with rfl | rfl <;> cases hx
        · rw [(hex p hp).1] at hx; cases hx
      refine ⟨hp1, ?_⟩
      have hm : (p.name, p.set) ∈ (setPlaces pids sets).map (fun p => (p.name, p.set)) := List.mem_map_of_mem hp1
      rw [(setPlaces_ids pids sets hl).2] at hm
      obtain ⟨z, hz, he⟩ := List.mem_map.mp hm
      have he2 := (Prod.mk.inj he).2
      rw [hx] at he2
      cases he2
      exact hz
    obtain ⟨hp1, hxs⟩ := hin p hp x hx
    obtain ⟨hq1, hys⟩ := hin q hq y hy
    have hsx := (hmax (sides x)).mp (List.mem_map_of_mem hxs)
    have hsy := (hmax (sides y)).mp (List.mem_map_of_mem hys)
    unfold ASet.fullSubset at hsub
    rw [Bool.and_eq_true] at hsub
    have he : sides y = sides x := hsx.2 _ hsy.1 ((leftSubset_iff x y).mp hsub.1) ((rightSubset_iff x y).mp hsub.2)
    have hxy : y = x := (List.nodup_map_iff_inj_on (List.Nodup.of_map _ hnd)).mp hnd y hys x hxs he
    subst hxy
    have hset : ((setPlaces pids sets).map (fun p => (p.name, p.set))).Nodup := by
      rw [(setPlaces_ids pids sets hl).2]
      refine (List.nodup_map_iff_inj_on (List.Nodup.of_map _ hnd)).mpr (fun a _ b _ h => ?_)
      simpa using (Prod.mk.inj h).2
    have hname : p.name = q.name := by
      obtain ⟨a, a1, a2, a3⟩ := placesWith_count pids sets hl (by
        rw [hpe, hpl, List.map_append, List.map_append, (setPlaces_ids pids sets hl).1] at hpn
        exact (List.nodup_append.mp (List.nodup_append.mp hpn).1).1) (fun _ => true) p hp1
      obtain ⟨b, b1, b2, b3⟩ := placesWith_count pids sets hl (by
        rw [hpe, hpl, List.map_append, List.map_append, (setPlaces_ids pids sets hl).1] at hpn
        exact (List.nodup_append.mp (List.nodup_append.mp hpn).1).1) (fun _ => true) q hq1
      rw [hx] at a1; rw [hy] at b1; cases a1; cases b1
      rw [a3.1, b3.1]
    have : p = q := (List.nodup_map_iff_inj_on (List.Nodup.of_map _ hset)).mp hset p hp1 q hq1 (by
      simp only [hname, hx, hy])
    rw [this]

/-- Alpha++ panics for a log in which nothing is causal; afterwards the same log works in the same process. -/
example : discoverAlphaPlusPlus .plain exHash false 3 0 [["a", "b"], ["b", "a"]] = none ∧
    (discoverAlphaPlusPlus .plain exHash true 3 0 [["a", "b"], ["b", "a"]]).isSome = true ∧
    TellsApart exHash (namesOf [["a", "b"], ["b", "a"]]).flatten.dedup := by
  refine ⟨by decide +kernel, by decide +kernel, exHash_apart _⟩

end Ficus.Rs
