import Verif.Proofs.Repeats

/-! Properties C82 (maximal repeats), C83 (super maximal repeats) and C84 (near super maximal repeats). The suffix trees and
the order of sets are arbitrary, as long as they follow the contract `LawfulTrees`. -/

namespace Ficus
open Spec

variable {E : Type}

/-- The contract can be met. -/
example : LawfulTrees slowTrees := slowTrees_lawful

/-- Class names written as one letter each. -/
def letters (s : String) : List String := s.toList.map (fun c => String.ofList [c])

/-- The log of the tests: log_creators.py, `create_list_of_raw_events_for_maximal_repeat`. -/
def repeatsLog : Log String :=
  Log.ofEvs (["aabcdbbcda", "dabcdabcbb", "bbbcdbbbccaa", "aaadabbccc", "aaacdcdcbedbccbadbdebdc"].map letters)

/-- The reported words of a log. -/
def reported (log : Log String) (subs : List (List SubArray)) : List (List String) :=
  (log.evs.zip subs).map (fun p => (words p.1 p.2).map String.join)

/-- The same words per trace, in any order. -/
def sameWords (a b : List (List String)) : Bool := a.length == b.length && (a.zip b).all (fun p => p.1.isPerm p.2)

/-- The hypotheses of the theorems below hold for the log of the tests. -/
example : ∀ trace ∈ repeatsLog.evs, HashesDiffer id trace := by unfold HashesDiffer; decide +kernel

/-- C82a: for every trace exactly the maximal repeats of its sequence of hashes are reported, each once, by one of its
occurrences. -/
theorem C82_hashes {lib : TreeLib} (h : LawfulTrees lib) (ext : E → String) (log : Log E) :
    List.Forall₂ (fun trace subs => Reports MaximalRepeat (trace.map (fun e => stringHash (ext e))) subs)
      log.evs (findMaximalRepeats lib ext log) := findMaximalRepeats_reports h ext log

/-- C82b: for a trace whose classes have different hashes, exactly the maximal repeats of its sequence of classes. -/
theorem C82_classes {lib : TreeLib} (h : LawfulTrees lib) (ext : E → String) (log : Log E) :
    List.Forall₂ (fun trace subs => HashesDiffer ext trace → Reports MaximalRepeat (trace.map ext) subs)
      log.evs (findMaximalRepeats lib ext log) :=
  (C82_hashes h ext log).imp (fun _ _ hr hd => (reports_classes hd).1 hr)

/-- C82c: then every occurrence of every repeated word of classes lies inside of an occurrence of a reported one, and only
repeated words are reported. -/
theorem C82_covers {lib : TreeLib} (h : LawfulTrees lib) (ext : E → String) (log : Log E) :
    List.Forall₂ (fun trace subs => HashesDiffer ext trace →
        (∀ w, IsRepeat (trace.map ext) w → ∀ i, OccursAt w (trace.map ext) i → InReported (trace.map ext) subs w i) ∧
        ∀ w ∈ words (trace.map ext) subs, IsRepeat (trace.map ext) w)
      log.evs (findMaximalRepeats lib ext log) := by
  refine (C82_classes h ext log).imp (fun trace subs hr hd => ⟨fun w hw i hi => ?_, fun w hw => ?_⟩)
  · obtain ⟨w', j, h1, h2, h3, h4, _⟩ := hw.extends _ w (Nat.le_refl _) i hi
    exact ⟨w', ((hr hd).2.2 w').2 h1, j, h2, h3, h4⟩
  · exact (((hr hd).2.2 w).1 hw).isRepeat

example : sameWords (reported repeatsLog (findMaximalRepeats slowTrees id repeatsLog))
    [["a", "b", "bcd"], ["dabc", "b"], ["b", "bb", "bbbc", "c", "a"], ["a", "aa", "b", "c", "cc"],
      ["a", "aa", "c", "cdc", "cb", "d", "dc", "db", "b", "bd", "e"]] = true := by decide +kernel

/-- C82d: the hypothesis is needed: the classes `aB` and `BC` have the same hash, so that a repeat is reported in a trace
in which no class occurs twice. -/
theorem C82_collision {lib : TreeLib} (h : LawfulTrees lib) :
    ∃ subs, findMaximalRepeats lib id (Log.ofEvs [["aB", "x", "BC"]]) = [subs] ∧ subs ≠ [] ∧
      ∀ w, ¬ IsRepeat ["aB", "x", "BC"] w := by
  have hr := C82_hashes h id (Log.ofEvs [["aB", "x", "BC"]])
  refine ⟨_, rfl, ?_, ?_⟩
  · intro he
    have hr : Reports MaximalRepeat ((["aB", "x", "BC"] : List String).map (fun e => stringHash (id e)))
        (maximalRepeatsOf lib ((["aB", "x", "BC"] : List String).map (fun e => stringHash (id e)))) := by
      have := allMaximal_of_lawful h ((["aB", "x", "BC"] : List String).map (fun e => stringHash (id e)))
      exact ⟨this.inside, this.nodup, this.mem⟩
    rw [he] at hr
    have hm : MaximalRepeat ((["aB", "x", "BC"] : List String).map (fun e => stringHash (id e))) [stringHash "aB"] := by
      rw [← isMaximal_iff]
      decide +kernel
    have := (hr.2.2 _).2 hm
    simp [words] at this
  · rintro w ⟨hw, i, j, hij, hi, hj⟩
    obtain ⟨a, w', rfl⟩ := List.exists_cons_of_ne_nil hw
    have h1 := hi.le
    have h2 := hj.le
    have g : ∀ {i : Nat}, OccursAt (a :: w') ["aB", "x", "BC"] i → (["aB", "x", "BC"] : List String)[i]? = some a := by
      rintro i ⟨pre, post, he, rfl⟩
      rw [he, List.append_assoc, List.getElem?_append_right (Nat.le_refl _), Nat.sub_self]
      rfl
    have e := (g hi).trans (g hj).symm
    simp only [List.length_cons, List.length_nil] at h1 h2
    have hi3 : i < 3 := by omega
    have hj3 : j < 3 := by omega
    have hnd : (["aB", "x", "BC"] : List String).Nodup := by decide
    rw [List.getElem?_eq_getElem (by simpa using hi3), List.getElem?_eq_getElem (by simpa using hj3),
      Option.some.injEq] at e
    exact hij ((List.Nodup.getElem_inj_iff hnd).1 e)

/-- C83a: for every trace exactly the super maximal repeats of its sequence of hashes are reported, each once. -/
theorem C83_hashes {lib : TreeLib} (h : LawfulTrees lib) (ext : E → String) (log : Log E) :
    List.Forall₂ (fun trace subs => Reports SuperMaximal (trace.map (fun e => stringHash (ext e))) subs)
      log.evs (findSuperMaximalRepeats lib ext log) := findSuperMaximalRepeats_reports h ext log

/-- C83b: for a trace whose classes have different hashes, the reported words are exactly the words of classes that occur at
least twice and are not part of a longer word that does. -/
theorem C83_classes {lib : TreeLib} (h : LawfulTrees lib) (ext : E → String) (log : Log E) :
    List.Forall₂ (fun trace subs => HashesDiffer ext trace →
        Reports (fun t w => IsRepeat t w ∧ ∀ w', IsRepeat t w' → w <:+: w' → w' = w) (trace.map ext) subs)
      log.evs (findSuperMaximalRepeats lib ext log) :=
  (C83_hashes h ext log).imp (fun _ _ hr hd => by
    obtain ⟨h1, h2, h3⟩ := (reports_classes hd).2.1 hr
    exact ⟨h1, h2, fun w => (h3 w).trans superMaximal_iff⟩)

/-- C83c: per trace the super maximal repeats are maximal repeats, in the same order. -/
theorem C83_sublist {lib : TreeLib} (ext : E → String) (log : Log E) :
    List.Forall₂ (fun subs all => List.Sublist subs all) (findSuperMaximalRepeats lib ext log)
      (findMaximalRepeats lib ext log) := by
  unfold findSuperMaximalRepeats findMaximalRepeats
  induction hashTraces ext log with
  | nil => exact .nil
  | cons t ts ih =>
    simp only [List.map_cons, List.zip_cons_cons]
    exact .cons List.filter_sublist ih

example : sameWords (reported repeatsLog (findSuperMaximalRepeats slowTrees id repeatsLog))
    [["a", "bcd"], ["dabc"], ["bbbc", "a"], ["aa", "b", "cc"], ["aa", "cdc", "cb", "db", "bd", "e"]] = true := by decide +kernel

/-- C84a: the search never fails, and for every trace exactly the near super maximal repeats of its sequence of hashes are
reported, each once, whatever the order of the sets that it iterates. -/
theorem C84_hashes {lib : TreeLib} (h : LawfulTrees lib) (ext : E → String) (log : Log E) :
    ∃ out, findNearSuperMaximalRepeats lib ext log = .ok out ∧
      List.Forall₂ (fun trace subs => Reports NearSuperMaximal (trace.map (fun e => stringHash (ext e))) subs)
        log.evs out := by
  obtain ⟨out, h1, h2, _⟩ := findNearSuperMaximalRepeats_reports h ext log
  exact ⟨out, h1, h2⟩

/-- C84b: for a trace whose classes have different hashes, exactly those of its sequence of classes. -/
theorem C84_classes {lib : TreeLib} (h : LawfulTrees lib) (ext : E → String) (log : Log E) :
    ∃ out, findNearSuperMaximalRepeats lib ext log = .ok out ∧
      List.Forall₂ (fun trace subs => HashesDiffer ext trace → Reports NearSuperMaximal (trace.map ext) subs)
        log.evs out := by
  obtain ⟨out, h1, h2⟩ := C84_hashes h ext log
  exact ⟨out, h1, h2.imp (fun _ _ hr hd => (reports_classes hd).2.2 hr)⟩

/-- C84c: all super maximal repeats are among them and they are among the maximal ones: as words, and as sub arrays of the
maximal ones. -/
theorem C84_between {lib : TreeLib} (h : LawfulTrees lib) (ext : E → String) (log : Log E) :
    ∃ out, findNearSuperMaximalRepeats lib ext log = .ok out ∧
      List.Forall₂ (fun subs all => ∀ s ∈ subs, s ∈ all) out (findMaximalRepeats lib ext log) ∧
      List.Forall₂ (fun subs near => ∀ s ∈ subs, s ∈ near) (findSuperMaximalRepeats lib ext log) out := by
  obtain ⟨out, h1, h2, h3⟩ := findNearSuperMaximalRepeats_reports h ext log
  refine ⟨out, h1, h3, ?_⟩
  have hm := C82_hashes h ext log
  have hs := C83_hashes h ext log
  have hsub := C83_sublist (lib := lib) ext log
  clear h1
  generalize findSuperMaximalRepeats lib ext log = sup at hs hsub
  generalize findMaximalRepeats lib ext log = all at h3 hm hsub
  generalize log.evs = ts at h2 hm hs
  induction ts generalizing out sup all with
  | nil =>
    cases h2
    cases hs
    exact .nil
  | cons t ts ih =>
    cases h2 with
    | cons a2 r2 =>
      cases hs with
      | cons as rs =>
        cases hm with
        | cons am rm =>
          cases h3 with
          | cons a3 r3 =>
            cases hsub with
            | cons asub rsub =>
              refine .cons (fun s hss => ?_) (ih (out := _) (sup := _) (all := _) (h2 := r2) (hs := rs) (h3 := r3) (hm := rm) (hsub := rsub))
              have hw := (as.2.2 _).1 (List.mem_map_of_mem hss)
              obtain ⟨s', hs', he⟩ := List.mem_map.1 ((a2.2.2 _).2 hw.near)
              have hsm := asub.subset hss
              have hsm' := a3 s' hs'
              have := List.inj_on_of_nodup_map am.2.1 hsm' hsm he
              rw [← this]
              exact hs'

/-- C84d: every occurrence of every repeated word of classes lies inside of an occurrence of a reported one. -/
theorem C84_covers {lib : TreeLib} (h : LawfulTrees lib) (ext : E → String) (log : Log E) :
    ∃ out, findNearSuperMaximalRepeats lib ext log = .ok out ∧
      List.Forall₂ (fun trace subs => HashesDiffer ext trace → ∀ w, IsRepeat (trace.map ext) w →
        ∀ i, OccursAt w (trace.map ext) i → InReported (trace.map ext) subs w i) log.evs out := by
  obtain ⟨out, h1, h2⟩ := C84_classes h ext log
  refine ⟨out, h1, h2.imp (fun trace subs hr hd w hw i hi => ?_)⟩
  obtain ⟨w', j, h3, h4, h5, h6⟩ := hw.near hi
  exact ⟨w', ((hr hd).2.2 w').2 h3, j, h4, h5, h6⟩

example : (findNearSuperMaximalRepeats slowTrees id repeatsLog).map (fun out => sameWords (reported repeatsLog out)
    [["a", "b", "bcd"], ["dabc", "b"], ["bbbc", "c", "a"], ["a", "aa", "b", "cc"],
      ["a", "aa", "c", "cdc", "cb", "dc", "db", "bd", "e"]]) = .ok true := by decide +kernel

end Ficus
