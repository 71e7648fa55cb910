import Verif.Props.Files
import Verif.Props.Reports
import Verif.Proofs.Hash

/-! C94, C95: pictures of the activities by levels, texts of graphs. -/

namespace Ficus
open Spec

/-! ### Names for levels -/

theorem levelPath_name (p : String) (l : Nat) : LevelName p l (levelPath p l) := by
  have hjoin := splitext_join p
  rcases splitext_cases p with ⟨f, hf⟩ | h0
  · left
    have hext := splitext_format hf
    refine ⟨(splitext p).1, f, hf, ?_, ?_⟩
    · rw [hext, ← String.append_assoc] at hjoin; exact hjoin.symm
    · unfold levelPath; rw [hext, ← String.append_assoc]
  · right
    refine ⟨?_, ?_⟩
    · intro f hf
      rw [splitext_format hf] at h0
      have := congrArg String.toList h0
      rw [String.toList_append] at this
      simp at this
    · rw [h0, String.append_empty] at hjoin
      unfold levelPath
      rw [h0, String.append_empty, hjoin]

theorem Spec.LevelName.unique {p q : String} {l : Nat} (h : LevelName p l q) : q = levelPath p l := by
  rcases h with ⟨root, f, hf, hp, hq⟩ | ⟨hno, hq⟩
  · have hext := splitext_format hf
    have hjoin := splitext_join p
    have hroot : (splitext p).1 = root := by
      rw [hext, ← String.append_assoc] at hjoin
      have h2 : (splitext p).1 ++ "." ++ f = root ++ "." ++ f := by rw [hjoin]; exact hp
      have h3 := congrArg String.toList h2
      simp only [String.toList_append] at h3
      exact String.toList_injective (List.append_cancel_right (List.append_cancel_right h3))
    unfold levelPath
    rw [hext, hroot, hq, ← String.append_assoc]
  · rcases levelPath_name p l with ⟨root, f, hf, -⟩ | ⟨-, h2⟩
    · exact absurd hf (hno f)
    · rw [hq, h2]

/-- Nothing, or something that begins with a dot. -/
def Dotted (e : List Char) : Prop := e = [] ∨ ∃ r, e = '.' :: r

theorem dotted_cancel {n m e e' : List Char} (hn : '.' ∉ n) (hm : '.' ∉ m) (he : Dotted e) (he' : Dotted e')
    (h : n ++ e = m ++ e') : n = m ∧ e = e' := by
  have key : ∀ {n e : List Char}, '.' ∉ n → Dotted e → (n ++ e).takeWhile (fun c => decide (c ≠ '.')) = n := by
    intro n e hn he
    refine (takeWhile_of_all _ n e (fun a ha => by
      have : a ≠ '.' := by rintro rfl; exact hn ha
      simpa using this) ?_).1
    intro a r h
    rcases he with rfl | ⟨r', rfl⟩
    · cases h
    · cases h; decide
  have h1 : n = m := by rw [← key hn he, h, key hm he']
  subst h1
  exact ⟨rfl, List.append_cancel_left h⟩

theorem natText_noDot (n : Nat) : '.' ∉ (toString n : String).toList := by
  intro h
  exact absurd (natText_isDigit n '.' h) (by decide)

theorem natText_noSlash (n : Nat) : '/' ∉ (toString n : String).toList := by
  intro h
  exact absurd (natText_isDigit n '/' h) (by decide)

theorem ext_dotted (p : String) : Dotted (splitext p).2.toList ∧ '/' ∉ (splitext p).2.toList := by
  rcases splitext_cases p with ⟨f, hf⟩ | h0
  · rw [splitext_format hf, String.toList_append]
    obtain ⟨_, _, _, _, _, _, _, hs⟩ := hf
    exact ⟨.inr ⟨f.toList, rfl⟩, by simp [hs]⟩
  · rw [h0]; exact ⟨.inl rfl, by simp⟩

theorem levelPath_toList (p : String) (l : Nat) :
    (levelPath p l).toList = (splitext p).1.toList ++ ['_'] ++ ((toString l : String).toList ++ (splitext p).2.toList) := by
  unfold levelPath
  simp [String.toList_append]

theorem levelPath_injective {p : String} {l l' : Nat} (h : levelPath p l = levelPath p l') : l = l' := by
  have h1 := congrArg String.toList h
  rw [levelPath_toList, levelPath_toList] at h1
  have h2 := List.append_cancel_left h1
  exact natText_injective (String.toList_injective
    (dotted_cancel (natText_noDot l) (natText_noDot l') (ext_dotted p).1 (ext_dotted p).1 h2).1)

theorem levelPath_ne_picture (p : String) (l l' : Nat) : levelPath p l ≠ levelPath p l' ++ ".png" := by
  intro h
  have h1 := congrArg String.toList h
  rw [String.toList_append, levelPath_toList, levelPath_toList, List.append_assoc, List.append_assoc,
    List.append_assoc] at h1
  have h2 := List.append_cancel_left (List.append_cancel_left h1)
  have hd : Dotted ((splitext p).2.toList ++ ".png".toList) := by
    rcases (ext_dotted p).1 with h | ⟨r, h⟩
    · rw [h]; exact .inr ⟨_, rfl⟩
    · rw [h]; exact .inr ⟨_, rfl⟩
  rw [List.append_assoc] at h2
  have h3 := (dotted_cancel (natText_noDot l) (natText_noDot l') (ext_dotted p).1 hd h2).2
  have := congrArg List.length h3
  simp at this

theorem picture_injective {p q : String} (h : p ++ ".png" = q ++ ".png") : p = q := by
  have h1 := congrArg String.toList h
  rw [String.toList_append, String.toList_append] at h1
  exact String.toList_injective (List.append_cancel_right h1)

theorem levelEnd_noSlash (p : String) (l : Nat) : '/' ∉ ("_" ++ toString l ++ (splitext p).2).toList := by
  rw [String.toList_append, String.toList_append, List.mem_append, List.mem_append, not_or, not_or]
  exact ⟨⟨by decide, natText_noSlash l⟩, (ext_dotted p).2⟩

theorem dirname_levelPath (p : String) (l : Nat) : dirname (levelPath p l) = dirname p := by
  have h1 : levelPath p l = (splitext p).1 ++ ("_" ++ toString l ++ (splitext p).2) := by
    unfold levelPath; simp [String.append_assoc]
  have h2 := (ext_dotted p).2
  rw [h1, dirname_append _ _ (levelEnd_noSlash p l)]
  conv_rhs => rw [← splitext_join p]
  rw [dirname_append _ _ h2]

theorem levelPath_fileName (p : String) (l : Nat) : FileName (levelPath p l) := by
  have h1 : levelPath p l = (splitext p).1 ++ ("_" ++ toString l ++ (splitext p).2) := by
    unfold levelPath; simp [String.append_assoc]
  rw [h1]
  exact fileName_append (by simp [String.toList_append]) (levelEnd_noSlash p l)

theorem dirname_picture (p : String) : dirname (p ++ ".png") = dirname p := dirname_append _ _ (by decide)

theorem picture_fileName (p : String) : FileName (p ++ ".png") := fileName_append (by decide) (by decide)

/-! ### One picture -/

theorem renderGraph_ok (viz : Viz) {engine : String} (he : engine ∈ viz.engines) (hf : "png" ∈ viz.formats) {path : String}
    (g : List DotStmt) {d : Disk} (hs : SoundDisk d) (hn : FileName path) (hc : ClearWay d (dirname path))
    (hd : d.isDir path = false) (hp : d.isDir (path ++ ".png") = false) :
    ∃ d', renderGraph viz engine "png" path g d = (d', .ok ()) ∧ d'.files path = some (.source g) ∧
      d'.files (path ++ ".png") = some (.picture engine "png" g) ∧
      (∀ q, q ≠ path → q ≠ path ++ ".png" → d'.files q = d.files q) ∧ WithDirs d (dirname path) d' ∧ SoundDisk d' := by
  -- the source
  have hsave : ∃ d1, saveSource path g d = (d1, .ok ()) ∧ d1.files path = some (.source g) ∧
      (∀ q, q ≠ path → d1.files q = d.files q) ∧ WithDirs d (dirname path) d1 ∧ SoundDisk d1 ∧
      (dirname path = "" ∨ d1.isDir (dirname path) = true) := by
    unfold saveSource
    by_cases h0 : dirname path = ""
    · rw [if_pos h0]
      refine ⟨putFile d path (.source g), writeFile_ok _ hn hd (.inl h0), putFile_same _ _ _, fun q hq => putFile_other hq,
        ?_, putFile_sound hs _ hn.1 hd (.inl h0), .inl h0⟩
      intro q
      refine ⟨.inl, fun h => h.elim id (fun h => ?_)⟩
      rw [h0] at h
      exact absurd (above_empty h.2) h.1
    · rw [if_neg h0]
      obtain ⟨d0, h1, hf0, hw0, hs0⟩ := makedirs_ok hs h0 hc
      have hd0 : d0.isDir path = false := by rw [WithDirs.isDir_file hw0 hn]; exact hd
      have hpar : dirname path = "" ∨ d0.isDir (dirname path) = true := .inr ((hw0 _).2 (.inr ⟨h0, .refl⟩))
      refine ⟨putFile d0 path (.source g), ?_, putFile_same _ _ _, ?_, fun q => hw0 q, putFile_sound hs0 _ hn.1 hd0 hpar,
        hpar⟩
      · rw [fileBind_ok h1]; exact writeFile_ok _ hn hd0 hpar
      · intro q hq; rw [putFile_other hq, hf0]
  obtain ⟨d1, h1, hsrc, hoth, hw1, hs1, hpar⟩ := hsave
  have hpn := picture_fileName path
  have hpd : d1.isDir (path ++ ".png") = false := by
    have hw : WithDirs d (dirname (path ++ ".png")) d1 := by rw [dirname_picture]; exact hw1
    rw [WithDirs.isDir_file hw hpn]; exact hp
  have hpp : dirname (path ++ ".png") = "" ∨ d1.isDir (dirname (path ++ ".png")) = true := by
    rw [dirname_picture]; exact hpar
  have hne : path ≠ path ++ ".png" := by
    intro h
    have := congrArg (fun s : String => s.toList.length) h
    simp [String.toList_append] at this
  refine ⟨putFile d1 (path ++ ".png") (.picture engine "png" g), ?_, ?_, putFile_same _ _ _, ?_, fun q => hw1 q,
    putFile_sound hs1 _ hpn.1 hpd hpp⟩
  · unfold renderGraph
    rw [fileBind_ok h1]
    unfold renderFile
    rw [if_neg (by simpa using he), if_neg (by simpa using hf), hsrc]
    rw [show path ++ "." ++ "png" = path ++ ".png" from String.append_assoc ..]
    exact writeFile_ok _ hpn hpd hpp
  · rw [putFile_other hne]; exact hsrc
  · intro q h1 h2
    rw [putFile_other h2]; exact hoth q h1

/-! ### The pictures of all levels -/

theorem drawLevelsLoop_ok (viz : Viz) (he : "dot" ∈ viz.engines) (hf : "png" ∈ viz.formats) (creator : Activity → String)
    (addRoot : Bool) (p : String) (ls : List (Nat × List ActTree)) (hls : ls.Pairwise (fun a b => a.1 < b.1))
    (d : Disk) (hs : SoundDisk d) (hc : ClearWay d (dirname p))
    (hd : ∀ l ∈ ls, d.isDir (levelPath p l.1) = false ∧ d.isDir (levelPath p l.1 ++ ".png") = false) :
    ∃ d', drawLevelsLoop viz creator addRoot (some p) ls d = (d', .ok []) ∧
      (∀ l ∈ ls, d'.files (levelPath p l.1) = some (.source (buildGraph (nameTrees creator l.2) addRoot)) ∧
        d'.files (levelPath p l.1 ++ ".png") =
          some (.picture "dot" "png" (buildGraph (nameTrees creator l.2) addRoot))) ∧
      (∀ q, (∀ l ∈ ls, q ≠ levelPath p l.1 ∧ q ≠ levelPath p l.1 ++ ".png") → d'.files q = d.files q) ∧
      (∀ q, d'.isDir q = true ↔ d.isDir q = true ∨ (ls ≠ [] ∧ q ≠ "" ∧ Above q (dirname p))) ∧ SoundDisk d' := by
  induction ls generalizing d with
  | nil =>
    refine ⟨d, rfl, ?_, fun q _ => rfl, ?_, hs⟩
    · intro l hl; cases hl
    · intro q; simp
  | cons l ls ih =>
    obtain ⟨level, acts⟩ := l
    have hl := hd (level, acts) (by simp)
    have hn := levelPath_fileName p level
    obtain ⟨d1, h1, hsrc, hpic, hoth, hw, hs1⟩ := renderGraph_ok viz he hf (buildGraph (nameTrees creator acts) addRoot) hs hn
      (by rw [dirname_levelPath]; exact hc) hl.1 hl.2
    rw [dirname_levelPath] at hw
    have hc1 : ClearWay d1 (dirname p) := by
      intro q hq
      rw [hoth q]
      · exact hc q hq
      · rintro rfl
        apply hn.not_above
        rw [dirname_levelPath]; exact hq
      · rintro rfl
        apply (picture_fileName (levelPath p level)).not_above
        rw [dirname_picture, dirname_levelPath]; exact hq
    have hfile : ∀ {q}, FileName q → dirname q = dirname p → d1.isDir q = d.isDir q := by
      intro q hq hqp
      exact WithDirs.isDir_file (by rw [hqp]; exact hw) hq
    have hd1 : ∀ l ∈ ls, d1.isDir (levelPath p l.1) = false ∧ d1.isDir (levelPath p l.1 ++ ".png") = false := by
      intro l hl
      have := hd l (by simp [hl])
      rw [hfile (levelPath_fileName p l.1) (dirname_levelPath p l.1),
        hfile (picture_fileName (levelPath p l.1)) (by rw [dirname_picture, dirname_levelPath])]
      exact this
    rw [List.pairwise_cons] at hls
    obtain ⟨d2, h2, hfiles, hoth2, hdirs, hs2⟩ := ih hls.2 d1 hs1 hc1 hd1
    have hdiff : ∀ l ∈ ls, levelPath p level ≠ levelPath p l.1 := by
      intro l hl h
      have h1 := hls.1 l hl
      have h2 := levelPath_injective h
      dsimp only at h1
      omega
    refine ⟨d2, ?_, ?_, ?_, ?_, hs2⟩
    · show FileOp.bind _ _ d = _
      rw [Option.map_some, fileBind_ok (d' := d1) (a := none)]
      · rw [fileBind_ok h2]; rfl
      · unfold doDrawGraph
        dsimp only
        rw [fileBind_ok h1]; rfl
    · intro l hl
      rcases List.mem_cons.1 hl with rfl | hl
      · dsimp only
        rw [hoth2, hoth2]
        · exact ⟨hsrc, hpic⟩
        · intro l hl
          exact ⟨Ne.symm (levelPath_ne_picture p l.1 level), fun h => hdiff l hl (picture_injective h)⟩
        · intro l hl
          exact ⟨hdiff l hl, levelPath_ne_picture p level l.1⟩
      · exact hfiles l hl
    · intro q hq
      rw [hoth2 q (fun l hl => hq l (by simp [hl]))]
      have := hq (level, acts) (by simp)
      exact hoth q this.1 this.2
    · intro q
      rw [hdirs q, hw q]
      constructor
      · rintro ((h | h) | h)
        · exact .inl h
        · exact .inr ⟨List.cons_ne_nil _ _, h⟩
        · exact .inr ⟨List.cons_ne_nil _ _, h.2⟩
      · rintro (h | h)
        · exact .inl (.inl h)
        · exact .inl (.inr h.2)

/-- C94: for each level of the activities there are two files under the name of the level: the source of the graph of these
activities, and, with `.png` appended, its picture. No other file changes; in particular the given name itself is not
written. Nothing is displayed. -/
theorem C94_by_levels (viz : Viz) (he : "dot" ∈ viz.engines) (hf : "png" ∈ viz.formats) (creator : Activity → String)
    (addRoot : Bool) (p : String) (acts : List ActTree) (d : Disk) (hs : SoundDisk d) (hc : ClearWay d (dirname p))
    (hd : ∀ t ∈ acts, ∀ q, LevelName p t.act.level q → d.isDir q = false ∧ d.isDir (q ++ ".png") = false) :
    ∃ d', drawLevels viz creator addRoot (some p) acts d = (d', .ok []) ∧
      (∀ t ∈ acts, ∀ q, LevelName p t.act.level q →
        d'.files q = some (.source (levelGraph creator addRoot acts t.act.level)) ∧
        d'.files (q ++ ".png") = some (.picture "dot" "png" (levelGraph creator addRoot acts t.act.level))) ∧
      (∀ q, (∀ t ∈ acts, ∀ q', LevelName p t.act.level q' → q ≠ q' ∧ q ≠ q' ++ ".png") → d'.files q = d.files q) ∧
      d'.files p = d.files p := by
  obtain ⟨hsorted, hspec⟩ := splitTreesByLevel_spec acts
  have hlevel : ∀ l ∈ splitTreesByLevel acts, ∃ t ∈ acts, t.act.level = l.1 := by
    intro l hl
    obtain ⟨h1, h2⟩ := (hspec l.1 l.2).1 hl
    obtain ⟨t, ht⟩ := List.exists_mem_of_ne_nil _ h2
    rw [h1, List.mem_filter] at ht
    exact ⟨t, ht.1, of_decide_eq_true ht.2⟩
  have hmem : ∀ t ∈ acts, (t.act.level, acts.filter (fun a => decide (a.act.level = t.act.level))) ∈
      splitTreesByLevel acts := by
    intro t ht
    refine (hspec _ _).2 ⟨rfl, ?_⟩
    exact List.ne_nil_of_mem (List.mem_filter.2 ⟨ht, decide_eq_true rfl⟩)
  obtain ⟨d', h1, h2, h3, -, -⟩ := drawLevelsLoop_ok viz he hf creator addRoot p (splitTreesByLevel acts) hsorted d hs hc (by
    intro l hl
    obtain ⟨t, ht, htl⟩ := hlevel l hl
    rw [← htl]
    exact hd t ht _ (levelPath_name p _))
  have hrest : ∀ q, (∀ t ∈ acts, ∀ q', LevelName p t.act.level q' → q ≠ q' ∧ q ≠ q' ++ ".png") →
      d'.files q = d.files q := by
    intro q hq
    apply h3
    intro l hl
    obtain ⟨t, ht, htl⟩ := hlevel l hl
    rw [← htl]
    exact hq t ht _ (levelPath_name p _)
  refine ⟨d', h1, ?_, hrest, hrest p ?_⟩
  · intro t ht q hq
    have h := h2 (t.act.level, acts.filter (fun a => decide (a.act.level = t.act.level))) (hmem t ht)
    dsimp only at h
    rw [hq.unique]
    unfold levelGraph
    exact h
  · intro t _ q hq
    have hlen : p.toList.length < (levelPath p t.act.level).toList.length := by
      rw [levelPath_toList]
      conv_lhs => rw [← splitext_join p, String.toList_append]
      simp only [List.length_append, List.length_cons, List.length_nil]
      omega
    rw [hq.unique]
    constructor
    · intro h; rw [← h] at hlen; omega
    · intro h
      have := congrArg (fun s : String => s.toList.length) h
      simp only [String.toList_append, List.length_append] at this
      omega

/-- C94: two levels never share a file, and the source of one level is never the picture of another. -/
theorem C94_no_clash (p : String) (l l' : Nat) (q q' : String) (h : LevelName p l q) (h' : LevelName p l' q') :
    (q = q' → l = l') ∧ (q ++ ".png" = q' ++ ".png" → l = l') ∧ q ≠ q' ++ ".png" := by
  rw [h.unique, h'.unique]
  exact ⟨levelPath_injective, fun h => levelPath_injective (picture_injective h), levelPath_ne_picture p l l'⟩

/-- C94, refuted: with a name that asks for a picture, no level has a picture under its name; the file there is a text. -/
theorem C94_not_a_picture (viz : Viz) (he : "dot" ∈ viz.engines) (hf : "png" ∈ viz.formats) (creator : Activity → String)
    (addRoot : Bool) (p : String) (acts : List ActTree) (d : Disk) (hs : SoundDisk d) (hc : ClearWay d (dirname p))
    (hd : ∀ t ∈ acts, ∀ q, LevelName p t.act.level q → d.isDir q = false ∧ d.isDir (q ++ ".png") = false) :
    ∀ t ∈ acts, ∀ q, LevelName p t.act.level q → ∀ engine format g,
      (drawLevels viz creator addRoot (some p) acts d).1.files q ≠ some (.picture engine format g) := by
  obtain ⟨d', h1, h2, -⟩ := C94_by_levels viz he hf creator addRoot p acts d hs hc hd
  intro t ht q hq engine format g
  rw [h1, (h2 t ht q hq).1]
  intro h; cases h

/-- Activities of two levels for the examples. -/
def sampleLevels : List ActTree :=
  [.node (exLevelAct 0 "A" 0 0 1) [.node (exLevelAct 1 "B" 0 0 1) []], .node (exLevelAct 2 "C" 1 0 1) [],
    .node (exLevelAct 3 "D" 0 0 1) []]

/-- Two levels saved under `out/new/net.png`: what is where. -/
example :
    let d' := (drawLevels sampleViz (·.name) true (some "out/new/net.png") sampleLevels sampleDisk).1
    d'.files "out/new/net_0.png" = some (.source (levelGraph (·.name) true sampleLevels 0)) ∧
    d'.files "out/new/net_0.png.png" = some (.picture "dot" "png" (levelGraph (·.name) true sampleLevels 0)) ∧
    d'.files "out/new/net_1.png.png" = some (.picture "dot" "png" (levelGraph (·.name) true sampleLevels 1)) ∧
    d'.files "out/new/net.png" = none := by
  have hname : ∀ l : Nat, LevelName "out/new/net.png" l ("out/new/net" ++ "_" ++ toString l ++ "." ++ "png") := fun l =>
    .inl ⟨"out/new/net", "png", samplePng, by decide, rfl⟩
  obtain ⟨d', h1, h2, -, h4⟩ := C94_by_levels sampleViz (by decide) (by decide) (·.name) true "out/new/net.png" sampleLevels
    sampleDisk sampleDisk_sound sampleDisk_clear (by
      intro t ht q hq
      rw [hq.unique, ← (hname t.act.level).unique]
      simp only [sampleLevels, List.mem_cons, List.not_mem_nil, or_false] at ht
      rcases ht with rfl | rfl | rfl <;> exact ⟨by decide, by decide⟩)
  rw [h1]
  have h0 := h2 (.node (exLevelAct 0 "A" 0 0 1) [.node (exLevelAct 1 "B" 0 0 1) []]) (by simp [sampleLevels]) _ (hname 0)
  have h5 := h2 (.node (exLevelAct 2 "C" 1 0 1) []) (by simp [sampleLevels]) _ (hname 1)
  exact ⟨h0.1, h0.2, h5.2, h4⟩

/-- The working directory of the example has no directory of the name of the graph, as `C94_displayed` asks. -/
example : sampleDisk.isDir "Activities Graph.gv" = false ∧ sampleDisk.isDir "Activities Graph.gv.png" = false := by decide

theorem drawLevelsLoop_shown (viz : Viz) (he : "dot" ∈ viz.engines) (hf : "png" ∈ viz.formats)
    (creator : Activity → String) (addRoot : Bool) (ls : List (Nat × List ActTree)) (d : Disk) (hs : SoundDisk d)
    (hd : d.isDir "Activities Graph.gv" = false ∧ d.isDir "Activities Graph.gv.png" = false) :
    ∃ d', drawLevelsLoop viz creator addRoot none ls d =
        (d', .ok (ls.map (fun l => buildGraph (nameTrees creator l.2) addRoot))) ∧
      (∀ l, ls.getLast? = some l →
        d'.files "Activities Graph.gv" = some (.source (buildGraph (nameTrees creator l.2) addRoot)) ∧
        d'.files "Activities Graph.gv.png" =
          some (.picture "dot" "png" (buildGraph (nameTrees creator l.2) addRoot))) ∧
      (∀ q, q ≠ "Activities Graph.gv" → q ≠ "Activities Graph.gv.png" → d'.files q = d.files q) ∧
      ∀ q, d'.isDir q = d.isDir q := by
  induction ls generalizing d with
  | nil => exact ⟨d, rfl, fun l hl => by simp at hl, fun q _ _ => rfl, fun q => rfl⟩
  | cons l ls ih =>
    obtain ⟨level, acts⟩ := l
    have hdn : dirname "Activities Graph.gv" = "" := by decide
    obtain ⟨d1, h1, hsrc, hpic, hoth, hw, hs1⟩ := renderGraph_ok viz he hf (path := "Activities Graph.gv")
      (buildGraph (nameTrees creator acts) addRoot) hs ⟨by decide, by decide⟩
      (by
        rw [hdn]
        intro q hq
        rw [above_empty hq]; exact hs.noName.2) hd.1 hd.2
    have hdirs : ∀ q, d1.isDir q = d.isDir q := by
      intro q
      refine Bool.eq_iff_iff.2 ((hw q).trans ⟨fun h => h.elim id (fun h => ?_), .inl⟩)
      rw [hdn] at h
      exact absurd (above_empty h.2) h.1
    obtain ⟨d2, h2, hlast, hoth2, hdirs2⟩ := ih d1 hs1 ⟨by rw [hdirs]; exact hd.1, by rw [hdirs]; exact hd.2⟩
    refine ⟨d2, ?_, ?_, ?_, fun q => (hdirs2 q).trans (hdirs q)⟩
    · show FileOp.bind _ _ d = _
      rw [Option.map_none, fileBind_ok (d' := d1) (a := some (buildGraph (nameTrees creator acts) addRoot))]
      · rw [fileBind_ok h2]; rfl
      · unfold doDrawGraph
        dsimp only
        rw [show "Activities Graph" ++ ".gv" = "Activities Graph.gv" from rfl, fileBind_ok h1]; rfl
    · intro l hl
      cases ls with
      | nil =>
        simp only [List.getLast?_singleton, Option.some.injEq] at hl
        subst hl
        have hd12 : d2 = d1 := by
          have h3 : drawLevelsLoop viz creator addRoot none [] d1 = (d1, .ok []) := rfl
          rw [h3] at h2
          exact (congrArg Prod.fst h2).symm
        rw [hd12]
        exact ⟨hsrc, hpic⟩
      | cons x xs =>
        rw [List.getLast?_cons_cons] at hl
        exact hlast l hl
    · intro q hq1 hq2
      rw [hoth2 q hq1 hq2]
      exact hoth q hq1 hq2

/-- C94, without a name the graphs of all levels are displayed, each once and in the order of the levels; the files in the
working directory have the name of the graph for every level, so that only the highest level stays. -/
theorem C94_displayed (viz : Viz) (he : "dot" ∈ viz.engines) (hf : "png" ∈ viz.formats) (creator : Activity → String)
    (addRoot : Bool) (acts : List ActTree) (d : Disk) (hs : SoundDisk d)
    (hd : d.isDir "Activities Graph.gv" = false ∧ d.isDir "Activities Graph.gv.png" = false) :
    ∃ (d' : Disk) (levels : List Nat), drawLevels viz creator addRoot none acts d =
        (d', .ok (levels.map (levelGraph creator addRoot acts))) ∧
      levels.Pairwise (· < ·) ∧ (∀ l, l ∈ levels ↔ ∃ t ∈ acts, t.act.level = l) ∧
      (∀ l ∈ levels, (∀ l' ∈ levels, l' ≤ l) →
        d'.files "Activities Graph.gv" = some (.source (levelGraph creator addRoot acts l)) ∧
        d'.files "Activities Graph.gv.png" = some (.picture "dot" "png" (levelGraph creator addRoot acts l))) ∧
      (∀ q, q ≠ "Activities Graph.gv" → q ≠ "Activities Graph.gv.png" → d'.files q = d.files q) := by
  obtain ⟨hsorted, hspec⟩ := splitTreesByLevel_spec acts
  obtain ⟨d', h1, h2, h3, -⟩ := drawLevelsLoop_shown viz he hf creator addRoot (splitTreesByLevel acts) d hs hd
  have hgraph : ∀ l ∈ splitTreesByLevel acts,
      buildGraph (nameTrees creator l.2) addRoot = levelGraph creator addRoot acts l.1 := by
    intro l hl
    unfold levelGraph
    rw [← ((hspec l.1 l.2).1 hl).1]
  have hp : ((splitTreesByLevel acts).map Prod.fst).Pairwise (· < ·) := List.pairwise_map.2 hsorted
  refine ⟨d', (splitTreesByLevel acts).map Prod.fst, ?_, hp, ?_, ?_, h3⟩
  · unfold drawLevels
    rw [h1, List.map_map]
    congr 2
    exact List.map_congr_left hgraph
  · intro l
    rw [List.mem_map]
    constructor
    · rintro ⟨⟨l', g⟩, hl, rfl⟩
      obtain ⟨h4, h5⟩ := (hspec l' g).1 hl
      obtain ⟨t, ht⟩ := List.exists_mem_of_ne_nil _ h5
      rw [h4, List.mem_filter] at ht
      exact ⟨t, ht.1, of_decide_eq_true ht.2⟩
    · rintro ⟨t, ht, rfl⟩
      refine ⟨(t.act.level, acts.filter (fun a => decide (a.act.level = t.act.level))), (hspec _ _).2 ⟨rfl, ?_⟩, rfl⟩
      exact List.ne_nil_of_mem (List.mem_filter.2 ⟨ht, decide_eq_true rfl⟩)
  · intro l hl hmax
    obtain ⟨⟨l', g⟩, hmem, rfl⟩ := List.mem_map.1 hl
    have hlast : (splitTreesByLevel acts).getLast? = some (l', g) := by
      obtain ⟨x, hx⟩ : ∃ x, (splitTreesByLevel acts).getLast? = some x := by
        cases h : (splitTreesByLevel acts).getLast? with
        | none => rw [List.getLast?_eq_none_iff] at h; rw [h] at hmem; cases hmem
        | some x => exact ⟨x, rfl⟩
      have hxm := List.mem_of_getLast? hx
      have hle := hmax x.1 (List.mem_map.2 ⟨x, hxm, rfl⟩)
      have hge : l' ≤ x.1 := by
        obtain ⟨ys, hys⟩ := List.getLast?_eq_some_iff.1 hx
        rw [hys] at hmem hsorted
        rcases List.mem_append.1 hmem with h | h
        · have := (List.pairwise_append.1 hsorted).2.2 _ h x (by simp)
          exact Nat.le_of_lt this
        · rw [List.mem_singleton] at h; rw [← h]
      have hlx : x.1 = l' := Nat.le_antisymm hle hge
      rw [hx]
      have e1 := ((hspec x.1 x.2).1 hxm).1
      have e2 := ((hspec l' g).1 hmem).1
      obtain ⟨x1, x2⟩ := x
      dsimp only at hlx e1
      subst hlx
      rw [e1, e2]
    have h4 := h2 _ hlast
    rw [hgraph _ hmem] at h4
    exact h4

/-! ### Texts of graphs -/

theorem splitLines_line (l : List Char) (h : '\n' ∉ l) (r : List Char) :
    splitLines (l ++ '\n' :: r) = l :: splitLines r := by
  induction l with
  | nil => rw [List.nil_append, splitLines, if_pos rfl]
  | cons c l ih =>
    rw [List.cons_append, splitLines, if_neg (fun e => h (by rw [e]; simp)), ih (fun e => h (by simp [e]))]

theorem splitLines_ne_nil (l : List Char) : splitLines l ≠ [] := by
  cases l with
  | nil => simp [splitLines]
  | cons c l =>
    rw [splitLines]
    split
    · simp
    · split <;> simp

theorem splitLines_append (l r : List Char) : splitLines (l ++ '\n' :: r) = splitLines l ++ splitLines r := by
  induction l with
  | nil => rw [List.nil_append]; simp [splitLines]
  | cons c l ih =>
    rw [List.cons_append, splitLines, splitLines]
    by_cases hc : c = '\n'
    · rw [if_pos hc, if_pos hc, ih]; rfl
    · rw [if_neg hc, if_neg hc, ih]
      cases h : splitLines l with
      | nil => exact absurd h (splitLines_ne_nil l)
      | cons x xs => rfl

theorem splitLines_flatMap (ls : List String) :
    splitLines (ls.flatMap (fun l => l.toList ++ ['\n'])) = (ls.flatMap (fun l => splitLines l.toList)) ++ [[]] := by
  induction ls with
  | nil => rfl
  | cons l ls ih =>
    rw [List.flatMap_cons, List.flatMap_cons, List.append_assoc]
    rw [show ∀ x : List Char, ['\n'] ++ x = '\n' :: x from fun x => rfl]
    rw [splitLines_append, ih, List.append_assoc]

theorem splitLines_noNewline (l : List Char) (h : '\n' ∉ l) : splitLines l = [l] := by
  induction l with
  | nil => rfl
  | cons c l ih =>
    rw [splitLines, if_neg (fun e => h (by rw [e]; simp)), ih (fun e => h (by simp [e]))]

/-- The lines that are sorted: all pieces of the lines of the statements and the closing brace. -/
theorem serializeGraphText_eq (header : String) (hh : '\n' ∉ header.toList) (lines : List String) :
    serializeGraphText (graphText header lines) = String.ofList (List.intercalate ['\n']
      ((((lines ++ ["}"]).flatMap (fun l => (splitLines l.toList).map String.ofList)).insertionSort
        (fun a b => a ≤ b)).map String.toList)) := by
  unfold serializeGraphText graphText
  dsimp only
  rw [String.toList_ofList, splitLines_flatMap, List.cons_append, List.flatMap_cons, splitLines_noNewline _ hh]
  have hlen : ∀ x : List (List Char), ((([header.toList] ++ x) ++ [[]]).drop 1).take
      ((([header.toList] ++ x) ++ [[]]).length - 2) = x := by
    intro x
    simp
  rw [hlen, List.map_flatMap]

theorem intercalate_newline_split (ls : List (List Char)) (h : ∀ l ∈ ls, '\n' ∉ l) (hne : ls ≠ []) :
    splitLines (List.intercalate ['\n'] ls) = ls := by
  induction ls with
  | nil => exact absurd rfl hne
  | cons l ls ih =>
    cases ls with
    | nil =>
      rw [show List.intercalate ['\n'] [l] = l by simp [List.intercalate]]
      exact splitLines_noNewline l (h l (by simp))
    | cons m ls =>
      rw [show List.intercalate ['\n'] (l :: m :: ls) = l ++ '\n' :: List.intercalate ['\n'] (m :: ls) by
        simp [List.intercalate]]
      rw [splitLines_line _ (h l (by simp)), ih (fun x hx => h x (by simp [hx])) (by simp)]

/-- C95: the text of a graph depends neither on the order of its statements nor on its name. -/
theorem C95_order (header header' : String) (hh : '\n' ∉ header.toList) (hh' : '\n' ∉ header'.toList)
    (lines lines' : List String) (hp : lines.Perm lines') :
    serializeGraphText (graphText header lines) = serializeGraphText (graphText header' lines') := by
  rw [serializeGraphText_eq header hh, serializeGraphText_eq header' hh']
  rw [sort_eq_of_perm ((hp.append_right ["}"]).flatMap_right _)]

/-- C95: texts of graphs whose statements have no line feed are equal exactly if the graphs have the same statements, each
equally often. -/
theorem C95_same_partial (header header' : String) (hh : '\n' ∉ header.toList) (hh' : '\n' ∉ header'.toList)
    (lines lines' : List String) (hl : ∀ l ∈ lines, '\n' ∉ l.toList) (hl' : ∀ l ∈ lines', '\n' ∉ l.toList) :
    serializeGraphText (graphText header lines) = serializeGraphText (graphText header' lines') ↔ lines.Perm lines' := by
  refine ⟨?_, C95_order header header' hh hh' lines lines'⟩
  rw [serializeGraphText_eq header hh, serializeGraphText_eq header' hh']
  have hflat : ∀ ls : List String, (∀ l ∈ ls, '\n' ∉ l.toList) →
      (ls ++ ["}"]).flatMap (fun l => (splitLines l.toList).map String.ofList) = ls ++ ["}"] := by
    intro ls h
    have : ∀ l ∈ ls ++ ["}"], (splitLines l.toList).map String.ofList = [l] := by
      intro l hl
      have hn : '\n' ∉ l.toList := by
        rcases List.mem_append.1 hl with hl | hl
        · exact h l hl
        · rw [List.mem_singleton] at hl; subst hl; decide
      rw [splitLines_noNewline _ hn]; simp
    generalize ls ++ ["}"] = x at this
    induction x with
    | nil => rfl
    | cons a x ih =>
      rw [List.flatMap_cons, this a (by simp), ih (fun l hl => this l (by simp [hl]))]; rfl
  rw [hflat lines hl, hflat lines' hl']
  intro h
  rw [String.ofList_inj] at h
  have hsorted : ∀ ls : List String, (∀ l ∈ ls, '\n' ∉ l.toList) → splitLines (List.intercalate ['\n']
      (((ls ++ ["}"]).insertionSort (fun a b => a ≤ b)).map String.toList)) =
      ((ls ++ ["}"]).insertionSort (fun a b => a ≤ b)).map String.toList := by
    intro ls h
    have hperm := List.perm_insertionSort (fun a b : String => a ≤ b) (ls ++ ["}"])
    apply intercalate_newline_split
    · intro l hl
      obtain ⟨s, hs, rfl⟩ := List.mem_map.1 hl
      rcases List.mem_append.1 (hperm.mem_iff.1 hs) with hs | hs
      · exact h s hs
      · rw [List.mem_singleton] at hs; subst hs; decide
    · intro he
      have := congrArg List.length he
      rw [List.length_map, hperm.length_eq] at this
      simp at this
  have h2 := congrArg splitLines h
  rw [hsorted lines hl, hsorted lines' hl'] at h2
  have h3 : (lines ++ ["}"]).insertionSort (fun a b => a ≤ b) = (lines' ++ ["}"]).insertionSort (fun a b => a ≤ b) :=
    List.map_injective_iff.2 (fun a b h => String.toList_injective h) h2
  have h4 : (lines ++ ["}"]).Perm (lines' ++ ["}"]) := by
    have h5 := (List.perm_insertionSort (fun a b : String => a ≤ b) (lines ++ ["}"])).symm
    rw [h3] at h5
    exact h5.trans (List.perm_insertionSort _ _)
  exact (List.perm_append_right_iff _).1 h4

/-- C95, refuted with line feeds in labels: the lines of two labels of two lines can change places, the text stays. -/
theorem C95_same_refuted :
    ¬ ∀ header lines lines', serializeGraphText (graphText header lines) = serializeGraphText (graphText header lines') →
      lines.Perm lines' := by
  intro h
  have := h "digraph {" ["\ta [label=\"x\ny\"]", "\tb [label=\"y\nx\"]"]
    ["\ta [label=\"x\nx\"]", "\tb [label=\"y\ny\"]"] (by decide +kernel)
  exact absurd (this.mem_iff.1 (List.mem_cons_self ..)) (by decide)

/-- Two orders of the statements of one graph, under two names. -/
example : serializeGraphText (graphText "digraph a {" ["\t0", "\t1", "\t0 -> 1"]) = "\t0\n\t0 -> 1\n\t1\n}" ∧
    serializeGraphText (graphText "digraph b {" ["\t1", "\t0 -> 1", "\t0"]) = "\t0\n\t0 -> 1\n\t1\n}" :=
  ⟨by decide +kernel, by decide +kernel⟩

end Ficus
