import Verif.Proofs.Files
import Verif.Spec.Xes
import Verif.Props.Xes

/-! C92, C93: export of nets and graphs, saving and reading of logs. -/

namespace Ficus
open Spec

/-! ### Export of nets and graphs -/

/-- The steps of an export after the source was saved, for a name with a directory. -/
theorem export_outcome (viz : Viz) (h0 : "" ∉ viz.formats) (tmp engine : String) (g : List DotStmt) (p : String)
    (d : Disk) (hs : SoundDisk d) (ht : TempName d tmp p) (hp : d.isDir p = false) :
    (Exportable viz d engine p ∧ ∃ format d', HasFormat p format ∧
      exportGraph viz tmp engine g (some p) d = (d', .ok none) ∧ d'.files p = some (.picture engine format g) ∧
      d'.files tmp = some (.source g) ∧ (∀ q, q ≠ p → q ≠ tmp → d'.files q = d.files q) ∧
      WithDirs d (dirname p) d' ∧ SoundDisk d') ∨
    (¬ Exportable viz d engine p ∧ ∃ e d', exportGraph viz tmp engine g (some p) d = (d', .error e) ∧
      d'.files tmp = some (.source g) ∧
      (∀ q, q ≠ tmp → (∀ format, HasFormat p format → q ≠ tmp ++ "." ++ format) → d'.files q = d.files q) ∧ SoundDisk d') := by
  have htd := ((exists_false_iff _ _).1 ht.isNew).1
  have hsave := saveSource_ok hs g ht.name htd ht.place
  have hs1 := putFile_sound hs (.source g) ht.name.1 htd ht.place
  generalize hd1 : putFile d tmp (.source g) = d1 at hsave hs1
  have hdir1 : ∀ q, d1.isDir q = d.isDir q := by intro q; rw [← hd1]; rfl
  have hf1 : ∀ q, q ≠ tmp → d1.files q = d.files q := by intro q hq; rw [← hd1]; exact putFile_other hq
  have ht1 : d1.files tmp = some (.source g) := by rw [← hd1]; exact putFile_same _ _ _
  have hptmp : p ≠ tmp := by rintro rfl; exact ht.away .refl
  unfold exportGraph
  rw [fileBind_ok hsave]
  dsimp only
  -- the directory
  by_cases hslash : dirname p = ""
  · right
    have hno : ¬ Exportable viz d engine p := fun h => (dirname_eq_empty p).1 hslash h.1
    refine ⟨hno, .fileNotFound, d1, ?_, ht1, fun q hq _ => hf1 q hq, hs1⟩
    rw [hslash]
    exact fileBind_error (ensureDir_empty hs1)
  · have hslash' : '/' ∈ p.toList := by
      by_contra h; exact hslash ((dirname_eq_empty p).2 h)
    have hclear : ClearWay d1 (dirname p) ↔ ClearWay d (dirname p) := by
      constructor
      · intro h q hq
        rw [← hf1 q (by rintro rfl; exact ht.away (.up hq))]; exact h q hq
      · intro h q hq
        rw [hf1 q (by rintro rfl; exact ht.away (.up hq))]; exact h q hq
    -- what the preparation of the directory does
    have hprep : (∃ d2 : Disk, ensureDir (dirname p) d1 = (d2, .ok ()) ∧ d2.files = d1.files ∧ SoundDisk d2 ∧
          ((ClearWay d (dirname p) ∧ WithDirs d (dirname p) d2) ∨
            (¬ ClearWay d (dirname p) ∧ d2 = d1 ∧ d1.isDir (dirname p) = false))) ∨
        (¬ ClearWay d (dirname p) ∧ ∃ e, ensureDir (dirname p) d1 = (d1, .error e)) := by
      unfold ensureDir
      by_cases hex : d1.exists (dirname p) = true
      · rw [if_pos hex]
        left
        refine ⟨d1, rfl, rfl, hs1, ?_⟩
        cases hdir : d1.isDir (dirname p) with
        | true =>
          left
          constructor
          · rw [← hclear]
            intro q hq
            by_cases hq0 : q = ""
            · rw [hq0]; exact hs1.noName.2
            · exact hs1.apart q (hs1.above_isDir hq hdir hq0)
          · intro q
            rw [hdir1]
            refine ⟨.inl, fun h => h.elim id (fun h => ?_)⟩
            rw [← hdir1]
            exact hs1.above_isDir h.2 hdir h.1
        | false =>
          right
          refine ⟨?_, rfl, rfl⟩
          rw [← hclear]
          intro h
          rcases (exists_iff _ _).1 hex with h1 | h1
          · rw [hdir] at h1; cases h1
          · exact h1 (h _ .refl)
      · rw [if_neg hex]
        by_cases hc : ClearWay d (dirname p)
        · left
          obtain ⟨d2, h2, hf2, hw2, hs2⟩ := makedirs_ok hs1 hslash (hclear.2 hc)
          refine ⟨d2, h2, hf2, hs2, .inl ⟨hc, ?_⟩⟩
          intro q; rw [hw2 q, hdir1]
        · right
          refine ⟨hc, ?_⟩
          have : ¬ ClearWay d1 (dirname p) := fun h => hc (hclear.1 h)
          simp only [ClearWay, not_forall] at this
          obtain ⟨q, hq, hqf⟩ := this
          exact ⟨_, makedirs_blocked hs1 hq hqf⟩
    rcases hprep with ⟨d2, h2, hf2, hs2, hkind⟩ | ⟨hc, e, he⟩
    swap
    · right
      refine ⟨fun h => hc h.2.1, e, d1, ?_, ht1, fun q hq _ => hf1 q hq, hs1⟩
      exact fileBind_error he
    rw [fileBind_ok h2]
    have ht2 : d2.files tmp = some (.source g) := by rw [hf2]; exact ht1
    have hf2' : ∀ q, q ≠ tmp → d2.files q = d.files q := by intro q hq; rw [hf2]; exact hf1 q hq
    -- the picture
    by_cases hrender : engine ∈ viz.engines ∧ ∃ format ∈ viz.formats, HasFormat p format
    swap
    · right
      refine ⟨fun h => hrender h.2.2, .valueError, d2, ?_, ht2, fun q hq _ => hf2' q hq, hs2⟩
      have : renderFile viz engine (String.ofList ((splitext p).2.toList.drop 1)) tmp d2 = (d2, .error .valueError) := by
        unfold renderFile
        by_cases he : engine ∈ viz.engines
        · rw [if_neg (by simpa using he), if_pos]
          rcases splitext_cases p with ⟨f, hf⟩ | hf
          · rw [splitext_format hf]
            have : String.ofList (("." ++ f).toList.drop 1) = f := by rw [String.toList_append]; simp
            rw [this]
            exact fun hm => hrender ⟨he, f, hm, hf⟩
          · rw [hf]; exact h0
        · rw [if_pos he]
      exact fileBind_error this
    obtain ⟨hengine, format, hfm, hformat⟩ := hrender
    have hext := splitext_format hformat
    have hnoslash : '/' ∉ format.toList := by
      obtain ⟨_, _, _, _, _, _, _, h⟩ := hformat; exact h
    have hfmt : String.ofList ((splitext p).2.toList.drop 1) = format := by
      rw [hext, String.toList_append]; simp
    have hpic : tmp ++ (splitext p).2 = tmp ++ "." ++ format := by rw [hext, String.append_assoc]
    rw [hfmt, hpic]
    have hnp := (exists_false_iff _ _).1 (ht.pictureNew format hformat)
    have hname : FileName (tmp ++ "." ++ format) := by
      rw [String.append_assoc]
      exact fileName_append (by rw [String.toList_append]; simp) (by rw [String.toList_append]; simp [hnoslash])
    have hdirname : dirname (tmp ++ "." ++ format) = dirname tmp := by
      rw [String.append_assoc]
      exact dirname_append _ _ (by rw [String.toList_append]; simp [hnoslash])
    have htp : tmp ≠ tmp ++ "." ++ format := by
      intro h
      have := congrArg (fun s : String => s.toList.length) h
      simp [String.toList_append] at this
    have hpp : p ≠ tmp ++ "." ++ format := by
      intro h; exact ht.pictureAway format hformat (h ▸ .refl)
    have hplace2 : dirname (tmp ++ "." ++ format) = "" ∨ d2.isDir (dirname (tmp ++ "." ++ format)) = true := by
      rw [hdirname]
      refine ht.place.imp_right (fun h => ?_)
      rcases hkind with ⟨-, hw⟩ | ⟨-, rfl, -⟩
      · exact (hw _).2 (.inl h)
      · rw [hdir1]; exact h
    have hnd2 : d2.isDir (tmp ++ "." ++ format) = false := by
      rcases hkind with ⟨-, hw⟩ | ⟨-, rfl, -⟩
      · by_contra h
        rw [Bool.not_eq_false] at h
        rcases (hw _).1 h with h | h
        · rw [hnp.1] at h; cases h
        · exact ht.pictureAway format hformat (.up h.2)
      · rw [hdir1]; exact hnp.1
    have hren : renderFile viz engine format tmp d2 =
        (putFile d2 (tmp ++ "." ++ format) (.picture engine format g), .ok ()) := by
      unfold renderFile
      rw [if_neg (by simpa using hengine), if_neg (by simpa using hfm), ht2]
      exact writeFile_ok _ hname hnd2 hplace2
    have hs3 := putFile_sound hs2 (.picture engine format g) hname.1 hnd2 hplace2
    rw [fileBind_ok hren]
    generalize hd3 : putFile d2 (tmp ++ "." ++ format) (.picture engine format g) = d3 at hs3
    have hdir3 : ∀ q, d3.isDir q = d2.isDir q := by intro q; rw [← hd3]; rfl
    have hf3 : ∀ q, q ≠ tmp ++ "." ++ format → d3.files q = d2.files q := by intro q hq; rw [← hd3]; exact putFile_other hq
    have hpic3 : d3.files (tmp ++ "." ++ format) = some (.picture engine format g) := by
      rw [← hd3]; exact putFile_same _ _ _
    have hpfile := hformat.fileName
    have hp3 : d3.isDir p = false := by
      rw [hdir3]
      rcases hkind with ⟨-, hw⟩ | ⟨-, rfl, -⟩
      · rw [WithDirs.isDir_file hw hpfile]; exact hp
      · rw [hdir1]; exact hp
    have hmove : moveFile (tmp ++ "." ++ format) p d3 = renameFile (tmp ++ "." ++ format) p d3 := by
      unfold moveFile; rw [hp3]; rfl
    rcases hkind with ⟨hc, hw⟩ | ⟨hc, rfl, hnodir⟩
    · left
      have hw3 : WithDirs d (dirname p) d3 := by intro q; rw [hdir3]; exact hw q
      have hpd : d3.isDir (dirname p) = true := (hw3 _).2 (.inr ⟨hslash, .refl⟩)
      refine ⟨⟨hslash', hc, hengine, format, hfm, hformat⟩, format,
        dropFile (putFile d3 p (.picture engine format g)) (tmp ++ "." ++ format), hformat, ?_, ?_, ?_, ?_, ?_, ?_⟩
      · exact fileBind_ok (hmove.trans (renameFile_ok hpic3 hpfile hp3 (.inr hpd) (Ne.symm hpp)))
      · rw [dropFile_other hpp]
        exact putFile_same _ _ _
      · rw [dropFile_other htp, putFile_other (Ne.symm hptmp), hf3 _ htp]
        exact ht2
      · intro q hqp hqt
        by_cases hq : q = tmp ++ "." ++ format
        · rw [hq, dropFile_same]; exact hnp.2.symm
        · rw [dropFile_other hq, putFile_other hqp, hf3 q hq]; exact hf2' q hqt
      · exact hw3
      · exact dropFile_sound (putFile_sound hs3 (.picture engine format g) hpfile.1 hp3 (.inr hpd)) _
    · right
      refine ⟨fun h => hc h.2.1, ?_⟩
      rcases writeFile_cases d3 p (.picture engine format g) with ⟨-, -, -, h⟩ | ⟨⟨e, he⟩, -⟩
      · exfalso
        rcases h with h | h
        · exact hslash h
        · rw [hdir3, hnodir] at h; cases h
      · refine ⟨e, d3, ?_, ?_, ?_, hs3⟩
        · have hrn : renameFile (tmp ++ "." ++ format) p d3 = (d3, .error e) := by
            unfold renameFile
            rw [hpic3]
            dsimp only
            rw [he]
          exact fileBind_error (hmove.trans hrn)
        · rw [hf3 _ htp]; exact ht2
        · intro q hq hqf
          rw [hf3 q (hqf format hformat)]; exact hf2' q hq

/-- C92, success: an export to a name with a directory and a known format returns, leaves at this name the picture of
exactly this graph in the format of the name, makes the missing directories, and changes no other file but the temporary one,
where the source of the graph stays. -/
theorem C92_export (viz : Viz) (h0 : "" ∉ viz.formats) (tmp engine : String) (g : List DotStmt) (p : String)
    (d : Disk) (hs : SoundDisk d) (ht : TempName d tmp p) (hp : d.isDir p = false) (hx : Exportable viz d engine p) :
    ∃ format d', HasFormat p format ∧ exportGraph viz tmp engine g (some p) d = (d', .ok none) ∧
      d'.files p = some (.picture engine format g) ∧ d'.files tmp = some (.source g) ∧
      (∀ q, q ≠ p → q ≠ tmp → d'.files q = d.files q) ∧ WithDirs d (dirname p) d' ∧ SoundDisk d' := by
  rcases export_outcome viz h0 tmp engine g p d hs ht hp with ⟨-, h⟩ | ⟨h, -⟩
  · exact h
  · exact absurd hx h

/-- C92, exactly these exports succeed. -/
theorem C92_export_iff (viz : Viz) (h0 : "" ∉ viz.formats) (tmp engine : String) (g : List DotStmt) (p : String)
    (d : Disk) (hs : SoundDisk d) (ht : TempName d tmp p) (hp : d.isDir p = false) :
    (∃ d' r, exportGraph viz tmp engine g (some p) d = (d', .ok r)) ↔ Exportable viz d engine p := by
  rcases export_outcome viz h0 tmp engine g p d hs ht hp with ⟨h, f, d', -, he, -⟩ | ⟨h, e, d', he, -⟩
  · exact ⟨fun _ => h, fun _ => ⟨d', none, he⟩⟩
  · refine ⟨?_, fun hx => absurd hx h⟩
    rintro ⟨d2, r, h2⟩
    rw [he] at h2; cases h2

/-- C92, failure: an export that raises an exception changes neither the file of the given name nor any other file except
the temporary source and perhaps the temporary picture. -/
theorem C92_failure (viz : Viz) (h0 : "" ∉ viz.formats) (tmp engine : String) (g : List DotStmt) (p : String)
    (d d' : Disk) (e : FileErr) (hs : SoundDisk d) (ht : TempName d tmp p) (hp : d.isDir p = false)
    (h : exportGraph viz tmp engine g (some p) d = (d', .error e)) :
    d'.files p = d.files p ∧ d'.files tmp = some (.source g) ∧
      (∀ q, q ≠ tmp → (∀ format, HasFormat p format → q ≠ tmp ++ "." ++ format) → d'.files q = d.files q) ∧ SoundDisk d' := by
  rcases export_outcome viz h0 tmp engine g p d hs ht hp with ⟨-, f, d2, -, he, -⟩ | ⟨-, e2, d2, he, h1, h2, h3⟩
  · rw [h] at he; cases he
  · rw [h] at he
    cases he
    refine ⟨h2 p ?_ ?_, h1, h2, h3⟩
    · rintro rfl; exact ht.away .refl
    · intro f hf hpf; exact ht.pictureAway f hf (hpf ▸ .refl)

/-- C92, refuted for file names without a directory: the export raises `FileNotFoundError`, whatever the disk, the graph
and the format. -/
theorem C92_bare_name (viz : Viz) (tmp engine : String) (g : List DotStmt) (p : String)
    (d : Disk) (hs : SoundDisk d) (ht : TempName d tmp p) (hb : '/' ∉ p.toList) :
    ∃ d', exportGraph viz tmp engine g (some p) d = (d', .error .fileNotFound) ∧
      ∀ q, q ≠ tmp → d'.files q = d.files q := by
  have htd := ((exists_false_iff _ _).1 ht.isNew).1
  refine ⟨putFile d tmp (.source g), ?_, fun q hq => putFile_other hq⟩
  unfold exportGraph
  rw [fileBind_ok (saveSource_ok hs g ht.name htd ht.place)]
  dsimp only
  rw [(dirname_eq_empty p).2 hb]
  exact fileBind_error (ensureDir_empty (putFile_sound hs _ ht.name.1 htd ht.place))

/-- C92, a name whose format is missing or not known: `ValueError`, after the directories were made. -/
theorem C92_unknown_format (viz : Viz) (h0 : "" ∉ viz.formats) (tmp engine : String) (g : List DotStmt) (p : String)
    (d : Disk) (hs : SoundDisk d) (ht : TempName d tmp p) (hd : '/' ∈ p.toList) (hc : ClearWay d (dirname p))
    (hf : ∀ format, HasFormat p format → format ∉ viz.formats) :
    ∃ d', exportGraph viz tmp engine g (some p) d = (d', .error .valueError) ∧
      (∀ q, q ≠ tmp → d'.files q = d.files q) ∧ WithDirs d (dirname p) d' := by
  have htd := ((exists_false_iff _ _).1 ht.isNew).1
  have hs1 := putFile_sound hs (.source g) ht.name.1 htd ht.place
  have hslash : dirname p ≠ "" := fun h => (dirname_eq_empty p).1 h hd
  have hc1 : ClearWay (putFile d tmp (.source g)) (dirname p) := by
    intro q hq
    rw [putFile_other (by rintro rfl; exact ht.away (.up hq))]
    exact hc q hq
  obtain ⟨d2, h2, hf2, hw2, -⟩ := ensureDir_ok hs1 hslash hc1
  refine ⟨d2, ?_, fun q hq => by rw [hf2]; exact putFile_other hq, fun q => hw2 q⟩
  unfold exportGraph
  rw [fileBind_ok (saveSource_ok hs g ht.name htd ht.place)]
  dsimp only
  rw [fileBind_ok h2]
  apply fileBind_error
  unfold renderFile
  by_cases he : engine ∈ viz.engines
  · rw [if_neg (by simpa using he), if_pos]
    rcases splitext_cases p with ⟨f, hpf⟩ | hpf
    · rw [splitext_format hpf]
      have : String.ofList (("." ++ f).toList.drop 1) = f := by rw [String.toList_append]; simp
      rw [this]
      exact hf f hpf
    · rw [hpf]; exact h0
  · rw [if_pos he]

/-- C92, without a name the graph is displayed; also then the source stays in the temporary file. -/
theorem C92_display (viz : Viz) (tmp engine : String) (g : List DotStmt)
    (d : Disk) (hs : SoundDisk d) (ht : NewName d tmp) :
    ∃ d', exportGraph viz tmp engine g none d = (d', .ok (some g)) ∧ d'.files tmp = some (.source g) ∧
      (∀ q, q ≠ tmp → d'.files q = d.files q) ∧ ∀ q, d'.isDir q = d.isDir q := by
  have htd := ((exists_false_iff _ _).1 ht.isNew).1
  refine ⟨putFile d tmp (.source g), ?_, putFile_same _ _ _, fun q hq => putFile_other hq, fun q => rfl⟩
  unfold exportGraph
  rw [fileBind_ok (saveSource_ok hs g ht.name htd ht.place)]
  rfl

/-- C92, the name of a directory: the picture gets the temporary name and lands in the directory. -/
theorem C92_into_directory (viz : Viz) (tmp engine : String) (g : List DotStmt) (p format : String)
    (d : Disk) (hs : SoundDisk d) (ht : TempName d tmp p) (hp : d.isDir p = true) (hd : '/' ∈ p.toList)
    (hf : HasFormat p format) (hk : format ∈ viz.formats) (he : engine ∈ viz.engines)
    (hfree : d.exists (p ++ "/" ++ basename (tmp ++ "." ++ format)) = false)
    (hnt : p ++ "/" ++ basename (tmp ++ "." ++ format) ≠ tmp)
    (hntp : p ++ "/" ++ basename (tmp ++ "." ++ format) ≠ tmp ++ "." ++ format) :
    ∃ d', exportGraph viz tmp engine g (some p) d = (d', .ok none) ∧ d'.files p = none ∧
      d'.files (p ++ "/" ++ basename (tmp ++ "." ++ format)) = some (.picture engine format g) := by
  have htd := ((exists_false_iff _ _).1 ht.isNew).1
  have hs1 := putFile_sound hs (.source g) ht.name.1 htd ht.place
  have hslash : dirname p ≠ "" := fun h => (dirname_eq_empty p).1 h hd
  generalize hd1 : putFile d tmp (.source g) = d1 at hs1
  have hdir1 : ∀ q, d1.isDir q = d.isDir q := by intro q; rw [← hd1]; rfl
  have hpd : d1.isDir (dirname p) = true := by
    rw [hdir1]; exact (hs.isDir_parent hp).resolve_left hslash
  have hens : ensureDir (dirname p) d1 = (d1, .ok ()) := by
    unfold ensureDir; rw [if_pos ((exists_iff _ _).2 (.inl hpd))]
  have hnoslash : '/' ∉ format.toList := by
    obtain ⟨_, _, _, _, _, _, _, h⟩ := hf; exact h
  have hext := splitext_format hf
  have hfmt : String.ofList ((splitext p).2.toList.drop 1) = format := by
    rw [hext, String.toList_append]; simp
  have hpic : tmp ++ (splitext p).2 = tmp ++ "." ++ format := by rw [hext, String.append_assoc]
  have hname : FileName (tmp ++ "." ++ format) := by
    rw [String.append_assoc]
    exact fileName_append (by rw [String.toList_append]; simp) (by rw [String.toList_append]; simp [hnoslash])
  have hdirname : dirname (tmp ++ "." ++ format) = dirname tmp := by
    rw [String.append_assoc]
    exact dirname_append _ _ (by rw [String.toList_append]; simp [hnoslash])
  have hnp := (exists_false_iff _ _).1 (ht.pictureNew format hf)
  have hplace : dirname (tmp ++ "." ++ format) = "" ∨ d1.isDir (dirname (tmp ++ "." ++ format)) = true := by
    rw [hdirname]; exact ht.place.imp_right (fun h => by rw [hdir1]; exact h)
  have hren : renderFile viz engine format tmp d1 =
      (putFile d1 (tmp ++ "." ++ format) (.picture engine format g), .ok ()) := by
    unfold renderFile
    rw [if_neg (by simpa using he), if_neg (by simpa using hk), ← hd1, putFile_same, hd1]
    exact writeFile_ok _ hname (by rw [hdir1]; exact hnp.1) hplace
  generalize hd3 : putFile d1 (tmp ++ "." ++ format) (.picture engine format g) = d3 at hren
  have hdir3 : ∀ q, d3.isDir q = d.isDir q := by intro q; rw [← hd3]; exact hdir1 q
  have hf3 : ∀ q, q ≠ tmp ++ "." ++ format → q ≠ tmp → d3.files q = d.files q := by
    intro q h1 h2; rw [← hd3, putFile_other h1, ← hd1, putFile_other h2]
  have hpic3 : d3.files (tmp ++ "." ++ format) = some (.picture engine format g) := by rw [← hd3]; exact putFile_same _ _ _
  have hbn := basename_noSlash (tmp ++ "." ++ format)
  have hbe := basename_ne_nil hname
  have htarget : FileName (p ++ "/" ++ basename (tmp ++ "." ++ format)) := fileName_append hbe hbn
  have hfree' := (exists_false_iff _ _).1 hfree
  have hmove : moveFile (tmp ++ "." ++ format) p d3 = (dropFile
      (putFile d3 (p ++ "/" ++ basename (tmp ++ "." ++ format)) (.picture engine format g)) (tmp ++ "." ++ format),
      .ok ()) := by
    unfold moveFile
    rw [if_pos (by rw [hdir3]; exact hp), if_neg]
    · exact renameFile_ok hpic3 htarget (by rw [hdir3]; exact hfree'.1)
        (.inr (by rw [dirname_join hf.fileName hbn, hdir3]; exact hp)) (Ne.symm hntp)
    · rw [Bool.not_eq_true, exists_false_iff]
      exact ⟨by rw [hdir3]; exact hfree'.1, by rw [hf3 _ hntp hnt]; exact hfree'.2⟩
  refine ⟨dropFile (putFile d3 (p ++ "/" ++ basename (tmp ++ "." ++ format)) (.picture engine format g))
    (tmp ++ "." ++ format), ?_, ?_, ?_⟩
  · unfold exportGraph
    have hsave := saveSource_ok hs g ht.name htd ht.place
    rw [hd1] at hsave
    rw [fileBind_ok hsave]
    dsimp only
    rw [fileBind_ok hens, hfmt, hpic, fileBind_ok hren, fileBind_ok hmove]
    rfl
  · have h1 : p ≠ tmp ++ "." ++ format := by intro h; exact ht.pictureAway format hf (h ▸ .refl)
    have h2 : p ≠ tmp := by rintro rfl; exact ht.away .refl
    have h3 : p ≠ p ++ "/" ++ basename (tmp ++ "." ++ format) := by
      intro h
      have := congrArg (fun s : String => s.toList.length) h
      simp [String.toList_append] at this
    rw [dropFile_other h1, putFile_other h3, hf3 p h1 h2]
    exact hs.apart p hp
  · rw [dropFile_other hntp]
    exact putFile_same _ _ _

/-- A series of exports, with or without exceptions, each with a new temporary name: engine, graph, temporary name, name. -/
inductive Exports (viz : Viz) : Disk → List (String × List DotStmt × String × String) → Disk → Prop
  | nil (d : Disk) : Exports viz d [] d
  | cons {d d1 d2 : Disk} {engine : String} {g : List DotStmt} {tmp p : String}
      {jobs : List (String × List DotStmt × String × String)} {r : Except FileErr (Option (List DotStmt))}
      (ht : TempName d tmp p) (hp : d.isDir p = false) (h : exportGraph viz tmp engine g (some p) d = (d1, r))
      (hjobs : Exports viz d1 jobs d2) : Exports viz d ((engine, g, tmp, p) :: jobs) d2

/-- C92, the temporary sources pile up: after any series of exports, successful or not, the source of each graph is still
in its temporary file, unless a later export was told to write there; and a file that was there before and is no target
is unchanged. -/
theorem C92_sources_stay (viz : Viz) (h0 : "" ∉ viz.formats) (d d' : Disk) (hs : SoundDisk d)
    (jobs : List (String × List DotStmt × String × String)) (h : Exports viz d jobs d') :
    (∀ q c, d.files q = some c → (∀ j ∈ jobs, j.2.2.2 ≠ q) → d'.files q = some c) ∧
    ((∀ i ∈ jobs, ∀ j ∈ jobs, j.2.2.2 ≠ i.2.2.1) → ∀ j ∈ jobs, d'.files j.2.2.1 = some (.source j.2.1)) := by
  induction h with
  | nil d => exact ⟨fun q c hq _ => hq, fun _ j hj => absurd hj (by simp)⟩
  | @cons d d1 d2 engine g tmp p jobs r ht hp h hjobs ih =>
    have step : d1.files tmp = some (.source g) ∧ SoundDisk d1 ∧
        ∀ q c, d.files q = some c → q ≠ p → d1.files q = some c := by
      rcases export_outcome viz h0 tmp engine g p d hs ht hp with
        ⟨-, f, d3, -, he, -, h2, h3, -, h5⟩ | ⟨-, e2, d3, he, h1, h2, h3⟩
      · rw [h] at he; cases he
        refine ⟨h2, h5, fun q c hq hqp => ?_⟩
        rw [h3 q hqp]
        · exact hq
        · rintro rfl
          rw [((exists_false_iff _ _).1 ht.isNew).2] at hq; cases hq
      · rw [h] at he; cases he
        refine ⟨h1, h3, fun q c hq hqp => ?_⟩
        rw [h2 q]
        · exact hq
        · rintro rfl
          rw [((exists_false_iff _ _).1 ht.isNew).2] at hq; cases hq
        · rintro f hf rfl
          rw [((exists_false_iff _ _).1 (ht.pictureNew f hf)).2] at hq; cases hq
    obtain ⟨hsrc, hs1, hkeep⟩ := step
    obtain ⟨ih1, ih2⟩ := ih hs1
    constructor
    · intro q c hq hno
      exact ih1 q c (hkeep q c hq (Ne.symm (hno (engine, g, tmp, p) (by simp)))) (fun j hj => hno j (by simp [hj]))
    · intro hno j hj
      rcases List.mem_cons.1 hj with rfl | hj
      · exact ih1 _ _ hsrc (fun j hj => hno _ (by simp) j (by simp [hj]))
      · exact ih2 (fun i hi j hj => hno i (by simp [hi]) j (by simp [hj])) j hj

/-! A disk for the examples: the directories `/tmp` and `out`, the file `out/a.txt`. -/

/-- The disk of the examples. -/
def sampleDisk : Disk where
  dirs p := decide (p ∈ ["/tmp", "out"])
  files p := if p = "out/a.txt" then some (.text "x") else none

theorem sampleDisk_sound : SoundDisk sampleDisk where
  noName := ⟨by decide, by decide⟩
  apart p hp := by
    rcases (isDir_iff _ _).1 hp with h | ⟨-, h⟩
    · have : p ∈ ["/tmp", "out"] := of_decide_eq_true h
      simp only [List.mem_cons, List.not_mem_nil, or_false] at this
      rcases this with rfl | rfl <;> rfl
    · show (if p = "out/a.txt" then some (Content.text "x") else none) = none
      rw [if_neg]
      rintro rfl
      exact absurd h (by decide)
  parent p hp := by
    have : p ∈ ["/tmp", "out"] ∨ p = "out/a.txt" := by
      rcases hp with h | h
      · exact .inl (of_decide_eq_true h)
      · right
        by_contra hne
        apply h
        show (if p = "out/a.txt" then some (Content.text "x") else none) = none
        rw [if_neg hne]
    simp only [List.mem_cons, List.not_mem_nil, or_false] at this
    rcases this with (rfl | rfl) | rfl
    · right; decide
    · left; decide
    · right; decide

theorem samplePng : HasFormat "out/new/net.png" "png" :=
  ⟨"out/new/".toList, "net".toList, by decide, by decide, by decide, ⟨'n', by decide⟩, by decide, by decide⟩

theorem sampleDisk_temp : TempName sampleDisk "/tmp/x.gv" "out/new/net.png" where
  name := ⟨by decide, by decide⟩
  isNew := by decide
  place := by right; decide
  away h := by
    rcases above_cases h with h | h
    · exact absurd h (by decide)
    · rw [show dirname "out/new/net.png" = "out/new" by decide] at h
      rcases above_cases h with h | h
      · exact absurd h (by decide)
      · rw [show dirname "out/new" = "out" by decide] at h
        rcases above_cases h with h | h
        · exact absurd h (by decide)
        · rw [show dirname "out" = "" by decide] at h
          exact absurd (above_empty h) (by decide)
  pictureNew f hf := by
    rw [hf.unique samplePng]; decide
  pictureAway f hf h := by
    rw [hf.unique samplePng] at h
    rcases above_cases h with h | h
    · exact absurd h (by decide)
    · rw [show dirname "out/new/net.png" = "out/new" by decide] at h
      rcases above_cases h with h | h
      · exact absurd h (by decide)
      · rw [show dirname "out/new" = "out" by decide] at h
        rcases above_cases h with h | h
        · exact absurd h (by decide)
        · rw [show dirname "out" = "" by decide] at h
          exact absurd (above_empty h) (by decide)

theorem sampleDisk_clear : ClearWay sampleDisk (dirname "out/new/net.png") := by
  intro q h
  rw [show dirname "out/new/net.png" = "out/new" by decide] at h
  rcases above_cases h with rfl | h
  · rfl
  · rw [show dirname "out/new" = "out" by decide] at h
    rcases above_cases h with rfl | h
    · rfl
    · rw [show dirname "out" = "" by decide] at h
      rw [above_empty h]; rfl

/-- The library for the examples. -/
def sampleViz : Viz := { engines := ["dot", "neato"], formats := ["png", "svg", "pdf"] }

/-- An export into a directory that does not exist yet meets the hypotheses of `C92_export`. -/
example : Exportable sampleViz sampleDisk "dot" "out/new/net.png" ∧ sampleDisk.isDir "out/new/net.png" = false :=
  ⟨⟨by decide, sampleDisk_clear, by decide, "png", by decide, samplePng⟩, by decide⟩

/-- The same, computed: the picture, the directories and the old file. -/
example (g : List DotStmt) :
    let d' := (exportGraph sampleViz "/tmp/x.gv" "dot" g (some "out/new/net.png") sampleDisk).1
    d'.files "out/new/net.png" = some (.picture "dot" "png" g) ∧ d'.files "/tmp/x.gv.png" = none ∧
      d'.isDir "out/new" = true ∧ d'.files "out/a.txt" = some (.text "x") := by
  obtain ⟨f, d', hf, he, h1, -, h3, h4, -⟩ := C92_export sampleViz (by decide) "/tmp/x.gv" "dot" g "out/new/net.png" sampleDisk
    sampleDisk_sound sampleDisk_temp (by decide) ⟨by decide, sampleDisk_clear, by decide, "png", by decide, samplePng⟩
  rw [he]
  rw [hf.unique samplePng] at h1
  refine ⟨h1, ?_, ?_, ?_⟩
  · exact h3 _ (by decide) (by decide)
  · exact (h4 _).2 (.inr ⟨by decide, by rw [show dirname "out/new/net.png" = "out/new" by decide]; exact .refl⟩)
  · exact h3 _ (by decide) (by decide)

/-- A bare file name on the same disk. -/
example (g : List DotStmt) :
    (exportGraph sampleViz "/tmp/x.gv" "dot" g (some "net.png") sampleDisk).2 = .error .fileNotFound := by rfl

/-- A name without a format, in a directory. -/
example (g : List DotStmt) :
    (exportGraph sampleViz "/tmp/x.gv" "dot" g (some "out/net") sampleDisk).2 = .error .valueError := by rfl

/-- An export meets the hypotheses of `C92_sources_stay`. -/
example (g : List DotStmt) : ∃ d', Exports sampleViz sampleDisk [("dot", g, "/tmp/x.gv", "out/new/net.png")] d' :=
  ⟨_, .cons sampleDisk_temp (by decide) rfl (.nil _)⟩

/-- A directory with a name like a picture, as in `C92_into_directory`. -/
example (g : List DotStmt) :
    (exportGraph sampleViz "/tmp/x.gv" "dot" g (some "out/net.png")
      { sampleDisk with dirs := fun p => decide (p ∈ ["/tmp", "out", "out/net.png"]) }).1.files "out/net.png/x.gv.png" =
      some (.picture "dot" "png" g) := by rfl

/-! ### Logs -/

/-- C93: exactly these logs are saved: those that can be written as XES, under a name with a directory part in whose way
lies no file, that is not the name of a directory. -/
theorem C93_saved_iff (log : Log Payload) (p : String) (d : Disk) (hs : SoundDisk d) :
    (∃ d', saveLog log p d = (d', .ok ())) ↔
      (∃ e, writeXes log = .ok e) ∧ '/' ∈ p.toList ∧ ClearWay d (dirname p) ∧ FileName p ∧ d.isDir p = false := by
  unfold saveLog
  cases hw : writeXes log with
  | error e =>
    constructor
    · rintro ⟨d', h⟩; cases h
    · rintro ⟨⟨e, h⟩, -⟩; cases h
  | ok x =>
    dsimp only
    by_cases hslash : dirname p = ""
    · have : '/' ∉ p.toList := (dirname_eq_empty p).1 hslash
      rw [hslash, fileBind_error (makedirs_empty hs)]
      constructor
      · rintro ⟨d', h⟩; cases h
      · rintro ⟨-, h, -⟩; exact absurd h this
    · have hsl : '/' ∈ p.toList := by
        by_contra h; exact hslash ((dirname_eq_empty p).2 h)
      by_cases hc : ClearWay d (dirname p)
      · obtain ⟨d2, h2, hf2, hw2, hs2⟩ := makedirs_ok hs hslash hc
        rw [fileBind_ok h2]
        rcases writeFile_cases d2 p (.xml x) with ⟨h, h3, h4, -⟩ | ⟨⟨e, h⟩, h3⟩
        · constructor
          · intro _
            refine ⟨⟨x, rfl⟩, hsl, hc, h3, ?_⟩
            rw [← WithDirs.isDir_file hw2 h3]; exact h4
          · intro _; exact ⟨_, h⟩
        · constructor
          · rintro ⟨d', h5⟩; rw [h] at h5; cases h5
          · rintro ⟨-, -, -, h5, h6⟩
            refine absurd ⟨h5, ?_, .inr ((hw2 _).2 (.inr ⟨hslash, .refl⟩))⟩ h3
            rw [WithDirs.isDir_file hw2 h5]; exact h6
      · constructor
        · rintro ⟨d', h5⟩
          exfalso
          have hc' := hc
          simp only [ClearWay, not_forall] at hc'
          obtain ⟨q, hq, hqf⟩ := hc'
          rw [fileBind_error (makedirs_blocked hs hq hqf)] at h5
          cases h5
        · rintro ⟨-, -, h, -⟩; exact absurd h hc

/-- C93: a saved log is in the file of this name, no other file changes, and the directories above the file exist. -/
theorem C93_saved (log : Log Payload) (p : String) (d d' : Disk) (hs : SoundDisk d) (h : saveLog log p d = (d', .ok ())) :
    (∃ e, writeXes log = .ok e ∧ d'.files p = some (.xml e)) ∧ (∀ q, q ≠ p → d'.files q = d.files q) ∧
      WithDirs d (dirname p) d' ∧ SoundDisk d' := by
  obtain ⟨⟨x, hx⟩, hsl, hc, hn, hd⟩ := (C93_saved_iff log p d hs).1 ⟨d', h⟩
  have hslash : dirname p ≠ "" := fun h => (dirname_eq_empty p).1 h hsl
  obtain ⟨d2, h2, hf2, hw2, hs2⟩ := makedirs_ok hs hslash hc
  have hd2 : d2.isDir p = false := by rw [WithDirs.isDir_file hw2 hn]; exact hd
  have hpar : dirname p = "" ∨ d2.isDir (dirname p) = true := .inr ((hw2 _).2 (.inr ⟨hslash, .refl⟩))
  unfold saveLog at h
  rw [hx] at h
  dsimp only at h
  rw [fileBind_ok h2, writeFile_ok _ hn hd2 hpar] at h
  cases h
  refine ⟨⟨x, hx, putFile_same _ _ _⟩, ?_, fun q => hw2 q, putFile_sound hs2 _ hn.1 hd2 hpar⟩
  intro q hq
  rw [putFile_other hq, hf2]

/-- C93: a log that is not saved changes no file; if it cannot be written as XES not even a directory is made. -/
theorem C93_not_saved (log : Log Payload) (p : String) (d d' : Disk) (e : FileErr) (hs : SoundDisk d)
    (h : saveLog log p d = (d', .error e)) :
    d'.files = d.files ∧ ∀ x, writeXes log = .error x → d' = d ∧ e = .py x := by
  unfold saveLog at h
  cases hw : writeXes log with
  | error x => rw [hw] at h; cases h; exact ⟨rfl, fun y hy => by cases hy; exact ⟨rfl, rfl⟩⟩
  | ok x =>
    refine ⟨?_, fun y hy => by cases hy⟩
    rw [hw] at h
    dsimp only at h
    by_cases hslash : dirname p = ""
    · rw [hslash, fileBind_error (makedirs_empty hs)] at h; cases h; rfl
    · by_cases hc : ClearWay d (dirname p)
      · obtain ⟨d2, h2, hf2, hw2, hs2⟩ := makedirs_ok hs hslash hc
        rw [fileBind_ok h2] at h
        rcases writeFile_cases d2 p (.xml x) with ⟨h3, -⟩ | ⟨⟨e', h3⟩, -⟩
        · rw [h3] at h; cases h
        · rw [h3] at h; cases h; exact hf2
      · simp only [ClearWay, not_forall] at hc
        obtain ⟨q, hq, hqf⟩ := hc
        rw [fileBind_error (makedirs_blocked hs hq hqf)] at h
        cases h; rfl

/-- C93, refuted for file names without a directory: `FileNotFoundError` for every log that can be written. -/
theorem C93_bare_name (log : Log Payload) (e : XElem) (p : String) (d : Disk) (hs : SoundDisk d)
    (hw : writeXes log = .ok e) (hb : '/' ∉ p.toList) : saveLog log p d = (d, .error .fileNotFound) := by
  unfold saveLog
  rw [hw]
  dsimp only
  rw [(dirname_eq_empty p).2 hb]
  exact fileBind_error (makedirs_empty hs)

/-- C93: what was saved is read back, with the disk unchanged, also after other logs were saved under other names. -/
theorem C93_read_back (P : Parsers) (log other : Log Payload) (p p' : String) (d d1 d2 : Disk) (hs : SoundDisk d)
    (hlog : SafeLog P log) (h1 : saveLog log p d = (d1, .ok ())) (hne : p' ≠ p)
    (r' : Except FileErr Unit) (h2 : saveLog other p' d1 = (d2, r')) :
    ∃ r, loadLog P p d1 = (d1, .ok r) ∧ loadLog P p d2 = (d2, .ok r) ∧ SameLog log r := by
  obtain ⟨⟨e, he, hf⟩, -, -, hs1⟩ := C93_saved log p d d1 hs h1
  obtain ⟨r, hr, hsame⟩ := C05_round_trip_partial P log hlog
  have hread : readXes P e = .ok r := by
    unfold xesRoundTrip at hr
    rw [he] at hr; exact hr
  have hload : ∀ d : Disk, d.files p = some (.xml e) → loadLog P p d = (d, .ok r) := by
    intro d hd
    unfold loadLog
    rw [if_neg, hd]
    · dsimp only; rw [hread]
    · rw [Bool.not_eq_false, exists_iff, hd]; right; simp
  have hf2 : d2.files p = some (.xml e) := by
    cases r' with
    | ok u => rw [(C93_saved other p' d1 d2 hs1 h2).2.1 p (Ne.symm hne)]; exact hf
    | error x => rw [(C93_not_saved other p' d1 d2 x hs1 h2).1]; exact hf
  exact ⟨r, hload d1 hf, hload d2 hf2, hsame⟩

/-- C93: reading a name that does not exist raises `FileNotFoundError`. -/
theorem C93_missing (P : Parsers) (p : String) (d : Disk) (h : d.exists p = false) :
    loadLog P p d = (d, .error .fileNotFound) := by
  unfold loadLog
  rw [if_pos h]

theorem sampleXes_written : ∃ e, writeXes sampleXes = .ok e := by
  cases h : writeXes sampleXes with
  | ok e => exact ⟨e, rfl⟩
  | error e =>
    obtain ⟨r, hr, -⟩ := C05_round_trip_partial textParsers sampleXes sampleXes_safe
    unfold xesRoundTrip at hr
    rw [h] at hr; cases hr

/-- A log saved into a new directory meets the conditions. -/
example : (saveLog sampleXes "out/new/net.png" sampleDisk).2 = .ok () ∧ sampleDisk.isDir "out/new" = false := by
  constructor
  · obtain ⟨d', h⟩ := (C93_saved_iff sampleXes "out/new/net.png" sampleDisk sampleDisk_sound).2
      ⟨sampleXes_written, by decide, sampleDisk_clear, samplePng.fileName, by decide⟩
    rw [h]
  · decide

/-- The bare name on the same disk. -/
example : (saveLog sampleXes "log.xes" sampleDisk).2 = .error .fileNotFound := by
  obtain ⟨e, h⟩ := sampleXes_written
  rw [C93_bare_name sampleXes e "log.xes" sampleDisk sampleDisk_sound h (by decide)]

/-! ### Figures -/

theorem saveFig_format {formats : List String} {fig : Nat} {p format : String} (hf : HasFormat p format) (h0 : format ≠ "")
    (hk : lowerText format ∈ formats) : saveFig formats fig p = writeFile p (.figure (lowerText format) fig) := by
  unfold saveFig
  have : String.ofList ((splitext p).2.toList.drop 1) = format := by
    rw [splitext_format hf, String.toList_append]; simp
  simp only [this]
  rw [if_neg h0, if_neg (by simpa using hk)]

/-- C96, histograms and canvases: with a known format the figure is saved exactly if the directory of the name exists, and
then under this name and nowhere else. -/
theorem C96_figure (formats : List String) (fig : Nat) (p format : String) (d : Disk) (hf : HasFormat p format)
    (h0 : format ≠ "") (hk : lowerText format ∈ formats) (hd : d.isDir p = false) :
    (('/' ∉ p.toList ∨ d.isDir (dirname p) = true) → ∃ d', saveFig formats fig p d = (d', .ok ()) ∧
      d'.files p = some (.figure (lowerText format) fig) ∧ (∀ q, q ≠ p → d'.files q = d.files q) ∧
      ∀ q, d'.isDir q = d.isDir q) ∧
    (¬ ('/' ∉ p.toList ∨ d.isDir (dirname p) = true) → ∃ e, saveFig formats fig p d = (d, .error e)) := by
  rw [saveFig_format hf h0 hk, ← dirname_eq_empty]
  constructor
  · intro h
    exact ⟨putFile d p _, writeFile_ok _ hf.fileName hd h, putFile_same _ _ _, fun q hq => putFile_other hq, fun q => rfl⟩
  · intro h
    rcases writeFile_cases d p (.figure (lowerText format) fig) with ⟨-, -, -, h3⟩ | ⟨h2, -⟩
    · exact absurd h3 h
    · exact h2

/-- C96, diagrams of traces: with a known format the figure is saved exactly if the name has a directory and no file is in
the way of it; missing directories are made. -/
theorem C96_diagram (formats : List String) (fig : Nat) (p format : String) (d : Disk) (hs : SoundDisk d)
    (hf : HasFormat p format) (h0 : format ≠ "") (hk : lowerText format ∈ formats) (hd : d.isDir p = false) :
    (('/' ∈ p.toList ∧ ClearWay d (dirname p)) → ∃ d', saveDiagram formats fig p d = (d', .ok ()) ∧
      d'.files p = some (.figure (lowerText format) fig) ∧ (∀ q, q ≠ p → d'.files q = d.files q) ∧
      WithDirs d (dirname p) d') ∧
    (¬ ('/' ∈ p.toList ∧ ClearWay d (dirname p)) → ∃ e, saveDiagram formats fig p d = (d, .error e)) := by
  unfold saveDiagram
  constructor
  · rintro ⟨hsl, hc⟩
    have hslash : dirname p ≠ "" := fun h => (dirname_eq_empty p).1 h hsl
    obtain ⟨d2, h2, hf2, hw2, hs2⟩ := makedirs_ok hs hslash hc
    have hd2 : d2.isDir p = false := by rw [WithDirs.isDir_file hw2 hf.fileName]; exact hd
    refine ⟨putFile d2 p (.figure (lowerText format) fig), ?_, putFile_same _ _ _, ?_, fun q => hw2 q⟩
    · rw [fileBind_ok h2, saveFig_format hf h0 hk]
      exact writeFile_ok _ hf.fileName hd2 (.inr ((hw2 _).2 (.inr ⟨hslash, .refl⟩)))
    · intro q hq; rw [putFile_other hq, hf2]
  · intro h
    by_cases hslash : dirname p = ""
    · rw [hslash]
      exact ⟨_, fileBind_error (makedirs_empty hs)⟩
    · have hsl : '/' ∈ p.toList := by
        by_contra h; exact hslash ((dirname_eq_empty p).2 h)
      have hc : ¬ ClearWay d (dirname p) := fun hc => h ⟨hsl, hc⟩
      simp only [ClearWay, not_forall] at hc
      obtain ⟨q, hq, hqf⟩ := hc
      exact ⟨_, fileBind_error (makedirs_blocked hs hq hqf)⟩

/-- C96, refuted: no kind of figure can be saved under every name. On every disk a bare name serves the histograms and not
the diagrams of traces; a directory that has to be made serves the diagrams and not the histograms. -/
theorem C96_kinds_disagree (formats : List String) (fig : Nat) (p format : String) (d : Disk) (hs : SoundDisk d)
    (hf : HasFormat p format) (h0 : format ≠ "") (hk : lowerText format ∈ formats) (hd : d.isDir p = false) :
    ('/' ∉ p.toList → (saveFig formats fig p d).2 = .ok () ∧ (saveDiagram formats fig p d).2 = .error .fileNotFound) ∧
    ('/' ∈ p.toList → ClearWay d (dirname p) → d.isDir (dirname p) = false →
      (saveFig formats fig p d).2 = .error .fileNotFound ∧ (saveDiagram formats fig p d).2 = .ok ()) := by
  constructor
  · intro hb
    obtain ⟨d', h1, -⟩ := (C96_figure formats fig p format d hf h0 hk hd).1 (.inl hb)
    refine ⟨by rw [h1], ?_⟩
    unfold saveDiagram
    rw [(dirname_eq_empty p).2 hb, fileBind_error (makedirs_empty hs)]
  · intro hsl hc hnd
    obtain ⟨d', h1, -⟩ := (C96_diagram formats fig p format d hs hf h0 hk hd).1 ⟨hsl, hc⟩
    refine ⟨?_, by rw [h1]⟩
    have hslash : dirname p ≠ "" := fun h => (dirname_eq_empty p).1 h hsl
    rw [saveFig_format hf h0 hk]
    unfold writeFile
    rw [if_neg hf.fileName.1, if_neg (by rw [hd]; simpa using hf.fileName.2)]
    have : parentError d p = some .fileNotFound := by
      unfold parentError
      rw [if_neg hslash, if_neg (by rw [hnd]; simp), if_neg]
      rw [hc _ .refl]; simp
    rw [this]

/-- C96: a figure saved under a name without a format is not there, but under the name with `.png`. -/
theorem C96_no_format (formats : List String) (fig : Nat) (p : String) (d : Disk) (hf : ∀ format, ¬ HasFormat p format)
    (hdot : p.toList.getLast? ≠ some '.') (hd : d.isDir (p ++ ".png") = false)
    (hp : '/' ∉ p.toList ∨ d.isDir (dirname p) = true) :
    ∃ d', saveFig formats fig p d = (d', .ok ()) ∧ d'.files (p ++ ".png") = some (.figure "png" fig) ∧
      ∀ q, q ≠ p ++ ".png" → d'.files q = d.files q := by
  have hext : (splitext p).2 = "" := (splitext_cases p).resolve_left (fun ⟨f, h⟩ => hf f h)
  have hstrip : String.ofList (p.toList.reverse.dropWhile (fun c => decide (c = '.'))).reverse = p := by
    have : p.toList.reverse.dropWhile (fun c => decide (c = '.')) = p.toList.reverse := by
      cases hr : p.toList.reverse with
      | nil => rfl
      | cons a r =>
        have hl : p.toList.getLast? = some a := by rw [List.getLast?_eq_head?_reverse, hr]; rfl
        rw [List.dropWhile_cons, if_neg]
        intro ha
        have : a = '.' := by simpa using ha
        rw [this] at hl
        exact hdot hl
    rw [this, List.reverse_reverse]; simp
  refine ⟨putFile d (p ++ ".png") (.figure "png" fig), ?_, putFile_same _ _ _, fun q hq => putFile_other hq⟩
  unfold saveFig
  rw [hext]
  simp only [hstrip]
  rw [if_pos (by rfl)]
  refine writeFile_ok _ (fileName_append (by decide) (by decide)) hd ?_
  rw [dirname_append _ _ (by decide), dirname_eq_empty]
  exact hp

/-- The two kinds of figures on the disk of the examples. -/
example : (saveFig ["png"] 0 "fig.png" sampleDisk).2 = .ok () ∧
    (saveDiagram ["png"] 0 "fig.png" sampleDisk).2 = .error .fileNotFound ∧
    (saveFig ["png"] 0 "new/fig.png" sampleDisk).2 = .error .fileNotFound ∧
    (saveDiagram ["png"] 0 "new/fig.png" sampleDisk).2 = .ok () := by
  refine ⟨by rfl, by rfl, by rfl, by rfl⟩

/-- A name without a format meets the hypotheses of `C96_no_format`. -/
example : (∀ format, ¬ HasFormat "out/fig" format) ∧ sampleDisk.isDir (dirname "out/fig") = true := by
  refine ⟨fun f hf => ?_, by decide⟩
  have h1 := (hasFormat_iff _ _).1 hf
  rw [show (splitext "out/fig").2 = "" by decide] at h1
  have := congrArg String.toList h1
  rw [String.toList_append] at this
  simp at this

end Ficus
