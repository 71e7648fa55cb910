import Verif.Spec.Files
import Verif.Proofs.Nets

/-! Lemmas about names, directories and files. -/

namespace Ficus
open Spec

/-! ### Names -/

theorem dropWhile_head {A : Type} (f : A → Bool) (l : List A) : ∀ a r, l.dropWhile f = a :: r → f a = false := by
  induction l with
  | nil => intro a r h; simp at h
  | cons x l ih =>
    intro a r h
    rw [List.dropWhile_cons] at h
    split at h
    · exact ih a r h
    · rename_i hx
      cases h
      simpa using hx

theorem dropWhile_nil_all {A : Type} (f : A → Bool) (l : List A) (h : l.dropWhile f = []) : ∀ a ∈ l, f a = true := by
  induction l with
  | nil => intro a ha; cases ha
  | cons x l ih =>
    rw [List.dropWhile_cons] at h
    split at h
    · rename_i hx
      intro a ha
      rcases List.mem_cons.1 ha with rfl | ha
      · exact hx
      · exact ih h a ha
    · cases h

theorem takeWhile_all {A : Type} (f : A → Bool) (l : List A) : ∀ a ∈ l.takeWhile f, f a = true := by
  induction l with
  | nil => intro a ha; simp at ha
  | cons x l ih =>
    intro a ha
    rw [List.takeWhile_cons] at ha
    split at ha
    · rename_i hx
      rcases List.mem_cons.1 ha with rfl | ha
      · exact hx
      · exact ih a ha
    · cases ha

theorem dropWhile_length {A : Type} (f : A → Bool) (l : List A) : (l.dropWhile f).length ≤ l.length :=
  (List.dropWhile_sublist f).length_le

theorem dirnameL_length (p : List Char) (h : p.all (fun c => decide (c = '/')) = false) :
    (dirnameL p).length < p.length := by
  unfold dirnameL
  generalize hr : p.reverse.dropWhile (fun c => decide (c ≠ '/')) = r
  have hle : r.length ≤ p.length := by
    rw [← hr, ← List.length_reverse (as := p)]
    exact dropWhile_length _ _
  dsimp only
  split
  · rename_i hall
    rw [List.length_reverse]
    rcases Nat.lt_or_ge r.length p.length with hlt | hge
    · exact hlt
    · have hrp : r = p.reverse := by
        have hs := List.dropWhile_suffix (fun c => decide (c ≠ '/')) (l := p.reverse)
        rw [hr] at hs
        exact hs.eq_of_length (by rw [List.length_reverse]; omega)
      rw [hrp, List.all_reverse] at hall
      rw [h] at hall; cases hall
  · rename_i hall
    rw [List.length_reverse]
    cases r with
    | nil => exact absurd (by rfl) hall
    | cons a r =>
      have ha := dropWhile_head _ _ _ _ hr
      simp only [ne_eq, decide_not, Bool.not_eq_false', decide_eq_true_eq] at ha
      subst ha
      rw [List.dropWhile_cons, if_pos (by decide)]
      have := dropWhile_length (fun c => decide (c = '/')) r
      simp only [List.length_cons] at hle ⊢
      omega

theorem dirname_length (p : String) (h : p.toList.all (fun c => decide (c = '/')) = false) :
    (dirname p).length < p.length := by
  have := dirnameL_length p.toList h
  unfold dirname
  rw [String.length_ofList, ← String.length_toList]
  exact this

theorem dirname_root (p : String) (h : p.toList.all (fun c => decide (c = '/')) = true) : dirname p = p := by
  unfold dirname dirnameL
  have h1 : p.toList.reverse.dropWhile (fun c => decide (c ≠ '/')) = p.toList.reverse := by
    cases hr : p.toList.reverse with
    | nil => rfl
    | cons a r =>
      have : a ∈ p.toList := by rw [← List.mem_reverse, hr]; simp
      have ha := List.all_eq_true.1 h a this
      rw [List.dropWhile_cons, if_neg (by simpa using ha)]
  rw [h1]
  dsimp only
  rw [if_pos (by rw [List.all_reverse]; exact h), List.reverse_reverse]
  simp

theorem dirname_empty : dirname "" = "" := by decide

/-- The directory of a name is empty exactly if there is no slash in the name. -/
theorem dirname_eq_empty (p : String) : dirname p = "" ↔ '/' ∉ p.toList := by
  unfold dirname
  rw [show ("" : String) = String.ofList [] from rfl, String.ofList_inj]
  unfold dirnameL
  generalize hr : p.toList.reverse.dropWhile (fun c => decide (c ≠ '/')) = r
  dsimp only
  cases r with
  | nil =>
    simp only [List.all_nil, if_true, List.reverse_nil, true_iff]
    intro hmem
    have h2 := dropWhile_nil_all _ _ hr '/' (by simpa using hmem)
    simp at h2
  | cons a r =>
    have ha := dropWhile_head _ _ _ _ hr
    simp only [ne_eq, decide_not, Bool.not_eq_false', decide_eq_true_eq] at ha
    subst ha
    have hmem : '/' ∈ p.toList := by
      rw [← List.mem_reverse]
      have : '/' ∈ p.toList.reverse.dropWhile (fun c => decide (c ≠ '/')) := by rw [hr]; simp
      exact (List.dropWhile_sublist _).subset this
    constructor
    · intro h
      split at h
      · simp at h
      · rename_i hall
        rw [List.reverse_eq_nil_iff] at h
        exfalso; apply hall
        rw [List.all_eq_true]
        exact dropWhile_nil_all _ _ h
    · intro h; exact absurd hmem h

theorem splitextL_join (p : List Char) : (splitextL p).1 ++ (splitextL p).2 = p := by
  unfold splitextL
  dsimp only
  split
  · rename_i root h
    split
    · simp
    · have := List.takeWhile_append_dropWhile (p := fun c => decide (c ≠ '.' ∧ c ≠ '/')) (l := p.reverse)
      rw [h] at this
      have h2 := congrArg List.reverse this
      rw [List.reverse_append, List.reverse_reverse, List.reverse_cons] at h2
      rw [List.append_assoc] at h2
      exact h2
  · simp

/-- The two parts of `splitext` make the name. -/
theorem splitext_join (p : String) : (splitext p).1 ++ (splitext p).2 = p := by
  unfold splitext
  dsimp only
  rw [← String.ofList_append, splitextL_join]
  simp

theorem takeWhile_of_all {A : Type} (f : A → Bool) (l r : List A) (h : ∀ a ∈ l, f a = true)
    (hr : ∀ a r', r = a :: r' → f a = false) : (l ++ r).takeWhile f = l ∧ (l ++ r).dropWhile f = r := by
  induction l with
  | nil =>
    cases r with
    | nil => exact ⟨rfl, rfl⟩
    | cons a r =>
      have := hr a r rfl
      simp [this]
  | cons x l ih =>
    have hx := h x (by simp)
    have := ih (fun a ha => h a (by simp [ha]))
    simp [hx, this.1, this.2]

theorem splitext_format {p format : String} (h : HasFormat p format) :
    (splitext p).2 = "." ++ format := by
  obtain ⟨dir, base, hp, hdir, hb, ⟨x, hx, hxd⟩, hd, hs⟩ := h
  have hrev : p.toList.reverse = format.toList.reverse ++ '.' :: (base.reverse ++ dir.reverse) := by
    rw [hp]; simp
  have h1 := takeWhile_of_all (fun c => decide (c ≠ '.' ∧ c ≠ '/')) format.toList.reverse
    ('.' :: (base.reverse ++ dir.reverse))
    (by
      intro a ha
      rw [List.mem_reverse] at ha
      exact decide_eq_true ⟨fun e => hd (e ▸ ha), fun e => hs (e ▸ ha)⟩)
    (by intro a r' h; cases h; decide)
  have h2 := takeWhile_of_all (fun c => decide (c ≠ '/')) base.reverse dir.reverse
    (by
      intro a ha
      rw [List.mem_reverse] at ha
      exact decide_eq_true (fun e => hb (e ▸ ha)))
    (by
      intro a r' h
      rcases hdir with rfl | hdir
      · simp at h
      · rw [List.getLast?_eq_head?_reverse, h] at hdir
        simp only [List.head?_cons, Option.some.injEq] at hdir
        subst hdir; decide)
  unfold splitext splitextL
  dsimp only
  rw [hrev, h1.1, h1.2]
  change String.ofList (if ((base.reverse ++ dir.reverse).takeWhile (fun c => decide (c ≠ '/'))).all
      (fun c => decide (c = '.')) then (p.toList, [])
    else ((base.reverse ++ dir.reverse).reverse, '.' :: format.toList.reverse.reverse)).2 = "." ++ format
  rw [h2.1, if_neg]
  · rw [List.reverse_reverse, show '.' :: format.toList = ".".toList ++ format.toList from rfl, String.ofList_append]
    simp
  · intro hall
    have := List.all_eq_true.1 hall x (by simpa using hx)
    simp at this
    exact hxd this

/-- A name without a format has no extension. -/
theorem splitext_cases (p : String) :
    (∃ format, HasFormat p format) ∨ (splitext p).2 = "" := by
  have hjoin := List.takeWhile_append_dropWhile (p := fun c => decide (c ≠ '.' ∧ c ≠ '/')) (l := p.toList.reverse)
  by_cases hc : ∃ root, p.toList.reverse.dropWhile (fun c => decide (c ≠ '.' ∧ c ≠ '/')) = '.' :: root ∧
      ¬ (root.takeWhile (fun c => decide (c ≠ '/'))).all (fun c => decide (c = '.')) = true
  · left
    obtain ⟨root, hroot, hall⟩ := hc
    rw [hroot] at hjoin
    have h2 := congrArg List.reverse hjoin
    rw [List.reverse_append, List.reverse_reverse, List.reverse_cons] at h2
    have hjoin2 := List.takeWhile_append_dropWhile (p := fun c => decide (c ≠ '/')) (l := root)
    have h3 := congrArg List.reverse hjoin2
    rw [List.reverse_append] at h3
    have hext : ∀ c ∈ p.toList.reverse.takeWhile (fun c => decide (c ≠ '.' ∧ c ≠ '/')), c ≠ '.' ∧ c ≠ '/' := by
      intro c hc
      have := takeWhile_all _ _ _ hc
      exact of_decide_eq_true this
    refine ⟨String.ofList (p.toList.reverse.takeWhile (fun c => decide (c ≠ '.' ∧ c ≠ '/'))).reverse,
      (root.dropWhile (fun c => decide (c ≠ '/'))).reverse, (root.takeWhile (fun c => decide (c ≠ '/'))).reverse,
      ?_, ?_, ?_, ?_, ?_, ?_⟩
    · rw [h3, String.toList_ofList]; rw [List.append_assoc] at h2; exact h2.symm
    · cases hd : root.dropWhile (fun c => decide (c ≠ '/')) with
      | nil => left; rfl
      | cons a r =>
        right
        have := dropWhile_head _ _ _ _ hd
        simp only [ne_eq, decide_not, Bool.not_eq_false', decide_eq_true_eq] at this
        subst this; simp
    · intro h
      rw [List.mem_reverse] at h
      have := takeWhile_all _ _ _ h
      simp at this
    · simp only [List.all_eq_true, not_forall] at hall
      obtain ⟨x, hx, hxd⟩ := hall
      exact ⟨x, by simpa using hx, by simpa using hxd⟩
    · rw [String.toList_ofList, List.mem_reverse]; intro h; exact (hext _ h).1 rfl
    · rw [String.toList_ofList, List.mem_reverse]; intro h; exact (hext _ h).2 rfl
  · right
    have : (splitextL p.toList).2 = [] := by
      unfold splitextL
      dsimp only
      split
      · rename_i root hroot
        split
        · rfl
        · rename_i hall; exact absurd ⟨root, hroot, hall⟩ hc
      · rfl
    unfold splitext
    rw [this]

theorem hasFormat_iff (p format : String) : HasFormat p format ↔ (splitext p).2 = "." ++ format := by
  constructor
  · exact splitext_format
  · intro h
    rcases splitext_cases p with ⟨f, hf⟩ | h0
    · have := splitext_format hf
      rw [this] at h
      have : f = format := by
        have h' := congrArg String.toList h
        rw [String.toList_append, String.toList_append] at h'
        exact String.toList_injective (List.append_cancel_left h')
      exact this ▸ hf
    · rw [h0] at h
      have h' := congrArg String.toList h
      simp at h'

/-! ### Computations -/

theorem fileBind_ok {A B : Type} {m : FileOp A} {f : A → FileOp B} {d d' : Disk} {a : A} (h : m d = (d', .ok a)) :
    FileOp.bind m f d = f a d' := by
  unfold FileOp.bind; rw [h]

theorem fileBind_error {A B : Type} {m : FileOp A} {f : A → FileOp B} {d d' : Disk} {e : FileErr}
    (h : m d = (d', .error e)) : FileOp.bind m f d = (d', .error e) := by
  unfold FileOp.bind; rw [h]

/-! ### Directories -/

theorem above_empty {q : String} (h : Above q "") : q = "" := by
  generalize he : "" = p at h
  induction h with
  | refl => exact he.symm ▸ rfl
  | up h ih => subst he; exact ih dirname_empty.symm

theorem isDir_iff (d : Disk) (p : String) :
    d.isDir p = true ↔ d.dirs p = true ∨ (p ≠ "" ∧ p.toList.all (fun c => decide (c = '/')) = true) := by
  unfold Disk.isDir
  simp only [Bool.or_eq_true, Bool.and_eq_true, decide_eq_true_eq]

theorem exists_iff (d : Disk) (p : String) : d.exists p = true ↔ d.isDir p = true ∨ d.files p ≠ none := by
  unfold Disk.exists
  rw [Bool.or_eq_true, Option.isSome_iff_ne_none]

theorem exists_false_iff (d : Disk) (p : String) : d.exists p = false ↔ d.isDir p = false ∧ d.files p = none := by
  unfold Disk.exists
  rw [Bool.or_eq_false_iff]
  simp

theorem Spec.SoundDisk.isDir_ne_empty {d : Disk} (hs : SoundDisk d) {p : String} (h : d.isDir p = true) : p ≠ "" := by
  rintro rfl
  rcases (isDir_iff _ _).1 h with h | ⟨h, _⟩
  · rw [hs.noName.1] at h; cases h
  · exact h rfl

theorem Spec.SoundDisk.isDir_parent {d : Disk} (hs : SoundDisk d) {p : String} (h : d.isDir p = true) :
    dirname p = "" ∨ d.isDir (dirname p) = true := by
  rcases (isDir_iff _ _).1 h with h1 | ⟨h1, h2⟩
  · exact hs.parent p (.inl h1)
  · right; rw [dirname_root p h2]; exact h

/-- The directories above a directory exist. -/
theorem Spec.SoundDisk.above_isDir {d : Disk} (hs : SoundDisk d) {p q : String} (ha : Above q p) (h : d.isDir p = true) (hq : q ≠ "") :
    d.isDir q = true := by
  induction ha with
  | refl => exact h
  | @up p ha ih =>
    rcases hs.isDir_parent h with h0 | h1
    · rw [h0] at ha; exact absurd (above_empty ha) hq
    · exact ih h1

theorem mkdirExistOk_dir {d : Disk} {p : String} (h : d.isDir p = true) (hp : p ≠ "") :
    mkdirExistOk p d = (d, .ok ()) := by
  unfold mkdirExistOk mkdir
  have he : d.exists p = true := (exists_iff _ _).2 (.inl h)
  simp only [hp, if_false, he, if_true, h]

theorem parentError_none {d : Disk} {p : String} (h : dirname p = "" ∨ d.isDir (dirname p) = true) :
    parentError d p = none := by
  unfold parentError
  rcases h with h | h
  · rw [if_pos h]
  · by_cases h0 : dirname p = ""
    · rw [if_pos h0]
    · rw [if_neg h0, if_pos h]

/-- The disk with one more directory. -/
def addDir (d : Disk) (p : String) : Disk := { d with dirs := fun q => d.dirs q || decide (q = p) }

theorem addDir_isDir (d : Disk) (p q : String) : (addDir d p).isDir q = true ↔ d.isDir q = true ∨ q = p := by
  rw [isDir_iff, isDir_iff]
  unfold addDir
  simp only [Bool.or_eq_true, decide_eq_true_eq]
  tauto

theorem mkdirExistOk_new {d : Disk} {p : String} (hp : p ≠ "") (h : d.isDir p = false) (hf : d.files p = none)
    (hpar : dirname p = "" ∨ d.isDir (dirname p) = true) : mkdirExistOk p d = (addDir d p, .ok ()) := by
  unfold mkdirExistOk mkdir
  have he : d.exists p = false := (exists_false_iff _ _).2 ⟨h, hf⟩
  simp only [hp, if_false, he, parentError_none hpar]
  rfl

theorem addDir_sound {d : Disk} (hs : SoundDisk d) {p : String} (hp : p ≠ "") (hf : d.files p = none)
    (hpar : dirname p = "" ∨ d.isDir (dirname p) = true) : SoundDisk (addDir d p) := by
  refine ⟨⟨?_, hs.noName.2⟩, ?_, ?_⟩
  · show (d.dirs "" || decide ("" = p)) = false
    rw [hs.noName.1, Bool.false_or, decide_eq_false_iff_not]; exact fun h => hp h.symm
  · intro q hq
    rcases (addDir_isDir d p q).1 hq with hq | rfl
    · exact hs.apart q hq
    · exact hf
  · intro q hq
    have hup : dirname q = "" ∨ d.isDir (dirname q) = true := by
      rcases hq with hq | hq
      · have : d.dirs q = true ∨ q = p := by simpa [addDir] using hq
        rcases this with h | rfl
        · exact hs.parent q (.inl h)
        · exact hpar
      · exact hs.parent q (.inr hq)
    exact hup.imp_right (fun h => (addDir_isDir d p _).2 (.inl h))

theorem makedirsFuel_ok (n : Nat) (p : String) (d : Disk) (hs : SoundDisk d) (hp : p ≠ "") (hn : p.length ≤ n)
    (hc : ClearWay d p) :
    ∃ d', makedirsFuel n p d = (d', .ok ()) ∧ d'.files = d.files ∧ WithDirs d p d' ∧ SoundDisk d' := by
  induction n generalizing p d with
  | zero =>
    exfalso; apply hp
    have : p.toList = [] := List.length_eq_zero_iff.1 (by rw [String.length_toList]; omega)
    exact String.toList_injective this
  | succ n ih =>
    have hpf : d.files p = none := hc p .refl
    have hlast : ∀ d' : Disk, SoundDisk d' → d'.files = d.files → (dirname p = "" ∨ d'.isDir (dirname p) = true) →
        (∀ q, d'.isDir q = true → d.isDir q = true ∨ (q ≠ "" ∧ Above q p)) →
        (∀ q, d.isDir q = true → d'.isDir q = true) →
        ∃ d'', mkdirExistOk p d' = (d'', .ok ()) ∧ d''.files = d.files ∧ WithDirs d p d'' ∧ SoundDisk d'' := by
      intro d' hs' hf' hpar hd1 hd2
      have habove : ∀ (d3 : Disk), SoundDisk d3 → d3.isDir p = true → ∀ q, q ≠ "" ∧ Above q p → d3.isDir q = true :=
        fun d3 h3 hd3 q hq => h3.above_isDir hq.2 hd3 hq.1
      cases hdir : d'.isDir p with
      | true =>
        refine ⟨d', mkdirExistOk_dir hdir hp, hf', ?_, hs'⟩
        intro q
        exact ⟨hd1 q, fun h => h.elim (hd2 q) (habove d' hs' hdir q)⟩
      | false =>
        have hpf' : d'.files p = none := by rw [hf']; exact hpf
        have hs'' := addDir_sound hs' hp hpf' hpar
        refine ⟨_, mkdirExistOk_new hp hdir hpf' hpar, hf', ?_, hs''⟩
        intro q
        rw [addDir_isDir]
        constructor
        · rintro (h | rfl)
          · exact hd1 q h
          · exact .inr ⟨hp, .refl⟩
        · rintro (h | h)
          · exact .inl (hd2 q h)
          · exact (addDir_isDir d' p q).1 (habove _ hs'' ((addDir_isDir d' p p).2 (.inr rfl)) q h)
    unfold makedirsFuel
    by_cases hrec : dirname p ≠ "" ∧ d.exists (dirname p) = false
    · rw [if_pos hrec]
      have hnr : p.toList.all (fun c => decide (c = '/')) = false := by
        by_contra hall
        rw [Bool.not_eq_false] at hall
        have := (exists_false_iff _ _).1 hrec.2
        rw [dirname_root p hall] at this
        have h2 := (isDir_iff d p).2 (.inr ⟨hp, hall⟩)
        rw [this.1] at h2; cases h2
      have hlen := dirname_length p hnr
      obtain ⟨d', hd', hf', hw', hs'⟩ := ih (dirname p) d hs hrec.1 (by omega) (fun q hq => hc q (.up hq))
      rw [hd']
      exact hlast d' hs' hf' (.inr ((hw' _).2 (.inr ⟨hrec.1, .refl⟩)))
        (fun q hq => ((hw' q).1 hq).imp_right (fun h => ⟨h.1, .up h.2⟩)) (fun q hq => (hw' q).2 (.inl hq))
    · rw [if_neg hrec]
      have hpar : dirname p = "" ∨ d.isDir (dirname p) = true := by
        by_cases h0 : dirname p = ""
        · exact .inl h0
        · right
          have he : d.exists (dirname p) = true := by
            by_contra h; exact hrec ⟨h0, by simpa using h⟩
          rcases (exists_iff _ _).1 he with h | h
          · exact h
          · exact absurd (hc _ (.up .refl)) h
      exact hlast d hs rfl hpar (fun q hq => .inl hq) (fun q hq => hq)

/-- `os.makedirs` makes the directory and those above it, if no file is in the way. -/
theorem makedirs_ok {p : String} {d : Disk} (hs : SoundDisk d) (hp : p ≠ "") (hc : ClearWay d p) :
    ∃ d', makedirs p d = (d', .ok ()) ∧ d'.files = d.files ∧ WithDirs d p d' ∧ SoundDisk d' :=
  makedirsFuel_ok p.length p d hs hp (Nat.le_refl _) hc

/-- `os.makedirs("")` raises `FileNotFoundError`. -/
theorem makedirs_empty {d : Disk} (hs : SoundDisk d) : makedirs "" d = (d, .error .fileNotFound) := by
  have h : d.isDir "" = false := by
    by_contra h
    rw [Bool.not_eq_false] at h
    exact hs.isDir_ne_empty h rfl
  show mkdirExistOk "" d = _
  unfold mkdirExistOk mkdir
  simp [h]

/-- A file hides what would lie under it. -/
theorem Spec.SoundDisk.under_file {d : Disk} (hs : SoundDisk d) {p q : String} (ha : Above q p) (hf : d.files q ≠ none) (hq : q ≠ p) :
    d.isDir p = false ∧ d.files p = none := by
  have hq0 : q ≠ "" := by rintro rfl; exact hf hs.noName.2
  cases ha with
  | refl => exact absurd rfl hq
  | up ha =>
    have key : ¬ (dirname p = "" ∨ d.isDir (dirname p) = true) := by
      rintro (h | h)
      · rw [h] at ha; exact hq0 (above_empty ha)
      · exact hf (hs.apart q (hs.above_isDir ha h hq0))
    constructor
    · by_contra h
      rw [Bool.not_eq_false] at h
      exact key (hs.isDir_parent h)
    · by_contra h
      exact key (hs.parent p (.inr h))

theorem makedirsFuel_blocked (n : Nat) (p q : String) (d : Disk) (hs : SoundDisk d) (hn : p.length ≤ n)
    (ha : Above q p) (hf : d.files q ≠ none) :
    makedirsFuel n p d = (d, .error (if q = p then .fileExists else .notADirectory)) := by
  have hq0 : q ≠ "" := by rintro rfl; exact hf hs.noName.2
  have hp : p ≠ "" := by rintro rfl; exact hq0 (above_empty ha)
  induction n generalizing p with
  | zero =>
    exfalso; apply hp
    have : p.toList = [] := List.length_eq_zero_iff.1 (by rw [String.length_toList]; omega)
    exact String.toList_injective this
  | succ n ih =>
    unfold makedirsFuel
    by_cases hqp : q = p
    · subst hqp
      have hnd : d.isDir q = false := by
        by_contra h
        rw [Bool.not_eq_false] at h
        exact hf (hs.apart q h)
      have hpar := hs.parent q (.inr hf)
      rw [if_neg, if_pos rfl]
      · unfold mkdirExistOk mkdir
        have he : d.exists q = true := (exists_iff _ _).2 (.inr hf)
        simp [hp, he, hnd]
      · rintro ⟨h1, h2⟩
        rcases hpar with h | h
        · exact h1 h
        · rw [((exists_false_iff _ _).1 h2).1] at h; cases h
    · rw [if_neg hqp]
      have hno := hs.under_file ha hf hqp
      have ha' : Above q (dirname p) := by
        cases ha with
        | refl => exact absurd rfl hqp
        | up ha => exact ha
      have hd0 : dirname p ≠ "" := by intro h; rw [h] at ha'; exact hq0 (above_empty ha')
      by_cases hq2 : q = dirname p
      · have hnd : d.isDir (dirname p) = false := by
          by_contra h
          rw [Bool.not_eq_false] at h
          exact hf (hq2 ▸ hs.apart _ h)
        rw [if_neg]
        · unfold mkdirExistOk mkdir parentError
          have he : d.exists p = false := (exists_false_iff _ _).2 hno
          have hfs : (d.files (dirname p)).isSome = true := by rw [Option.isSome_iff_ne_none, ← hq2]; exact hf
          simp [hp, he, hno.1, hd0, hnd, hfs]
        · rintro ⟨-, h2⟩
          exact hf (hq2 ▸ ((exists_false_iff _ _).1 h2).2)
      · have hno2 := hs.under_file ha' hf hq2
        rw [if_pos ⟨hd0, (exists_false_iff _ _).2 hno2⟩]
        have hnr : p.toList.all (fun c => decide (c = '/')) = false := by
          by_contra hall
          rw [Bool.not_eq_false] at hall
          have h2 := (isDir_iff d p).2 (.inr ⟨hp, hall⟩)
          rw [hno.1] at h2; cases h2
        have hlen := dirname_length p hnr
        rw [ih (dirname p) (by omega) ha' hd0, if_neg hq2]

/-- `os.makedirs` fails if a file is in the way, and changes nothing. -/
theorem makedirs_blocked {p q : String} {d : Disk} (hs : SoundDisk d) (ha : Above q p) (hf : d.files q ≠ none) :
    makedirs p d = (d, .error (if q = p then .fileExists else .notADirectory)) :=
  makedirsFuel_blocked p.length p q d hs (Nat.le_refl _) ha hf

/-! ### Files -/

/-- The disk with a file. -/
def putFile (d : Disk) (p : String) (c : Content) : Disk :=
  { d with files := fun q => if q = p then some c else d.files q }

theorem writeFile_ok {d : Disk} {p : String} (c : Content) (hp : FileName p) (hd : d.isDir p = false)
    (hpar : dirname p = "" ∨ d.isDir (dirname p) = true) : writeFile p c d = (putFile d p c, .ok ()) := by
  unfold writeFile
  rw [if_neg hp.1, if_neg (by rw [hd]; simpa using hp.2), parentError_none hpar]
  rfl

theorem putFile_sound {d : Disk} (hs : SoundDisk d) {p : String} (c : Content) (hp : p ≠ "") (hd : d.isDir p = false)
    (hpar : dirname p = "" ∨ d.isDir (dirname p) = true) : SoundDisk (putFile d p c) := by
  refine ⟨⟨hs.noName.1, ?_⟩, ?_, ?_⟩
  · show (if "" = p then some c else d.files "") = none
    rw [if_neg (fun h => hp h.symm)]; exact hs.noName.2
  · intro q hq
    show (if q = p then some c else d.files q) = none
    have hq' : d.isDir q = true := hq
    rw [if_neg]
    · exact hs.apart q hq'
    · rintro rfl; rw [hd] at hq'; cases hq'
  · intro q hq
    show dirname q = "" ∨ d.isDir (dirname q) = true
    by_cases h : q = p
    · subst h; exact hpar
    · refine hs.parent q (hq.imp_right ?_)
      intro h2 h3; apply h2
      show (if q = p then some c else d.files q) = none
      rw [if_neg h]; exact h3

/-- A file is written or nothing changes. -/
theorem writeFile_cases (d : Disk) (p : String) (c : Content) :
    (writeFile p c d = (putFile d p c, .ok ()) ∧ FileName p ∧ d.isDir p = false ∧
        (dirname p = "" ∨ d.isDir (dirname p) = true)) ∨
      (∃ e, writeFile p c d = (d, .error e)) ∧
        ¬ (FileName p ∧ d.isDir p = false ∧ (dirname p = "" ∨ d.isDir (dirname p) = true)) := by
  by_cases h : FileName p ∧ d.isDir p = false ∧ (dirname p = "" ∨ d.isDir (dirname p) = true)
  · exact .inl ⟨writeFile_ok c h.1 h.2.1 h.2.2, h⟩
  · refine .inr ⟨?_, h⟩
    unfold writeFile
    by_cases h1 : p = ""
    · rw [if_pos h1]; exact ⟨_, rfl⟩
    · rw [if_neg h1]
      by_cases h2 : d.isDir p = true ∨ p.toList.getLast? = some '/'
      · rw [if_pos h2]; exact ⟨_, rfl⟩
      · rw [if_neg h2]
        rw [not_or] at h2
        have hpar : ¬ (dirname p = "" ∨ d.isDir (dirname p) = true) :=
          fun h3 => h ⟨⟨h1, h2.2⟩, by simpa using h2.1, h3⟩
        rw [not_or] at hpar
        unfold parentError
        rw [if_neg hpar.1, if_neg hpar.2]
        by_cases h3 : (d.files (dirname p)).isSome = true
        · rw [if_pos h3]; exact ⟨_, rfl⟩
        · rw [if_neg h3]; exact ⟨_, rfl⟩

theorem makedirs_existing {d : Disk} (hs : SoundDisk d) {p : String} (h : d.isDir p = true) : makedirs p d = (d, .ok ()) := by
  have hp := hs.isDir_ne_empty h
  unfold makedirs
  cases hn : p.length with
  | zero => exact mkdirExistOk_dir h hp
  | succ n =>
    unfold makedirsFuel
    rw [if_neg]
    · exact mkdirExistOk_dir h hp
    · rintro ⟨h1, h2⟩
      rcases hs.isDir_parent h with h3 | h3
      · exact h1 h3
      · rw [((exists_false_iff _ _).1 h2).1] at h3; cases h3

theorem above_length {q p : String} (h : Above q p) : q.length ≤ p.length := by
  induction h with
  | refl => exact Nat.le_refl _
  | @up p h ih =>
    cases hall : p.toList.all (fun c => decide (c = '/')) with
    | true => rw [dirname_root p hall] at ih; exact ih
    | false => exact ih.trans (Nat.le_of_lt (dirname_length p hall))

theorem Spec.FileName.not_root {p : String} (h : FileName p) : p.toList.all (fun c => decide (c = '/')) = false := by
  by_contra hall
  rw [Bool.not_eq_false, List.all_eq_true] at hall
  cases hl : p.toList.getLast? with
  | none =>
    rw [List.getLast?_eq_none_iff] at hl
    exact h.1 (String.toList_injective hl)
  | some c =>
    have hc := hall c (List.mem_of_getLast? hl)
    have : c = '/' := by simpa using hc
    rw [this] at hl
    exact h.2 hl

/-- The name of a file is not that of a directory above it. -/
theorem Spec.FileName.not_above {p : String} (h : FileName p) : ¬ Above p (dirname p) := by
  intro ha
  have := above_length ha
  have := dirname_length p h.not_root
  omega

theorem WithDirs.isDir_file {d d' : Disk} {p : String} (hw : WithDirs d (dirname p) d') (hp : FileName p) :
    d'.isDir p = d.isDir p := by
  have : d'.isDir p = true ↔ d.isDir p = true := by
    rw [hw p]
    exact ⟨fun h => h.elim id (fun h => absurd h.2 hp.not_above), .inl⟩
  exact Bool.eq_iff_iff.2 this

theorem Spec.HasFormat.fileName {p format : String} (h : HasFormat p format) : FileName p := by
  obtain ⟨dir, base, hp, -, -, ⟨x, hx, -⟩, -, hs⟩ := h
  constructor
  · rintro rfl
    have := congrArg List.length hp
    simp at this
  · rw [hp, List.getLast?_append]
    intro h
    simp only [List.getLast?_cons, Option.some_or, Option.some.injEq] at h
    cases hl : format.toList.getLast? with
    | none => rw [hl] at h; simp at h
    | some c =>
      rw [hl] at h
      simp only [Option.getD_some] at h
      subst h
      exact hs (List.mem_of_getLast? hl)

theorem Spec.HasFormat.unique {p f f' : String} (h : HasFormat p f) (h' : HasFormat p f') : f = f' := by
  have h1 := splitext_format h
  rw [splitext_format h'] at h1
  have h2 := congrArg String.toList h1
  rw [String.toList_append, String.toList_append] at h2
  exact String.toList_injective (List.append_cancel_left h2).symm

theorem dirname_append (p s : String) (h : '/' ∉ s.toList) : dirname (p ++ s) = dirname p := by
  have : (p ++ s).toList.reverse.dropWhile (fun c => decide (c ≠ '/')) =
      p.toList.reverse.dropWhile (fun c => decide (c ≠ '/')) := by
    rw [String.toList_append, List.reverse_append]
    have hall : ∀ a ∈ s.toList.reverse, decide (a ≠ '/') = true := by
      intro a ha
      rw [List.mem_reverse] at ha
      exact decide_eq_true (fun e => h (e ▸ ha))
    generalize s.toList.reverse = l at hall
    induction l with
    | nil => rfl
    | cons a l ih =>
      rw [List.cons_append, List.dropWhile_cons, if_pos (hall a (by simp))]
      exact ih (fun b hb => hall b (by simp [hb]))
  unfold dirname dirnameL
  rw [this]

theorem fileName_append {p s : String} (hs : s.toList ≠ []) (h : '/' ∉ s.toList) : FileName (p ++ s) := by
  constructor
  · intro he
    have := congrArg String.toList he
    rw [String.toList_append] at this
    exact hs (List.append_eq_nil_iff.1 this).2
  · rw [String.toList_append, List.getLast?_append]
    cases hl : s.toList.getLast? with
    | none => exact absurd (List.getLast?_eq_none_iff.1 hl) hs
    | some c =>
      intro he
      simp only [Option.some_or, Option.some.injEq] at he
      subst he
      exact h (List.mem_of_getLast? hl)

theorem saveSource_ok {d : Disk} (hs : SoundDisk d) {path : String} (g : List DotStmt) (hn : FileName path)
    (hd : d.isDir path = false) (hpar : dirname path = "" ∨ d.isDir (dirname path) = true) :
    saveSource path g d = (putFile d path (.source g), .ok ()) := by
  unfold saveSource FileOp.bind
  by_cases h0 : dirname path = ""
  · rw [if_pos h0]
    exact writeFile_ok _ hn hd hpar
  · rw [if_neg h0, makedirs_existing hs (hpar.resolve_left h0)]
    exact writeFile_ok _ hn hd hpar

theorem putFile_isDir (d : Disk) (p : String) (c : Content) (q : String) : (putFile d p c).isDir q = d.isDir q := rfl

theorem putFile_same (d : Disk) (p : String) (c : Content) : (putFile d p c).files p = some c := by
  show (if p = p then some c else d.files p) = some c
  rw [if_pos rfl]

theorem putFile_other {d : Disk} {p : String} {c : Content} {q : String} (h : q ≠ p) :
    (putFile d p c).files q = d.files q := by
  show (if q = p then some c else d.files q) = d.files q
  rw [if_neg h]

/-- The disk without a file. -/
def dropFile (d : Disk) (p : String) : Disk := { d with files := fun q => if q = p then none else d.files q }

theorem dropFile_same (d : Disk) (p : String) : (dropFile d p).files p = none := by
  show (if p = p then none else d.files p) = none
  rw [if_pos rfl]

theorem dropFile_other {d : Disk} {p q : String} (h : q ≠ p) : (dropFile d p).files q = d.files q := by
  show (if q = p then none else d.files q) = d.files q
  rw [if_neg h]

theorem dropFile_sound {d : Disk} (hs : SoundDisk d) (p : String) : SoundDisk (dropFile d p) := by
  have hnone : ∀ q, d.files q = none → (dropFile d p).files q = none := by
    intro q h
    show (if q = p then none else d.files q) = none
    split
    · rfl
    · exact h
  exact ⟨⟨hs.noName.1, hnone _ hs.noName.2⟩, fun q hq => hnone q (hs.apart q hq),
    fun q hq => hs.parent q (hq.imp_right (fun h1 h2 => h1 (hnone q h2)))⟩

theorem renameFile_ok {d : Disk} {src dst : String} {c : Content} (hc : d.files src = some c) (hp : FileName dst)
    (hd : d.isDir dst = false) (hpar : dirname dst = "" ∨ d.isDir (dirname dst) = true) (hne : src ≠ dst) :
    renameFile src dst d = (dropFile (putFile d dst c) src, .ok ()) := by
  unfold renameFile
  rw [hc]
  dsimp only
  rw [writeFile_ok c hp hd hpar]
  dsimp only
  congr 2
  funext q
  by_cases h : q = src
  · rw [if_pos h, if_pos ⟨h, hne⟩]
  · rw [if_neg h, if_neg (fun h2 => h h2.1)]

theorem above_cases {q p : String} (h : Above q p) : q = p ∨ Above q (dirname p) := by
  cases h with
  | refl => exact .inl rfl
  | up h => exact .inr h

theorem ensureDir_ok {d : Disk} (hs : SoundDisk d) {dir : String} (h0 : dir ≠ "") (hc : ClearWay d dir) :
    ∃ d', ensureDir dir d = (d', .ok ()) ∧ d'.files = d.files ∧ WithDirs d dir d' ∧ SoundDisk d' := by
  unfold ensureDir
  by_cases he : d.exists dir = true
  · rw [if_pos he]
    have hdir : d.isDir dir = true := by
      rcases (exists_iff _ _).1 he with h | h
      · exact h
      · exact absurd (hc _ .refl) h
    exact ⟨d, rfl, rfl, fun q => ⟨.inl, fun h => h.elim id (fun h => hs.above_isDir h.2 hdir h.1)⟩, hs⟩
  · rw [if_neg he]
    exact makedirs_ok hs h0 hc

theorem ensureDir_empty {d : Disk} (hs : SoundDisk d) : ensureDir "" d = (d, .error .fileNotFound) := by
  have he : d.exists "" = false := by
    rw [exists_false_iff]
    refine ⟨?_, hs.noName.2⟩
    by_contra h
    rw [Bool.not_eq_false] at h
    exact hs.isDir_ne_empty h rfl
  unfold ensureDir
  rw [he, makedirs_empty hs]
  rfl

theorem dirname_join {p b : String} (hp : FileName p) (hb : '/' ∉ b.toList) : dirname (p ++ "/" ++ b) = p := by
  rw [dirname_append _ _ hb]
  unfold dirname dirnameL
  have h1 : (p ++ "/").toList.reverse.dropWhile (fun c => decide (c ≠ '/')) = '/' :: p.toList.reverse := by
    rw [String.toList_append, List.reverse_append]
    rfl
  rw [h1]
  dsimp only
  have hne : ¬ ('/' :: p.toList.reverse).all (fun c => decide (c = '/')) = true := by
    intro h
    have h2 : p.toList.all (fun c => decide (c = '/')) = true := by
      rw [List.all_cons, Bool.and_eq_true, List.all_reverse] at h
      exact h.2
    rw [hp.not_root] at h2; cases h2
  rw [if_neg hne, List.dropWhile_cons, if_pos (by decide)]
  have h2 : p.toList.reverse.dropWhile (fun c => decide (c = '/')) = p.toList.reverse := by
    cases hr : p.toList.reverse with
    | nil => rfl
    | cons a r =>
      have hl : p.toList.getLast? = some a := by rw [List.getLast?_eq_head?_reverse, hr]; rfl
      rw [List.dropWhile_cons, if_neg]
      intro ha
      have : a = '/' := by simpa using ha
      rw [this] at hl
      exact hp.2 hl
  rw [h2, List.reverse_reverse]
  simp

theorem basename_noSlash (p : String) : '/' ∉ (basename p).toList := by
  unfold basename
  rw [String.toList_ofList, List.mem_reverse]
  intro h
  have := takeWhile_all _ _ _ h
  simp at this

theorem basename_ne_nil {p : String} (hp : FileName p) : (basename p).toList ≠ [] := by
  unfold basename
  rw [String.toList_ofList]
  intro h
  rw [List.reverse_eq_nil_iff] at h
  cases hr : p.toList.reverse with
  | nil =>
    rw [List.reverse_eq_nil_iff] at hr
    exact hp.1 (String.toList_injective hr)
  | cons a r =>
    rw [hr, List.takeWhile_cons] at h
    split at h
    · cases h
    · rename_i ha
      have ha' : a = '/' := by simpa using ha
      apply hp.2
      rw [List.getLast?_eq_head?_reverse, hr, ha']; rfl

end Ficus
