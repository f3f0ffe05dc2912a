import Verif.Props.Tabs
import Verif.Props.GrepMain
import Verif.Model.TabsMain

/-!
Properties of the commands `tabs` and `transpose`: C153 to C157.
-/

namespace Cdx

/-- Showing a file never fails on a screen of this width: no line has more fields than the header (or first line), and there are
no more of these than positions. -/
def Showable (width : Nat) (content : Bytes) : Prop :=
  (∀ l ∈ (openReader content).lines, (mergeLine l).vec.length ≤ (openReader content).names.length) ∧
    (openReader content).names.length ≤ width

/-- The number of lines a file shows when nothing is cut off. -/
def fullLines (content : Bytes) : Nat :=
  if content = [] then 0 else (if (openReader content).hasHeader then 1 else 0) + (openReader content).lines.length

theorem show2_shown {g : Glyphs} (hg : GlyphsOk g) (width height : Nat) (content : Bytes) (h : Showable width content) :
    ∃ rows w, show2 g width height content = .ok (rows, w) ∧ w ≤ width ∧
      rows.length = min (fullLines content) (if content ≠ [] ∧ (openReader content).hasHeader then max 1 height else height) := by
  by_cases hne : content = []
  · subst hne
    exact ⟨[], 0, rfl, Nat.zero_le _, by simp [fullLines]⟩
  · obtain ⟨rows, total, need, sizes, h1, _, _, _, _, h2, h3, _⟩ := C70_show g hg width height content hne (by
      intro l hl
      unfold shownLines at hl
      rcases List.mem_append.1 hl with hl | hl
      · split at hl
        · simp at hl; subst hl; exact Nat.le_refl _
        · simp at hl
      · obtain ⟨x, hx, rfl⟩ := List.mem_map.1 hl
        exact h.1 x (List.mem_of_mem_take hx)) h.2
    refine ⟨rows, total, h1, h2, ?_⟩
    rw [h3]
    unfold shownLines fullLines
    rw [if_neg hne]
    cases (openReader content).hasHeader with
    | true => simp [hne]; omega
    | false => simp [Nat.min_comm]

/-- What is written for one of several files: its name in the middle, its lines, and a line under it unless it is the last one. -/
def fileBlock (name : Bytes) (rows : List Bytes) (w : Nat) (last : Bool) : List Bytes :=
  (if name.length ≤ w then
    [List.replicate ((w - name.length) / 2) SP ++ name ++ List.replicate (w - name.length - (w - name.length) / 2) SP] else []) ++
    rows ++ (if last then [] else [List.replicate w 45])

/-- The blocks of the files, each shown with its own height. -/
inductive Blocks (g : Glyphs) (width : Nat) : List (Bytes × Bytes) → List Nat → List Bytes → Prop
  | nil : Blocks g width [] [] []
  | cons {f : Bytes × Bytes} {fs : List (Bytes × Bytes)} {h : Nat} {hs : List Nat} {rows : List Bytes} {w : Nat} {out : List Bytes} :
      show2 g width h f.2 = .ok (rows, w) → Blocks g width fs hs out →
      Blocks g width (f :: fs) (h :: hs) (fileBlock f.1 rows w fs.isEmpty ++ out)

/-- What is left of the lines is always divided equally among the files that are left. -/
inductive Dealt (g : Glyphs) (width : Nat) : Nat → List (Bytes × Bytes) → List Nat → Prop
  | nil {left : Nat} : Dealt g width left [] []
  | cons {left h w : Nat} {f : Bytes × Bytes} {fs : List (Bytes × Bytes)} {hs : List Nat} {rows : List Bytes} :
      h = left / (f :: fs).length → show2 g width h f.2 = .ok (rows, w) → Dealt g width (left - rows.length) fs hs →
      Dealt g width left (f :: fs) (h :: hs)

theorem block_eq (name : Bytes) (rows : List Bytes) (w n : Nat) :
    printCentered name w ++ rows ++ (if n > 0 then [List.replicate w 45] else []) = fileBlock name rows w (decide (n = 0)) := by
  unfold printCentered fileBlock
  by_cases h : name.length > w
  · rw [if_pos h, if_neg (show ¬ name.length ≤ w by omega)]
    by_cases h2 : n = 0
    · simp [h2]
    · simp [h2, Nat.pos_of_ne_zero h2]
  · rw [if_neg h, if_pos (show name.length ≤ w by omega)]
    by_cases h2 : n = 0
    · simp [h2]
    · simp [h2, Nat.pos_of_ne_zero h2]

theorem share_grows (left f r share : Nat) (h : share ≤ left / (f + 1)) (hr : r ≤ left / (f + 1)) (hf : 0 < f) : share ≤ (left - r) / f := by
  rw [Nat.le_div_iff_mul_le hf]
  have h1 : left / (f + 1) * (f + 1) ≤ left := Nat.div_mul_le_self left (f + 1)
  have h2 : left / (f + 1) * (f + 1) = left / (f + 1) * f + left / (f + 1) := Nat.mul_succ _ _
  have h3 : share * f ≤ left / (f + 1) * f := Nat.mul_le_mul_right f h
  omega

theorem tabsLoop_spec {g : Glyphs} (hg : GlyphsOk g) (width : Nat) (share : Nat) (hshare : 1 ≤ share) :
    ∀ (files : List (Bytes × Bytes)) (left : Nat), (∀ f ∈ files, Showable width f.2) →
    (files ≠ [] → share ≤ left / files.length) →
    ∃ out hs, tabsLoop g width left files.length files = .ok out ∧ Blocks g width files hs out ∧ (∀ h ∈ hs, share ≤ h) ∧
      Dealt g width left files hs ∧ out.length ≤ left + 2 * files.length - 1 := by
  intro files
  induction files with
  | nil => intro left _ _; exact ⟨[], [], rfl, .nil, by simp, .nil, Nat.zero_le _⟩
  | cons f fs ih =>
    intro left hs hle
    have hle := hle (by simp)
    rw [List.length_cons] at hle
    obtain ⟨rows, w, h1, h2, h3⟩ := show2_shown hg width (left / (fs.length + 1)) f.2 (hs f (by simp))
    have hrows : rows.length ≤ left / (fs.length + 1) := by
      rw [h3]
      split
      · omega
      · omega
    have hdl : left / (fs.length + 1) ≤ left := Nat.div_le_self _ _
    obtain ⟨out, heights, e1, e2, e3, e5, e4⟩ := ih (left - rows.length) (fun x hx => hs x (by simp [hx])) (by
      intro hne
      exact share_grows left fs.length rows.length share hle hrows (List.length_pos_iff.2 hne))
    refine ⟨fileBlock f.1 rows w fs.isEmpty ++ out, left / (fs.length + 1) :: heights, ?_, .cons h1 e2, ?_, .cons rfl h1 e5, ?_⟩
    · rw [tabsLoop, List.length_cons, if_neg (by omega), h1]
      simp only [Res.bind_ok, Nat.add_sub_cancel]
      rw [if_neg (by omega), e1, Res.bind_ok, block_eq]
      have : decide (fs.length = 0) = fs.isEmpty := by cases fs <;> simp
      rw [this]
    · intro h hh
      rcases List.mem_cons.1 hh with rfl | hh
      · exact hle
      · exact e3 h hh
    · rw [List.length_append, List.length_cons]
      have hb : (fileBlock f.1 rows w fs.isEmpty).length ≤ 1 + rows.length + (if fs = [] then 0 else 1) := by
        unfold fileBlock
        cases fs with
        | nil => simp; split <;> simp
        | cons a b => simp; split <;> simp <;> omega
      cases fs with
      | nil =>
        simp [tabsLoop] at e1
        subst e1
        simp at hb ⊢
        omega
      | cons a b =>
        simp only [List.length_cons, reduceCtorEq, if_false] at *
        omega

/-! ## C153: several files fit the screen -/

/-- The full claim: several files are always shown, on no more lines than the screen has (less one for the prompt). -/
def C153_statement : Prop :=
  ∀ (g : Glyphs) (cols rows : Nat) (files : List (Bytes × Bytes)), GlyphsOk g → 2 ≤ files.length → (∀ f ∈ files, Showable cols f.2) →
    ∃ out, tabsFiles g (some (cols, rows)) files = .ok out ∧ out.length < rows

/-- Thirteen files on a screen of 25 lines crash the program. -/
theorem C153_refuted : ¬ C153_statement := by
  intro h
  obtain ⟨out, h1, _⟩ := h asciiGlyphs 80 25 (List.replicate 13 (ascii "f", ascii "x\n")) asciiGlyphs_ok (by decide) (by
    intro f hf
    rw [List.eq_of_mem_replicate hf]
    unfold Showable
    decide +kernel)
  revert h1
  generalize hx : tabsFiles asciiGlyphs (some (80, 25)) (List.replicate 13 (ascii "f", ascii "x\n")) = x
  have : x = .panic := by rw [← hx]; decide +kernel
  rw [this]
  simp

theorem tabsFiles_several (g : Glyphs) (screen : Option (Nat × Nat)) (files : List (Bytes × Bytes)) (h : 2 ≤ files.length) :
    tabsFiles g screen files = (screenOf screen).bind fun s =>
      if s.2 < 2 * files.length then .panic else tabsLoop g s.1 (s.2 - 2 * files.length + 1) files.length files := by
  cases files with
  | nil => simp at h
  | cons a l =>
    cases l with
    | nil => simp at h
    | cons b l => rfl

/-- If the screen has three lines for each file, they are shown on no more lines than it has. -/
theorem C153_fits_partial (g : Glyphs) (cols rows : Nat) (files : List (Bytes × Bytes)) (hg : GlyphsOk g) (hn : 2 ≤ files.length)
    (hs : ∀ f ∈ files, Showable cols f.2) (hroom : 3 * files.length ≤ rows) :
    ∃ out, tabsFiles g (some (cols, rows)) files = .ok out ∧ out.length < rows := by
  have hshare : 1 ≤ (rows - 1 - 2 * files.length + 1) / files.length := by
    rw [Nat.le_div_iff_mul_le (by omega)]; omega
  obtain ⟨out, hts, h1, _, _, _, h2⟩ := tabsLoop_spec hg cols 1 (Nat.le_refl _) files (rows - 1 - 2 * files.length + 1) hs (fun _ => hshare)
  refine ⟨out, ?_, by omega⟩
  rw [tabsFiles_several _ _ _ hn, screenOf, if_neg (by omega), Res.bind_ok, if_neg (by show ¬ rows - 1 < _; omega)]
  exact h1

/-- Two tables on a screen of 10 lines. -/
example : tabsFiles asciiGlyphs (some (20, 10)) [(ascii "abc", ascii " CDX\taaa\tbbb\n1\t2\n3\t4\n5\t6\n7\t8\n"), (ascii "d", ascii "x\n")] =
    .ok [ascii "  abc   ", ascii "aaa bbb", ascii "1   2  ", ascii "3   4  ", ascii "--------", ascii "d ", ascii "x"] := by
  decide +kernel

/-! ## C154: shares -/

/-- Each file is shown as it would be on a screen of at least its share of the lines, with its name above and a line below. -/
theorem C154_share (g : Glyphs) (cols rows : Nat) (files : List (Bytes × Bytes)) (hg : GlyphsOk g) (hn : 2 ≤ files.length)
    (hs : ∀ f ∈ files, Showable cols f.2) (hroom : 3 * files.length ≤ rows) :
    ∃ out heights, tabsFiles g (some (cols, rows)) files = .ok out ∧ Blocks g cols files heights out ∧
      (∀ h ∈ heights, (rows - 2 * files.length) / files.length ≤ h) ∧ Dealt g cols (rows - 2 * files.length) files heights := by
  have he : rows - 1 - 2 * files.length + 1 = rows - 2 * files.length := by omega
  have hshare : 1 ≤ (rows - 2 * files.length) / files.length := by
    rw [Nat.le_div_iff_mul_le (by omega)]; omega
  obtain ⟨out, hts, h1, h2, h3, h4, _⟩ := tabsLoop_spec hg cols _ hshare files (rows - 2 * files.length) hs (fun _ => Nat.le_refl _)
  refine ⟨out, hts, ?_, h2, h3, h4⟩
  rw [tabsFiles_several _ _ _ hn, screenOf, if_neg (by omega), Res.bind_ok, if_neg (by show ¬ rows - 1 < _; omega)]
  show tabsLoop g cols (rows - 1 - 2 * files.length + 1) files.length files = _
  rw [he]
  exact h1

/-- One file has the whole screen. -/
theorem C154_one (g : Glyphs) (cols rows : Nat) (f : Bytes × Bytes) (hg : GlyphsOk g) (hs : Showable cols f.2) (hrows : 0 < rows) :
    ∃ out w, tabsFiles g (some (cols, rows)) [f] = .ok out ∧ show2 g cols (rows - 1) f.2 = .ok (out, w) := by
  obtain ⟨out, w, h1, _, _⟩ := show2_shown hg cols (rows - 1) f.2 hs
  refine ⟨out, w, ?_, h1⟩
  rw [tabsFiles, screenOf, if_neg (by omega), Res.bind_ok]
  show (show2 g cols (rows - 1) f.2).bind _ = _
  rw [h1]
  rfl

/-! ## C155: nothing is cut that would fit -/

/-- The lines of a file and its title and line below. -/
def roomFor (files : List (Bytes × Bytes)) : Nat := (files.map fun f => fullLines f.2 + 2).sum - 1

/-- Nothing is cut off: each file is shown as on a screen that has room for all of it. -/
def AllShown (g : Glyphs) (cols : Nat) (files : List (Bytes × Bytes)) (out : List Bytes) : Prop :=
  Blocks g cols files (files.map fun f => fullLines f.2) out

/-- The full claim: if all lines of all files fit on the screen, all are shown. -/
def C155_statement : Prop :=
  ∀ (g : Glyphs) (cols rows : Nat) (files : List (Bytes × Bytes)), GlyphsOk g → 2 ≤ files.length → (∀ f ∈ files, Showable cols f.2) →
    (∀ f ∈ files, 0 < fullLines f.2) → roomFor files < rows → ∃ out, tabsFiles g (some (cols, rows)) files = .ok out ∧ AllShown g cols files out

theorem Blocks.length_eq {g : Glyphs} {cols : Nat} {files : List (Bytes × Bytes)} {hs : List Nat} {out : List Bytes}
    (h : Blocks g cols files hs out) : hs.length = files.length := by
  induction h with
  | nil => rfl
  | cons _ _ ih => simp [ih]

/-- The first of two files has only half of the screen, however little the second one needs. -/
theorem C155_refuted : ¬ C155_statement := by
  intro h
  let f1 : Bytes × Bytes := (ascii "f", ascii "1\n2\n3\n4\n")
  let f2 : Bytes × Bytes := (ascii "g", ascii "x\n")
  obtain ⟨out, h1, h2⟩ := h asciiGlyphs 80 9 [f1, f2] asciiGlyphs_ok (by decide) (by
    intro f hf
    have : f = f1 ∨ f = f2 := by simpa using hf
    rcases this with rfl | rfl <;> (unfold Showable; decide +kernel)) (by
    intro f hf
    have : f = f1 ∨ f = f2 := by simpa using hf
    rcases this with rfl | rfl <;> decide +kernel) (by decide +kernel)
  have e : tabsFiles asciiGlyphs (some (80, 9)) [f1, f2] =
      .ok [ascii "f ", ascii "1", ascii "2", ascii "--", ascii "g ", ascii "x"] := by decide +kernel
  rw [e] at h1
  cases h1
  unfold AllShown at h2
  have hl : fullLines f1.2 = 4 := by decide +kernel
  generalize hx : [ascii "f ", ascii "1", ascii "2", ascii "--", ascii "g ", ascii "x"] = x at h2
  rw [List.map_cons, hl] at h2
  cases h2 with
  | cons a b =>
    rename_i rows w out
    have e2 : show2 asciiGlyphs 80 4 f1.2 = .ok ([ascii "1", ascii "2", ascii "3", ascii "4"], 2) := by decide +kernel
    rw [e2] at a
    cases a
    have e3 : fileBlock f1.1 [ascii "1", ascii "2", ascii "3", ascii "4"] 2 [f2].isEmpty =
      [ascii "f ", ascii "1", ascii "2", ascii "3", ascii "4", ascii "--"] := by decide +kernel
    rw [e3] at hx
    have := congrArg (fun l => l[3]?) hx
    revert this
    simp only [List.cons_append, List.getElem?_cons_succ, List.getElem?_cons_zero]
    decide +kernel

theorem show2_enough (g : Glyphs) (cols h : Nat) (content : Bytes) (hf : fullLines content ≤ h) :
    show2 g cols h content = show2 g cols (fullLines content) content := by
  by_cases hne : content = []
  · subst hne; rfl
  · have : shownLines (openReader content) h = shownLines (openReader content) (fullLines content) := by
      unfold fullLines at hf ⊢
      rw [if_neg hne] at hf ⊢
      unfold shownLines
      cases hh : (openReader content).hasHeader with
      | true =>
        simp only [hh, if_true, List.length_singleton] at hf ⊢
        rw [List.take_of_length_le (by omega), List.take_of_length_le (by omega)]
      | false =>
        simp only [hh, Bool.false_eq_true, if_false, List.length_nil] at hf ⊢
        rw [List.take_of_length_le (by omega), List.take_of_length_le (by omega)]
    simp only [show2, this]

theorem Blocks.enough {g : Glyphs} {cols : Nat} {files : List (Bytes × Bytes)} {hs : List Nat} {out : List Bytes}
    (h : Blocks g cols files hs out) (share : Nat) (h1 : ∀ x ∈ hs, share ≤ x) (h2 : ∀ f ∈ files, fullLines f.2 ≤ share) :
    AllShown g cols files out := by
  unfold AllShown
  induction h with
  | nil => exact .nil
  | @cons f fs x xs rows w out a b ih =>
    rw [List.map_cons]
    refine .cons ?_ (ih (fun y hy => h1 y (by simp [hy])) (fun y hy => h2 y (by simp [hy])))
    rw [← a]
    exact (show2_enough g cols x f.2 (Nat.le_trans (h2 f (by simp)) (h1 x (by simp)))).symm

/-- If every file fits its share, nothing is cut off. -/
theorem C155_whole_partial (g : Glyphs) (cols rows : Nat) (files : List (Bytes × Bytes)) (hg : GlyphsOk g) (hn : 2 ≤ files.length)
    (hs : ∀ f ∈ files, Showable cols f.2) (hroom : 3 * files.length ≤ rows)
    (hfit : ∀ f ∈ files, fullLines f.2 ≤ (rows - 2 * files.length) / files.length) :
    ∃ out, tabsFiles g (some (cols, rows)) files = .ok out ∧ AllShown g cols files out := by
  obtain ⟨out, heights, h1, h2, h3, _⟩ := C154_share g cols rows files hg hn hs hroom
  exact ⟨out, h1, h2.enough _ h3 hfit⟩

example : tabsFiles asciiGlyphs (some (80, 9)) [(ascii "f", ascii "1\n2\n"), (ascii "g", ascii "x\n")] =
    .ok [ascii "f ", ascii "1", ascii "2", ascii "--", ascii "g ", ascii "x"] := by decide +kernel

/-! ## C156: names -/

/-- A line with a text in the middle. -/
def InMiddle (name line : Bytes) : Prop :=
  ∃ l r, line = List.replicate l SP ++ name ++ List.replicate r SP ∧ l ≤ r ∧ r ≤ l + 1

/-- The full claim: of several files shown each has a line with its name in the middle. -/
def C156_statement : Prop :=
  ∀ (g : Glyphs) (cols rows : Nat) (files : List (Bytes × Bytes)) (out : List Bytes), GlyphsOk g → 2 ≤ files.length →
    tabsFiles g (some (cols, rows)) files = .ok out → ∀ f ∈ files, ∃ l ∈ out, InMiddle f.1 l

/-- A name longer than the table is wide is not written at all. -/
theorem C156_refuted : ¬ C156_statement := by
  intro h
  have e : tabsFiles asciiGlyphs (some (80, 9)) [(ascii "abc", ascii "1\n"), (ascii "g", ascii "x\n")] =
    .ok [ascii "1", ascii "--", ascii "g ", ascii "x"] := by decide +kernel
  obtain ⟨l, hl, a, b, h1, h2⟩ := h asciiGlyphs 80 9 _ _ asciiGlyphs_ok (by decide) e (ascii "abc", ascii "1\n") (by simp)
  have hlen : l.length ≤ 2 := by
    have : ∀ l ∈ [ascii "1", ascii "--", ascii "g ", ascii "x"], l.length ≤ 2 := by decide +kernel
    exact this l hl
  rw [h1] at hlen
  have : (ascii "abc").length = 3 := by decide +kernel
  simp only [List.length_append, List.length_replicate, this] at hlen
  omega

theorem Blocks.title {g : Glyphs} {cols : Nat} {files : List (Bytes × Bytes)} {hs : List Nat} {out : List Bytes}
    (h : Blocks g cols files hs out) (f : Bytes × Bytes) (hf : f ∈ files)
    (hw : ∀ x rows w, show2 g cols x f.2 = .ok (rows, w) → f.1.length ≤ w) : ∃ l ∈ out, InMiddle f.1 l := by
  induction h with
  | nil => simp at hf
  | @cons f' fs x xs rows w out a b ih =>
    rcases List.mem_cons.1 hf with rfl | hf
    · have := hw x rows w a
      refine ⟨List.replicate ((w - f.1.length) / 2) SP ++ f.1 ++ List.replicate (w - f.1.length - (w - f.1.length) / 2) SP, ?_,
        (w - f.1.length) / 2, w - f.1.length - (w - f.1.length) / 2, rfl, by omega, by omega⟩
      unfold fileBlock
      rw [if_pos this]
      simp
    · obtain ⟨l, h1, h2⟩ := ih hf
      exact ⟨l, List.mem_append_right _ h1, h2⟩

/-- Every other name is written. -/
theorem C156_title_partial (g : Glyphs) (cols rows : Nat) (files : List (Bytes × Bytes)) (hg : GlyphsOk g) (hn : 2 ≤ files.length)
    (hs : ∀ f ∈ files, Showable cols f.2) (hroom : 3 * files.length ≤ rows) (f : Bytes × Bytes) (hf : f ∈ files)
    (hw : ∀ x rows w, show2 g cols x f.2 = .ok (rows, w) → f.1.length ≤ w) :
    ∃ out, tabsFiles g (some (cols, rows)) files = .ok out ∧ ∃ l ∈ out, InMiddle f.1 l := by
  obtain ⟨out, heights, h1, h2, _⟩ := C154_share g cols rows files hg hn hs hroom
  exact ⟨out, h1, h2.title f hf hw⟩

example : ∀ x, x ≤ 20 → ∀ rows w, show2 asciiGlyphs 80 x (ascii "abcd\n") = .ok (rows, w) → (ascii "f").length ≤ w := by
  intro x hx rows w h
  have : ∀ x ≤ 20, ((match show2 asciiGlyphs 80 x (ascii "abcd\n") with | .ok p => p.2 | _ => 1) : Nat) ≥ 1 := by decide +kernel
  have := this x hx
  rw [h] at this
  exact this

/-! ## C157: transposing some of the lines -/

/-- A file with a header line, opened. -/
theorem openReader_head (h : Bytes) (ls : List Bytes) (hh : IsLine h) (hc : isCdx h = true) (hl : ∀ l ∈ ls, IsLine l) :
    openReader (h ++ ls.flatten) = ⟨h, true, headNames h, ls⟩ := by
  obtain ⟨b, rfl, hb⟩ := hh
  have hcdx : isCdx (b ++ [NL] ++ ls.flatten) = true := by
    unfold isCdx at hc ⊢
    rw [List.isPrefixOf_iff_prefix] at hc ⊢
    exact hc.trans (List.prefix_append _ _)
  have hr : readLine .plain NL (b ++ [NL] ++ ls.flatten) = some (b ++ [NL], ls.flatten) := by
    unfold readLine
    rw [List.append_assoc, List.singleton_append, readUntil_line NL b _ hb]
    simp [ensureEof]
  have hh : readHeader .default (b ++ [NL] ++ ls.flatten) = some (b ++ [NL], ls.flatten) := by
    unfold readHeader
    rw [if_neg (by simp)]
    show (if isCdx _ = true then readLine .plain NL _ else _) = _
    rw [if_pos hcdx, hr]
  unfold openReader
  rw [hh]
  simp only [ne_eq, List.append_eq_nil_iff, List.cons_ne_self, and_false, not_false_eq_true, if_true]
  rw [readLines_flatten ls hl]

/-- A file without one. -/
theorem openReader_bare (l : Bytes) (ls : List Bytes) (hc : isCdx l = false) (hl : ∀ x ∈ l :: ls, IsLine x) :
    openReader (l :: ls).flatten =
      ⟨fakeHeader (mergeLine l).len, false, headNames (fakeHeader (mergeLine l).len), l :: ls⟩ := by
  have hcdx : isCdx (l :: ls).flatten = false := by
    obtain ⟨b, rfl, hb⟩ := hl l (by simp)
    rw [← Bool.not_eq_true] at hc ⊢
    intro hx
    apply hc
    unfold isCdx at hx ⊢
    rw [List.isPrefixOf_iff_prefix] at hx ⊢
    have h4 : cdxTag <+: b ++ [NL] ++ ls.flatten := by simpa using hx
    obtain ⟨t, ht⟩ := h4
    rcases Nat.lt_or_ge (b ++ [NL]).length cdxTag.length with hlt | hge
    · exfalso
      have : (b ++ [NL]) <+: cdxTag := List.prefix_of_prefix_length_le ⟨ls.flatten, rfl⟩ ⟨t, ht⟩ (by omega)
      have : NL ∈ cdxTag := this.subset (by simp)
      revert this
      decide
    · exact List.prefix_of_prefix_length_le ⟨t, ht⟩ ⟨ls.flatten, rfl⟩ hge
  have hne : (l :: ls).flatten ≠ [] := by
    obtain ⟨b, rfl, hb⟩ := hl l (by simp)
    simp
  have hh : readHeader .default (l :: ls).flatten = some ([], (l :: ls).flatten) := by
    unfold readHeader
    rw [if_neg hne]
    show (if isCdx _ = true then readLine .plain NL _ else _) = _
    rw [if_neg (by rw [hcdx]; decide)]
  unfold openReader
  rw [hh]
  simp only [ne_eq, not_true_eq_false, if_false]
  rw [readLines_flatten _ hl]

/-- Transposing with `-n N` gives what transposing the header and the first `N` lines gives. -/
theorem C157_header (head : Bool) (n m : Nat) (h : Bytes) (ls : List Bytes) (hn : 0 < n) (hm : n ≤ m) (hh : IsLine h)
    (hc : isCdx h = true) (hl : ∀ l ∈ ls, IsLine l) :
    transposeFile head n (h ++ ls.flatten) = transposeFile head m (h ++ (ls.take n).flatten) := by
  have hne : ∀ t, h ++ t ≠ [] := fun t e => hh.ne (List.append_eq_nil_iff.1 e).1
  simp only [transposeFile, if_neg (hne _)]
  rw [openReader_head h ls hh hc hl, openReader_head h (ls.take n) hh hc (fun l hm => hl l (List.mem_of_mem_take hm))]
  have : transposeData ⟨h, true, headNames h, ls⟩ n = transposeData ⟨h, true, headNames h, ls.take n⟩ m := by
    unfold transposeData
    cases ls with
    | nil => simp only [List.take_nil, if_true]; rw [List.take_of_length_le (by simp; omega), List.take_of_length_le (by simp; omega)]
    | cons l ls =>
      obtain ⟨k, rfl⟩ : ∃ k, n = k + 1 := ⟨n - 1, by omega⟩
      simp only [List.take_succ_cons, reduceCtorEq, if_false]
      rw [← List.map_take, List.take_succ_cons, ← List.map_take, List.take_of_length_le (l := l :: ls.take k) (by simp; omega)]
  rw [this]
  rfl

theorem C157_plain (head : Bool) (n m : Nat) (ls : List Bytes) (hn : 0 < n) (hm : n ≤ m) (hl : ∀ l ∈ ls, IsLine l)
    (hc : isCdx (ls.headD []) = false) :
    transposeFile head n ls.flatten = transposeFile head m (ls.take n).flatten := by
  obtain ⟨k, rfl⟩ : ∃ k, n = k + 1 := ⟨n - 1, by omega⟩
  cases ls with
  | nil => rfl
  | cons l ls =>
    have hne : ∀ t : List Bytes, (l :: t).flatten ≠ [] := by
      intro t e
      rw [List.flatten_cons] at e
      exact (hl l (by simp)).ne (List.append_eq_nil_iff.1 e).1
    rw [List.take_succ_cons]
    simp only [transposeFile, if_neg (hne _)]
    rw [openReader_bare l ls hc hl, openReader_bare l (ls.take k) hc (fun x hx => hl x (by
      rcases List.mem_cons.1 hx with rfl | hx
      · simp
      · exact List.mem_cons_of_mem _ (List.mem_of_mem_take hx)))]
    have : ∀ H N, transposeData ⟨H, false, N, l :: ls⟩ (k + 1) = transposeData ⟨H, false, N, l :: ls.take k⟩ m := by
      intro H N
      unfold transposeData
      simp only [reduceCtorEq, if_false]
      rw [← List.map_take, List.take_succ_cons, ← List.map_take, List.take_of_length_le (l := l :: ls.take k) (by simp; omega)]
    rw [this]
    rfl

/-- The options: the last number counts, `--head` wherever it is. -/
theorem C157_options (os : List (Bytes × Bytes)) (ns : List Nat) (hn : ∀ o ∈ os, o.1 = ascii "head" ∨ o.1 = ascii "lines")
    (hv : valuesOf "lines" os = ns.map decText) (hb : ∀ n ∈ ns, n < 2 ^ 64) (content : Bytes) :
    transposeMain os content = .ok (transposeFile (decide (valuesOf "head" os ≠ [])) (ns.getLastD (2 ^ 64 - 1)) content) := by
  have hne : ascii "lines" ≠ ascii "head" := by decide +kernel
  have key : ∀ (os : List (Bytes × Bytes)) (ns : List Nat) (b : Bool) (d : Nat),
      (∀ o ∈ os, o.1 = ascii "head" ∨ o.1 = ascii "lines") → valuesOf "lines" os = ns.map decText → (∀ n ∈ ns, n < 2 ^ 64) →
      transposeOptions b d os = .ok (b || decide (valuesOf "head" os ≠ []), ns.getLastD d) := by
    intro os
    induction os with
    | nil =>
      intro ns b d _ hv _
      cases ns with
      | nil => simp [transposeOptions, valuesOf]
      | cons a l => simp [valuesOf] at hv
    | cons o os ih =>
      intro ns b d hn hv hb
      obtain ⟨name, value⟩ := o
      rcases hn (name, value) (by simp) with h | h
      · simp only at h
        subst h
        rw [valuesOf_miss _ _ _ _ hne.symm] at hv
        rw [transposeOptions, if_pos rfl, ih ns true d (fun o ho => hn o (by simp [ho])) hv hb, valuesOf_hit]
        simp
      · simp only at h
        subst h
        rw [valuesOf_hit] at hv
        cases ns with
        | nil => simp at hv
        | cons n ns =>
          rw [List.map_cons, List.cons.injEq] at hv
          rw [transposeOptions, if_neg hne, if_pos rfl, hv.1, usizeWhole_decText n (hb n (by simp)), Res.bind_ok,
            ih ns b n (fun o ho => hn o (by simp [ho])) hv.2 (fun x hx => hb x (by simp [hx])), valuesOf_miss _ _ _ _ hne]
          rw [List.getLastD_cons]
  rw [transposeMain, key os ns false _ hn hv hb]
  simp

example : transposeMain [(ascii "lines", ascii "7"), (ascii "head", []), (ascii "lines", ascii "1")] (ascii "a\tb\nc\td\n") =
    .ok (ascii " CDX\ta\nb\n") := by decide +kernel
example : valuesOf "lines" [(ascii "lines", ascii "7"), (ascii "head", []), (ascii "lines", ascii "1")] = [7, 1].map decText := by
  decide +kernel

end Cdx
