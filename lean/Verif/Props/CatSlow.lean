import Verif.Props.Cat

/-!
C93: `cat` with numbers, and with lines removed.
-/

namespace Cdx

/-- A line with its label added where asked for. -/
def labelled (ln : LineNumber) (delim : UInt8) (label line : Bytes) : Bytes :=
  if ln.doIt = false then line
  else if ln.atEnd then line.dropLast ++ [delim] ++ label ++ [10] else label ++ [delim] ++ line

/-- The rows for the lines kept: each line that is not skipped has the next number. -/
def numberedRows (ln : LineNumber) (skip : Bytes → Bool) (delim : UInt8) (start : Int) (kept : List Bytes) : List Bytes :=
  kept.mapIdx fun i l => labelled ln delim
    (if skip l.dropLast then [] else intText (start + ((kept.take i).countP fun x => !skip x.dropLast : Nat))) l

/-- The same, one line at a time. -/
def rowsFrom (ln : LineNumber) (skip : Bytes → Bool) (delim : UInt8) : Int → List Bytes → List Bytes
  | _, [] => []
  | s, l :: ls => labelled ln delim (if skip l.dropLast then [] else intText s) l ::
      rowsFrom ln skip delim (if skip l.dropLast then s else s + 1) ls

theorem rowsFrom_eq (ln : LineNumber) (skip : Bytes → Bool) (delim : UInt8) (ls : List Bytes) (s : Int) :
    rowsFrom ln skip delim s ls = numberedRows ln skip delim s ls := by
  induction ls generalizing s with
  | nil => rfl
  | cons l ls ih =>
    rw [rowsFrom, ih]
    unfold numberedRows
    rw [List.mapIdx_cons]
    congr 1
    · simp
    · congr 1
      funext i x
      simp only [List.take_succ_cons, List.countP_cons]
      congr 1
      split
      · rfl
      · congr 1
        by_cases h : skip l.dropLast = true
        · simp [h]
        · simp [h]
          omega

theorem rowsFrom_append (ln : LineNumber) (skip : Bytes → Bool) (delim : UInt8) (a b : List Bytes) (s : Int) :
    rowsFrom ln skip delim s (a ++ b) =
      rowsFrom ln skip delim s a ++ rowsFrom ln skip delim (s + (a.countP fun x => !skip x.dropLast : Nat)) b := by
  induction a generalizing s with
  | nil => simp [rowsFrom]
  | cons l a ih =>
    simp only [List.cons_append, rowsFrom, ih, List.cons.injEq, true_and]
    congr 2
    by_cases h : skip l.dropLast = true
    · simp [h]
    · simp [h]
      omega

theorem catRow_plain {m : TextMode} {b : Bool} {t : TextLine} {x : Bytes} (ht : Shows m b t x)
    (hx : ∃ body, x = body ++ [NL]) (ln : LineNumber) (delim : UInt8) (label : Bytes) :
    catRow ln delim label t = some (labelled ln delim label x) := by
  obtain ⟨body, rfl⟩ := hx
  have hw : columnWhole t = some body := by
    simp [columnWhole, ht.text]
  unfold catRow labelled
  cases h1 : ln.doIt <;> cases h2 : ln.atEnd <;> simp [writerWrite, writerRest, hw]

variable {m : TextMode}

/-- Numbers that are not written do not matter. -/
theorem rowsFrom_num (ln : LineNumber) (skip : Bytes → Bool) (delim : UInt8) (h : ln.doIt = false) (ls : List Bytes)
    (s s' : Int) : rowsFrom ln skip delim s ls = rowsFrom ln skip delim s' ls := by
  induction ls generalizing s s' with
  | nil => rfl
  | cons l ls ih =>
    simp only [rowsFrom, labelled, h, if_true]
    rw [ih]

/-- A test that always has an answer. -/
def sure (p : Bytes → Bool) (v : Bytes) : Res Bool := .ok (p v)

theorem catLoop_rows (hm : m.col = .plain) (ln : LineNumber) (remove skip : Bytes → Bool) (delim : UInt8)
    (ls : List Bytes) (hls : ∀ l ∈ ls, ∃ body, l = body ++ [NL]) :
    ∀ (fuel : Nat) (r : Reader) (t o : TextLine) (x : Bytes) (num : Int), ls.length < fuel → View m false t o ls r →
      Shows m false t x → (∃ body, x = body ++ [NL]) → o.orig = [] →
      ∃ num', catLoop ln (sure remove) (sure skip) delim fuel r num =
        .ok ((rowsFrom ln skip delim num ((x :: ls).filter fun l => !remove l.dropLast)).flatten, num') ∧
        (ln.doIt = true → num' = num + (((x :: ls).filter fun l => !remove l.dropLast).countP fun l => !skip l.dropLast : Nat)) := by
  induction ls with
  | nil =>
    intro fuel r t o x num hf hv ht hx ho
    obtain ⟨fuel, rfl⟩ : ∃ k, fuel = k + 1 := ⟨fuel - 1, by simp at hf; omega⟩
    obtain ⟨h1, h2⟩ := hv.end_
    have hne : x ≠ [] := by obtain ⟨b, rfl⟩ := hx; simp
    simp only [catLoop, hv.cur, ht.line, hne, if_false, sure, catRowRes, catRow_plain ht hx, Res.bind_ok]
    by_cases hr : remove x.dropLast = true
    · simp [hr, h1, rowsFrom]
    · by_cases hs : skip x.dropLast = true
      · simp [hr, hs, h1, rowsFrom]
      · simp only [hr, hs, Bool.false_eq_true, if_false, Res.bind_ok, h1, if_true]
        refine ⟨if ln.doIt then num + 1 else num, by simp [hr, hs, rowsFrom], ?_⟩
        intro hd
        simp [hd, hr, hs]
  | cons l ls ih =>
    intro fuel r t o x num hf hv ht hx ho
    obtain ⟨fuel, rfl⟩ : ∃ k, fuel = k + 1 := ⟨fuel - 1, by simp at hf; omega⟩
    have hv' := hv.next
    have hs := putLine_shows (b := false) hm o ho l
    have hlen : ls.length < fuel := by simp at hf; omega
    have hne : x ≠ [] := by obtain ⟨b, rfl⟩ := hx; simp
    have hlb := hls l (by simp)
    have IH := fun num => ih (fun y hy => hls y (by simp [hy])) fuel r.getline _ _ l num hlen hv' hs hlb ht.orig
    simp only [catLoop, hv.cur, ht.line, hne, if_false, sure, catRowRes, catRow_plain ht hx, Res.bind_ok]
    rw [List.filter_cons]
    by_cases hr : remove x.dropLast = true
    · obtain ⟨n', e1, e2⟩ := IH num
      refine ⟨n', ?_, ?_⟩
      · simp [hr, hv'.more, e1]
      · simpa [hr] using e2
    · by_cases hk : skip x.dropLast = true
      · obtain ⟨n', e1, e2⟩ := IH num
        refine ⟨n', ?_, ?_⟩
        · simp [hr, hk, hv'.more, e1, rowsFrom]
        · simpa [hr, hk] using e2
      · obtain ⟨n', e1, e2⟩ := IH (if ln.doIt then num + 1 else num)
        refine ⟨n', ?_, ?_⟩
        · simp only [hr, hk, hv'.more, e1, rowsFrom, Bool.false_eq_true, if_false, Res.bind_ok,
            Bool.not_false, if_true, List.flatten_cons, Res.ok.injEq, Prod.mk.injEq, and_true,
            List.append_cancel_left_eq]
          cases hd : ln.doIt with
          | true => rfl
          | false => rw [rowsFrom_num ln skip delim hd]
        · intro hd
          have := e2 hd
          simp only [hd, if_true] at this
          rw [this]
          simp [hr, hk]
          omega

theorem view_newOpen (m : TextMode) (content hd rest : Bytes) (d : Bytes) (D : List Bytes)
    (hh : readHeader m content = some (hd, rest)) (hD : readLines m.col m.eol rest = d :: D) :
    View m true (decoded m d) ⟨[], [], []⟩ D (Reader.newOpenWith content 1 m) := by
  have h := view_open m content hd rest d D hh hD
  exact ⟨h.mode, h.split, h.more, h.slots, h.file⟩

theorem newOpen_fields (m : TextMode) (content hd rest : Bytes) (hh : readHeader m content = some (hd, rest))
    (hne : readLines m.col m.eol rest ≠ []) :
    (Reader.newOpenWith content 1 m).isEmpty = false ∧ (Reader.newOpenWith content 1 m).header = hd ∧
      (Reader.newOpenWith content 1 m).hasHeader = !hd.isEmpty ∧ (Reader.newOpenWith content 1 m).isDone = false := by
  unfold Reader.newOpenWith Reader.open_
  have hmm : (Reader.newWith 1 m).mode = m := rfl
  simp only [hmm, hh]
  cases hr : readLine m.col m.eol rest with
  | none =>
    rw [(readLine_none_iff _ _ _).1 hr, readLines_nil] at hne
    exact absurd rfl hne
  | some p => exact ⟨rfl, rfl, rfl, rfl⟩

/-- The data lines of a file. -/
def dataOf (m : TextMode) (f : Bytes) : List Bytes :=
  match readHeader m f with
  | none => []
  | some p => readLines m.col m.eol p.2

/-- All files with content have the header `H` (none if `H` is empty) and data lines. -/
def SameHeads (m : TextMode) (H : Bytes) (files : List Bytes) : Prop :=
  ∀ f ∈ nonEmpty files, ∃ rest, readHeader m f = some (H, rest) ∧ readLines m.col m.eol rest ≠ []

theorem columnHead_isCdx {cols : List Bytes} {head : Bytes} (h : columnHead cols = .ok head) : isCdx head = true := by
  unfold columnHead at h
  split at h
  · simp at h
  · rename_i hne
    simp only [Res.ok.injEq] at h
    subst h
    rw [intercalate_cons_ne _ _ hne]
    simp [isCdx, cdxTag, List.isPrefixOf]

theorem catSlow_rows (nameOk : Bytes → Bool) (hm : m.col = .plain) (heol : m.eol = NL) (ln : LineNumber)
    (remove skip : Bytes → Bool) (H head : Bytes) (hH : H ≠ [] → (catCols ln (headNames H m.delim)).bind columnHead = .ok head ∧
      FirstLineOk nameOk .matching head) (files : List Bytes) (hs : SameHeads m H files)
    (hcols : ∀ f ∈ nonEmpty files, ∃ cols, catCols ln (Reader.newOpenWith f 1 m).names = .ok cols) :
    ∀ (chk : HeaderChecker) (num : Int),
      chk = .fromMode .matching ∨ (H ≠ [] ∧ chk = ⟨.matching, head, true⟩) →
      catSlow nameOk m ln (sure remove) (sure skip) chk num files =
        .ok ((if H ≠ [] ∧ chk.sawOne = false ∧ nonEmpty files ≠ [] then head else []) ++
          (rowsFrom ln skip m.delim num (((files.map (dataOf m)).flatten).filter fun l => !remove l.dropLast)).flatten) := by
  induction files with
  | nil => intro chk num _; simp [catSlow, nonEmpty, rowsFrom]
  | cons f fs ih =>
    intro chk num hchk
    by_cases hf : f = []
    · subst hf
      have e1 : nonEmpty ([] :: fs) = nonEmpty fs := by simp [nonEmpty]
      have e2 : dataOf m [] = [] := by simp [dataOf, readHeader]
      have e3 : (Reader.newOpenWith [] 1 m).isEmpty = true := by
        simp [Reader.newOpenWith, Reader.open_, readHeader]
      rw [e1] at hcols ⊢
      rw [catSlow]
      simp only [e3, if_true]
      rw [ih (by unfold SameHeads at hs ⊢; rwa [e1] at hs) hcols chk num hchk]
      simp [e2]
    · have e1 : nonEmpty (f :: fs) = f :: nonEmpty fs := by simp [nonEmpty, hf]
      have hs' : SameHeads m H fs := by
        intro g hg
        exact hs g (by rw [e1]; simp [hg])
      rw [e1] at hcols
      have ih := ih hs' fun g hg => hcols g (by simp [hg])
      obtain ⟨rest, h1, h2⟩ := hs f (by rw [e1]; simp)
      obtain ⟨d, D, hD⟩ : ∃ d D, readLines m.col m.eol rest = d :: D := by
        cases hx : readLines m.col m.eol rest with
        | nil => exact absurd hx h2
        | cons d D => exact ⟨d, D, rfl⟩
      obtain ⟨f1, f2, f3, f4⟩ := newOpen_fields m f H rest h1 h2
      have hv := (view_newOpen m f H rest d D h1 hD).setSplit false
      have hdata : dataOf m f = d :: D := by simp [dataOf, h1, hD]
      have hbody : ∀ x ∈ d :: D, ∃ body, x = body ++ [NL] := by
        intro x hx
        rw [← hD, hm, heol] at hx
        obtain ⟨body, e, _⟩ := readLines_isLine _ x hx
        exact ⟨body, e⟩
      have hlen : D.length < (Reader.newOpenWith f 1 m).file.length + 1 := by
        have := readLines_length m.col m.eol (Reader.newOpenWith f 1 m).file
        rw [(view_newOpen m f H rest d D h1 hD).file] at this
        omega
      obtain ⟨num', g1, g2⟩ := catLoop_rows hm ln remove skip m.delim D (fun l hl => hbody l (by simp [hl])) _ _ _ _ d num
        hlen hv (decoded_shows hm d) (hbody d (by simp)) rfl
      obtain ⟨cols, hc⟩ := hcols f (by simp)
      rw [catSlow]
      simp only [f1, f4, g1, Bool.false_eq_true, if_false]
      have hrows : ∀ R : List Bytes, (rowsFrom ln skip m.delim num ((d :: D).filter fun l => !remove l.dropLast)).flatten ++
          (rowsFrom ln skip m.delim num' R).flatten =
          (rowsFrom ln skip m.delim num (((d :: D).filter fun l => !remove l.dropLast) ++ R)).flatten := by
        intro R
        rw [rowsFrom_append, List.flatten_append]
        congr 2
        cases hd : ln.doIt with
        | true => rw [g2 hd]
        | false => exact rowsFrom_num ln skip m.delim hd R _ _
      have hall : (((f :: fs).map (dataOf m)).flatten).filter (fun l => !remove l.dropLast) =
          ((d :: D).filter fun l => !remove l.dropLast) ++ ((fs.map (dataOf m)).flatten).filter fun l => !remove l.dropLast := by
        rw [List.map_cons, List.flatten_cons, hdata, List.filter_append]
      rw [hall, ← hrows, e1]
      by_cases hh : H = []
      · have hhead : catHeader nameOk ln chk (Reader.newOpenWith f 1 m) = .ok (chk, []) := by
          unfold catHeader
          rw [hc]
          rcases hchk with rfl | ⟨h, _⟩
          · simp [f3, hh, HeaderChecker.check, isValidCdx, HeaderChecker.fromMode, isCdx, cdxTag, List.isPrefixOf]
          · exact absurd hh h
        rw [hhead]
        simp only [Res.bind_ok]
        rw [ih chk num' hchk]
        simp [hh]
      · obtain ⟨k1, k2⟩ := hH hh
        have hnames : (Reader.newOpenWith f 1 m).names = headNames H m.delim := by
          unfold Reader.names
          have hmode : (Reader.newOpenWith f 1 m).mode = m := hv.mode
          rw [f1, f2, f3, hmode]
          cases H with
          | nil => exact absurd rfl hh
          | cons _ _ => rfl
        rw [hnames] at hc
        rw [hc, Res.bind_ok] at k1
        have hcdx := columnHead_isCdx k1
        have hhas : (Reader.newOpenWith f 1 m).hasHeader = true := by
          rw [f3]
          cases H with
          | nil => exact absurd rfl hh
          | cons _ _ => rfl
        have hnh : head ≠ [] := k2.1
        rcases hchk with rfl | ⟨_, rfl⟩
        · have hhead : catHeader nameOk ln (.fromMode .matching) (Reader.newOpenWith f 1 m) =
              .ok (⟨.matching, head, true⟩, head) := by
            unfold catHeader
            rw [hnames, hc]
            simp only [Res.bind_ok, hhas, if_true, k1, check_first k2, hcdx]
            rfl
          rw [hhead]
          simp only [Res.bind_ok]
          rw [ih _ num' (Or.inr ⟨hh, rfl⟩)]
          simp [hh, HeaderChecker.fromMode]
        · have hhead : catHeader nameOk ln ⟨.matching, head, true⟩ (Reader.newOpenWith f 1 m) =
              .ok (⟨.matching, head, true⟩, []) := by
            unfold catHeader
            rw [hnames, hc]
            simp only [Res.bind_ok, hhas, if_true, k1]
            rw [check_later rfl k2]
            simp [hcdx, hnh]
          rw [hhead]
          simp only [Res.bind_ok]
          rw [ih _ num' (Or.inr ⟨hh, rfl⟩)]
          simp

/-- Full statement: the header with the name of the number column is written once, and after it the lines of all files
that are not to be removed, those that are not to be skipped having consecutive numbers. -/
def C93_statement : Prop :=
  ∀ (nameOk : Bytes → Bool) (m : TextMode) (ln : LineNumber) (remove skip : Bytes → Bool) (H head : Bytes)
    (files : List Bytes), m.eol = NL →
    (H ≠ [] → (catCols ln (headNames H m.delim)).bind columnHead = .ok head ∧ FirstLineOk nameOk .matching head) →
    (∀ f ∈ nonEmpty files, ∃ rest, readHeader m f = some (H, rest)) →
    (∀ f ∈ nonEmpty files, ∃ cols, catCols ln (Reader.newOpenWith f 1 m).names = .ok cols) →
    catSlow nameOk m ln (sure remove) (sure skip) (.fromMode .matching) ln.start files =
      .ok ((if H ≠ [] ∧ nonEmpty files ≠ [] then head else []) ++
        (numberedRows ln skip m.delim ln.start (((files.map (dataOf m)).flatten).filter fun l => !remove l.dropLast)).flatten)

/-- In plain mode, when no file has only a header. -/
theorem C93_numbered_partial (nameOk : Bytes → Bool) (m : TextMode) (ln : LineNumber) (remove skip : Bytes → Bool)
    (H head : Bytes) (files : List Bytes) (hm : m.col = .plain) (heol : m.eol = NL)
    (hH : H ≠ [] → (catCols ln (headNames H m.delim)).bind columnHead = .ok head ∧ FirstLineOk nameOk .matching head)
    (hs : SameHeads m H files)
    (hcols : ∀ f ∈ nonEmpty files, ∃ cols, catCols ln (Reader.newOpenWith f 1 m).names = .ok cols) :
    catSlow nameOk m ln (sure remove) (sure skip) (.fromMode .matching) ln.start files =
      .ok ((if H ≠ [] ∧ nonEmpty files ≠ [] then head else []) ++
        (numberedRows ln skip m.delim ln.start (((files.map (dataOf m)).flatten).filter fun l => !remove l.dropLast)).flatten) := by
  rw [catSlow_rows nameOk hm heol ln remove skip H head hH files hs hcols _ _ (Or.inl rfl), rowsFrom_eq]
  simp [HeaderChecker.fromMode]

abbrev byOne : LineNumber := ⟨true, 1, ascii "n", false⟩

/-- A file with only a header ends the command: the third file is not read. -/
theorem C93_refuted : ¬ C93_statement := by
  intro h
  have := h (fun _ => true) .default byOne (fun _ => false) (fun _ => false) (ascii " CDX\tx\n") (ascii " CDX\tn\tx\n")
    [ascii " CDX\tx\na\n", ascii " CDX\tx\n", ascii " CDX\tx\nb\n"] rfl
    (fun _ => ⟨by decide +kernel, by unfold FirstLineOk; decide +kernel⟩) (by
      intro f hf
      have : f = ascii " CDX\tx\na\n" ∨ f = ascii " CDX\tx\n" ∨ f = ascii " CDX\tx\nb\n" := by
        simpa [nonEmpty, ascii] using hf
      rcases this with rfl | rfl | rfl
      · exact ⟨ascii "a\n", by decide +kernel⟩
      · exact ⟨[], by decide +kernel⟩
      · exact ⟨ascii "b\n", by decide +kernel⟩) (by
      intro f hf
      have : f = ascii " CDX\tx\na\n" ∨ f = ascii " CDX\tx\n" ∨ f = ascii " CDX\tx\nb\n" := by
        simpa [nonEmpty, ascii] using hf
      rcases this with rfl | rfl | rfl <;> exact ⟨[ascii "n", ascii "x"], by decide +kernel⟩)
  exact absurd this (by decide +kernel)

/-- In quote mode every other line is written as the first line. -/
theorem C93_refuted_quote :
    catSlow (fun _ => true) quoteMode byOne (sure fun _ => false) (sure fun _ => false) (.fromMode .matching) 1
      [ascii "\"a\"\nb\nc\nd\n"] = .ok (ascii "1\t\"a\"\n2\tb\n3\t\"a\"\n4\td\n") := by decide +kernel

/-- Under the default policy a file without a header before one with a header is an error when copying, but is accepted when
numbering, and the header is written among the lines. -/
theorem C93_refuted_header :
    catFast (fun _ => true) .all (.fromMode .matching) true [ascii "a\n", ascii " CDX\tx\nb\n"] = Option.none ∧
      catSlow (fun _ => true) .default byOne (sure fun _ => false) (sure fun _ => false) (.fromMode .matching) 1
        [ascii "a\n", ascii " CDX\tx\nb\n"] = .ok (ascii "1\ta\n CDX\tn\tx\n2\tb\n") := by decide +kernel

example : catSlow (fun _ => true) .default byOne (sure fun l => l == ascii "b") (sure fun l => l == ascii "c") (.fromMode .matching) 1
    [ascii " CDX\tx\na\nb", ascii " CDX\tx\nc\nd\n"] =
      .ok (ascii " CDX\tn\tx\n1\ta\n\tc\n2\td\n") := by decide +kernel
example : SameHeads .default (ascii " CDX\tx\n") [ascii " CDX\tx\na\n", []] := by
  intro f hf
  have : f = ascii " CDX\tx\na\n" := by simpa [nonEmpty, ascii] using hf
  exact ⟨ascii "a\n", by rw [this]; decide +kernel, by decide +kernel⟩

end Cdx
