import Verif.Props.CutTable

/-!
C134-C136: renames, columns that do not exist, and the other selections of columns.
-/

namespace Cdx

/-! ## C134: renames -/

/-- How renames are given: `old.new`, with commas. -/
def renameText (ps : List (Bytes × Bytes)) : Bytes := List.intercalate [44] (ps.map fun p => p.1 ++ ascii "." ++ p.2)

/-- The texts have no comma, and the old name no dot. -/
def RenameOk (ps : List (Bytes × Bytes)) : Prop := ∀ p ∈ ps, 44 ∉ p.1 ∧ 44 ∉ p.2 ∧ 46 ∉ p.1

theorem renameLoop_spec (ps : List (Bytes × Bytes)) (h : RenameOk ps) : ∀ hd : ColumnHeader,
    renameLoop hd (ps.map fun p => p.1 ++ ascii "." ++ p.2) = .ok { hd with rename := hd.rename ++ ps } := by
  induction ps with
  | nil => intro hd; simp [renameLoop]
  | cons p ps ih =>
    intro hd
    have e : p.1 ++ ascii "." ++ p.2 = p.1 ++ 46 :: p.2 := by simp [ascii]
    have hn : nameMapNew (p.1 ++ 46 :: p.2) = .ok p := by
      rw [nameMapNew, splitOnce_some 46 p.1 p.2 (h p (by simp)).2.2]
    rw [List.map_cons, renameLoop, e, hn, Res.bind_ok, ih (fun q hq => h q (by simp [hq]))]
    simp

/-- A list of renames is read as given, after those already there, and the text of the renames left over is read back as these. -/
theorem C134_read (hd : ColumnHeader) (ps : List (Bytes × Bytes)) (h : RenameOk ps) :
    hd.addRename (renameText ps) = .ok { hd with rename := hd.rename ++ ps } ∧
      (hd.rename = ps → hd.checkRename false = (if ps = [] then none else some (renameText ps))) ∧ hd.checkRename true = none := by
  refine ⟨?_, ?_, rfl⟩
  · unfold ColumnHeader.addRename
    cases ps with
    | nil => simp [renameText, List.intercalate]
    | cons p ps =>
      have hne : renameText (p :: ps) ≠ [] := by
        intro e
        have : (46 : UInt8) ∈ renameText (p :: ps) := by
          unfold renameText
          cases ps with
          | nil => simp [List.intercalate, ascii]
          | cons q ps => simp [List.intercalate, List.intersperse, ascii]
        rw [e] at this
        simp at this
      have hsp : sliceSplit 44 (renameText (p :: ps)) = (p :: ps).map fun p => p.1 ++ ascii "." ++ p.2 := by
        refine sliceSplit_intercalate 44 _ (by simp) ?_
        intro c hc
        obtain ⟨q, hq, rfl⟩ := List.mem_map.1 hc
        obtain ⟨h1, h2, _⟩ := h q hq
        simp [h1, h2, ascii]
      rw [if_pos hne, hsp, renameLoop_spec _ h]
  · rintro rfl
    unfold ColumnHeader.checkRename
    cases hr : hd.rename with
    | nil => rfl
    | cons p ps =>
      simp only [Bool.not_false, List.isEmpty_cons, Bool.true_and, if_true, reduceCtorEq, if_false, Option.some.injEq]
      rw [renameText, List.map_cons]
      have : ∀ (a : Bytes) (l : List (Bytes × Bytes)), List.intercalate [44] (a :: l.map fun p => p.1 ++ ascii "." ++ p.2) =
          a ++ l.flatMap fun q => 44 :: nameMapText q := by
        intro a l
        induction l generalizing a with
        | nil => simp [List.intercalate]
        | cons q l ih =>
          rw [List.map_cons, intercalate_cons_ne [44] a (by simp), ih, List.flatMap_cons]
          simp [nameMapText, ascii]
      rw [this]
      simp [nameMapText, ascii]

example : RenameOk [(ascii "a", ascii "b.c"), (ascii "", ascii "")] := by
  unfold RenameOk
  decide

/-- After a rename `old.new`, a column `old` is called `new`. -/
def C134_statement : Prop := ∀ old new : Bytes, IsName old → IsName new → old ≠ new → ∀ h h' : ColumnHeader,
  (⟨[], .fail, []⟩ : ColumnHeader).addRename (renameText [(old, new)]) = .ok h → h.push old = .ok h' → h'.cols = [new]

/-- The first column of that name keeps it. -/
theorem C134_refuted : ¬ C134_statement := by
  intro h
  have := h (ascii "a") (ascii "b") (name_one 97 (by decide)) (name_one 98 (by decide)) (by decide) ⟨[], .fail, [(ascii "a", ascii "b")]⟩
    ⟨[ascii "a"], .fail, [(ascii "a", ascii "b")]⟩ (by decide +kernel) (by decide +kernel)
  revert this
  decide

/-- A new column keeps its name. One that is there already gets the first new name given for it, which is then used up; it is an error if
that is there too. Without a rename it is an error, if duplicates are not allowed. -/
theorem C134_push_partial (cols : List Bytes) (dups : DupColHandling) (ren : List (Bytes × Bytes)) (name : Bytes) (hv : IsName name) :
    (name ∉ cols → (⟨cols, dups, ren⟩ : ColumnHeader).push name = .ok ⟨cols ++ [name], dups, ren⟩) ∧
      (name ∈ cols → ∀ a b new, ren = a ++ (name, new) :: b → (∀ p ∈ a, p.1 ≠ name) →
        (⟨cols, dups, ren⟩ : ColumnHeader).push name = if new ∈ cols then .err else .ok ⟨cols ++ [new], dups, a ++ b⟩) ∧
      (name ∈ cols → (∀ p ∈ ren, p.1 ≠ name) → dups = .fail → (⟨cols, dups, ren⟩ : ColumnHeader).push name = .err) := by
  have hval := ((isValid_iff name).2 hv).2
  refine ⟨?_, ?_, ?_⟩
  · intro hn
    simp [ColumnHeader.push, hval, ColumnHeader.contains, hn]
  · rintro hm a b new rfl ha
    have hf : (a ++ (name, new) :: b).findIdx? (fun r => r.1 == name) = some a.length := by
      rw [List.findIdx?_eq_some_iff_getElem]
      refine ⟨by simp, by simp, ?_⟩
      intro j hj
      rw [List.getElem_append_left hj]
      simpa using ha _ (List.getElem_mem hj)
    have hg : (a ++ (name, new) :: b)[a.length]? = some (name, new) := by simp
    have he : (a ++ (name, new) :: b).eraseIdx a.length = a ++ b := by
      rw [List.eraseIdx_append_of_length_le (by omega)]
      simp
    simp only [ColumnHeader.push, hval, Bool.true_eq_false, if_false, ColumnHeader.contains, List.contains_iff_mem, hm, if_true, hf, hg, he]
  · rintro hm hr rfl
    have hf : ren.findIdx? (fun r => r.1 == name) = none := by
      rw [List.findIdx?_eq_none_iff]
      intro p hp
      simpa using hr p hp
    simp only [ColumnHeader.push, hval, Bool.true_eq_false, if_false, ColumnHeader.contains, List.contains_iff_mem, hm, if_true, hf]

example : (⟨[ascii "a"], .fail, [(ascii "b", ascii "x"), (ascii "a", ascii "y")]⟩ : ColumnHeader).push (ascii "a") =
    .ok ⟨[ascii "a", ascii "y"], .fail, [(ascii "b", ascii "x")]⟩ := by
  have := (C134_push_partial [ascii "a"] .fail [(ascii "b", ascii "x"), (ascii "a", ascii "y")] (ascii "a") (name_one 97 (by decide))).2.1 (by simp)
    [(ascii "b", ascii "x")] [] (ascii "y") rfl (by decide)
  rw [this]
  decide

/-! ## C135: columns that do not exist -/

/-- Something asked for does not exist: a selection that makes no sense for the names, or a name used in a composite. -/
def Want.Missing (names : List Bytes) : Want → Prop
  | .fields is => ∃ i ∈ is, i.sel.denote names = none
  | .group _ _ is => ∃ i ∈ is, i.sel.denote names = none
  | .expr _ _ => False
  | .comp _ ps => (∃ s ∈ ps.flatMap Piece.used, s ∉ names) ∨ ∃ b n, Piece.num b n ∈ ps ∧ names.length ≤ n

/-- With a column that does not exist there is no output. -/
def C135_statement : Prop := ∀ (env : CutEnv) (nameOk : Bytes → Bool) (m t : TextMode) (mode : HeaderMode) (ws : List Want),
  (∀ w ∈ ws, w.Fine env) → ∀ files, (∀ f ∈ notEmpty m files, ∀ n ∈ namesOf m f, IsName n) →
    (∃ f ∈ notEmpty m files, ∃ w ∈ ws, w.Missing (namesOf m f)) → ∀ out, cutMain env nameOk m t mode (ws.map Want.opt) files ≠ .ok out

/-- A number that is too large, in a file without header, is an empty column. -/
theorem C135_refuted : ¬ C135_statement := by
  intro h
  refine h cutEnv0 (fun _ => true) TextMode.default TextMode.default .matching [.fields [⟨false, none, .one (.num (ascii "9"))⟩]] ?_
    [ascii "1\t2\n"] ?_ ?_ (ascii "\n") (by decide +kernel)
  · simp only [List.mem_singleton, forall_eq]
    refine ⟨by simp, ?_⟩
    simp only [List.mem_singleton, forall_eq]
    exact ⟨by simp, by simp only [Sel.refs, List.mem_singleton, forall_eq]; exact num_one 57 (by decide)⟩
  · have e : notEmpty TextMode.default [ascii "1\t2\n"] = [ascii "1\t2\n"] := by decide +kernel
    rw [e]
    simp only [List.mem_singleton, forall_eq]
    have en : namesOf TextMode.default (ascii "1\t2\n") = [ascii "c1", ascii "c2"] := by decide +kernel
    rw [en]
    intro n hn
    simp only [List.mem_cons, List.not_mem_nil, or_false] at hn
    rcases hn with rfl | rfl
    · exact (isValid_iff _).1 (by decide +kernel)
    · exact (isValid_iff _).1 (by decide +kernel)
  · refine ⟨ascii "1\t2\n", by decide +kernel, _, List.mem_singleton.2 rfl, ?_⟩
    exact ⟨_, List.mem_singleton.2 rfl, by decide +kernel⟩

/-- What does not exist, other than numbers that are too large. -/
def Want.MissingName (env : CutEnv) (names : List Bytes) : Want → Prop
  | .fields is => ∃ i ∈ is, i.sel.denote names = none ∧ ∀ r ∈ i.sel.refs, r.Fair names
  | .group _ _ is => ∃ i ∈ is, i.sel.denote names = none ∧ ∀ r ∈ i.sel.refs, r.Fair names
  | .expr _ f => ∀ v, env.eval f names ≠ .ok v
  | .comp _ ps => ∃ s ∈ ps.flatMap Piece.used, s ∉ names

theorem lookup_missing (mk : Bytes → Res (Bytes → Bool)) (names : List Bytes) (hn : ∀ n ∈ names, IsName n) (is : List ColItem) (hne : is ≠ [])
    (h : ∀ i ∈ is, i.WF) (hb : ∃ i ∈ is, i.sel.denote names = none ∧ ∀ r ∈ i.sel.refs, r.Fair names) :
    ColumnSet.lookup mk ⟨(is.filter fun i => !i.tilde).map part, (is.filter fun i => i.tilde).map part, [], []⟩ names = .err := by
  have hw : CallsWF [(false, is)] := by
    intro c hc
    simp only [List.mem_singleton] at hc
    subst hc
    exact ⟨hne, h⟩
  have := C19_partial (fun _ => false) mk names hn [(false, is)] hw ⟨(false, is), by simp, hb⟩
  unfold selectCode at this
  rw [addCalls_spec _ _ hw, Res.bind_ok] at this
  simp only [ColumnSet.empty, List.nil_append] at this
  have e1 : chosenOf [(false, is)] = is.filter fun i => !i.tilde := by simp [chosenOf]
  have e2 : rejectedOf [(false, is)] = is.filter fun i => i.tilde := by simp [rejectedOf]
  rw [e1, e2] at this
  exact this

theorem collect_uses (ps : List Piece) : ∀ pre, ∀ s ∈ ps.flatMap Piece.used, s ≠ [] → ∃ c ∈ (collect pre ps).1, c.2.name = s := by
  induction ps with
  | nil => intro pre s hs; simp at hs
  | cons p ps ih =>
    intro pre s hs hne
    cases p with
    | text x => exact ih (pre ++ x) s (by simpa [Piece.used] using hs) hne
    | num b n =>
      rw [collect_num]
      obtain ⟨c, hc, e⟩ := ih [] s (by simpa [Piece.used] using hs) hne
      exact ⟨c, by simp [hc], e⟩
    | name b x =>
      rw [collect_name]
      simp only [List.flatMap_cons, Piece.used, List.singleton_append, List.mem_cons] at hs
      rcases hs with rfl | hs
      · exact ⟨_, List.mem_cons_self .., rfl⟩
      · obtain ⟨c, hc, e⟩ := ih [] s hs hne
        exact ⟨c, by simp [hc], e⟩

theorem compLookup_ok (names : List Bytes) (cs : List (Bytes × NamedCol)) (r : List (Bytes × Nat)) (h : compLookup names cs = .ok r) :
    ∀ c ∈ cs, c.2.name ≠ [] → c.2.name ∈ names := by
  induction cs generalizing r with
  | nil => simp
  | cons c cs ih =>
    rw [compLookup] at h
    obtain ⟨n, h1, h2⟩ := Res.bind_eq_ok h
    obtain ⟨q, h3, _⟩ := Res.bind_eq_ok h2
    intro x hx hne
    rcases List.mem_cons.1 hx with rfl | hx
    · simp only [NamedCol.lookup, hne, ne_eq, not_false_eq_true, if_true, lookupCol] at h1
      cases hf : names.findIdx? (· == x.2.name) with
      | none => simp [hf] at h1
      | some i =>
        obtain ⟨hi, h4, _⟩ := List.findIdx?_eq_some_iff_getElem.1 hf
        have : names[i] = x.2.name := by simpa using h4
        rw [← this]
        exact List.getElem_mem hi
    · exact ih q h3 x hx hne

theorem used_named (ps : List Piece) (h : Apart ps) : ∀ s ∈ ps.flatMap Piece.used, s ≠ [] := by
  induction ps with
  | nil => simp
  | cons p ps ih =>
    intro s hs
    cases p with
    | text x => exact ih h s (by simpa [Piece.used] using hs)
    | num b n => exact ih h.2.2 s (by simpa [Piece.used] using hs)
    | name b x =>
      simp only [List.flatMap_cons, Piece.used, List.singleton_append, List.mem_cons] at hs
      rcases hs with rfl | hs
      · obtain ⟨c, cs, rfl, _⟩ := h.1
        simp
      · exact ih h.2.2 s hs

theorem spec_missing (env : CutEnv) (names : List Bytes) (hn : ∀ n ∈ names, IsName n) (w : Want) (hf : w.Fine env) (hm : w.MissingName env names) :
    ∀ c, w.spec.lookup env names ≠ .ok c := by
  intro c hc
  cases w with
  | fields is =>
    rw [Want.spec, CutSpec.lookup, lookup_missing _ names hn is hf.1 hf.2 hm] at hc
    simp at hc
  | group g name is =>
    rw [Want.spec, CutSpec.lookup, lookup_missing _ names hn is hf.2.2.1 hf.2.2.2 hm] at hc
    simp at hc
  | expr name f =>
    rw [Want.spec, CutSpec.lookup] at hc
    obtain ⟨v, hv, _⟩ := Res.bind_eq_ok hc
    exact hm v hv
  | comp name ps =>
    rw [Want.spec, CutSpec.lookup] at hc
    obtain ⟨r, hr, _⟩ := Res.bind_eq_ok hc
    obtain ⟨s, hs, hns⟩ := hm
    have hne := used_named ps hf.2 s hs
    obtain ⟨x, hx, e⟩ := collect_uses ps [] s hs hne
    exact hns (e ▸ compLookup_ok names _ r hr x hx (e ▸ hne))

theorem cutLookup_all (env : CutEnv) (names : List Bytes) (ss : List CutSpec) (cs : List CutCol) (h : cutLookup env names ss = .ok cs) :
    ss.map (fun s => s.lookup env names) = cs.map .ok := by
  induction ss generalizing cs with
  | nil =>
    simp only [cutLookup, Res.ok.injEq] at h
    subst h; rfl
  | cons s ss ih =>
    rw [cutLookup] at h
    obtain ⟨c, h1, h2⟩ := Res.bind_eq_ok h
    obtain ⟨q, h3, h4⟩ := Res.bind_eq_ok h2
    simp only [Res.ok.injEq] at h4
    subst h4
    rw [List.map_cons, List.map_cons, h1, ih q h3]

theorem check_mode (nameOk : Bytes → Bool) (c c' : HeaderChecker) (l : Bytes) (b : Bool) (h : c.check nameOk l = some (c', b)) : c'.mode = c.mode := by
  unfold HeaderChecker.check at h
  cases hv : isValidCdx nameOk c.mode l with
  | none => simp [hv] at h
  | some cdx =>
    simp only [hv] at h
    split at h
    · simp only [Option.some.injEq, Prod.mk.injEq] at h; rw [← h.1]
    · split at h
      · simp at h
      · split at h
        · cases hm : c.mode <;> simp only [hm] at h <;> (repeat' split at h) <;>
            first
            | (simp only [Option.some.injEq, Prod.mk.injEq] at h; rw [← h.1]; exact hm)
            | simp at h
        · (repeat' split at h) <;>
            first
            | (simp only [Option.some.injEq, Prod.mk.injEq] at h; rw [← h.1])
            | simp at h

theorem cutFile_mode (env : CutEnv) (nameOk : Bytes → Bool) (m t : TextMode) (dups : DupColHandling) (specs : List CutSpec) (chk : HeaderChecker)
    (f : Bytes) (p : HeaderChecker × Bytes) (h : cutFile env nameOk m t dups specs chk f = .ok p) : p.1.mode = chk.mode := by
  unfold cutFile at h
  dsimp only at h
  split at h
  · simp only [Res.ok.injEq] at h; rw [← h]
  · obtain ⟨cs, _, h⟩ := Res.bind_eq_ok h
    obtain ⟨hd, _, h⟩ := Res.bind_eq_ok h
    obtain ⟨head, _, h⟩ := Res.bind_eq_ok h
    cases hc : chk.check nameOk head with
    | none => simp [hc] at h
    | some q =>
      obtain ⟨c', b⟩ := q
      have := check_mode nameOk chk c' head b hc
      simp only [hc] at h
      split at h
      · simp only [Res.ok.injEq] at h; rw [← h]; exact this
      · split at h
        · simp at h
        · simp only [Res.ok.injEq] at h; rw [← h]; exact this

theorem cutFiles_each (env : CutEnv) (nameOk : Bytes → Bool) (m t : TextMode) (dups : DupColHandling) (specs : List CutSpec) (files : List Bytes) :
    ∀ (chk : HeaderChecker) (out : Bytes), cutFiles env nameOk m t dups specs chk files = .ok out →
      ∀ f ∈ files, ∃ c r, (c.mode = chk.mode) ∧ cutFile env nameOk m t dups specs c f = .ok r := by
  induction files with
  | nil => intro chk out _ f hf; simp at hf
  | cons g files ih =>
    intro chk out h f hf
    rw [cutFiles] at h
    obtain ⟨p, h1, h2⟩ := Res.bind_eq_ok h
    obtain ⟨rest, h3, _⟩ := Res.bind_eq_ok h2
    rcases List.mem_cons.1 hf with rfl | hf
    · exact ⟨chk, p, rfl, h1⟩
    · obtain ⟨c, r, hc, hr⟩ := ih p.1 rest h3 f hf
      refine ⟨c, r, ?_, hr⟩
      rw [hc]
      exact cutFile_mode env nameOk m t dups specs chk g p h1

/-- A name that does not exist, a range that makes no sense, column 0, or an expression that can not be looked up, in any file, and there is no
output. -/
theorem C135_name_partial (env : CutEnv) (nameOk : Bytes → Bool) (m t : TextMode) (mode : HeaderMode) (ws : List Want) (hf : ∀ w ∈ ws, w.Fine env)
    (files : List Bytes) (f : Bytes) (hm : f ∈ notEmpty m files) (hn : ∀ n ∈ namesOf m f, IsName n) (w : Want) (hw : w ∈ ws)
    (hb : w.MissingName env (namesOf m f)) (out : Bytes) : cutMain env nameOk m t mode (ws.map Want.opt) files ≠ .ok out := by
  intro h
  unfold cutMain at h
  rw [cutOptions_spec env .fail ws hf, Res.bind_ok] at h
  split at h
  · simp at h
  · obtain ⟨hmem, hsome⟩ := List.mem_filter.1 hm
    obtain ⟨c, r, _, hr⟩ := cutFiles_each env nameOk m t .fail _ files _ out h f hmem
    unfold cutFile at hr
    have hemp : ((Reader.newWith 1 m).open_ f).isEmpty = false := by
      rw [open_isEmpty]
      cases h : readHeader m f with
      | none => rw [h] at hsome; simp at hsome
      | some p => rfl
    simp only [hemp, Bool.false_eq_true, if_false] at hr
    obtain ⟨cs, h1, _⟩ := Res.bind_eq_ok hr
    have := cutLookup_all env _ _ cs h1
    have hmem : w.spec.lookup env (namesOf m f) ∈ (ws.map Want.spec).map (fun s => s.lookup env (namesOf m f)) := by
      rw [List.map_map]
      exact List.mem_map.2 ⟨w, hw, rfl⟩
    have e : (ws.map Want.spec).map (fun s => s.lookup env (namesOf m f)) = cs.map .ok := this
    rw [e] at hmem
    obtain ⟨c, _, hc⟩ := List.mem_map.1 hmem
    exact spec_missing env _ hn w (hf w hw) hb c hc.symm

example : ∀ out, cutMain cutEnv0 (fun _ => true) TextMode.default TextMode.default .matching [(ascii "fields", ascii "x")] [ascii " CDX\ta\tb\n1\t2\n"] ≠
    .ok out := by
  intro out
  refine C135_name_partial cutEnv0 (fun _ => true) TextMode.default TextMode.default .matching [.fields [⟨false, none, .one (.name (ascii "x"))⟩]] ?_
    [ascii " CDX\ta\tb\n1\t2\n"] (ascii " CDX\ta\tb\n1\t2\n") (by decide +kernel) ?_ _ (List.mem_singleton.2 rfl)
    ⟨_, List.mem_singleton.2 rfl, by decide +kernel, by simp [Sel.refs, ColRef.Fair]⟩ out
  · simp only [List.mem_singleton, forall_eq]
    refine ⟨by simp, ?_⟩
    simp only [List.mem_singleton, forall_eq]
    exact ⟨by simp, by simp only [Sel.refs, List.mem_singleton, forall_eq]; exact name_one 120 (by decide)⟩
  · have en : namesOf TextMode.default (ascii " CDX\ta\tb\n1\t2\n") = [ascii "a", ascii "b"] := by decide +kernel
    rw [en]
    exact names_ab

theorem valid_free {d : UInt8} (hd : SepByte d) (hu : d ≠ 95) (n : Bytes) (h : isValidColumnName n = true) : d ∉ n := by
  by_cases hn : n = []
  · simp [hn]
  · exact (name_free hd hu ((isValid_iff n).1 ⟨hn, h⟩)).2.1

theorem unnamed_check (nameOk : Bytes → Bool) (hno : nameOk [] = false) (d : UInt8) (outs : List Bytes)
    (hfree : ∀ n ∈ outs, d ∉ n) (hmem : [] ∈ outs) (c : HeaderChecker) (hc : c.mode = .matching) :
    c.check nameOk (cdxTag ++ [d] ++ List.intercalate [d] outs ++ [NL]) = none := by
  have hv : isValidCdx nameOk .matching (cdxTag ++ [d] ++ List.intercalate [d] outs ++ [NL]) = none := by
    unfold isValidCdx
    have hcdx : isCdx (cdxTag ++ [d] ++ List.intercalate [d] outs ++ [NL]) = true := by simp [isCdx, cdxTag, List.isPrefixOf]
    have hlast : (cdxTag ++ [d] ++ List.intercalate [d] outs ++ [NL]).getLast? = some NL := List.getLast?_concat
    have hdl : (cdxTag ++ [d] ++ List.intercalate [d] outs ++ [NL]).dropLast = cdxTag ++ [d] ++ List.intercalate [d] outs := List.dropLast_concat
    have hdr : (cdxTag ++ [d] ++ List.intercalate [d] outs).drop 5 = List.intercalate [d] outs := by simp [cdxTag]
    have hg : (cdxTag ++ [d] ++ List.intercalate [d] outs).getD 4 0 = d := by simp [cdxTag]
    have hall : (sliceSplit d (List.intercalate [d] outs)).all nameOk = false := by
      rw [sliceSplit_intercalate d outs (List.ne_nil_of_mem hmem) hfree, List.all_eq_false]
      exact ⟨[], hmem, by simp [hno]⟩
    simp only [reduceCtorEq, if_false, hcdx, Bool.true_eq_false, or_self, hlast, if_true, hdl, hdr, hg, hall]
    simp
  unfold HeaderChecker.check
  rw [hc, hv]

/-- A column number beyond the header gives a column with no name, so with a header the check of the header makes it an error. The check
is on, and empty names are not allowed. -/
theorem C135_number_partial (env : CutEnv) (nameOk : Bytes → Bool) (hno : nameOk [] = false) (m t : TextMode) (hd : SepByte t.delim)
    (hu : t.delim ≠ 95) (hh : t.head = .cdx ∨ t.head = .maybe) (ws : List Want) (hf : ∀ w ∈ ws, w.Fine env)
    (files : List Bytes) (f : Bytes) (hm : f ∈ notEmpty m files) (hhead : ((Reader.newWith 1 m).open_ f).hasHeader = true)
    (ds : Bytes) (hds : IsNumber ds) (hlarge : (namesOf m f).length < decVal ds)
    (hw : .fields [⟨false, none, .one (.num ds)⟩] ∈ ws) (out : Bytes) : cutMain env nameOk m t .matching (ws.map Want.opt) files ≠ .ok out := by
  intro h
  unfold cutMain at h
  rw [cutOptions_spec env .fail ws hf, Res.bind_ok] at h
  split at h
  · simp at h
  · obtain ⟨hmem, hsome⟩ := List.mem_filter.1 hm
    obtain ⟨c, r, hmode, hr⟩ := cutFiles_each env nameOk m t .fail _ files _ out h f hmem
    have hmode : c.mode = .matching := hmode
    unfold cutFile at hr
    have hemp : ((Reader.newWith 1 m).open_ f).isEmpty = false := by
      rw [open_isEmpty]
      cases h : readHeader m f with
      | none => rw [h] at hsome; simp at hsome
      | some p => rfl
    simp only [hemp, Bool.false_eq_true, if_false, hhead, if_true] at hr
    obtain ⟨cs, h1, hr⟩ := Res.bind_eq_ok hr
    obtain ⟨hdr, h2, hr⟩ := Res.bind_eq_ok hr
    obtain ⟨head, h3, hr⟩ := Res.bind_eq_ok hr
    have hall : (ws.map Want.spec).map (fun s => s.lookup env (namesOf m f)) = cs.map .ok := cutLookup_all env _ _ cs h1
    have hspec : (Want.fields [⟨false, none, .one (.num ds)⟩]).spec.lookup env (namesOf m f) ∈
        (ws.map Want.spec).map (fun s => s.lookup env (namesOf m f)) := by
      rw [List.map_map]
      exact List.mem_map.2 ⟨_, hw, rfl⟩
    rw [hall] at hspec
    obtain ⟨col, hcol, he⟩ := List.mem_map.1 hspec
    have hs := (C18_exceptions (namesOf m f) ds hds).1 (by omega)
    have hbody : rangeBody (namesOf m f) ds [] = .ok [⟨decVal ds - 1, [], none⟩] := by
      unfold rangeBody
      rw [sliceSplit_free 45 ds (by
        intro hx
        have := hds.2.1 45 hx
        revert this
        decide)]
      simp only [hds.1, if_false, hs, Res.bind_ok]
      have : decVal ds - 1 + 1 - (decVal ds - 1) = 1 := by omega
      rw [this]
      rfl
    have hrange : range env.colMatch (namesOf m f) ds = .ok [⟨decVal ds - 1, [], none⟩] := by
      unfold range
      have hns : nameSplit ds = ([], ds) := by
        unfold nameSplit
        rw [splitOnce_none 58 ds (by
          intro hx
          have := hds.2.1 58 hx
          revert this
          decide)]
        rfl
      rw [if_neg hds.1, hns]
      cases hc : ds with
      | nil => exact absurd hc hds.1
      | cons x xs =>
        have hx : x ≠ 40 := by
          rintro rfl
          have := hds.2.1 40 (by rw [hc]; simp)
          revert this
          decide
        simp only [hx, if_false]
        rw [hc] at hbody
        exact hbody
    have hl : (Want.fields [⟨false, none, .one (.num ds)⟩]).spec.lookup env (namesOf m f) = .ok (.fields [] [⟨decVal ds - 1, [], none⟩]) := by
      have e : (part ⟨false, none, .one (.num ds)⟩).val = ds := by simp [part, ColItem.body, namePart, Sel.text, ColRef.text]
      have e2 : (part ⟨false, none, .one (.num ds)⟩).trans = none := rfl
      simp [Want.spec, CutSpec.lookup, ColumnSet.lookup, noCols, yesCols, e, e2, hrange]
    rw [hl, Res.ok.injEq] at he
    have hmemn : [] ∈ cs.flatMap (·.names (namesOf m f)) := by
      refine List.mem_flatMap.2 ⟨col, hcol, ?_⟩
      rw [he]
      simp only [CutCol.names, List.map_cons, List.map_nil, outName, if_true, List.mem_singleton]
      rw [List.getD_eq_getElem?_getD, List.getElem?_eq_none (by omega)]
      rfl
    have hpush : cutNames ⟨[], .fail, []⟩ (namesOf m f) cs = .ok hdr := h2
    rw [cutNames, pushAll_fail] at hpush
    split at hpush
    · rename_i hv
      simp only [List.nil_append, Res.ok.injEq] at hpush
      subst hpush
      unfold getHead at h3
      rw [if_neg (List.ne_nil_of_mem hmemn), if_pos hh, Res.ok.injEq] at h3
      subst h3
      rw [unnamed_check nameOk hno t.delim _ (fun n hn => valid_free hd hu n (hv.1 n hn).1) hmemn c hmode] at hr
      simp at hr
    · simp at hpush

example : ∀ out, cutMain cutEnv0 (fun n => n != []) TextMode.default TextMode.default .matching [(ascii "fields", ascii "9")]
    [ascii " CDX\ta\tb\n1\t2\n"] ≠ .ok out := by
  intro out
  refine C135_number_partial cutEnv0 (fun n => n != []) rfl TextMode.default TextMode.default (by decide) (by decide) (by decide)
    [.fields [⟨false, none, .one (.num (ascii "9"))⟩]] ?_ [ascii " CDX\ta\tb\n1\t2\n"] (ascii " CDX\ta\tb\n1\t2\n") (by decide +kernel)
    (by decide +kernel) (ascii "9") (num_one 57 (by decide)) (by decide +kernel) (by simp) out
  simp only [List.mem_singleton, forall_eq]
  refine ⟨by simp, ?_⟩
  simp only [List.mem_singleton, forall_eq]
  exact ⟨by simp, by simp only [Sel.refs, List.mem_singleton, forall_eq]; exact num_one 57 (by decide)⟩

/-- A number in a composite that is too large is no error, even with a header: the value is empty. -/
theorem C135_composite_refuted : ¬ C135_statement := by
  intro h
  refine h cutEnv0 (fun _ => true) TextMode.default TextMode.default .matching [.comp (ascii "c") [.num false 8]] ?_
    [ascii " CDX\ta\tb\n1\t2\n"] ?_ ⟨ascii " CDX\ta\tb\n1\t2\n", by decide +kernel, _, List.mem_singleton.2 rfl, ?_⟩ (ascii " CDX\tc\n\n") (by decide +kernel)
  · simp only [List.mem_singleton, forall_eq]
    exact ⟨by decide, by decide, by simp [piecesText], trivial⟩
  · have e : notEmpty TextMode.default [ascii " CDX\ta\tb\n1\t2\n"] = [ascii " CDX\ta\tb\n1\t2\n"] := by decide +kernel
    rw [e]
    simp only [List.mem_singleton, forall_eq]
    have en : namesOf TextMode.default (ascii " CDX\ta\tb\n1\t2\n") = [ascii "a", ascii "b"] := by decide +kernel
    rw [en]
    exact names_ab
  · exact Or.inr ⟨false, 8, by simp, by decide +kernel⟩

/-! ## C136: selections without errors -/

/-- What is written for a selection can be taken apart again. -/
def C136_statement : Prop := ∀ (columns : List OutCol) (cols : List Bytes) (rest : Bytes) (columns' : List OutCol) (cols' : List Bytes),
  columns.length = columns'.length → columns ≠ [] → writeSloppy columns cols rest = writeSloppy columns' cols' rest →
    selectSloppy columns cols rest = selectSloppy columns' cols' rest

/-- There is no delimiter. -/
theorem C136_refuted : ¬ C136_statement := by
  intro h
  have := h [⟨0, [], none⟩, ⟨1, [], none⟩] [ascii "a", ascii "bc"] [] [⟨0, [], none⟩, ⟨1, [], none⟩] [ascii "ab", ascii "c"] rfl (by simp) (by decide)
  revert this
  decide

/-- The selection has a value for each column, the given one if there is none; the text is these one after the other; with the delimiter
it can be taken apart again. -/
theorem C136_select_partial (columns : List OutCol) (cols : List Bytes) (rest : Bytes) :
    (selectSloppy columns cols rest).length = columns.length ∧
      (∀ (i : Nat) (x : OutCol), columns[i]? = some x → (selectSloppy columns cols rest)[i]? = some ((cols[x.num]?).getD rest)) ∧
      writeSloppy columns cols rest = (selectSloppy columns cols rest).flatten ∧
      ∀ d : UInt8, columns ≠ [] → (∀ c ∈ cols, d ∉ c) → sliceSplit d (write3s columns cols d) = selectSloppy columns cols [] := by
  refine ⟨by simp [selectSloppy], ?_, ?_, ?_⟩
  · intro i x hx
    unfold selectSloppy
    rw [List.getElem?_map, hx]
    simp only [Option.map_some, Option.some.injEq]
    by_cases h : x.num < cols.length
    · simp [h]
    · simp [h, List.getElem?_eq_none (Nat.le_of_not_lt h)]
  · unfold writeSloppy selectSloppy
    rw [List.flatMap_def]
  · intro d hne hfree
    have hval : ∀ x : OutCol, cols.getD x.num [] = if h : x.num < cols.length then cols[x.num] else [] := by
      intro x
      by_cases h : x.num < cols.length
      · simp [h]
      · simp [h, List.getElem?_eq_none (Nat.le_of_not_lt h)]
    have htext : write3s columns cols d = List.intercalate [d] (selectSloppy columns cols []) := by
      cases columns with
      | nil => exact absurd rfl hne
      | cons x xs =>
        unfold write3s selectSloppy
        rw [List.map_cons, intercalate_flatMap, List.flatMap_map]
        simp only [hval]
    rw [htext]
    refine sliceSplit_intercalate d _ (by simpa [selectSloppy] using hne) ?_
    intro c hc
    unfold selectSloppy at hc
    obtain ⟨x, _, rfl⟩ := List.mem_map.1 hc
    by_cases h : x.num < cols.length
    · rw [dif_pos h]
      exact hfree _ (List.getElem_mem h)
    · simp [h]

/-- The numbers of a selection, and the columns of one with names. -/
theorem C136_lookup (transOk : Bytes → Bool) (mk : Bytes → Res (Bytes → Bool)) (names : List Bytes) (hn : ∀ n ∈ names, IsName n)
    (is : List ColItem) (hne : is ≠ []) (h : ∀ i ∈ is, i.WF) (hf : ∀ i ∈ is, ∀ r ∈ i.sel.refs, r.Fair names) :
    lookupCols transOk mk (colListText is) names = (match pickedOf names is with | some v => .ok (v.map (·.1)) | none => .err) ∧
      lookupColsFull transOk mk (colListText is) names =
        (match pickedOf names is with | some v => .ok (v.map fun x => ⟨x.1, x.2, none⟩) | none => .err) := by
  unfold lookupCols lookupColsFull
  rw [add_set transOk is hne h]
  simp only [Res.bind_ok]
  cases hv : pickedOf names is with
  | some v =>
    rw [lookup_set mk names hn is hne h hf v hv]
    simp [Function.comp_def]
  | none =>
    have : ∃ i ∈ is, i.sel.denote names = none := by
      have hall : ∀ l : List ColItem, (∀ i ∈ l, i.sel.denote names ≠ none) → ∃ v, denoteAll names l = some v := by
        intro l
        induction l with
        | nil => intro _; exact ⟨[], rfl⟩
        | cons i l ih =>
          intro hl
          obtain ⟨v, hv⟩ := ih (fun j hj => hl j (by simp [hj]))
          cases hi : i.sel.denote names with
          | none => exact absurd hi (hl i (by simp))
          | some u => exact ⟨_, by rw [denoteAll, hi, hv]⟩
      apply Classical.byContradiction
      intro hno
      have hno : ∀ i ∈ is, i.sel.denote names ≠ none := fun i hi e => hno ⟨i, hi, e⟩
      obtain ⟨a, ha⟩ := hall (is.filter fun i => !i.tilde) (fun i hi => hno i (List.mem_filter.1 hi).1)
      obtain ⟨b, hb⟩ := hall (is.filter fun i => i.tilde) (fun i hi => hno i (List.mem_filter.1 hi).1)
      simp [pickedOf, selectSpec, ha, hb] at hv
    obtain ⟨i, hi, hd⟩ := this
    rw [lookup_missing mk names hn is hne h ⟨i, hi, hd, hf i hi⟩]
    simp

example : lookupCols (fun _ => false) (fun _ => .err) (ascii "a,b") [ascii "a", ascii "b"] = .ok [0, 1] := by
  have := (C136_lookup (fun _ => false) (fun _ => .err) _ names_ab commaGroup commaGroup_fine.2.2.1 commaGroup_fine.2.2.2 commaGroup_fair).1
  exact this.trans (by decide +kernel)

end Cdx
