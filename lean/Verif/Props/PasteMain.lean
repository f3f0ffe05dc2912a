import Verif.Model.PasteMain
import Verif.Props.Paste
import Verif.Props.CutMore
import Verif.Props.CatMain

/-!
C204: the options of `paste`.
-/

namespace Cdx

/-! ## Specification -/

/-- The options of `paste`. -/
def pasteNames : List String := ["end", "default", "dups", "rename", "rename-sloppy", "last"]

/-- The values of `--rename` give these pairs of an old and a new name, written `old.new` and separated by commas. -/
def RenamesMean (vs : List Bytes) (ps : List (Bytes × Bytes)) : Prop :=
  (vs.filter fun v => v ≠ []).flatMap (sliceSplit 44) = ps.map (fun p => p.1 ++ 46 :: p.2) ∧ ∀ p ∈ ps, (46 : UInt8) ∉ p.1

/-- What the options make of `c`. -/
structure PasteAsks (transOk : Bytes → Bool) (c : PasteAsk) (os : List (Bytes × Bytes)) (c' : PasteAsk) : Prop where
  names : ∀ o ∈ os, o.1 ∈ pasteNames.map ascii
  mode : LastMeans (fun v e => (lower v, e) ∈ endWords) (optVals "end" os) c.mode c'.mode
  data : ∃ ts, (optVals "default" os).map (fun v => ScopedValue.new transOk v 44) = ts.map .ok ∧ c'.data = c.data ++ ts
  dups : LastMeans (fun v d => (lower v, d) ∈ dupWords) (optVals "dups" os) c.header.dups c'.header.dups
  rename : ∃ ps, RenamesMean (optVals "rename" os) ps ∧ c'.header.rename = c.header.rename ++ ps
  cols : c'.header.cols = c.header.cols
  sloppy : c'.sloppy = (c.sloppy || !(optVals "rename-sloppy" os).isEmpty)
  useLast : c'.useLast = (c.useLast || !(optVals "last" os).isEmpty)

/-! ## Proof -/

theorem endMeans_ok {β : Type} (v : Bytes) (f : EndMode → Res β) (y : β) :
    (EndMode.new v).bind f = .ok y ↔ ∃ u, (lower v, u) ∈ endWords ∧ f u = .ok y := by
  rw [bind_ok_iff]
  simp only [C123_end]

theorem dupMeans_ok {β : Type} (v : Bytes) (f : DupColHandling → Res β) (y : β) :
    (DupColHandling.new v).bind f = .ok y ↔ ∃ u, (lower v, u) ∈ dupWords ∧ f u = .ok y := by
  rw [bind_ok_iff]
  simp only [C123_dups]

theorem nameMapNew_ok (x : Bytes) (p : Bytes × Bytes) : nameMapNew x = .ok p ↔ x = p.1 ++ 46 :: p.2 ∧ (46 : UInt8) ∉ p.1 := by
  unfold nameMapNew
  constructor
  · intro h
    cases hs : splitOnce 46 x with
    | none => rw [hs] at h; cases h
    | some q =>
      rw [hs] at h
      cases h
      exact splitOnce_eq 46 x p.1 p.2 hs
  · rintro ⟨rfl, h⟩
    rw [splitOnce_some 46 p.1 p.2 h]

theorem renameLoop_ok (xs : List Bytes) : ∀ h h' : ColumnHeader, renameLoop h xs = .ok h' ↔
    ∃ ps : List (Bytes × Bytes), (xs = ps.map (fun p => p.1 ++ 46 :: p.2) ∧ ∀ p ∈ ps, (46 : UInt8) ∉ p.1) ∧ h' = { h with rename := h.rename ++ ps } := by
  induction xs with
  | nil =>
    intro h h'
    simp only [renameLoop, Res.ok.injEq]
    constructor
    · rintro rfl
      exact ⟨[], by simp, by simp⟩
    · rintro ⟨ps, ⟨h1, -⟩, h2⟩
      have : ps = [] := by simpa using h1.symm
      subst this
      simpa using h2.symm
  | cons x xs ih =>
    intro h h'
    simp only [renameLoop, bind_ok_iff, ih, nameMapNew_ok]
    constructor
    · rintro ⟨p, ⟨h1, h2⟩, ps, ⟨h3, h4⟩, h5⟩
      refine ⟨p :: ps, ⟨by simp [h1, h3], ?_⟩, by simpa using h5⟩
      simp only [List.forall_mem_cons]
      exact ⟨h2, h4⟩
    · rintro ⟨ps, ⟨h1, h2⟩, h3⟩
      cases ps with
      | nil => simp at h1
      | cons p ps =>
        simp only [List.map_cons, List.cons.injEq] at h1
        simp only [List.forall_mem_cons] at h2
        exact ⟨p, ⟨h1.1, h2.1⟩, ps, ⟨h1.2, h2.2⟩, by simpa using h3⟩

theorem addRename_ok (h h' : ColumnHeader) (v : Bytes) :
    h.addRename v = .ok h' ↔ ∃ ps, RenamesMean [v] ps ∧ h' = { h with rename := h.rename ++ ps } := by
  unfold ColumnHeader.addRename RenamesMean
  by_cases hv : v = []
  · simp only [hv, ne_eq, not_true_eq_false, if_false, Res.ok.injEq, decide_false, List.filter_cons, Bool.false_eq_true, List.filter_nil, List.flatMap_nil]
    constructor
    · rintro rfl
      exact ⟨[], by simp, by simp⟩
    · rintro ⟨ps, ⟨h1, -⟩, h2⟩
      have : ps = [] := by simpa using h1.symm
      subst this
      simpa using h2.symm
  · simp only [ne_eq, hv, not_false_eq_true, if_true, renameLoop_ok, decide_true, List.filter_cons, List.filter_nil, List.flatMap_cons, List.flatMap_nil,
      List.append_nil]

theorem renames_cons (v : Bytes) (vs : List Bytes) (old new : List (Bytes × Bytes)) :
    (∃ ps, RenamesMean (v :: vs) ps ∧ new = old ++ ps) ↔ ∃ ps, RenamesMean [v] ps ∧ ∃ qs, RenamesMean vs qs ∧ new = (old ++ ps) ++ qs := by
  have e : (v :: vs).filter (fun v => v ≠ []) = [v].filter (fun v => v ≠ []) ++ vs.filter fun v => v ≠ [] := by
    rw [← List.filter_append]; rfl
  unfold RenamesMean
  rw [e, List.flatMap_append]
  constructor
  · rintro ⟨ps, ⟨h1, h2⟩, h3⟩
    obtain ⟨l1, l2, rfl, e1, e2⟩ := List.map_eq_append_iff.1 h1.symm
    exact ⟨l1, ⟨e1.symm, fun p hp => h2 p (by simp [hp])⟩, l2, ⟨e2.symm, fun p hp => h2 p (by simp [hp])⟩, by simpa using h3⟩
  · rintro ⟨ps, ⟨h1, h2⟩, qs, ⟨h3, h4⟩, h5⟩
    refine ⟨ps ++ qs, ⟨by rw [h1, h3, List.map_append], ?_⟩, by simpa using h5⟩
    intro p hp
    rcases List.mem_append.1 hp with hp | hp
    · exact h2 p hp
    · exact h4 p hp

theorem pasteOptions_iff (transOk : Bytes → Bool) (os : List (Bytes × Bytes)) :
    ∀ c c' : PasteAsk, pasteOptions transOk c os = .ok c' ↔ PasteAsks transOk c os c' := by
  induction os with
  | nil =>
    intro c c'
    simp only [pasteOptions, Res.ok.injEq]
    constructor
    · rintro rfl
      exact ⟨by simp, lastMeans_nil.2 rfl, ⟨[], by simp [optVals], by simp⟩, lastMeans_nil.2 rfl, ⟨[], by simp [optVals, RenamesMean], by simp⟩, rfl,
        by simp [optVals], by simp [optVals]⟩
    · rintro ⟨-, h2, ⟨ts, h3, h3'⟩, h4, ⟨ps, ⟨h5, -⟩, h5'⟩, h6, h7, h8⟩
      have e2 := lastMeans_nil.1 h2
      have e4 := lastMeans_nil.1 h4
      have e3 : ts = [] := by simpa [optVals] using h3.symm
      have e5 : ps = [] := by simpa [optVals] using h5.symm
      subst e3 e5
      obtain ⟨a, b, ⟨x, y, z⟩, d, e⟩ := c
      obtain ⟨a', b', ⟨x', y', z'⟩, d', e'⟩ := c'
      simp only [optVals, List.filter_nil, List.map_nil, List.append_nil, List.isEmpty_nil, Bool.not_true, Bool.or_false] at *
      simp_all
  | cons o os ih =>
    intro c c'
    obtain ⟨n, v⟩ := o
    have dist : ∀ a ∈ pasteNames, ∀ b ∈ pasteNames, a ≠ b → ascii a ≠ ascii b := by decide
    by_cases hn : n ∈ pasteNames.map ascii
    · have names : (∀ o ∈ (n, v) :: os, o.1 ∈ pasteNames.map ascii) ↔ ∀ o ∈ os, o.1 ∈ pasteNames.map ascii := by
        simp only [List.forall_mem_cons, hn, true_and]
      obtain ⟨a, ha, e⟩ := List.mem_map.1 hn
      have e := e.symm
      have D : ∀ b ∈ pasteNames, a ≠ b → n ≠ ascii b := fun b hb hab => by rw [e]; exact dist a ha b hb hab
      have V : ∀ b ∈ pasteNames, optVals b ((n, v) :: os) = if a = b then v :: optVals b os else optVals b os := by
        intro b hb
        rw [optVals_cons]
        by_cases hab : a = b
        · rw [if_pos hab, if_pos (by rw [e, hab])]
        · rw [if_neg hab, if_neg (D b hb hab)]
      have conv : ∀ (c c' : PasteAsk) (os : List (Bytes × Bytes)), PasteAsks transOk c os c' ↔ (∀ o ∈ os, o.1 ∈ pasteNames.map ascii) ∧
          LastMeans (fun v e => (lower v, e) ∈ endWords) (optVals "end" os) c.mode c'.mode ∧
          (∃ ts, (optVals "default" os).map (fun v => ScopedValue.new transOk v 44) = ts.map .ok ∧ c'.data = c.data ++ ts) ∧
          LastMeans (fun v d => (lower v, d) ∈ dupWords) (optVals "dups" os) c.header.dups c'.header.dups ∧
          (∃ ps, RenamesMean (optVals "rename" os) ps ∧ c'.header.rename = c.header.rename ++ ps) ∧
          c'.header.cols = c.header.cols ∧
          c'.sloppy = (c.sloppy || !(optVals "rename-sloppy" os).isEmpty) ∧
          c'.useLast = (c.useLast || !(optVals "last" os).isEmpty) := by
        intro c c' os
        constructor
        · rintro ⟨h1, h2, h3, h4, h5, h6, h7, h8⟩
          exact ⟨h1, h2, h3, h4, h5, h6, h7, h8⟩
        · rintro ⟨h1, h2, h3, h4, h5, h6, h7, h8⟩
          exact ⟨h1, h2, h3, h4, h5, h6, h7, h8⟩
      rw [conv, names, V "end" (by decide), V "default" (by decide), V "dups" (by decide), V "rename" (by decide), V "rename-sloppy" (by decide),
        V "last" (by decide)]
      simp only [conv] at ih
      unfold pasteOptions
      have cs : a = "end" ∨ a = "default" ∨ a = "dups" ∨ a = "rename" ∨ a = "rename-sloppy" ∨ a = "last" := by simpa [pasteNames] using ha
      rcases cs with rfl | rfl | rfl | rfl | rfl | rfl
      · rw [if_pos e]
        simp only [endMeans_ok, ih, String.reduceEq, if_true, if_false, lastMeans_cons]
        constructor
        · rintro ⟨u, h0, h1, h2, h3, h4, h5, h6, h7, h8⟩
          exact ⟨h1, ⟨u, h0, h2⟩, h3, h4, h5, h6, h7, h8⟩
        · rintro ⟨h1, ⟨u, h0, h2⟩, h3, h4, h5, h6, h7, h8⟩
          exact ⟨u, h0, h1, h2, h3, h4, h5, h6, h7, h8⟩
      · rw [if_neg (D _ (by decide) (by decide)), if_pos e]
        simp only [bind_ok_iff, ih, String.reduceEq, if_true, if_false, map_cons_ok]
        constructor
        · rintro ⟨u, h0, h1, h2, h3, h4, h5, h6, h7, h8⟩
          exact ⟨h1, h2, ⟨u, h0, h3⟩, h4, h5, h6, h7, h8⟩
        · rintro ⟨h1, h2, ⟨u, h0, h3⟩, h4, h5, h6, h7, h8⟩
          exact ⟨u, h0, h1, h2, h3, h4, h5, h6, h7, h8⟩
      · rw [if_neg (D _ (by decide) (by decide)), if_neg (D _ (by decide) (by decide)), if_pos e]
        simp only [dupMeans_ok, ih, String.reduceEq, if_true, if_false, lastMeans_cons]
        constructor
        · rintro ⟨u, h0, h1, h2, h3, h4, h5, h6, h7, h8⟩
          exact ⟨h1, h2, h3, ⟨u, h0, h4⟩, h5, h6, h7, h8⟩
        · rintro ⟨h1, h2, h3, ⟨u, h0, h4⟩, h5, h6, h7, h8⟩
          exact ⟨u, h0, h1, h2, h3, h4, h5, h6, h7, h8⟩
      · rw [if_neg (D _ (by decide) (by decide)), if_neg (D _ (by decide) (by decide)), if_neg (D _ (by decide) (by decide)), if_pos e]
        simp only [bind_ok_iff, ih, String.reduceEq, if_true, if_false, renames_cons, addRename_ok]
        constructor
        · rintro ⟨_, ⟨ps, h0, rfl⟩, h1, h2, h3, h4, h5, h6⟩
          exact ⟨h1, h2, h3, h4, ⟨ps, h0, h5⟩, h6⟩
        · rintro ⟨h1, h2, h3, h4, ⟨ps, h0, h5⟩, h6⟩
          exact ⟨_, ⟨ps, h0, rfl⟩, h1, h2, h3, h4, h5, h6⟩
      · rw [if_neg (D _ (by decide) (by decide)), if_neg (D _ (by decide) (by decide)), if_neg (D _ (by decide) (by decide)), if_neg (D _ (by decide) (by decide)), if_pos e]
        simp only [ih, String.reduceEq, if_true, if_false, List.isEmpty_cons, Bool.not_false, Bool.or_true, Bool.true_or]
      · rw [if_neg (D _ (by decide) (by decide)), if_neg (D _ (by decide) (by decide)), if_neg (D _ (by decide) (by decide)), if_neg (D _ (by decide) (by decide)), if_neg (D _ (by decide) (by decide)), if_pos e]
        simp only [ih, String.reduceEq, if_true, if_false, List.isEmpty_cons, Bool.not_false, Bool.or_true, Bool.true_or]
    · have D : ∀ b ∈ pasteNames, n ≠ ascii b := fun b hb e => hn (by rw [e]; exact List.mem_map.2 ⟨b, hb, rfl⟩)
      unfold pasteOptions
      rw [if_neg (D _ (by decide)), if_neg (D _ (by decide)), if_neg (D _ (by decide)), if_neg (D _ (by decide)), if_neg (D _ (by decide)),
        if_neg (D _ (by decide))]
      constructor
      · intro h
        cases h
      · intro h
        exact absurd (h.names (n, v) (by simp)) hn

theorem given_iff (n : String) (os : List (Bytes × Bytes)) (b : Bool) :
    (b = (false || !(optVals n os).isEmpty)) ↔ (b = true ↔ ∃ o ∈ os, o.1 = ascii n) := by
  have : (!(optVals n os).isEmpty) = true ↔ ∃ o ∈ os, o.1 = ascii n := by
    simp only [optVals, Bool.not_eq_true', List.isEmpty_eq_false_iff, ne_eq, List.map_eq_nil_iff, List.filter_eq_nil_iff, decide_eq_true_eq]
    constructor
    · intro h
      exact Classical.byContradiction fun hc => h fun o ho e => hc ⟨o, ho, e⟩
    · rintro ⟨o, ho, e⟩ h
      exact h o ho e
  rw [← this, Bool.false_or, Bool.eq_iff_iff]

/-- C204: exactly which options are accepted, and what they ask for. -/
theorem C204_options (transOk : Bytes → Bool) (os : List (Bytes × Bytes)) (c : PasteAsk) :
    pasteOptions transOk {} os = .ok c ↔
      (∀ o ∈ os, o.1 ∈ pasteNames.map ascii) ∧
      LastMeans (fun v e => (lower v, e) ∈ endWords) (optVals "end" os) .exact c.mode ∧
      (optVals "default" os).map (fun v => ScopedValue.new transOk v 44) = c.data.map .ok ∧
      LastMeans (fun v d => (lower v, d) ∈ dupWords) (optVals "dups" os) .fail c.header.dups ∧
      RenamesMean (optVals "rename" os) c.header.rename ∧ c.header.cols = [] ∧
      (c.sloppy = true ↔ ∃ o ∈ os, o.1 = ascii "rename-sloppy") ∧
      (c.useLast = true ↔ ∃ o ∈ os, o.1 = ascii "last") := by
  rw [pasteOptions_iff, ← given_iff, ← given_iff]
  constructor
  · rintro ⟨h1, h2, ⟨ts, h3, h3'⟩, h4, ⟨ps, h5, h5'⟩, h6, h7, h8⟩
    rw [List.nil_append] at h3' h5'
    subst h3'
    rw [← h5'] at h5
    exact ⟨h1, h2, h3, h4, h5, h6, h7, h8⟩
  · rintro ⟨h1, h2, h3, h4, h5, h6, h7, h8⟩
    exact ⟨h1, h2, ⟨_, h3, rfl⟩, h4, ⟨_, h5, rfl⟩, h6, h7, h8⟩

theorem pasteOpen_header {m : TextMode} (files : List Bytes) : ∀ (fds : List Pasted) (live dead cols : Nat) (h0 h' : ColumnHeader),
    allHeads m files → h0.pushAll (allNames m files) = .ok h' → ∃ s, pasteOpen m ⟨fds, live, dead, true, cols, h0⟩ files = .ok s ∧ s.header = h' := by
  induction files with
  | nil =>
    intro fds live dead cols h0 h' _ h
    simp only [allNames, List.map_nil, List.flatten_nil, ColumnHeader.pushAll, Res.ok.injEq] at h
    exact ⟨_, rfl, h⟩
  | cons f fs ih =>
    intro fds live dead cols h0 h' hh h
    have app : ∀ (xs ys : List Bytes) (h0 : ColumnHeader), h0.pushAll (xs ++ ys) = (h0.pushAll xs).bind fun h => h.pushAll ys := by
      intro xs
      induction xs with
      | nil => intro ys h0; rfl
      | cons x xs ih =>
        intro ys h0
        rw [List.cons_append, ColumnHeader.pushAll, ColumnHeader.pushAll]
        cases h0.push x <;> simp [ih]
    have e : allNames m (f :: fs) = ((Reader.newWith 1 m).open_ f).names ++ allNames m fs := rfl
    rw [e, app] at h
    obtain ⟨h1, h2, h3⟩ := Res.bind_eq_ok h
    have hf : ((Reader.newWith 1 m).open_ f).hasHeader = true := hh f (by simp)
    unfold pasteOpen
    simp only [hf, Bool.and_self, if_true, h2, Res.bind_ok]
    exact ih _ _ _ _ _ _ (fun g hg => hh g (by simp [hg])) h3

/-- Full statement: files with headers are pasted as the options ask. The header has the names as they are after renaming and after treating
names that occur twice, and unless `--rename-sloppy` is given all renames have to be used. -/
def C204_statement : Prop :=
  ∀ (m : TextMode) (transOk : Bytes → Bool) (mk : Bytes → Res (Bytes → Bool)) (os : List (Bytes × Bytes)) (c : PasteAsk)
    (files values : List Bytes) (N : Nat) (h' : ColumnHeader) (head : Bytes), pasteOptions transOk {} os = .ok c → allHeads m files →
    c.header.pushAll (allNames m files) = .ok h' → (c.sloppy = true ∨ h'.rename = []) → h'.cols.length = (allNames m files).length →
    columnHead h'.cols = .ok head → scopedLookup mk [] c.data h'.cols = .ok values → IsRows c.mode (padded m c.useLast values files) N →
    ∃ b, (b = false ↔ c.mode = .exact ∧ ∃ f ∈ files, (dataOf m f).length ≠ N) ∧
      pasteMain m transOk mk os files = .ok (head ++ rowsAt (padded m c.useLast values files) 0 N, b)

/-- In plain mode, if with `--last` every file has a line (see C55). -/
theorem C204_pasted_partial (m : TextMode) (hm : m.col = .plain) (heol : m.eol = NL) (transOk : Bytes → Bool) (mk : Bytes → Res (Bytes → Bool))
    (os : List (Bytes × Bytes)) (c : PasteAsk) (files values : List Bytes) (N : Nat) (h' : ColumnHeader) (head : Bytes)
    (ho : pasteOptions transOk {} os = .ok c) (hh : allHeads m files) (hp : c.header.pushAll (allNames m files) = .ok h')
    (hr : c.sloppy = true ∨ h'.rename = []) (hl : h'.cols.length = (allNames m files).length) (hhead : columnHead h'.cols = .ok head)
    (hv : scopedLookup mk [] c.data h'.cols = .ok values) (hN : IsRows c.mode (padded m c.useLast values files) N)
    (hlast : c.useLast = true → c.mode = .late → ∀ f ∈ files, dataOf m f ≠ [] ∨ N = 0) :
    ∃ b, (b = false ↔ c.mode = .exact ∧ ∃ f ∈ files, (dataOf m f).length ≠ N) ∧
      pasteMain m transOk mk os files = .ok (head ++ rowsAt (padded m c.useLast values files) 0 N, b) := by
  obtain ⟨s, h1, h2⟩ := pasteOpen_header files [] 0 0 0 _ _ hh hp
  rw [← h2] at hr hl hv
  obtain ⟨b, h3, h4⟩ := paste_any hm heol mk c.mode c.useLast c.data files values N s c.header c.sloppy h1 hr hl hv hN hlast
  refine ⟨b, h3, ?_⟩
  unfold pasteMain
  have : files.all (fun f => ((Reader.newWith 1 m).open_ f).hasHeader) = true := List.all_eq_true.2 hh
  rw [ho, Res.bind_ok, h4, this, if_pos rfl, h2, hhead, Res.bind_ok]

/-- A rename that was not used is an error, unless `--rename-sloppy` is given. -/
theorem C204_unused (m : TextMode) (transOk : Bytes → Bool) (mk : Bytes → Res (Bytes → Bool)) (os : List (Bytes × Bytes)) (c : PasteAsk)
    (files : List Bytes) (h' : ColumnHeader) (ho : pasteOptions transOk {} os = .ok c) (hh : allHeads m files)
    (hp : c.header.pushAll (allNames m files) = .ok h') (hs : ∀ o ∈ os, o.1 ≠ ascii "rename-sloppy") (hr : h'.rename ≠ []) :
    pasteMain m transOk mk os files = .err := by
  obtain ⟨s, h1, h2⟩ := pasteOpen_header files [] 0 0 0 _ _ hh hp
  have hsl : c.sloppy = false := by
    have := ((C204_options transOk os c).1 ho).2.2.2.2.2.2.1
    cases h : c.sloppy
    · rfl
    · obtain ⟨o, h3, h4⟩ := this.1 h
      exact absurd h4 (hs o h3)
  unfold pasteMain pasteCmd
  rw [ho, Res.bind_ok, h1, Res.bind_ok, if_pos ⟨hsl, by rw [h2]; exact hr⟩]

/-- A file with a header only has no last line. -/
theorem C204_refuted : ¬ C204_statement := by
  intro h
  obtain ⟨b, _, h2⟩ := h .default (fun _ => true) (fun _ => .err) [(ascii "end", ascii "late"), (ascii "last", [])]
    { mode := .late, useLast := true } [ascii " CDX\ta\n", ascii " CDX\tb\n1\n"] [[], []] 1 ⟨[ascii "a", ascii "b"], .fail, []⟩
    (ascii " CDX\ta\tb\n") rfl (by unfold allHeads; decide +kernel) (by decide +kernel) (.inr rfl) (by decide +kernel)
    (by decide +kernel) (by decide +kernel) (by constructor <;> decide +kernel)
  have : pasteMain .default (fun _ => true) (fun _ => .err) [(ascii "end", ascii "late"), (ascii "last", [])]
    [ascii " CDX\ta\n", ascii " CDX\tb\n1\n"] = .panic := by decide +kernel
  rw [this] at h2
  cases h2

/-- Columns renamed and padded. -/
example : pasteMain .default (fun _ => true) (fun _ => .err)
    [(ascii "default", ascii "-"), (ascii "rename", ascii "a.c,x.y"), (ascii "end", ascii "LATE"), (ascii "rename-sloppy", [])]
    [ascii " CDX\ta\n1\n2\n", ascii " CDX\ta\n3\n"] = .ok (ascii " CDX\ta\tc\n1\t3\n2\t-\n", true) := by decide +kernel
example : pasteMain .default (fun _ => true) (fun _ => .err) [(ascii "rename", ascii "a.c,x.y")]
    [ascii " CDX\ta\n1\n2\n", ascii " CDX\ta\n3\n"] = .err := by decide +kernel
example : (⟨[], .fail, [(ascii "a", ascii "c")]⟩ : ColumnHeader).pushAll (allNames .default [ascii " CDX\ta\n1\n2\n", ascii " CDX\ta\n3\n"]) =
    .ok ⟨[ascii "a", ascii "c"], .fail, []⟩ := by decide +kernel

end Cdx
