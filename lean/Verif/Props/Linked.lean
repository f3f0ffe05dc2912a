import Verif.Model.Linked
import Verif.Props.RunCmds
import Verif.Props.Exact
import Verif.Props.FloatPrint
import Verif.Props.ExprUse
import Verif.Props.ExprLine

/-!
The program with all its parts (C224): formulas of whole numbers in commands, from the words of the command line and the texts of the
files to the bytes written.
-/

namespace Cdx

/-! ## Formulas of whole numbers -/

/-- A formula of whole numbers: what it means, and the tokens it is written with. -/
structure WholeFormula where
  tree : Tree Nat
  toks : List (Token F64)

/-- The text of the formula. -/
def WholeFormula.text (f : WholeFormula) : Bytes := formulaText wholeLit f.toks

/-- The tokens write the formula. -/
structure WholeFormula.Ok (f : WholeFormula) : Prop where
  writes : Writes 1 f.toks [f.tree.mapNum F64.ofNat]
  whole : ∀ tok ∈ f.toks, WholeTok tok
  clash : NoClash f.toks

/-- The text is that of a whole number, e.g. `12`, `-3` or `1e3`. -/
def WholeCell (b : Bytes) (n : Int) : Prop := ∃ p : NumParts, p.Whole ∧ b = p.text ∧ n = p.int

/-- Given whole numbers for the names, all steps are whole numbers up to `2^53`, and this is the last one. -/
def WholeFormula.Gives (f : WholeFormula) (vals : Bytes → Int) (n : Int) : Prop := exactVal (some (2 ^ 53)) vals f.tree = some n

/-- A whole number as it is usually written. -/
def wholeText (n : Int) : Bytes := (if n < 0 then [45] else []) ++ decText n.natAbs

mutual
theorem names_mapNum {F G : Type} (f : F → G) : ∀ t : Tree F, treeNames (t.mapNum f) = treeNames t
  | .num x => by simp only [Tree.mapNum, treeNames]
  | .var s => by simp only [Tree.mapNum, treeNames]
  | .bin op a b => by simp only [Tree.mapNum, treeNames, names_mapNum f a, names_mapNum f b]
  | .sign m a => by simp only [Tree.mapNum, treeNames, names_mapNum f a]
  | .fact a => by simp only [Tree.mapNum, treeNames, names_mapNum f a]
  | .call s a rest => by simp only [Tree.mapNum, treeNames, names_mapNum f a, names_mapNums f rest]

theorem names_mapNums {F G : Type} (f : F → G) : ∀ ts : List (Tree F), treeNamesAll (mapNums f ts) = treeNamesAll ts
  | [] => by simp only [mapNums, treeNamesAll]
  | t :: ts => by simp only [mapNums, treeNamesAll, names_mapNum f t, names_mapNums f ts]
end

mutual
theorem exactVal_same (lim : Option Nat) (u v : Bytes → Int) : ∀ t : Tree Nat, (∀ x ∈ treeNames t, u x = v x) → exactVal lim u t = exactVal lim v t
  | .num _, _ => by simp only [exactVal]
  | .var s, h => by
    simp only [exactVal]
    by_cases hc : constNames.contains s = true
    · rw [if_pos hc, if_pos hc]
    · rw [if_neg hc, if_neg hc, h s (by simp only [treeNames]; rw [if_neg (by simpa using hc)]; simp)]
  | .bin op a b, h => by
    simp only [treeNames, List.mem_append] at h
    simp only [exactVal, exactVal_same lim u v a (fun x hx => h x (.inl hx)), exactVal_same lim u v b (fun x hx => h x (.inr hx))]
  | .sign m a, h => by
    simp only [treeNames] at h
    simp only [exactVal, exactVal_same lim u v a h]
  | .fact a, h => by
    simp only [treeNames] at h
    simp only [exactVal, exactVal_same lim u v a h]
  | .call s a rest, h => by
    simp only [treeNames, List.mem_append] at h
    simp only [exactVal, exactVal_same lim u v a (fun x hx => h x (.inl hx)), exactVals_same lim u v rest (fun x hx => h x (.inr hx))]

theorem exactVals_same (lim : Option Nat) (u v : Bytes → Int) : ∀ ts : List (Tree Nat), (∀ x ∈ treeNamesAll ts, u x = v x) →
    exactVals lim u ts = exactVals lim v ts
  | [], _ => by simp only [exactVals]
  | t :: ts, h => by
    simp only [treeNamesAll, List.mem_append] at h
    simp only [exactVals, exactVal_same lim u v t (fun x hx => h x (.inl hx)), exactVals_same lim u v ts (fun x hx => h x (.inr hx))]
end

/-- The doubles for the names are whole numbers, and so is the value of the formula. -/
theorem gives_value (rest : FloatOps F64) (env : Bytes → F64) (vals : Bytes → Int) (f : WholeFormula) (n : Int) (h : f.Gives vals n)
    (he : ∀ x ∈ treeNames f.tree, (env x).Is (vals x)) :
    (∃ v, treeVal (f64Ops rest) env (f.tree.mapNum F64.ofNat) = .ok v ∧ v.Is n) ∧ n.natAbs ≤ 2 ^ 53 := by
  classical
  unfold WholeFormula.Gives at h
  rw [exactVal_same _ vals (fun x => if x ∈ treeNames f.tree then vals x else 2 ^ 54) f.tree (fun x hx => by rw [if_pos hx])] at h
  refine exact_tree rest env _ ?_ f.tree n h
  intro x hx
  by_cases hm : x ∈ treeNames f.tree
  · rw [if_pos hm]
    exact he x hm
  · rw [if_neg hm] at hx
    exact absurd hx (by decide)

theorem writable_whole (exp10 : Int → F64) {tok : Token F64} (h : WholeTok tok) : Writable (parseF64 exp10) wholeLit tok := by
  cases tok with
  | number x =>
    obtain ⟨k, hk, rfl⟩ := h
    exact wholeLit_ok exp10 hk
  | var s => exact h
  | func s k => exact h
  | _ => trivial

/-- A whole number other than zero is written as usual. -/
theorem display_int {v : F64} {n : Int} (h : v.Is n) (hn : n.natAbs ≤ 2 ^ 53) (h0 : n ≠ 0) : v.display = wholeText n := by
  rw [display_whole h hn, is_isNeg h h0, wholeText]
  by_cases hs : n < 0 <;> simp [hs]

/-! ## calc -/

/-- Full statement: `calc` writes the values of formulas of whole numbers. -/
def C224_statement : Prop :=
  ∀ (o : Outside) (s : Sys) (file : Bytes) (f : WholeFormula) (n : Int), f.Ok → f.Gives (fun _ => 0) n →
    getReader o.s3 o.gunzip s file = some (f.text ++ [NL]) → lineFmt f.text = none →
      o.run "calc" [.opt "fmt" (ascii "plain"), .pos "input_files" file] s = .ok { s with stdout := s.stdout ++ wholeText n ++ [NL] }

/-- C224, as far as it holds, for `calc`: each line of the files is a formula of whole numbers, and the line written for it is its exact
value in the format asked for. What is missing: the value 0, which may be written `-0`, values beyond `2^53`, and fractions. -/
theorem C224_calc_partial (o : Outside) (s : Sys) (c : Cmd) (hc : c ∈ mainList) (hn : c.name = "calc") (toks : List Tok) (m : TextMode)
    (t : Option TextMode) (opts : List (Bytes × Bytes)) (files texts : List Bytes) (fmt : NumFormat) (p : Option Nat)
    (h : Says (o.world s) c toks m t opts files) (hfmt : LastMeans FormatMeans (opts.map (·.2)) .default fmt) (hp : fmt.prec? = some p)
    (hr : files.map (getReader o.s3 o.gunzip s) = texts.map some) (hm : m.col = .plain) (fs : List (WholeFormula × Int))
    (hin : calcInput m texts = fs.map (·.1.text))
    (hf : ∀ f ∈ fs, f.1.Ok ∧ f.1.Gives (fun _ => 0) f.2 ∧ f.2 ≠ 0 ∧ lineFmt f.1.text = none) :
    o.run "calc" toks s = .ok { s with stdout := s.stdout ++ fs.flatMap fun f => (fmt.print f.2).getD [] ++ [NL] } := by
  have hval : ∀ f ∈ fs, ∃ v, evalFormula (f64Ops o.rest) (parseF64 o.exp10) (fun _ => F64.ofNat 0) f.1.text = .ok v ∧ v.Is f.2 ∧ f.2.natAbs ≤ 2 ^ 53 := by
    intro f hm
    obtain ⟨h1, h2, h3, h4⟩ := hf f hm
    obtain ⟨v, hv, hi⟩ := C194_text_partial o.rest o.exp10 (fun _ => F64.ofNat 0) (fun _ => 0) (fun _ _ => is_ofNat (n := 0) (by decide)) f.1.tree f.2 h2
      f.1.toks h1.writes h1.whole h1.clash
    exact ⟨v, hv, hi, (gives_value o.rest (fun _ => F64.ofNat 0) _ f.1 f.2 h2 fun _ _ => is_ofNat (n := 0) (by decide)).2⟩
  have hline : ∀ f ∈ fs, lineExp f.1.text = f.1.text := by
    intro f hm
    unfold lineExp
    rw [(hf f hm).2.2.2]
    rfl
  have hsafe : ∀ l ∈ calcInput m texts, CalcSafe (o.expr s) l := by
    intro l hl
    rw [hin] at hl
    obtain ⟨f, hm, rfl⟩ := List.mem_map.1 hl
    obtain ⟨v, hv, _⟩ := hval f hm
    unfold CalcSafe
    rw [hline f hm]
    show evalFormula (f64Ops o.rest) (parseF64 o.exp10) (fun _ => F64.ofNat 0) _ ≠ _
    rw [hv]
    simp
  have hall : ∀ gs : List (WholeFormula × Int), (∀ f ∈ gs, f ∈ fs) →
      calcAll (o.expr s) printNum fmt (gs.map (·.1.text)) = gs.flatMap fun f => (fmt.print f.2).getD [] ++ [NL] := by
    intro gs
    induction gs with
    | nil => intro _; rfl
    | cons f gs ih =>
      intro hsub
      have hm := hsub f (by simp)
      obtain ⟨v, hv, hi, hb⟩ := hval f hm
      rw [List.map_cons, calcAll_cons, (hf f hm).2.2.2, List.flatMap_cons, Option.getD_none, ih fun g hg => hsub g (by simp [hg])]
      congr 1
      unfold calcOut
      rw [show [f.1.text].getD 0 [] = f.1.text from rfl, hline f hm,
        show evalFormula (o.expr s).ops (o.expr s).toF64 (fun _ => (o.expr s).ops.zero) f.1.text = .ok v from hv]
      simp only
      have : lastFmt fmt ([f.1.text].take (0 + 1)) = fmt := by
        simp [lastFmt, (hf f hm).2.2.2]
      rw [this, printNum, printF_whole fmt p hp hi (fun h0 => absurd h0 (hf f hm).2.2.1) fun _ => hb]
  have hl := congrArg List.length hr
  simp only [List.length_map] at hl
  have hfm : ∀ (vs : List Bytes) (d f : NumFormat), LastMeans FormatMeans vs d f → calcFmt d vs = .ok f := by
    intro vs
    induction vs with
    | nil =>
      intro d f hx
      rw [lastMeans_nil.1 hx]
      rfl
    | cons v vs ih =>
      intro d f hx
      obtain ⟨u, h1, h2⟩ := lastMeans_cons.1 hx
      rw [calcFmt, (C190_formats _ _).2 h1, Res.bind_ok]
      exact ih u f h2
  unfold Outside.run
  rw [← hn]
  refine run_writes (o.world s) hc (by rw [hn]; decide) (by rw [hn]; decide) h s hr ?_
  rw [hn]
  unfold World.output
  simp only [if_false, if_true, String.reduceEq]
  rw [zip_snd hl]
  show (calcCmd (o.expr s) printNum m (opts.map (·.2)) texts).run = _
  unfold calcCmd
  rw [hfm _ _ _ hfmt, Res.bind_ok, calcFiles_spec (o.expr s) printNum hm texts fmt (fun f _ l hl => dataOf_ne m hm f l hl) hsafe, hin,
    hall fs fun f hf => hf]
  rfl

/-! ## cut -/

/-- What is asked for: columns as they are, or the value of a formula. -/
inductive Asked
  | cols (w : Want)
  | formula (name : Bytes) (f : WholeFormula)

/-- As an option. -/
def Asked.want : Asked → Want
  | .cols w => w
  | .formula name f => .expr name f.text

/-- The columns written for a row, given the values of formulas. -/
def Asked.cells (e : UInt8) (names : List Bytes) (val : WholeFormula → List Bytes → Int) (r : List Bytes) : Asked → List Bytes
  | .cols w => (w.fieldsOf names r).map (blanked e)
  | .formula _ f => [wholeText (val f r)]

/-- The value of the formula for a row is `n`: names stand for the columns, whose texts are whole numbers. -/
def WholeFormula.RowGives (f : WholeFormula) (names : List Bytes) (r : List Bytes) (n : Int) : Prop :=
  ∃ vals : Bytes → Int, (∀ x ∈ treeNames f.tree, WholeCell (cellOf names r x) (vals x)) ∧ f.Gives vals n

theorem varCol_idxOf {names : List Bytes} {x : Bytes} (h : x ∈ names) : VarCol names x (names.idxOf x) := by
  refine .inl ⟨?_, ?_⟩
  · rw [List.getElem?_eq_getElem (List.idxOf_lt_length_of_mem h), List.getElem_idxOf]
  · intro j hj hc
    have hl : j < names.length := Nat.lt_trans hj (List.idxOf_lt_length_of_mem h)
    rw [List.getElem?_eq_getElem hl] at hc
    have := List.not_of_lt_findIdx (p := fun y => y == x) (xs := names) (i := j) hj
    simp at this hc
    exact this hc

/-- The formula for a row of a table. -/
theorem row_value (o : Outside) (s : Sys) (names : List Bytes) (f : WholeFormula) (hf : f.Ok) (hb : 91 ∉ f.text) (hin : ∀ x ∈ treeNames f.tree, x ∈ names)
    (d : UInt8) (hd : d ≠ NL) (r : List Bytes) (hne : r ≠ []) (hfree : ∀ c ∈ r, d ∉ c ∧ NL ∉ c) (n : Int) (hg : f.RowGives names r n) :
    (∃ v, ((ExprSt.new f.text).lookup (o.expr s) names).bind (·.evalLine (o.expr s) (List.intercalate [d] r ++ [NL]) d) = .ok v ∧
      ((ExprSt.new f.text).lookup (o.expr s) names).bind (·.eval (o.expr s) (plainLine (List.intercalate [d] r ++ [NL]) d)) = .ok v ∧ v.Is n) ∧
      n.natAbs ≤ 2 ^ 53 := by
  obtain ⟨vals, h1, h2⟩ := hg
  obtain ⟨⟨v, hv, hi⟩, hb'⟩ := gives_value o.rest (fun x => (parseF64 o.exp10 (r.getD (names.idxOf x) [])).1) vals f n h2 (by
    intro x hx
    obtain ⟨p, hp, e1, e2⟩ := h1 x hx
    have := (hp.lossy o.exp10).1
    rw [e2]
    unfold cellOf at e1
    rw [e1]
    exact this)
  have := C141_row (o.expr s) names wholeLit hf.writes (fun tok ht => writable_whole o.exp10 (hf.whole tok ht)) hf.clash hb (fun x => names.idxOf x)
    (by
      intro x hx
      rw [names_mapNum] at hx
      exact varCol_idxOf (hin x hx)) d hd r hne hfree
  exact ⟨⟨v, this.1.trans hv, this.2.trans hv, hi⟩, hb'⟩

/-- C224, as far as it holds, for `cut`: a column asked for by a formula has the exact value of the formula for the row. What is missing: the
value 0, values beyond `2^53`, and fractions. -/
theorem C224_cut_partial (o : Outside) (s : Sys) (c : Cmd) (hc : c ∈ mainList) (hn : c.name = "cut") (toks : List Tok) (d e : UInt8)
    (t : Option TextMode) (names files : List Bytes) (tables : List (List (List Bytes))) (as : List Asked) (val : WholeFormula → List Bytes → Int)
    (h : Says (o.world s) c toks (sepMode d) t (as.map fun a => a.want.opt) files) (ho : t = some (sepMode e) ∨ t = none ∧ e = d)
    (hr : files.map (getReader o.s3 o.gunzip s) = (tables.map fun rows => sepHead d names ++ sepText d rows).map some)
    (hd : SepByte d) (hu : d ≠ 95) (he : SepByte e) (heu : e ≠ 95) (hne : names ≠ []) (hnn : ∀ n ∈ names, IsName n) (has : as ≠ [])
    (hw : ∀ w, Asked.cols w ∈ as → w.Fine (o.cut s) ∧ w.Suits (o.cut s) names ∧ w.Bare)
    (hform : ∀ name f, Asked.formula name f ∈ as → 58 ∉ name ∧ f.Ok ∧ 91 ∉ f.text ∧ (∀ x ∈ treeNames f.tree, x ∈ names) ∧
      ∀ r ∈ tables.flatten, f.RowGives names r (val f r) ∧ val f r ≠ 0)
    (hnd : (as.flatMap fun a => a.want.outNames names).Nodup)
    (hv : ∀ n ∈ as.flatMap (fun a => a.want.outNames names), IsName n ∧ nameOkBytes o.classes n = true)
    (htab : ∀ rows ∈ tables, SepTable d names.length rows) (hrows : tables.flatten ≠ []) :
    o.run "cut" toks s = .ok { s with stdout := s.stdout ++ (sepHead e (as.flatMap fun a => a.want.outNames names) ++
      sepText e (tables.flatten.map fun r => as.flatMap (Asked.cells e names val r))) } := by
  have hl := congrArg List.length hr
  simp only [List.length_map] at hl
  have hrne : ∀ rows ∈ tables, ∀ r ∈ rows, r ≠ [] ∧ ∀ c ∈ r, d ∉ c ∧ NL ∉ c := by
    intro rows hr r hm
    obtain ⟨h1, h2⟩ := htab rows hr r hm
    refine ⟨?_, h2⟩
    rintro rfl
    simp at h1
    exact hne (List.length_eq_zero_iff.1 h1.symm)
  have hval : ∀ name f, Asked.formula name f ∈ as → ∃ x, (ExprSt.new f.text).lookup (o.expr s) names = .ok x ∧
      ∀ rows ∈ tables, ∀ r ∈ rows, columnExprWrite (o.expr s) F64.display x (decoded (sepMode d) (List.intercalate [d] r ++ [NL])) =
        .ok (wholeText (val f r)) := by
    intro name f hm
    obtain ⟨_, h2, h3, h4, h5⟩ := hform name f hm
    have hone : ∀ rows ∈ tables, ∀ r ∈ rows, (∃ v, ((ExprSt.new f.text).lookup (o.expr s) names).bind
        (·.eval (o.expr s) (plainLine (List.intercalate [d] r ++ [NL]) d)) = .ok v ∧ v.Is (val f r)) ∧ (val f r).natAbs ≤ 2 ^ 53 ∧ val f r ≠ 0 := by
      intro rows hr r hm'
      have hg := h5 r (List.mem_flatten.2 ⟨rows, hr, hm'⟩)
      obtain ⟨⟨v, _, hv, hi⟩, hb⟩ := row_value o s names f h2 h3 h4 d hd.1 r (hrne rows hr r hm').1 (hrne rows hr r hm').2 _ hg.1
      exact ⟨⟨v, hv, hi⟩, hb, hg.2⟩
    obtain ⟨r0, hr0⟩ := List.exists_mem_of_ne_nil _ hrows
    obtain ⟨rows0, hr1, hr2⟩ := List.mem_flatten.1 hr0
    obtain ⟨⟨v0, hv0, _⟩, _⟩ := hone rows0 hr1 r0 hr2
    obtain ⟨x, hx, _⟩ := Res.bind_eq_ok hv0
    refine ⟨x, hx, ?_⟩
    intro rows hr r hm'
    obtain ⟨⟨v, hv, hi⟩, hb, h0⟩ := hone rows hr r hm'
    rw [hx, Res.bind_ok] at hv
    unfold columnExprWrite
    rw [show x.eval (o.expr s) (decoded (sepMode d) (List.intercalate [d] r ++ [NL])) = .ok v from hv, Res.bind_ok, display_int hi hb h0]
  have hout : (Settings.mk (sepMode d) t).out = sepMode e := by
    rcases ho with rfl | ⟨rfl, rfl⟩ <;> rfl
  have hopt : (as.map fun a => a.want.opt) = (as.map Asked.want).map Want.opt := by rw [List.map_map]; rfl
  have hon : (as.map Asked.want).flatMap (Want.outNames names) = as.flatMap fun a => a.want.outNames names := by rw [List.flatMap_map]
  unfold Outside.run
  rw [← hn]
  refine run_writes (o.world s) hc (by rw [hn]; decide) (by rw [hn]; decide) h s hr ?_
  rw [hn]
  unfold World.output
  simp only [if_false, if_true, String.reduceEq]
  rw [zip_snd (by simpa using hl), hout, hopt]
  show (cutMain (o.cut s) (nameOkBytes o.classes) (sepMode d) (sepMode e) .matching _ _).run = _
  rw [cut_cells (o.cut s) (nameOkBytes o.classes) d e hd hu he heu names hne hnn (as.map Asked.want) (by simpa using has) ?_ ?_ (by rwa [hon]) (by rwa [hon])
    tables htab (fun r => as.flatMap (Asked.cells e names val r)) ?_ ?_, hon]
  · rfl
  · intro w hm
    obtain ⟨a, ha, rfl⟩ := List.mem_map.1 hm
    cases a with
    | cols w => exact (hw w ha).1
    | formula name f => exact ⟨(hform name f ha).1, rfl⟩
  · intro w hm
    obtain ⟨a, ha, rfl⟩ := List.mem_map.1 hm
    cases a with
    | cols w => exact (hw w ha).2.1
    | formula name f =>
      obtain ⟨x, hx, _⟩ := hval name f ha
      refine ⟨fun line => match columnExprWrite (o.expr s) F64.display x line with
          | .ok v => v
          | _ => [], ?_⟩
      show ((ExprSt.new f.text).lookup (o.expr s) names).bind _ = _
      rw [hx]
      rfl
  · intro rows hr r hm
    rw [List.flatMap_map]
    apply flatMap_same
    intro a ha
    cases a with
    | cols w => exact cells_blanked (o.cut s) d e hd names w (hw w ha).2.2 r (hrne rows hr r hm).1 (hrne rows hr r hm).2
    | formula name f =>
      obtain ⟨x, hx, hy⟩ := hval name f ha
      have e1 : (o.cut s).eval f.text names = .ok fun line => match columnExprWrite (o.expr s) F64.display x line with
          | .ok v => v
          | _ => [] := by
        show ((ExprSt.new f.text).lookup (o.expr s) names).bind _ = _
        rw [hx]
        rfl
      simp only [Asked.want, Want.cells, Asked.cells, e1, hy rows hr r hm]
  · rintro rfl
    exact hrows rfl

/-! ## Examples, and where the full statement fails -/

/-- Surroundings for the examples. -/
def outside0 : Outside where
  low := fun c => [c]
  up := fun c => [c]
  lowStr := id
  trim := id
  space := fun c => c == ' '
  classes := ⟨fun n => decide (65 ≤ n), fun n => decide (48 ≤ n)⟩
  regex := fun _ _ => .err
  rest := noOps
  exp10 := fun _ => 0
  normal := fun _ => .err
  draw := world0.draw
  glyphs := asciiGlyphs
  screen := none
  height := 24
  pick := world0.pick
  rd := world0.rd
  cap := 100
  s3 := fun _ => none
  gunzip := id
  exprCols := fun _ _ => []
  known := true

/-- `0*-1`. -/
def minusZero : WholeFormula :=
  ⟨.bin .times (.num 0) (.sign true (.num 1)), [.number (F64.ofNat 0), .binary .times, .unary .minus, .number (F64.ofNat 1)]⟩

/-- `a*b-7`. -/
def lessSeven : WholeFormula :=
  ⟨.bin .minus (.bin .times (.var (ascii "a")) (.var (ascii "b"))) (.num 7),
    [.var (ascii "a"), .binary .times, .var (ascii "b"), .binary .minus, .number (F64.ofNat 7)]⟩

/-- `3-50`. -/
def three50 : WholeFormula := ⟨.bin .minus (.num 3) (.num 50), [.number (F64.ofNat 3), .binary .minus, .number (F64.ofNat 50)]⟩

theorem minusZero_ok : minusZero.Ok := by
  refine ⟨?_, ?_, by simp [minusZero, NoClash, clash]⟩
  · have := writes_infixOf (minusZero.tree.mapNum F64.ofNat) 1 (by decide) (by decide)
    rwa [show infixOf 1 (minusZero.tree.mapNum F64.ofNat) = minusZero.toks by
      simp only [minusZero, Tree.mapNum, infixOf, leftLevel, wrapIf]; simp [signOp]] at this
  · intro tok ht
    simp only [minusZero, List.mem_cons, List.not_mem_nil, or_false] at ht
    rcases ht with rfl | rfl | rfl | rfl
    · exact ⟨0, by decide, rfl⟩
    · trivial
    · trivial
    · exact ⟨1, by decide, rfl⟩

theorem lessSeven_ok : lessSeven.Ok := by
  refine ⟨?_, ?_, by simp [lessSeven, NoClash, clash]⟩
  · have := writes_infixOf (lessSeven.tree.mapNum F64.ofNat) 1 (by decide) (by decide)
    rwa [show infixOf 1 (lessSeven.tree.mapNum F64.ofNat) = lessSeven.toks by
      simp only [lessSeven, Tree.mapNum, infixOf, leftLevel, wrapIf]; simp] at this
  · intro tok ht
    simp only [lessSeven, List.mem_cons, List.not_mem_nil, or_false] at ht
    rcases ht with rfl | rfl | rfl | rfl | rfl
    · exact ⟨97, [], rfl, by decide, by decide⟩
    · trivial
    · exact ⟨98, [], rfl, by decide, by decide⟩
    · trivial
    · exact ⟨7, by decide, rfl⟩

theorem three50_ok : three50.Ok := by
  refine ⟨?_, ?_, by simp [three50, NoClash, clash]⟩
  · have := writes_infixOf (three50.tree.mapNum F64.ofNat) 1 (by decide) (by decide)
    rwa [show infixOf 1 (three50.tree.mapNum F64.ofNat) = three50.toks by
      simp only [three50, Tree.mapNum, infixOf, leftLevel, wrapIf]; simp] at this
  · intro tok ht
    simp only [three50, List.mem_cons, List.not_mem_nil, or_false] at ht
    rcases ht with rfl | rfl | rfl
    · exact ⟨3, by decide, rfl⟩
    · trivial
    · exact ⟨50, by decide, rfl⟩

/-- Files with formulas and with a table. -/
def sys5 : Sys :=
  { files := fun n => if n = ascii "z" then some (ascii "0*-1\n") else if n = ascii "f" then some (ascii "3-50\n3-50\n")
      else if n = ascii "t" then some (ascii " CDX\ta\tb\n3\t5\n-2\t4\n") else none
    stdin := [], stdout := ascii ">", stderr := [] }

/-- What is on the standard output, if the program ended well. -/
def written : Run Sys → Option Bytes
  | .ok s => some s.stdout
  | _ => none

/-- `calc` writes `-0` for `0*-1`. -/
theorem C224_refuted : ¬ C224_statement := by
  intro h
  have h1 := h outside0 sys5 (ascii "z") minusZero 0 minusZero_ok (by unfold WholeFormula.Gives; decide +kernel) (by decide +kernel) (by decide +kernel)
  have h2 := congrArg written h1
  revert h2
  decide +kernel

/-- `cdx calc f`. -/
example : outside0.run "calc" [.pos "input_files" (ascii "f")] sys5 = .ok { sys5 with stdout := ascii ">-47\n-47\n" } := by
  have h := C224_calc_partial outside0 sys5 (cmd0 "calc") (cmd0_mem (by decide +kernel)) (by decide +kernel) [.pos "input_files" (ascii "f")] .default none []
    [ascii "f"] [ascii "3-50\n3-50\n"] .default none (says_plain (by decide +kernel) (by decide +kernel) (by decide +kernel) (by decide +kernel)
    (by decide +kernel)) (lastMeans_nil.2 rfl) rfl (by decide +kernel) rfl [(three50, -47), (three50, -47)] (by decide +kernel) (by
      intro f hf
      simp only [List.mem_cons, List.not_mem_nil, or_false, or_self] at hf
      subst hf
      exact ⟨three50_ok, by unfold WholeFormula.Gives; decide +kernel, by decide, by decide +kernel⟩)
  rwa [show sys5.stdout ++ [(three50, (-47 : Int)), (three50, -47)].flatMap (fun f => (NumFormat.default.print f.2).getD [] ++ [NL]) =
    ascii ">-47\n-47\n" by decide +kernel] at h

/-- `cdx cut --fields b --expr x:a*b-7 t`. -/
example : outside0.run "cut" [.opt "fields" (ascii "b"), .opt "expr" (ascii "x:a*b-7"), .pos "input_files" (ascii "t")] sys5 =
    .ok { sys5 with stdout := ascii "> CDX\tb\tx\n5\t8\n4\t-15\n" } := by
  have hc : ∀ (x : Bytes), x ∈ treeNames lessSeven.tree → x = ascii "a" ∨ x = ascii "b" := by
    intro x hx
    have e : treeNames lessSeven.tree = [ascii "a", ascii "b"] := by
      simp only [lessSeven, treeNames]
      decide +kernel
    rw [e] at hx
    simpa using hx
  have hpart : ∀ p ∈ [(⟨[], ascii "3", none, none, none⟩ : NumParts), ⟨[], ascii "5", none, none, none⟩, ⟨ascii "-", ascii "2", none, none, none⟩,
      ⟨[], ascii "4", none, none, none⟩], p.Whole := by
    intro p hp
    simp only [List.mem_cons, List.not_mem_nil, or_false] at hp
    rcases hp with rfl | rfl | rfl | rfl
    · exact ⟨⟨.inl rfl, by decide, by decide, by simp, by simp⟩, by decide, by decide, by decide, by decide⟩
    · exact ⟨⟨.inl rfl, by decide, by decide, by simp, by simp⟩, by decide, by decide, by decide, by decide⟩
    · exact ⟨⟨.inr (.inr rfl), by decide, by decide, by simp, by simp⟩, by decide, by decide, by decide, by decide⟩
    · exact ⟨⟨.inl rfl, by decide, by decide, by simp, by simp⟩, by decide, by decide, by decide, by decide⟩
  have h := C224_cut_partial outside0 sys5 (cmd0 "cut") (cmd0_mem (by decide +kernel)) (by decide +kernel)
    [.opt "fields" (ascii "b"), .opt "expr" (ascii "x:a*b-7"), .pos "input_files" (ascii "t")] TAB TAB none [ascii "a", ascii "b"] [ascii "t"]
    [[[ascii "3", ascii "5"], [ascii "-2", ascii "4"]]] [.cols (.fields [⟨false, none, .one (.name [98])⟩]), .formula (ascii "x") lessSeven]
    (fun _ r => if r = [ascii "3", ascii "5"] then 8 else -15)
    (says_plain (by decide +kernel) (by decide +kernel) (by decide +kernel) (by decide +kernel) (by decide +kernel)) (.inr ⟨rfl, rfl⟩) (by decide +kernel)
    (by decide) (by decide) (by decide) (by decide) (by simp) goodTable_example.2.1 (by simp)
    (by
      intro w hw
      simp only [List.mem_cons, List.not_mem_nil, or_false, Asked.cols.injEq, reduceCtorEq] at hw
      subst hw
      refine ⟨⟨by simp, ?_⟩, ⟨⟨[(1, [])], by decide +kernel, by simp⟩, ?_⟩, trivial⟩
      · intro i hi
        rw [List.mem_singleton] at hi
        subst hi
        exact ⟨by simp, by simp only [Sel.refs, List.mem_singleton, forall_eq]; exact name_one 98 (by decide)⟩
      · intro i hi
        rw [List.mem_singleton] at hi
        subst hi
        simp only [Sel.refs, List.mem_singleton, forall_eq]; exact trivial)
    (by
      intro name f hf
      simp only [List.mem_cons, List.not_mem_nil, or_false, Asked.formula.injEq, reduceCtorEq, false_or] at hf
      obtain ⟨rfl, rfl⟩ := hf
      refine ⟨by decide, lessSeven_ok, by decide +kernel, ?_, ?_⟩
      · intro x hx
        rcases hc x hx with rfl | rfl <;> decide
      · intro r hr
        simp only [List.flatten_cons, List.flatten_nil, List.append_nil, List.mem_cons, List.not_mem_nil, or_false] at hr
        rcases hr with rfl | rfl
        · refine ⟨⟨fun x => if x = ascii "a" then 3 else 5, ?_, by unfold WholeFormula.Gives; decide +kernel⟩, by decide⟩
          intro x hx
          rcases hc x hx with rfl | rfl
          · exact ⟨_, hpart ⟨[], ascii "3", none, none, none⟩ (by simp), by decide +kernel, by decide +kernel⟩
          · exact ⟨_, hpart ⟨[], ascii "5", none, none, none⟩ (by simp), by decide +kernel, by decide +kernel⟩
        · refine ⟨⟨fun x => if x = ascii "a" then -2 else 4, ?_, by unfold WholeFormula.Gives; decide +kernel⟩, by decide⟩
          intro x hx
          rcases hc x hx with rfl | rfl
          · exact ⟨_, hpart ⟨ascii "-", ascii "2", none, none, none⟩ (by simp), by decide +kernel, by decide +kernel⟩
          · exact ⟨_, hpart ⟨[], ascii "4", none, none, none⟩ (by simp), by decide +kernel, by decide +kernel⟩)
    (by decide +kernel) (fun n hn => by
      have : n = ascii "b" ∨ n = ascii "x" := by
        have e : [Asked.cols (.fields [⟨false, none, .one (.name [98])⟩]), .formula (ascii "x") lessSeven].flatMap
            (fun a => a.want.outNames [ascii "a", ascii "b"]) = [ascii "b", ascii "x"] := by decide +kernel
        rw [e] at hn
        simpa using hn
      rcases this with rfl | rfl
      · exact ⟨one_letter 98 (by unfold Letter; decide), by decide +kernel⟩
      · exact ⟨one_letter 120 (by unfold Letter; decide), by decide +kernel⟩) (by decide +kernel) (by simp)
  rw [h]
  congr 2

end Cdx
