import Verif.Props.ToolRun
import Verif.Props.TabsMain
import Verif.Props.Settings
import Verif.Props.UniqAgg
import Verif.Props.Join
import Verif.Props.Paste
import Verif.Props.WcMain
import Verif.Props.JoinMain

/-!
Details of claims made elsewhere: C31, C94, C117, C121, C153, C162, C202, C206.
-/

namespace Cdx

/-! ## C162 -/

theorem dir_get_put (d : Dir) (n c m : Bytes) :
    (d.put n c).get m = if m = n then some (c ++ ((d.get n).getD []).drop c.length) else d.get m := by
  rw [Dir.put, dir_get_set]
  simp [overwrite]

/-- C162 with `--tmp`: what is kept. The output of the program is in `stdout` and `stderr`, over what the program left there; all other files are
as the program left them. -/
theorem C162_kept (e : ToolEnv) (t : ToolTest) (d : Dir) (o : Ran) (hk : e.keep = true) (ha : t.Answers e)
    (ho : e.exec (e.words t.cmd) t.stdin (prepared t d) = some o) :
    ∃ d' b, t.run e d = .ok (d', some b) ∧ (o.dir.get (ascii "stdout") = none → d'.get (ascii "stdout") = some o.stdout) ∧
      (o.dir.get (ascii "stderr") = none → d'.get (ascii "stderr") = some o.stderr) ∧
      (∀ old, o.dir.get (ascii "stdout") = some old → d'.get (ascii "stdout") = some (o.stdout ++ old.drop o.stdout.length)) ∧
      (∀ old, o.dir.get (ascii "stderr") = some old → d'.get (ascii "stderr") = some (o.stderr ++ old.drop o.stderr.length)) ∧
      ∀ n, n ≠ ascii "stdout" → n ≠ ascii "stderr" → d'.get n = o.dir.get n := by
  obtain ⟨b, h, -⟩ := C162_keep e t d o hk ha ho
  have ne : ascii "stdout" ≠ ascii "stderr" := by decide +kernel
  refine ⟨_, b, h, ?_, ?_, ?_, ?_, ?_⟩
  · intro h0
    rw [dir_get_put, if_neg ne, dir_get_put, if_pos rfl, h0]
    simp
  · intro h0
    rw [dir_get_put, if_pos rfl, dir_get_put, if_neg (Ne.symm ne), h0]
    simp
  · intro old h0
    rw [dir_get_put, if_neg ne, dir_get_put, if_pos rfl, h0]
    rfl
  · intro old h0
    rw [dir_get_put, if_pos rfl, dir_get_put, if_neg (Ne.symm ne), h0]
    rfl
  · intro n h1 h2
    rw [dir_get_put, if_neg h2, dir_get_put, if_neg h1]

/-! ## C153 -/

/-- The options of `tabs`: only `--end` is known, and it changes nothing, whatever its value and however often it is given. -/
theorem C153_options (g : Glyphs) (screen : Option (Nat × Nat)) (os files : List (Bytes × Bytes)) :
    ((∀ o ∈ os, o.1 = ascii "end") → tabsMain g screen os files = tabsFiles g screen files) ∧
    ((∃ o ∈ os, o.1 ≠ ascii "end") → tabsMain g screen os files = .panic) := by
  induction os with
  | nil => simp [tabsMain]
  | cons o os ih =>
    constructor
    · intro h
      rw [tabsMain, if_pos (h o (by simp))]
      exact ih.1 fun o ho => h o (by simp [ho])
    · intro h
      rw [tabsMain]
      by_cases he : o.1 = ascii "end"
      · rw [if_pos he]
        apply ih.2
        obtain ⟨o', ho, hne⟩ := h
        rcases List.mem_cons.1 ho with rfl | ho
        · exact absurd he hne
        · exact ⟨o', ho, hne⟩
      · rw [if_neg he]

example : (∀ o ∈ [(ascii "end", ascii "x"), (ascii "end", [])], o.1 = ascii "end") ∧
    ∃ o ∈ [(ascii "end", ascii "x"), (ascii "End", ascii "end")], o.1 ≠ ascii "end" := by decide +kernel

/-! ## C121 -/

/-- The options every command has: the two text formats take a value, the lists do not; none takes its value from a fixed list, and none is
positional. -/
theorem C121_global (a : ArgSpec) (h : a ∈ globalArgs) :
    (a.takes = true ↔ a.name = "text-in" ∨ a.name = "text-out") ∧ (a.takes = false ↔ "std-".toList <+: a.name.toList) ∧
      a.values = [] ∧ a.positional = false := by
  simp only [globalArgs, List.mem_cons, List.not_mem_nil, or_false] at h
  rcases h with rfl | rfl | rfl | rfl | rfl | rfl | rfl | rfl | rfl | rfl <;> decide +kernel

example : ({ name := "std-func", takes := false } : ArgSpec) ∈ globalArgs := by decide

/-! ## C117 -/

/-- A column aggregator needs a comma. -/
theorem C117_comma {F : Type} (env : AggEnv F) (mkExpr : ExprMaker F) (spec : Bytes) (h : (44 : UInt8) ∉ spec) :
    aggMakeLine env mkExpr spec = .err := by
  have : splitOnce 44 spec = none := splitOnce_none 44 spec h
  simp only [aggMakeLine, aggColNew, this]

example : (44 : UInt8) ∉ ascii "a.sum" := by decide +kernel

/-! ## C94 -/

/-- The value of a column: columns after the last have the value of the last. Without columns there is none, and asking for one panics. -/
theorem C94_get (values : List Bytes) (col : Nat) :
    (∀ h : col < values.length, scopedGet values col = .ok values[col]) ∧
    (∀ h : values ≠ [], values.length ≤ col → scopedGet values col = .ok (values.getLast h)) ∧
    (values = [] → scopedGet values col = .panic) := by
  refine ⟨?_, ?_, ?_⟩
  · intro h
    rw [scopedGet, List.getElem?_eq_getElem h]
  · intro h hl
    rw [scopedGet, List.getElem?_eq_none hl, List.getLast?_eq_some_getLast h]
  · rintro rfl
    rfl

/-! ## C31 -/

/-- A join whose first file is empty: nothing is written, not even a header, and all lines of the second file are without a partner. -/
theorem C31_empty (toF64 : Bytes → F64) (exprCols : (Nat → Bytes → F64) → Nat → List Nat) (cs : List LineComp) (specs : List (Nat × Nat))
    (delim : UInt8) (also : List Nat) (content : Bytes) (rest : List Bytes) (out : Bytes) (others : List (Option Bytes))
    (h : joinFiles toF64 exprCols cs specs delim also ([] :: content :: rest) = .ok (out, others)) :
    out = [] ∧ (1 ∈ also → others[0]? = some (some [])) ∧
      (2 ∈ also → others[1]? = some (some ((openReader content).header ++ (openReader content).lines.flatten))) := by
  have e0 : openReader [] = ⟨[], false, [], []⟩ := rfl
  unfold joinFiles at h
  split at h
  · cases h
  · split at h
    · cases h
    · simp only at h
      split at h
      · cases h
      · simp only [Res.ok.injEq, Prod.mk.injEq, List.map_cons, e0, joinLoop, List.getD_cons_zero, List.getD_cons_succ, joinHeader,
          List.headD_cons, Bool.false_eq_true, if_false, List.flatMap_nil, List.append_nil, List.flatten_nil] at h
        obtain ⟨rfl, rfl⟩ := h
        refine ⟨rfl, ?_, ?_⟩
        · intro hm
          simp [hm]
        · intro hm
          simp [hm]

example : joinFiles (fun _ => 0) (fun _ _ => []) [firstCol] [] TAB [2] [[], ascii "a\tb\nc\td\n"] = .ok ([], [none, some (ascii "c1\tc2\na\tb\nc\td\n")]) := by
  decide +kernel

/-! ## C202 -/
/-- C202: with `--columns` and one aggregator there is a row for each name of a column, made from the fields below that name in all files, and a
row with the sums. Holds if no file has a header only (see C103). -/
theorem C202_columns_partial {F : Type} (env : AggEnv F) (prn : NumFormat → F → Bytes) (m : TextMode) (out : Option TextMode) (v spec : Bytes)
    (a : Agger F) (files : List (Bytes × Bytes)) (hm : m.col = .plain) (ha : Agger.new env spec = .ok a)
    (hl : ∀ f ∈ files, NoLong m f.2) (hd : ∀ f ∈ files, dataOf m f.2 = [] → readHeader m f.2 = none)
    (hc : (colNames m (files.map (·.2))).length > 1) :
    wcMain env prn m out [(ascii "columns", v), (ascii "with-header", ascii "no"), (ascii "agg", spec)] files = .ok
      (((colNames m (files.map (·.2))).map fun x => x ++ [TAB] ++
        ({ a with agg := a.agg.addAll env (colVals m x (files.map (·.2))), fmt := .default } : Agger F).text env prn ++ [NL]).flatten ++
        (ascii "totals\t" ++ prn .default ((colNames m (files.map (·.2))).foldl
          (fun s x => env.ops.add s ((a.agg.addAll env (colVals m x (files.map (·.2)))).value env)) env.ops.zero) ++ [NL])) := by
  have ho : wcOptions env {} [(ascii "columns", v), (ascii "with-header", ascii "no"), (ascii "agg", spec)] =
      .ok ⟨[spec], true, { WcConf.default with showHeader := .no }⟩ := by
    have ht : Tri.new (ascii "no") = .ok .no := by decide
    simp only [wcOptions, show ascii "columns" ≠ ascii "agg" by decide, show ascii "columns" ≠ ascii "lines" by decide,
      show ascii "columns" ≠ ascii "bytes" by decide, show ascii "columns" ≠ ascii "chars" by decide,
      show ascii "columns" ≠ ascii "words" by decide, show ascii "columns" ≠ ascii "format" by decide,
      show ascii "with-header" ≠ ascii "agg" by decide, show ascii "with-header" ≠ ascii "lines" by decide,
      show ascii "with-header" ≠ ascii "bytes" by decide, show ascii "with-header" ≠ ascii "chars" by decide,
      show ascii "with-header" ≠ ascii "words" by decide, show ascii "with-header" ≠ ascii "format" by decide,
      show ascii "with-header" ≠ ascii "columns" by decide, show ascii "with-header" ≠ ascii "total" by decide, if_true, if_false,
      ht, ha, Res.bind_ok, List.nil_append]
  have h := C103_rows_partial env prn .default spec a (files.map (·.2)) hm ha
    (fun f hf => by obtain ⟨x, hx, rfl⟩ := List.mem_map.1 hf; exact hl x hx)
    (fun f hf => by obtain ⟨x, hx, rfl⟩ := List.mem_map.1 hf; exact hd x hx) hc
  unfold wcMain
  rw [ho, Res.bind_ok]
  simp only [if_true]
  rw [← h]
  rfl

example : wcMain AggEnv.plain decPrn .default none [(ascii "columns", []), (ascii "with-header", ascii "no"), (ascii "agg", ascii "bytes,asum,chars")]
    [(ascii "f", ascii " CDX\ta\tb\n1\t23\n"), (ascii "g", ascii " CDX\tb\n456\n")] = .ok (ascii "a\t1\nb\t5\ntotals\t6\n") := by decide +kernel

/-- C202: the header and the row of a file are written in the format of the output, if one is asked for. -/
theorem C202_format {F : Type} (env : AggEnv F) (prn : NumFormat → F → Bytes) (m : TextMode) (out : Option TextMode) (v w name f : Bytes)
    (hm : m.col = .plain) (hd : dataOf m f ≠ []) :
    wcMain env prn m out [(ascii "lines", v), (ascii "bytes", w)] [(name, f)] = .ok
      ((if (out.getD m).head = .cdx ∨ (out.getD m).head = .maybe then ascii " CDX" ++ [(out.getD m).delim] else []) ++
        ascii "lines" ++ [(out.getD m).delim] ++ ascii "bytes" ++ [NL] ++
        prn .default (env.ops.ofNat (dataOf m f).length) ++ [(out.getD m).delim] ++
        prn .default (env.ops.ofNat ((dataOf m f).map List.length).sum) ++ [NL]) := by
  have ho : wcOptions env {} [(ascii "lines", v), (ascii "bytes", w)] = .ok ⟨[ascii "lines,count", ascii "bytes,asum,chars"], false, .default⟩ :=
    rfl
  unfold wcMain
  rw [ho, Res.bind_ok]
  simp only [Bool.false_eq_true, if_false]
  have hr : (readHeader m f).isSome = true := by
    cases h : readHeader m f with
    | none => exact absurd (by simp [dataOf, h]) hd
    | some _ => rfl
  have hop : opens m [(name, f)] = true := by simp [opens, hr]
  have hwd : withData m [(name, f)] = [(name, f)] := by
    have : (dataOf m f).isEmpty = false := by simpa using hd
    simp [withData, this]
  have key := C60_rows (m := m) env prn hm { WcConf.default with out := out } [ascii "lines,count", ascii "bytes,asum,chars"] [(name, f)]
    [⟨ascii "lines", .count 0 0, .default⟩, ⟨ascii "bytes", .asum ⟨.chars, false⟩ 0, .default⟩]
    ((if (out.getD m).head = .cdx ∨ (out.getD m).head = .maybe then ascii " CDX" ++ [(out.getD m).delim] else []) ++
        ascii "lines" ++ [(out.getD m).delim] ++ ascii "bytes" ++ [NL]) false true rfl (by
      intro a ha
      simp only [List.mem_cons, List.not_mem_nil, or_false] at ha
      rcases ha with rfl | rfl <;> simp [Agg.Fresh]) rfl rfl (by
      intro _
      have hp : (⟨[], .fail, []⟩ : ColumnHeader).pushAll [ascii "lines", ascii "bytes"] =
        .ok ⟨[ascii "lines", ascii "bytes"], .fail, []⟩ := by decide +kernel
      simp only [wcHead, Bool.false_eq_true, if_false, List.nil_append, List.map_cons, List.map_nil, hp, Res.bind_ok, getHead]
      rw [if_neg (by simp)]
      congr 2
      simp only [List.intercalate, cdxTag, List.append_assoc]
      rfl)
  rw [key, hwd, hop]
  have hl : ∀ D : List Bytes, (D.map fun l => (Counter.mk .chars false).count env l) = D.map List.length := by
    intro D
    apply List.map_congr_left
    intro l _
    rfl
  have : (0 : Int) ≤ 0 + (((dataOf m f).length : Nat) : Int) := by omega
  simp only [WcConf.default, Tri.pick, Bool.and_self, if_true, Bool.false_eq_true, if_false, List.map_cons, List.map_nil, wcRow, aggersAll,
    addAll_count, addAll_asum, Agger.text, Agg.result, Agg.value, ofIsize, Nat.zero_add, hl, this]
  simp [List.intercalate]

example : wcMain AggEnv.plain decPrn .default (some { TextMode.default with delim := 44 }) [(ascii "lines", []), (ascii "bytes", [])]
    [(ascii "f", ascii "ab c\nd\n")] = .ok (ascii " CDX,lines,bytes\n2,7\n") := by decide +kernel

/-! ## C206 -/

/-- C206: one file cannot be joined, and no column of a file that is not there can be shown. -/
theorem C206_errors (transOk compiles : Bytes → Bool) (mk : Bytes → Res (Bytes → Bool)) (eval : Bytes → List Bytes → Res (Bytes → F64))
    (toF64 : Bytes → F64) (exprCols : (Nat → Bytes → F64) → Nat → List Nat) (opts : List (Bytes × Bytes)) (contents : List Bytes) (c : JoinAsk)
    (ho : joinOptions transOk {} opts = .ok c) (h : contents.length < 2 ∨ ∃ p ∈ c.outs, contents.length ≤ p.1) (out : List (Bytes × Bytes)) :
    joinMain transOk compiles mk eval toF64 exprCols opts contents ≠ .ok out := by
  intro hj
  unfold joinMain at hj
  rw [ho, Res.bind_ok] at hj
  split at hj
  · cases hj
  · rename_i hl
    rcases h with h | ⟨p, hp, hpl⟩
    · exact hl h
    · split at hj
      · cases hj
      · simp only at hj
        obtain ⟨ks, _, hj⟩ := Res.bind_eq_ok hj
        obtain ⟨cs, _, hj⟩ := Res.bind_eq_ok hj
        obtain ⟨specs, hc, _⟩ := Res.bind_eq_ok hj
        have key : ∀ (outs : List (Nat × ColumnSet)) (files : List (List Bytes)) specs, files.length ≤ p.1 → p ∈ outs →
            joinCols mk files outs ≠ .ok specs := by
          intro outs
          induction outs with
          | nil => intro files specs _ h; simp at h
          | cons o outs ih =>
            intro files specs hf hm hok
            simp only [joinCols] at hok
            split at hok
            · cases hok
            · rename_i names hn
              obtain ⟨cols, _, hok⟩ := Res.bind_eq_ok hok
              obtain ⟨rest, hr, _⟩ := Res.bind_eq_ok hok
              rcases List.mem_cons.1 hm with rfl | hm
              · rw [List.getElem?_eq_none hf] at hn
                cases hn
              · exact ih files rest hf hm hr
        exact key _ _ _ (by simpa using hpl) hp hc

example : joinMain (fun _ => true) (fun _ => true) (fun _ => .err) (fun _ _ => .err) (fun _ => 0) (fun _ _ => []) [(ascii "output", ascii "3.1")]
    [ascii "a\n", ascii "a\n"] = .err ∧
  joinMain (fun _ => true) (fun _ => true) (fun _ => .err) (fun _ _ => .err) (fun _ => 0) (fun _ _ => []) [] [ascii "a\n"] = .err := by
  constructor <;> decide +kernel

/-- C206: a key without a column compares whole lines, reversed or not. -/
theorem C206_whole (compiles : Bytes → Bool) (eval : Bytes → List Bytes → Res (Bytes → F64)) (files : List (List Bytes)) (method : Bytes) (k : CompKind)
    (hm : 44 ∉ method) (ha : AliasOk (nameOf method)) (hk : MethodOf (nameOf method) (.kind k)) (h1 : k ≠ .numeric) (h2 : k ≠ .float) :
    ∃ m c, makeLineComp compiles (44 :: method) = .ok m ∧ m.resolveN eval files = .ok c ∧
      ∀ toF64 i j (l r : TextLine), c.compColsN toF64 i j l r =
        if ascii "rev" ∈ (wordsOf method).map lower then (cellCmp k l.text r.text).swap else cellCmp k l.text r.text := by
  refine ⟨⟨confOf method, [], .whole (.kind k)⟩, ⟨.whole k, (confOf method).reverse, TAB⟩, ?_, rfl, ?_⟩
  · have e1 := (C110_short compiles [] method [] (by simp) hm).1
    have e2 := C110_line_partial compiles [] method [] ha (.kind k) hk (by simp) hm
    rw [if_pos rfl] at e2
    exact e1.trans e2
  · intro toF64 i j l r
    simp only [LineComp.compColsN, compK_cell toF64 k h1 h2, rev, confOf, List.contains_iff_mem]

example : joinMain (fun _ => true) (fun _ => true) (fun _ => .err) (fun _ _ => .err) (fun _ => 0) (fun _ _ => [])
    [(ascii "key", ascii ",plain.rev")] [ascii "b\t1\na\t1\n", ascii "b\t1\na\t2\na\t1\n"] = .ok [(ascii "-", ascii "b\t1\tb\t1\na\t1\ta\t1\n")] := by
  decide +kernel

/-- C206: a key that is an expression compares its values, computed for each file with the names of that file. -/
theorem C206_expr (compiles : Bytes → Bool) (eval : Bytes → List Bytes → Res (Bytes → F64)) (namesA namesB : List Bytes) (method e : Bytes)
    (f g : Bytes → F64) (hm : 44 ∉ method) (hk : lower (nameOf method) = ascii "expr") (hc : compiles e = true) (hf : eval e namesA = .ok f)
    (hg : eval e namesB = .ok g) :
    ∃ m c, makeLineComp compiles (44 :: (method ++ 44 :: e)) = .ok m ∧ m.resolveN eval [namesA, namesB] = .ok c ∧
      ∀ toF64 (l r : TextLine), c.compColsN toF64 0 1 l r =
        if ascii "rev" ∈ (wordsOf method).map lower then (fcmp (f l.text) (g r.text)).swap else fcmp (f l.text) (g r.text) := by
  refine ⟨⟨confOf method, e, .expr e⟩, ⟨.expr (fun i => [f, g].getD i fun _ => 0), (confOf method).reverse, TAB⟩,
    C110_expr compiles [] method e (by simp) hm hk hc, ?_, ?_⟩
  · simp only [LineCompMade.resolveN, evalAt, hf, hg, Res.bind_ok]
  · intro toF64 l r
    simp only [LineComp.compColsN, rev, confOf, List.contains_iff_mem]
    rfl

example : lower (nameOf (ascii "rev.Expr")) = ascii "expr" ∧ 44 ∉ ascii "rev.Expr" := by decide +kernel

end Cdx
