import Verif.Model.Cut
import Verif.Model.Expr
import Verif.Model.Num
import Verif.Model.Settings
import Verif.Model.Reader
import Verif.Model.UniqAgg

/-!
Formulas with the columns of lines as variables: `/repo/src/expr.rs` 15-35, 432-530 and 594-636, and what is made of them:
matchers (`/repo/src/matcher.rs` 1964-2006), comparators (`/repo/src/comp.rs` 1834-1932), columns (`/repo/src/column.rs` 549-586),
aggregators (`/repo/src/agg.rs` 179-236), generators (`/repo/src/textgen.rs` 92-122) and `/repo/src/bin/cdx/calc_main.rs`.

Simplifications. Arithmetic, the reading of numbers and the writing of numbers are parameters. Texts are bytes; what is not ASCII is
kept as it is (`from_utf8_lossy` changes nothing). An expression whose parsing failed is not used again. Error messages are left out.
-/

namespace Cdx

/-- What formulas take from outside: arithmetic, `to_f64` (`src/text.rs` 675-752), and the columns a list of columns stands for in a
header (`ColumnSet`, used at `src/expr.rs` 469-472). -/
structure ExprEnv (F : Type) where
  ops : FloatOps F
  toF64 : Bytes → F × Bytes
  sel : Bytes → List Bytes → Res (List Nat)

/-- The lists of columns of `src/expr.rs` 469-472, with the translators and matchers of the program. -/
def exprSel (transOk : Bytes → Bool) (mk : Bytes → Res (Bytes → Bool)) (spec : Bytes) (names : List Bytes) : Res (List Nat) :=
  lookupCols transOk mk spec names

/-- `VarMap` (`src/expr.rs` 274-278). -/
structure VarMap (F : Type) where
  name : Bytes
  val : F
  col : Option Nat
deriving DecidableEq, Repr

/-- `Expr` (`src/expr.rs` 291-298), without its stack. -/
structure ExprSt (F : Type) where
  text : Bytes
  prog : List (Node F)
  vars : List (VarMap F)

/-- `VarMap::new` (`src/expr.rs` 280-287). -/
def VarMap.new {F : Type} (env : ExprEnv F) (name : Bytes) : VarMap F := ⟨name, env.ops.zero, none⟩

/-- `Expr::new` (`src/expr.rs` 434-439). -/
def ExprSt.new {F : Type} (text : Bytes) : ExprSt F := ⟨text, [], []⟩

/-- `parse` (`src/expr.rs` 453-457): the program, and the variables not known before at the end. -/
def ExprSt.parse {F : Type} (env : ExprEnv F) (e : ExprSt F) (exp : Bytes) : Res (ExprSt F) :=
  (parseFormula env.ops env.toF64 (e.vars.map (·.name)) exp).bind fun r =>
    .ok ⟨e.text, r.1, e.vars ++ (r.2.drop e.vars.length).map (VarMap.new env)⟩

/-- The loop of `lookup` over the brackets (`src/expr.rs` 466-483). Every turn takes one `[` away, so as many turns as there are bytes
are enough; `panic` is when they are not. -/
def expandLoop (sel : Bytes → Res (List Nat)) : Nat → Bytes → Res Bytes
  | 0, _ => .panic
  | fuel + 1, n =>
    match n.findIdx? (· == 91) with
    | none => .ok n
    | some pos =>
      match findClose (n.drop pos) with
      | none => .err
      | some len => (sel ((n.drop (pos + 1)).take (len - 2))).bind fun v =>
        expandLoop sel fuel (n.take pos ++ bracketText v ++ n.drop (pos + len))

/-- The text with its brackets replaced (`src/expr.rs` 466-483). -/
def expandText (sel : Bytes → Res (List Nat)) (n : Bytes) : Res Bytes := expandLoop sel (n.length + 1) n

/-- The loop of `lookup` over the variables (`src/expr.rs` 486-501). -/
def resolveVars {F : Type} (names : List Bytes) : List (VarMap F) → Res (List (VarMap F))
  | [] => .ok []
  | v :: vs => (resolveVar names v.name).bind fun i => (resolveVars names vs).bind fun ws => .ok (⟨v.name, v.val, some i⟩ :: ws)

/-- `lookup` (`src/expr.rs` 465-502). -/
def ExprSt.lookup {F : Type} (env : ExprEnv F) (names : List Bytes) (e : ExprSt F) : Res (ExprSt F) :=
  (expandText (fun s => env.sel s names) e.text).bind fun n => (e.parse env n).bind fun e' =>
    (resolveVars names (e'.vars.drop e.vars.length)).bind fun ws => .ok ⟨e'.text, e'.prog, e'.vars.take e.vars.length ++ ws⟩

/-- `prepare` and `prepare_line` (`src/expr.rs` 503-516), given the text of a column. -/
def ExprSt.prepare {F : Type} (env : ExprEnv F) (cell : Nat → Bytes) (e : ExprSt F) : ExprSt F :=
  ⟨e.text, e.prog, e.vars.map fun v =>
    match v.col with
    | some c => ⟨v.name, (env.toF64 (cell c)).1, v.col⟩
    | none => v⟩

/-- `do_eval` (`src/expr.rs` 610-636). -/
def ExprSt.run {F : Type} (env : ExprEnv F) (e : ExprSt F) : Res F := doEval env.ops (e.vars.map (·.val)) e.prog

/-- `eval` (`src/expr.rs` 601-604); the expression afterwards is `prepare`. -/
def ExprSt.eval {F : Type} (env : ExprEnv F) (line : TextLine) (e : ExprSt F) : Res F := (e.prepare env line.get).run env

/-- `eval_line` (`src/expr.rs` 606-609). -/
def ExprSt.evalLine {F : Type} (env : ExprEnv F) (line : Bytes) (delim : UInt8) (e : ExprSt F) : Res F :=
  (e.prepare env fun c => getCol line c delim).run env

/-- `used_cols` (`src/expr.rs` 441-447). -/
def ExprSt.usedCols {F : Type} (e : ExprSt F) : List Nat := e.vars.filterMap (·.col)

/-- `set_var` (`src/expr.rs` 518-520); `none` is a panic. -/
def ExprSt.setVar {F : Type} (which : Nat) (val : F) (e : ExprSt F) : Option (ExprSt F) :=
  if h : which < e.vars.length then some ⟨e.text, e.prog, e.vars.set which ⟨e.vars[which].name, val, e.vars[which].col⟩⟩ else none

/-- `find_var` (`src/expr.rs` 522-530). -/
def ExprSt.findVar {F : Type} (env : ExprEnv F) (name : Bytes) (e : ExprSt F) : Nat × ExprSt F :=
  match e.vars.findIdx? (·.name == name) with
  | some i => (i, e)
  | none => (e.vars.length, ⟨e.text, e.prog, e.vars ++ [VarMap.new env name]⟩)

/-- `eval_plain` (`src/expr.rs` 595-599). -/
def ExprSt.evalPlain {F : Type} (env : ExprEnv F) (e : ExprSt F) : Res (F × ExprSt F) :=
  (e.parse env e.text).bind fun e' => (e'.run env).bind fun v => .ok (v, e')

/-- `calc` (`src/expr.rs` 15-19). -/
def calcText {F : Type} (env : ExprEnv F) (exp : Bytes) : Res F := ((ExprSt.new exp).evalPlain env).bind fun r => .ok r.1

/-- `parse_fmt_expr` (`src/expr.rs` 23-35). -/
def parseFmtExpr (dflt : NumFormat) (spec : Bytes) : NumFormat × Bytes :=
  match splitOnce 44 spec with
  | some (a, b) =>
    match NumFormat.parse a with
    | .ok f => (f, b)
    | _ => (dflt, spec)
  | none => (dflt, spec)

/-! ## What is made of formulas -/

/-- `ExprMatcher::ok` (`src/matcher.rs` 1980-1982). -/
def exprMatch {F : Type} (env : ExprEnv F) (e : ExprSt F) (line : TextLine) : Res Bool :=
  (e.eval env line).bind fun v => .ok (!env.ops.isZero v)

/-- `LineCompExpr::lookup` (`src/comp.rs` 1898-1903): one expression for each file. -/
def exprsLookup {F : Type} (env : ExprEnv F) (names : List Bytes) (file : Nat) (es : List (ExprSt F)) : Res (List (ExprSt F)) :=
  match es with
  | [] => .panic
  | e0 :: es' =>
    let all := e0 :: es' ++ List.replicate (file + 1 - (e0 :: es').length) (ExprSt.new e0.text)
    match all[file]? with
    | none => .panic
    | some e => (e.lookup env names).bind fun e' => .ok (all.set file e')

/-- The value of a line of one of the files (`src/comp.rs` 1856, 1871, 1883 and 1896). -/
def exprsEval {F : Type} (env : ExprEnv F) (es : List (ExprSt F)) (file : Nat) (line : Bytes) (delim : UInt8) : Res F :=
  match es[file]? with
  | none => .panic
  | some e => e.evalLine env line delim

/-- `ColumnExpr::new` (`src/column.rs` 557-569): the name and the expression. -/
def columnExprNew {F : Type} (spec : Bytes) : Bytes × ExprSt F :=
  match splitOnce 58 spec with
  | some (a, b) => (a, ExprSt.new b)
  | none => ([], ExprSt.new spec)

/-- `ColumnExpr::write` (`src/column.rs` 577-580), given how `{}` writes a number. -/
def columnExprWrite {F : Type} (env : ExprEnv F) (disp : F → Bytes) (e : ExprSt F) (line : TextLine) : Res Bytes :=
  (e.eval env line).bind fun v => .ok (disp v)

/-- `ExprAgg` (`src/agg.rs` 179-185). -/
structure ExprAgg (F : Type) where
  expr : ExprSt F
  which : Nat
  start : F
  val : F

/-- `ExprAgg::new` (`src/agg.rs` 217-235). -/
def ExprAgg.new {F : Type} (env : ExprEnv F) (spec : Bytes) : Res (ExprAgg F) :=
  match splitOnce 44 spec with
  | none => .err
  | some (a, b) =>
    match splitOnce 44 b with
    | none => .err
    | some (c, d) =>
      if (env.toF64 c).2 ≠ [] then .err
      else
        let (which, e) := (ExprSt.new d).findVar env a
        match e.setVar which (env.toF64 c).1 with
        | none => .panic
        | some e' => .ok ⟨e', which, (env.toF64 c).1, (env.toF64 c).1⟩

/-- `lookup` (`src/agg.rs` 201-203). -/
def ExprAgg.lookup {F : Type} (env : ExprEnv F) (names : List Bytes) (a : ExprAgg F) : Res (ExprAgg F) :=
  (a.expr.lookup env names).bind fun e => .ok ⟨e, a.which, a.start, a.val⟩

/-- Keeping a value in the variable (`src/agg.rs` 189 and 196). -/
def ExprAgg.keep {F : Type} (a : ExprAgg F) (e : ExprSt F) (v : F) : Res (ExprAgg F) :=
  match e.setVar a.which v with
  | none => .panic
  | some e' => .ok ⟨e', a.which, a.start, v⟩

/-- `add` (`src/agg.rs` 187-190). -/
def ExprAgg.add {F : Type} (env : ExprEnv F) (line : TextLine) (a : ExprAgg F) : Res (ExprAgg F) :=
  (a.expr.eval env line).bind fun v => a.keep (a.expr.prepare env line.get) v

/-- `reset` (`src/agg.rs` 194-197). -/
def ExprAgg.reset {F : Type} (a : ExprAgg F) : Res (ExprAgg F) := a.keep a.expr a.start

/-- Adding several lines (the calls of `src/agg.rs` 187-190 for one group). -/
def ExprAgg.addAll {F : Type} (env : ExprEnv F) : List TextLine → ExprAgg F → Res (ExprAgg F)
  | [], a => .ok a
  | l :: ls, a => (a.add env l).bind fun a' => ExprAgg.addAll env ls a'

/-- `ExprGen` (`src/textgen.rs` 92-97). -/
structure ExprGen (F : Type) where
  expr : ExprSt F
  fmt : NumFormat
  colPos : Nat
  linePos : Nat

/-- `ExprGen::new` (`src/textgen.rs` 100-111). -/
def ExprGen.new {F : Type} (env : ExprEnv F) (spec : Bytes) : ExprGen F :=
  let (fmt, exp) := parseFmtExpr NumFormat.default spec
  let (c, e) := (ExprSt.new exp).findVar env (ascii "col")
  let (l, e) := e.findVar env (ascii "line")
  ⟨e, fmt, c, l⟩

/-- `ExprGen::write` (`src/textgen.rs` 114-119): the text and the generator afterwards. -/
def ExprGen.write {F : Type} (env : ExprEnv F) (prn : NumFormat → F → Bytes) (line col : Nat) (g : ExprGen F) :
    Res (Bytes × ExprGen F) :=
  match g.expr.setVar g.colPos (env.ops.ofNat col) with
  | none => .panic
  | some e =>
    match e.setVar g.linePos (env.ops.ofNat line) with
    | none => .panic
    | some e => (e.evalPlain env).bind fun r => .ok (prn g.fmt r.1, ⟨r.2, g.fmt, g.colPos, g.linePos⟩)

/-! ## The command calc -/

/-- One line of `calc` (`src/bin/cdx/calc_main.rs` 28-38): the format from now on and what is written; an error writes nothing. -/
def calcLine {F : Type} (env : ExprEnv F) (prn : NumFormat → F → Bytes) (fmt : NumFormat) (line : Bytes) : Option (NumFormat × Bytes) :=
  let (f2, exp) := parseFmtExpr fmt line
  match calcText env exp with
  | .ok v => some (f2, prn f2 v ++ [NL])
  | .err => some (f2, [])
  | .panic => none

/-- The loop over the lines of a file (`src/bin/cdx/calc_main.rs` 27-42); the first argument bounds the number of lines, `none` is a
panic. -/
def calcRows {F : Type} (env : ExprEnv F) (prn : NumFormat → F → Bytes) : Nat → NumFormat → Reader → Option (NumFormat × Bytes)
  | 0, _, _ => none
  | fuel + 1, fmt, r =>
    if r.currLine.line = [] then none
    else (calcLine env prn fmt r.currLine.line.dropLast).bind fun p =>
      let r' := r.getline
      if r'.isDone then some p
      else (calcRows env prn fuel p.1 r').bind fun q => some (q.1, p.2 ++ q.2)

/-- The loop over the files (`src/bin/cdx/calc_main.rs` 21-43). -/
def calcFiles {F : Type} (env : ExprEnv F) (prn : NumFormat → F → Bytes) (m : TextMode) : NumFormat → List Bytes → Option Bytes
  | _, [] => some []
  | fmt, f :: fs =>
    let r := (Reader.newWith 1 m).open_ f
    if r.isEmpty || r.isDone then calcFiles env prn m fmt fs
    else (calcRows env prn (r.file.length + 1) fmt r).bind fun p => (calcFiles env prn m p.1 fs).bind fun o => some (p.2 ++ o)

/-- The values of `--fmt` (`src/bin/cdx/calc_main.rs` 12-19). -/
def calcFmt : NumFormat → List Bytes → Res NumFormat
  | fmt, [] => .ok fmt
  | _, x :: xs => (NumFormat.parse x).bind fun f => calcFmt f xs

/-- The command (`src/bin/cdx/calc_main.rs` 8-45), given the values of `--fmt` and the contents of the files. -/
def calcCmd {F : Type} (env : ExprEnv F) (prn : NumFormat → F → Bytes) (m : TextMode) (fmts files : List Bytes) : Res Bytes :=
  (calcFmt NumFormat.default fmts).bind fun fmt =>
    match calcFiles env prn m fmt files with
    | none => .panic
    | some o => .ok o

end Cdx
