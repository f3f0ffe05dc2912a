import Verif.Model.Program
import Verif.Model.FloatText
import Verif.Model.FloatOps
import Verif.Model.Utf8
import Verif.Model.Trans
import Verif.Model.CompMake
import Verif.Model.ExprLine

/-!
The parts of the program put together: what `Verif.Model.Program` takes as parameters is here what the modules of `/repo/src` compute.
Only what comes from outside of `/repo` is left as a parameter.

Simplifications. A formula that cannot be evaluated for a line has the value 0 where the place that uses it has no way to say so in the
model (the program panics or prints an error there). A number that cannot be printed (`none` of `printF`) is printed as nothing. The
random comparator is an error. The columns that a formula in a key of `join` uses are a parameter.
-/

namespace Cdx

/-- What the program takes from outside of `/repo`: the Unicode tables of std (used at `src/matcher.rs` 369-377, `src/text.rs` 347 and
431-445), regular expressions (`src/matcher.rs` 561-571), the functions of the mathematical library (`src/expr.rs` 306-431), powers of ten
(`src/text.rs` 742), chance (`src/textgen.rs`), the terminal (`src/bin/cdx/tabs_main.rs`), the heap of the merge (`src/sort.rs`), reads
of files in pieces, and files that are not local. `exprCols` gives the columns of a formula, `known` tells whether a transform has been
made before (`src/trans.rs` 331-338). -/
structure Outside where
  low : Char → List Char
  up : Char → List Char
  lowStr : Bytes → Bytes
  trim : Bytes → Bytes
  space : Char → Bool
  classes : CharClass
  regex : Bytes → Bool → Res ((Bytes → Bool) × (Bytes → Bool))
  rest : FloatOps F64
  exp10 : Int → F64
  normal : Bytes → Res (Nat → Bytes)
  draw : Nat → Nat → Draw
  glyphs : Glyphs
  screen : Option (Nat × Nat)
  height : Nat
  pick : Nat → List (Nat × Bytes) → Nat
  rd : Nat → Nat → Nat
  cap : Nat
  s3 : Bytes → Option Bytes
  gunzip : Bytes → Bytes
  exprCols : (Nat → Bytes → F64) → Nat → List Nat
  known : Bool

/-- The characters of a text, what is not UTF-8 replaced (`String::from_utf8_lossy`, e.g. `src/trans.rs` 145). -/
def charsOf (b : Bytes) : List Char := (lossyChars b).map Char.ofNat

/-- The bytes of characters (`String::bytes`, e.g. `src/trans.rs` 156). -/
def bytesOf (cs : List Char) : Bytes := encChars (cs.map Char.toNat)

/-- Whether a text is UTF-8 (`str::from_utf8`, e.g. `src/matcher.rs` 1574). -/
def isUtf8 (b : Bytes) : Bool := (decodeUtf8 b).all Option.isSome

/-- The strings of matchers (`src/matcher.rs` 323-855). -/
def Outside.str (o : Outside) : StrOps where
  lossy := lossyText
  valid := isUtf8
  chars := charsOf
  encode := bytesOf
  low := o.low
  lowStr := o.lowStr
  trim := o.trim

/-- The strings of transforms (`src/trans.rs` 112-203). -/
def Outside.trans (o : Outside) : TransOps where
  chars := charsOf
  encode := bytesOf
  low := o.low
  up := o.up
  space := o.space

/-- Whether transforms exist (`TransList::new`, `src/trans.rs` 206-212). -/
def Outside.transOk (o : Outside) (spec : Bytes) : Bool :=
  match transListNew o.known spec with
  | .ok _ => true
  | _ => false

/-- What transforms make of a value (`TransList::trans`, `src/trans.rs` 219-240). -/
def Outside.transform (o : Outside) (spec value : Bytes) : Option Bytes :=
  match transListNew o.known spec with
  | .ok l => (match transList o.trans l [] [] value with
    | .ok x => some x
    | _ => none)
  | _ => none

/-- `make_comp` (`src/comp.rs` 1034-1040) for matchers (`src/matcher.rs` 976) and aggregators. -/
def compOf (spec : Bytes) : Res CompKind :=
  (makeComp spec).bind fun c =>
    match c.method with
    | .kind k => .ok k
    | .random => .err

/-- Reading a file of patterns (`src/matcher.rs` 612). -/
def Outside.file (o : Outside) (s : Sys) (n : Bytes) : Res Bytes :=
  match getReader o.s3 o.gunzip s n with
  | none => .err
  | some b => .ok b

/-- What matchers of values use (`src/matcher.rs` 323-855). These never use formulas. -/
def Outside.values (o : Outside) (s : Sys) : MEnv where
  str := o.str
  toF64 := lossyF64 o.exp10
  regex := o.regex
  file := o.file s
  comp := compOf
  transOk := o.transOk
  expr := fun _ => .err

/-- Matchers of names of columns (`src/column.rs` 880-890). -/
def Outside.names (o : Outside) (s : Sys) : Bytes → Res (Bytes → Bool) := nameTest (o.values s)

/-- What formulas use (`src/expr.rs` 15-530): the arithmetic of doubles, numbers read by `to_f64`, and lists of columns. -/
def Outside.expr (o : Outside) (s : Sys) : ExprEnv F64 where
  ops := f64Ops o.rest
  toF64 := parseF64 o.exp10
  sel := exprSel o.transOk (o.names s)

/-- What matchers of lines use (`src/matcher.rs` 1964-2006). -/
def Outside.matchers (o : Outside) (s : Sys) : MEnv :=
  { o.values s with expr := fun e => .ok fun names => ((ExprSt.new e).lookup (o.expr s) names).bind fun x => .ok fun line => x.eval (o.expr s) line }

/-- Formulas in keys (`LineCompExpr`, `src/comp.rs` 1834-1932). -/
def Outside.keyValue (o : Outside) (s : Sys) (formula : Bytes) (names : List Bytes) : Res (Bytes → F64) :=
  ((ExprSt.new formula).lookup (o.expr s) names).bind fun x => .ok fun line =>
    match x.evalLine (o.expr s) line TAB with
    | .ok v => v
    | _ => F64.ofNat 0

/-- How numbers are printed (`src/num.rs` 191-260). -/
def printNum (f : NumFormat) (x : F64) : Bytes := (f.printF x).getD []

/-- What `cut` uses (`src/bin/cdx/cut_main.rs` 8-75): formulas are written with `{}` (`src/column.rs` 577-580). -/
def Outside.cut (o : Outside) (s : Sys) : CutEnv where
  transOk := o.transOk
  trans := o.transform
  colMatch := o.names s
  compiles := fun _ => true
  eval := fun f names => ((ExprSt.new f).lookup (o.expr s) names).bind fun x => .ok fun line =>
    match columnExprWrite (o.expr s) F64.display x line with
    | .ok v => v
    | _ => []

/-- What aggregators use (`src/agg.rs` 689-1241). -/
def Outside.agg (o : Outside) : AggEnv F64 where
  ops := f64Ops o.rest
  toF := lossyF64 o.exp10
  toF64 := lossyF64 o.exp10
  chars := charsOf
  space := o.space
  alnum := fun c => o.classes.alnum c.toNat
  mkComp := compOf

/-- Aggregators made of formulas (`ExprAgg`, `src/agg.rs` 179-236). -/
def Outside.mkExpr (o : Outside) (s : Sys) : ExprMaker F64 := fun spec =>
  (ExprAgg.new (o.expr s) spec).bind fun a => .ok (a.start, fun names => (a.lookup (o.expr s) names).bind fun b => .ok fun v line =>
    match (b.keep b.expr v).bind fun c => c.add (o.expr s) line with
    | .ok c => c.val
    | _ => F64.ofNat 0)

/-- Generators made of formulas (`ExprGen`, `src/textgen.rs` 92-122). -/
def Outside.gen (o : Outside) (s : Sys) : GenEnv where
  expr := fun spec => .ok fun line col => ((ExprGen.new (o.expr s) spec).write (o.expr s) printNum line col).bind fun r => .ok r.1
  normal := o.normal

/-- The program as a whole (`src/bin/cdx/cdxmain.rs` 27-44), every part taken from its module. -/
def Outside.world (o : Outside) (s : Sys) : World where
  chars := charsOf
  nameOk := nameOkBytes o.classes
  utf8 := isUtf8
  toF64 := lossyF64 o.exp10
  compiles := fun _ => true
  eval := o.keyValue s
  transOk := o.transOk
  colMatch := o.names s
  exprCols := o.exprCols
  matchers := o.matchers s
  cut := o.cut s
  agg := o.agg
  mkExpr := o.mkExpr s
  prn := printNum
  expr := o.expr s
  gen := o.gen s
  draw := o.draw
  glyphs := o.glyphs
  screen := o.screen
  height := o.height
  pick := o.pick
  rd := o.rd
  cap := o.cap
  s3 := o.s3
  gunzip := o.gunzip

/-- A command run on the files there are (`src/bin/cdx/main.rs` 51-82). -/
def Outside.run (o : Outside) (cmd : String) (toks : List Tok) (s : Sys) : Run Sys := (o.world s).run cmd toks s

end Cdx
