import Verif.Model.Settings
import Verif.Model.Files
import Verif.Model.BinMain
import Verif.Model.CatMain
import Verif.Model.Cut
import Verif.Model.ExprLine
import Verif.Model.Filegen
import Verif.Model.FloatOps
import Verif.Model.GrepMain
import Verif.Model.JoinMain
import Verif.Model.PasteMain
import Verif.Model.SampleMain
import Verif.Model.SortAlt
import Verif.Model.SortFormula
import Verif.Model.TabsMain
import Verif.Model.UniqMain
import Verif.Model.VerifyMain
import Verif.Model.WcMain

/-!
The program as a whole: `/repo/src/bin/cdx/main.rs` 51-82, `/repo/src/bin/cdx/cdxmain.rs` 27-44 and the mains of all commands but
`tooltest`, from the words of the command line to what is written to files and the standard output.

Simplifications. The words have been taken apart by clap (`Tok`). All files of the command line are read first: that a file is not
there is an error also if the command would have failed earlier, or ended without reading it. What a command writes before it fails is
lost. The lines of help texts are not modelled. What is written to the standard error is not modelled. `tooltest`, which runs other
programs, is in `Verif.Model.ToolTest`.
-/

namespace Cdx

/-- What the commands get from elsewhere: floating point, characters, regular expressions, the terminal, chance, files that are not
local, and the heap of the merge (used from `src/bin/cdx/cdxmain.rs` 27-44). -/
structure World where
  chars : Bytes → List Char
  nameOk : Bytes → Bool
  utf8 : Bytes → Bool
  toF64 : Bytes → F64
  compiles : Bytes → Bool
  eval : Bytes → List Bytes → Res (Bytes → F64)
  transOk : Bytes → Bool
  colMatch : Bytes → Res (Bytes → Bool)
  exprCols : (Nat → Bytes → F64) → Nat → List Nat
  matchers : MEnv
  cut : CutEnv
  agg : AggEnv F64
  mkExpr : ExprMaker F64
  prn : NumFormat → F64 → Bytes
  expr : ExprEnv F64
  gen : GenEnv
  draw : Nat → Nat → Draw
  glyphs : Glyphs
  screen : Option (Nat × Nat)
  height : Nat
  pick : Nat → List (Nat × Bytes) → Nat
  rd : Nat → Nat → Nat
  cap : Nat
  s3 : Bytes → Option Bytes
  gunzip : Bytes → Bytes

/-- Files that are not there are an error (`?` at `src/util.rs` 1252, e.g. from `src/bin/cdx/cut_main.rs` 43). All files are opened before
anything else is done; `cat` and `sample` can end before they open all files (`src/bin/cdx/cat_main.rs` 163, `src/bin/cdx/sample_main.rs` 144),
which is only told apart when a file after that one is missing. -/
def World.read (w : World) (s : Sys) : List Bytes → Run (List (Bytes × Bytes))
  | [] => .ok []
  | n :: ns =>
    match getReader w.s3 w.gunzip s n with
    | none => .fail .other
    | some b => (w.read s ns).bind fun r => .ok ((n, b) :: r)

/-- Files that are mapped into memory (`MemMap::new`, `src/bin/cdx/binsearch_main.rs` 143): names have no special meaning. -/
def mapFiles (s : Sys) : List Bytes → Run (List (Bytes × Bytes))
  | [] => .ok []
  | n :: ns =>
    match s.files n with
    | none => .fail .other
    | some b => (mapFiles s ns).bind fun r => .ok ((n, b) :: r)

/-- Written to the standard output (`get_writer("-")`, e.g. `src/bin/cdx/cut_main.rs` 36). -/
def Sys.print (s : Sys) (out : Bytes) : Sys := putFile s [45] [out]

/-- The options as pairs of names and values (`ArgValue`, `src/bin/cdx/args.rs` 54-61). -/
def argPairs (v : List ArgValue) : List (Bytes × Bytes) := v.map fun a => (ascii a.name, a.value)

/-- The variables of `main` of `binsearch` (`src/bin/cdx/binsearch_main.rs` 100-104); the delimiter never changes. -/
structure BinArgs where
  keys : List LineCompMade := []
  filename : Option FileNameColumn := none
  context : Context := .new
  pattern : Option Bytes := none

/-- The options of `binsearch` (`src/bin/cdx/binsearch_main.rs` 106-128). The name of `--sub-delim` is not one the loop knows. -/
def binOptions (compiles : Bytes → Bool) : BinArgs → List (Bytes × Bytes) → Res BinArgs
  | c, [] => .ok c
  | c, (name, value) :: os =>
    if name = ascii "key" then (makeLineComp compiles value).bind fun k => binOptions compiles { c with keys := c.keys ++ [k] } os
    else if name = ascii "filename" then
      if c.filename.isSome then .err
      else (FileNameColumn.set ⟨[], 0⟩ value).bind fun f => binOptions compiles { c with filename := some f } os
    else if name = ascii "context" then (Context.set value).bind fun x => binOptions compiles { c with context := x } os
    else if name = ascii "pattern" then binOptions compiles { c with pattern := some value } os
    else .panic

/-- One option of `filegen` (`src/bin/cdx/filegen_main.rs` 18-39). -/
def fgOptOf (name value : Bytes) : Option FgOpt :=
  if name = ascii "lines" then some (.lines value)
  else if name = ascii "with-header" then some .header
  else if name = ascii "column" then some (.column value)
  else if name = ascii "multi" then some (.multi value)
  else none

/-- One option of `sort` (`src/bin/cdx/sort_main.rs` 27-47). -/
def sortOptOf (name value : Bytes) : Option SortOpt :=
  if name = ascii "key" then some (.key value)
  else if name = ascii "alt-merge" then some .altMerge
  else if name = ascii "alt-sort" then some .altSort
  else if name = ascii "merge" then some .merge
  else if name = ascii "check" then some .check
  else if name = ascii "Check" then some (.checkN value)
  else if name = ascii "unique" then some .unique
  else none

/-- All options; one that the loop does not know panics (e.g. `src/bin/cdx/sort_main.rs` 45). -/
def optsOf {α : Type} (f : Bytes → Bytes → Option α) : List (Bytes × Bytes) → Res (List α)
  | [] => .ok []
  | o :: os =>
    match f o.1 o.2 with
    | none => .panic
    | some x => (optsOf f os).bind fun xs => .ok (x :: xs)

/-- `main` of `binsearch` (`src/bin/cdx/binsearch_main.rs` 89-186). The bound on the number of steps is one that suffices for the
searches of `C02_terminates_partial`; a search that goes on for longer (it can go on for ever, `C02_loops`) counts as a panic. -/
def World.binsearch (w : World) (opts : List (Bytes × Bytes)) (files : List (Bytes × Bytes)) : Run Bytes :=
  (binOptions w.compiles {} opts).run.bind fun c =>
    match c.pattern with
    | none => .fail .other
    | some p =>
      match binMain w.toF64 w.eval w.compiles w.utf8 w.nameOk (2 * (files.map fun f => f.2.length).sum + 2) c.keys c.filename c.context p files with
      | .panic => .panic
      | .noFuel => .panic
      | .ok none => .fail .other
      | .ok (some out) => .ok out

/-- The main of a command (`src/bin/cdx/cdxmain.rs` 27-44) other than `join`, given the settings, the options and the files: what is
written to the standard output. -/
def World.output (w : World) (cmd : String) (set : Settings) (opts : List (Bytes × Bytes)) (files : List (Bytes × Bytes)) : Run Bytes :=
  let texts := files.map (·.2)
  if cmd = "binsearch" then w.binsearch opts files
  else if cmd = "calc" then (calcCmd w.expr w.prn set.textIn (opts.map (·.2)) texts).run
  else if cmd = "cat" then (catMain w.matchers w.nameOk set.textIn .matching opts texts).run
  else if cmd = "cgrep" then (grepMain w.matchers w.nameOk set.textIn set.out .matching opts files).run
  else if cmd = "cut" then (cutMain w.cut w.nameOk set.textIn set.out .matching opts texts).run
  else if cmd = "filegen" then (optsOf fgOptOf opts).run.bind fun os => (filegen w.gen os w.draw).run
  else if cmd = "paste" then
    (pasteMain set.textIn w.transOk w.colMatch opts texts).run.bind fun r => if r.2 then .ok r.1 else .fail .other
  else if cmd = "sample" then (sampleMain w.nameOk w.height set.textIn opts texts).run
  else if cmd = "sort" then
    (optsOf sortOptOf opts).run.bind fun os => sortMainF w.eval w.toF64 w.nameOk w.pick w.rd w.cap set.textIn os texts
  else if cmd = "tabs" then (tabsMain w.glyphs w.screen opts files).run.bind fun ls => .ok (ls.flatMap fun l => l ++ [NL])
  else if cmd = "transpose" then (transposeMain opts (texts.headD [])).run
  else if cmd = "uniq" then
    (uniqMain w.agg w.mkExpr (w.prn .default) w.compiles w.eval set.textIn set.out opts (texts.headD [])).run
  else if cmd = "verify" then
    (verifyMain w.matchers w.compiles w.eval set.textIn opts texts).run.bind fun ok => if ok then .ok [] else .fail .silent
  else if cmd = "wc" then (wcMain w.agg w.prn set.textIn set.textOut opts files).run
  else .fail .other

/-- The main of a command (`src/bin/cdx/cdxmain.rs` 27-44), given the settings, the options and the names of the files. `join` writes to
the files its options name (`src/join.rs` 162, 186-198), one after the other. -/
def World.command (w : World) (cmd : String) (set : Settings) (opts : List (Bytes × Bytes)) (names : List Bytes) (s : Sys) : Run Sys :=
  (if cmd = "binsearch" then mapFiles s names else w.read s names).bind fun files =>
    if cmd = "join" then
      (joinMain w.transOk w.compiles w.colMatch w.eval w.toF64 w.exprCols opts (files.map (·.2))).run.bind fun outs =>
        .ok (outs.foldl (fun s o => putFile s o.1 [o.2]) s)
    else (w.output cmd set opts files).bind fun out => .ok (s.print out)

/-- The command of this name run with these words (`src/bin/cdx/main.rs` 51-82, then `parse` of `src/bin/cdx/args.rs` 144-202). -/
def World.run (w : World) (cmd : String) (toks : List Tok) (s : Sys) : Run Sys :=
  match mainList.find? fun c => decide (c.name = cmd) with
  | none => .fail .silent
  | some c => (parseArgs w.chars .new c.spec c.files toks).bind fun p => w.command cmd p.1 (argPairs p.2.1) p.2.2 s

end Cdx
