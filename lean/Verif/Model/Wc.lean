import Verif.Model.Agg
import Verif.Model.Num
import Verif.Model.Cat

/-!
The `wc` command, `/repo/src/bin/cdx/wc_main.rs`.

Simplifications. The options are given parsed, apart from the texts of aggregators. The printing of numbers is a parameter, `prn`;
`NumFormat.print` says what it does for integers. Delimiters are ASCII. Files can be read.
-/

namespace Cdx

/-- `Agger` (`src/agg.rs` 30-39). -/
structure Agger (F : Type) where
  out : Bytes
  agg : Agg F
  fmt : NumFormat
deriving DecidableEq

/-- `Agger::new` (`src/agg.rs` 482-498). -/
def Agger.new {F : Type} (env : AggEnv F) (spec : Bytes) : Res (Agger F) :=
  match splitOnce 44 spec with
  | some (a, b) => (aggMake env b).bind fun g => .ok ⟨a, g, .default⟩
  | none => (aggMake env spec).bind fun g => .ok ⟨[], g, .default⟩

/-- What an aggregator writes (`write` of `Agger`, `src/agg.rs` 458-460). -/
def Agger.text {F : Type} (env : AggEnv F) (prn : NumFormat → F → Bytes) (a : Agger F) : Bytes :=
  match a.agg.result env with
  | .text b => b
  | .num x => prn a.fmt x

/-- `AggList::push` for each text (`src/agg.rs` 577-584). -/
def aggersNew {F : Type} (env : AggEnv F) : List Bytes → Res (List (Agger F))
  | [] => .ok []
  | s :: ss => (Agger.new env s).bind fun a => (aggersNew env ss).bind fun as => .ok (a :: as)

/-- `AggList::fmt` (`src/agg.rs` 525-530). -/
def aggersFmt {F : Type} (fmt : NumFormat) (as : List (Agger F)) : List (Agger F) := as.map fun a => { a with fmt := fmt }

/-- `AggList::add` (`src/agg.rs` 586-590). -/
def aggersAdd {F : Type} (env : AggEnv F) (as : List (Agger F)) (data : Bytes) : List (Agger F) :=
  as.map fun a => { a with agg := a.agg.add env data }

/-- `AggList::reset` (`src/agg.rs` 566-570). -/
def aggersReset {F : Type} (env : AggEnv F) (as : List (Agger F)) : List (Agger F) :=
  as.map fun a => { a with agg := a.agg.reset env }

/-- The options (`src/bin/cdx/wc_main.rs` 38-45), with the mode of the output. -/
structure WcConf where
  fileCol : Bytes
  showFile : Tri
  showHeader : Tri
  showTotals : Tri
  totalOnly : Bool
  fmt : NumFormat
  out : Option TextMode
deriving DecidableEq

/-- The options as they are without any (`src/bin/cdx/wc_main.rs` 38-45). -/
def WcConf.default : WcConf := ⟨ascii "file", .maybe, .maybe, .maybe, false, .default, none⟩

/-- A choice, with what `Maybe` means (`src/bin/cdx/wc_main.rs` 173-187). -/
def Tri.pick (t : Tri) (m : Bool) : Bool :=
  match t with
  | .yes => true
  | .no => false
  | .maybe => m

/-- `get_head` (`src/column.rs` 229-262). -/
def getHead (t : TextMode) (cols : List Bytes) : Res Bytes :=
  if cols = [] then .panic
  else .ok ((if t.head = .cdx ∨ t.head = .maybe then cdxTag ++ [t.delim] else []) ++ List.intercalate [t.delim] cols ++ [NL])

/-- The header (`src/bin/cdx/wc_main.rs` 201-206 and 136-144). -/
def wcHead {F : Type} (t : TextMode) (first : List Bytes) (as : List (Agger F)) : Res Bytes :=
  ((⟨[], .fail, []⟩ : ColumnHeader).pushAll (first ++ as.map (·.out))).bind fun h => getHead t h.cols

/-- The loop over the lines of a file (`src/bin/cdx/wc_main.rs` 214-219). The first argument bounds the number of lines. -/
def wcLoop {F : Type} (env : AggEnv F) : Nat → List (Agger F) → Reader → Option (List (Agger F))
  | 0, _, _ => none
  | fuel + 1, as, r =>
    let as := aggersAdd env as r.currLine.text
    let r' := r.getline
    if r'.isDone then some as else wcLoop env fuel as r'

/-- The loop over the files (`src/bin/cdx/wc_main.rs` 188-232). `head` says whether the header is still to be written. -/
def wcFiles {F : Type} (env : AggEnv F) (prn : NumFormat → F → Bytes) (m : TextMode) (conf : WcConf) (showFile : Bool) :
    (head : Bool) → List F → List (Agger F) → List (Bytes × Bytes) → Res (Bytes × List F)
  | _, totals, _, [] => .ok ([], totals)
  | head, totals, as, (name, content) :: fs =>
    let r := (Reader.newWith 1 m).open_ content
    if r.isEmpty then wcFiles env prn m conf showFile head totals as fs
    else (if head then wcHead (conf.out.getD m) (if showFile then [conf.fileCol] else []) as else .ok []).bind fun h =>
      if r.isDone then (wcFiles env prn m conf showFile false totals as fs).bind fun p => .ok (h ++ p.1, p.2)
      else
        let r := r.setSplit false
        match wcLoop env (r.file.length + 1) as r with
        | none => .panic
        | some as =>
          let row := if conf.totalOnly then [] else (if showFile then name ++ [TAB] else []) ++
            List.intercalate [(conf.out.getD m).delim] (as.map (·.text env prn)) ++ [NL]
          let totals := totals.zipWith env.ops.add (as.map fun a => a.agg.value env)
          (wcFiles env prn m conf showFile false totals (aggersReset env as) fs).bind fun p => .ok (h ++ row ++ p.1, p.2)

/-- The row with the totals (`src/bin/cdx/wc_main.rs` 234-245). -/
def wcTotals {F : Type} (prn : NumFormat → F → Bytes) (fmt : NumFormat) (showFile : Bool) (totals : List F) : Bytes :=
  (if showFile then ascii "totals\t" else []) ++ List.intercalate [TAB] (totals.map (prn fmt)) ++ [NL]

/-- The `wc` command without `--columns` (`src/bin/cdx/wc_main.rs` 78-85, 167-246). -/
def wcCmd {F : Type} (env : AggEnv F) (prn : NumFormat → F → Bytes) (m : TextMode) (conf : WcConf) (specs : List Bytes)
    (files : List (Bytes × Bytes)) : Res Bytes :=
  (aggersNew env specs).bind fun as =>
    (if as = [] then aggersNew env [ascii "lines,count"] else .ok (aggersFmt conf.fmt as)).bind fun as =>
      let showFile := conf.showFile.pick (decide (files.length > 1) && !conf.totalOnly)
      let doTotals := conf.showTotals.pick (decide (files.length > 1)) || conf.totalOnly
      let doHeader := conf.showHeader.pick (decide (as.length > 1) || showFile)
      (wcFiles env prn m conf showFile doHeader (as.map fun _ => env.ops.zero) as files).bind fun p =>
        .ok (p.1 ++ if doTotals then wcTotals prn conf.fmt showFile p.2 else [])

/-! ## Columns -/

/-- `NamedAgg` (`src/bin/cdx/wc_main.rs` 9-12). -/
structure NamedAgg (F : Type) where
  name : Bytes
  aggs : List (Agger F)
deriving DecidableEq

/-- The numbers of the columns of a file among all columns (`src/bin/cdx/wc_main.rs` 100-107). -/
def wcColmap {F : Type} (fresh : List (Agger F)) : List (NamedAgg F) → List Bytes → List (NamedAgg F) × List Nat
  | aggs, [] => (aggs, [])
  | aggs, x :: xs =>
    match aggs.findIdx? fun a => a.name == x with
    | some pos => let p := wcColmap fresh aggs xs; (p.1, pos :: p.2)
    | none => let p := wcColmap fresh (aggs ++ [⟨x, fresh⟩]) xs; (p.1, aggs.length :: p.2)

/-- The columns of a line (`src/bin/cdx/wc_main.rs` 112-114). -/
def wcColLine {F : Type} (env : AggEnv F) : List Nat → List Bytes → List (NamedAgg F) → Option (List (NamedAgg F))
  | _, [], aggs => some aggs
  | [], _ :: _, _ => none
  | k :: ks, x :: xs, aggs =>
    if k < aggs.length then wcColLine env ks xs (aggs.modify k fun a => { a with aggs := aggersAdd env a.aggs x }) else none

/-- The loop over the lines (`src/bin/cdx/wc_main.rs` 111-118). The first argument bounds the number of lines. -/
def wcColLoop {F : Type} (env : AggEnv F) (colmap : List Nat) : Nat → List (NamedAgg F) → Reader → Option (List (NamedAgg F))
  | 0, _, _ => none
  | fuel + 1, aggs, r => (wcColLine env colmap r.currLine.vec aggs).bind fun aggs =>
      let r' := r.getline
      if r'.isDone then some aggs else wcColLoop env colmap fuel aggs r'

/-- The loop over the files (`src/bin/cdx/wc_main.rs` 93-119). A file with a header only ends it. -/
def wcColFiles {F : Type} (env : AggEnv F) (m : TextMode) (fresh : List (Agger F)) :
    List (NamedAgg F) → List Bytes → Option (List (NamedAgg F))
  | aggs, [] => some aggs
  | aggs, f :: fs =>
    let r := (Reader.newWith 1 m).open_ f
    if r.isEmpty then wcColFiles env m fresh aggs fs
    else
      let p := wcColmap fresh aggs r.names
      if r.isDone then some p.1
      else (wcColLoop env p.2 (r.file.length + 1) p.1 r).bind fun aggs => wcColFiles env m fresh aggs fs

/-- The row of a column (`src/bin/cdx/wc_main.rs` 147-159). -/
def wcColRow {F : Type} (env : AggEnv F) (prn : NumFormat → F → Bytes) (showName : Tri) (fmt : NumFormat) (a : NamedAgg F) : Bytes :=
  (if showName ≠ .no then a.name ++ [TAB] else []) ++
    List.intercalate [TAB] (a.aggs.map fun x => ({ x with fmt := fmt } : Agger F).text env prn) ++ [NL]

/-- The sums of the values of all columns (`src/bin/cdx/wc_main.rs` 160-167). -/
def wcColTotals {F : Type} (env : AggEnv F) (fresh : List (Agger F)) (aggs : List (NamedAgg F)) : List F :=
  aggs.foldl (fun totals x => totals.zipWith env.ops.add (x.aggs.map fun a => a.agg.value env)) (fresh.map fun _ => env.ops.zero)

/-- The `wc` command with `--columns` (`src/bin/cdx/wc_main.rs` 78-167, 234-246). -/
def wcColumns {F : Type} (env : AggEnv F) (prn : NumFormat → F → Bytes) (m : TextMode) (conf : WcConf) (specs : List Bytes)
    (files : List Bytes) : Res Bytes :=
  (aggersNew env (if specs = [] then [ascii "bytes,asum,chars"] else specs)).bind fun fresh =>
    match wcColFiles env m fresh [] files with
    | none => .panic
    | some aggs =>
      let showFile := conf.showFile.pick (decide (aggs.length > 1) && !conf.totalOnly)
      let doTotals := conf.showTotals.pick (decide (aggs.length > 1)) || conf.totalOnly
      let doHeader := conf.showHeader.pick (decide (fresh.length > 1) || showFile)
      (if doHeader then wcHead (conf.out.getD m) (if conf.showFile ≠ .no then [ascii "column"] else []) fresh else .ok []).bind fun h =>
        .ok (h ++ (if conf.totalOnly then [] else (aggs.map (wcColRow env prn conf.showFile conf.fmt)).flatten) ++
          if doTotals then wcTotals prn conf.fmt showFile (wcColTotals env fresh aggs) else [])

end Cdx
