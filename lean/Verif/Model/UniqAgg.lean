import Verif.Model.Uniq
import Verif.Model.Wc

/-!
Aggregators of lines (`/repo/src/agg.rs`), and the `uniq` command with aggregation, `/repo/src/bin/cdx/uniq_main.rs`.

Simplifications. The expressions of aggregators are a parameter, `mkExpr`: for the text after `expr,` it gives the first value
and, for the names of the columns, how a line changes the value. Comparators are given with their columns looked up. The printing
of numbers is a parameter, `prn`. Delimiters are ASCII. When the lines are not split, the columns of a line are those of an older
one; a column that ends after the line is cut off, where the code would panic.
-/

namespace Cdx

/-- `AggType` (`src/agg.rs` 341-349). -/
inductive AggPlace
  | replace
  | pre (name : Bytes)
  | post (name : Bytes)
deriving DecidableEq, Repr

/-- `ExprAgg::new` and its expression (`src/agg.rs` 214-236). -/
abbrev ExprMaker (F : Type) := Bytes → Res (F × (List Bytes → Res (F → TextLine → F)))

/-- `AggCol` and `ExprAgg` (`src/agg.rs` 179-185 and 359-364), before columns are looked up. -/
inductive LineAggSpec (F : Type)
  | col (src : NamedCol) (agg : Agg F)
  | expr (start : F) (look : List Bytes → Res (F → TextLine → F))

/-- `LineAgger` (`src/agg.rs` 71-80), before columns are looked up. -/
structure LineAggerSpec (F : Type) where
  out : AggPlace
  what : LineAggSpec F

/-- `AggCol::new` and `new2` (`src/agg.rs` 399-413). The text for `Agger::new` begins with the column, which is taken for the
name. -/
def aggColNew {F : Type} (env : AggEnv F) (spec : Bytes) : Res (LineAggSpec F) :=
  match splitOnce 44 spec with
  | some (a, _) => (NamedCol.newFrom a).bind fun c => (Agger.new env spec).bind fun g => .ok (.col c g.agg)
  | none => .err

/-- `make_line` (`src/agg.rs` 1467-1474). -/
def aggMakeLine {F : Type} (env : AggEnv F) (mkExpr : ExprMaker F) (spec : Bytes) : Res (LineAggSpec F) :=
  match splitOnce 44 spec with
  | some (a, b) => if a = ascii "expr" then (mkExpr b).bind fun p => .ok (.expr p.1 p.2) else aggColNew env spec
  | none => aggColNew env spec

/-- `LineAgger::new2` (`src/agg.rs` 169-176), and with it `new_replace2` (137-139). -/
def LineAggerSpec.new2 {F : Type} (env : AggEnv F) (mkExpr : ExprMaker F) (out : AggPlace) (rep : Bytes) : Res (LineAggerSpec F) :=
  (aggMakeLine env mkExpr rep).bind fun w => .ok ⟨out, w⟩

/-- `new_prefix2` (`src/agg.rs` 149-155). -/
def LineAggerSpec.newPre {F : Type} (env : AggEnv F) (mkExpr : ExprMaker F) (rep : Bytes) : Res (LineAggerSpec F) :=
  match splitOnce 44 rep with
  | some (a, b) => LineAggerSpec.new2 env mkExpr (.pre a) b
  | none => .err

/-- `new_append2` (`src/agg.rs` 161-167). -/
def LineAggerSpec.newPost {F : Type} (env : AggEnv F) (mkExpr : ExprMaker F) (rep : Bytes) : Res (LineAggerSpec F) :=
  match splitOnce 44 rep with
  | some (a, b) => LineAggerSpec.new2 env mkExpr (.post a) b
  | none => .err

/-- `LineAgger::new` (`src/agg.rs` 121-135). For a new column the whole text is passed on, with the word for the place. -/
def LineAggerSpec.new {F : Type} (env : AggEnv F) (mkExpr : ExprMaker F) (spec : Bytes) : Res (LineAggerSpec F) :=
  match splitOnce 44 spec with
  | some (a, b) =>
    if eqIgnoreCase a (ascii "replace") then LineAggerSpec.new2 env mkExpr .replace b
    else if eqIgnoreCase a (ascii "prefix") || eqIgnoreCase a (ascii "prepend") then LineAggerSpec.newPre env mkExpr spec
    else if eqIgnoreCase a (ascii "suffix") || eqIgnoreCase a (ascii "append") then LineAggerSpec.newPost env mkExpr spec
    else .err
  | none => .err

/-- An aggregator with its columns looked up (`src/agg.rs` 179-185 and 359-364). -/
inductive LineAgg (F : Type)
  | col (num : Nat) (agg : Agg F)
  | expr (start : F) (step : F → TextLine → F) (val : F)

/-- `LineAgger` (`src/agg.rs` 71-80). -/
structure LineAgger (F : Type) where
  out : AggPlace
  what : LineAgg F

/-- `lookup` (`src/agg.rs` 201-203 and 380-382). -/
def LineAggSpec.lookup {F : Type} (names : List Bytes) : LineAggSpec F → Res (LineAgg F)
  | .col c g => (c.lookup names).bind fun n => .ok (.col n g)
  | .expr s look => (look names).bind fun f => .ok (.expr s f s)

/-- `LineAggList::lookup` (`src/agg.rs` 658-663). -/
def lookupAggers {F : Type} (names : List Bytes) : List (LineAggerSpec F) → Res (List (LineAgger F))
  | [] => .ok []
  | a :: as => (a.what.lookup names).bind fun w => (lookupAggers names as).bind fun ws => .ok (⟨a.out, w⟩ :: ws)

/-- `add` (`src/agg.rs` 187-190 and 376-378). -/
def LineAgg.add {F : Type} (env : AggEnv F) (line : TextLine) : LineAgg F → LineAgg F
  | .col n g => .col n (g.add env (line.get n))
  | .expr s f v => .expr s f (f v line)

/-- `reset` (`src/agg.rs` 194-197 and 372-374). -/
def LineAgg.reset {F : Type} (env : AggEnv F) : LineAgg F → LineAgg F
  | .col n g => .col n (g.reset env)
  | .expr s f _ => .expr s f s

/-- `result` (`src/agg.rs` 191-193 and 384-386) with the default format. -/
def LineAgg.text {F : Type} (env : AggEnv F) (prn : F → Bytes) : LineAgg F → Bytes
  | .col _ g => match g.result env with
    | .text b => b
    | .num x => prn x
  | .expr _ _ v => prn v

/-- `is_col` (`src/agg.rs` 210-212 and 368-370). -/
def LineAgg.isCol {F : Type} (i : Nat) : LineAgg F → Bool
  | .col n _ => n == i
  | .expr .. => false

/-- `LineAggList::add` (`src/agg.rs` 652-656). -/
def lineAggsAdd {F : Type} (env : AggEnv F) (as : List (LineAgger F)) (line : TextLine) : List (LineAgger F) :=
  as.map fun a => { a with what := a.what.add env line }

/-- `LineAggList::reset` (`src/agg.rs` 613-617). -/
def lineAggsReset {F : Type} (env : AggEnv F) (as : List (LineAgger F)) : List (LineAgger F) :=
  as.map fun a => { a with what := a.what.reset env }

/-- A writer of `fill` (`src/agg.rs` 665-685): an aggregator of the list, which the list goes on to change, or a column. -/
inductive AggCell
  | agg (k : Nat)
  | col (c : NamedCol)
deriving DecidableEq, Repr

/-- The first aggregator that replaces a column (`src/agg.rs` 672-677). -/
def replacer {F : Type} (as : List (LineAgger F)) (i : Nat) : Option Nat :=
  as.findIdx? fun a => decide (a.out = .replace) && a.what.isCol i

/-- The writers of the columns of the header (`src/agg.rs` 671-679). An error is unwrapped. -/
def fillCells {F : Type} (as : List (LineAgger F)) : (i : Nat) → List Bytes → Res (List AggCell)
  | _, [] => .ok []
  | i, x :: xs =>
    match replacer as i with
    | some k => (fillCells as (i + 1) xs).bind fun cs => .ok (.agg k :: cs)
    | none => match NamedCol.newFrom x with
      | .ok c => (fillCells as (i + 1) xs).bind fun cs => .ok (.col c :: cs)
      | _ => .panic

/-- The place of a new column before the others (`src/agg.rs` 667). -/
def AggPlace.isPre : AggPlace → Bool
  | .pre _ => true
  | _ => false

/-- The place of a new column after the others (`src/agg.rs` 681). -/
def AggPlace.isPost : AggPlace → Bool
  | .post _ => true
  | _ => false

/-- The numbers of the aggregators with a place (`src/agg.rs` 666-670 and 680-684). -/
def placed {F : Type} (p : AggPlace → Bool) (as : List (LineAgger F)) : List Nat :=
  (as.zipIdx.filter fun a => p a.1.out).map (·.2)

/-- `LineAggList::fill` (`src/agg.rs` 665-685). -/
def aggFill {F : Type} (as : List (LineAgger F)) (head : List Bytes) : Res (List AggCell) :=
  (fillCells as 0 head).bind fun cs =>
    .ok ((placed AggPlace.isPre as).map .agg ++ cs ++ (placed AggPlace.isPost as).map .agg)

/-- A writer with its column looked up (`src/column.rs` 628-630). -/
inductive AggOutCell
  | agg (k : Nat)
  | col (n : Nat)
deriving DecidableEq, Repr

/-- `Writer::lookup` (`src/column.rs` 1393-1398). Looking up an aggregator again changes nothing. -/
def lookupCells (names : List Bytes) : List AggCell → Res (List AggOutCell)
  | [] => .ok []
  | .agg k :: cs => (lookupCells names cs).bind fun ds => .ok (.agg k :: ds)
  | .col c :: cs => (c.lookup names).bind fun n => (lookupCells names cs).bind fun ds => .ok (.col n :: ds)

/-- The name a writer adds (`src/agg.rs` 418-424 and `src/column.rs` 614-620). A column that is not there has an empty name
(`src/util.rs` 746-751). -/
def cellName {F : Type} (as : List (LineAgger F)) (names : List Bytes) : AggOutCell → Res Bytes
  | .col n => .ok ((names[n]?).getD [])
  | .agg k => match as[k]? with
    | none => .panic
    | some a => match a.out, a.what with
      | .pre s, _ => .ok s
      | .post s, _ => .ok s
      | .replace, .col n _ => .ok ((names[n]?).getD [])
      | .replace, .expr .. => .ok []

/-- `Writer::add_names` (`src/column.rs` 1404-1409). -/
def cellNames {F : Type} (as : List (LineAgger F)) (names : List Bytes) : List AggOutCell → ColumnHeader → Res ColumnHeader
  | [], h => .ok h
  | c :: cs, h => (cellName as names c).bind fun n => (h.push n).bind fun h => cellNames as names cs h

/-- What a writer writes for a line (`src/agg.rs` 426-428 and `src/column.rs` 622-626). -/
def cellText {F : Type} (env : AggEnv F) (prn : F → Bytes) (t : TextMode) (as : List (LineAgger F)) (c : AggOutCell)
    (line : TextLine) : Option Bytes :=
  match c with
  | .col n => some (writeCol t.col t.delim t.eol t.repl (line.get n))
  | .agg k => (as[k]?).map fun a => a.what.text env prn

/-- `c_write.write` (`src/bin/cdx/uniq_main.rs` 239 and 246). -/
def aggWrite {F : Type} (env : AggEnv F) (prn : F → Bytes) (t : TextMode) (cells : List AggOutCell) (as : List (LineAgger F))
    (line : TextLine) : Option Bytes :=
  writerWrite t.delim (cells.map (cellText env prn t as)) line

/-- The loop with aggregators (`src/bin/cdx/uniq_main.rs` 237-251). -/
def uniqAggLoop {F : Type} (env : AggEnv F) (write : List (LineAgger F) → TextLine → Option Bytes)
    (eq : TextLine → TextLine → Bool) (c : Count) : Nat → Reader → TextLine → List (LineAgger F) → Option Bytes
  | 0, _, _, _ => none
  | fuel + 1, r, tmp, as =>
    let r' := r.getline
    (r'.prevLine 1).bind fun prev =>
      if r'.isDone then write as tmp
      else if eq prev r'.currLine then
        uniqAggLoop env write eq c fuel r' (c.assign env.toF64 tmp r'.currLine) (lineAggsAdd env as r'.currLine)
      else (write as tmp).bind fun row =>
        (uniqAggLoop env write eq c fuel r' (tmp.assign r'.currLine) (lineAggsAdd env (lineAggsReset env as) r'.currLine)).map
          fun out => row ++ out

/-- The aggregators with the one that counts (`src/bin/cdx/uniq_main.rs` 201-206). -/
def withCount {F : Type} (env : AggEnv F) (mkExpr : ExprMaker F) (c : Count) (as : List (LineAggerSpec F)) :
    Res (List (LineAggerSpec F)) :=
  (if c.pos = .begin then
    (LineAggerSpec.newPre env mkExpr (c.name ++ ascii ",1,count")).bind fun a => .ok (a :: as) else .ok as).bind fun as =>
    if c.pos = .stop then
      (LineAggerSpec.newPost env mkExpr (c.name ++ ascii ",1,count")).bind fun a => .ok (as ++ [a]) else .ok as

/-- What is written for the lines (`src/bin/cdx/uniq_main.rs` 232-251), the reader being on the first. -/
def uniqAggLines {F : Type} (env : AggEnv F) (prn : F → Bytes) (t : TextMode) (cs : List LineComp) (c : Count)
    (cells : List AggOutCell) (as : List (LineAgger F)) (r : Reader) : Option Bytes :=
  let r := r.setSplit (needSplit cs)
  uniqAggLoop env (aggWrite env prn t cells) (equalColsList env.toF64 cs) c (r.file.length + 1) r r.currLine
    (lineAggsAdd env as r.currLine)

/-- The `uniq` command with aggregators (`src/bin/cdx/uniq_main.rs` 190-251) on the content of its file. -/
def uniqAggCmd {F : Type} (env : AggEnv F) (mkExpr : ExprMaker F) (prn : F → Bytes) (m t : TextMode) (cs : List LineComp)
    (c : Count) (aggs : List (LineAggerSpec F)) (content : Bytes) : Res Bytes :=
  let r := (Reader.newWith 1 m).open_ content
  if r.isEmpty then .ok []
  else (withCount env mkExpr c aggs).bind fun specs => (lookupAggers r.names specs).bind fun as =>
    (aggFill as r.names).bind fun fs => (lookupCells r.names fs).bind fun cells =>
      (if r.hasHeader then (cellNames as r.names cells ⟨[], .fail, []⟩).bind fun h => getHead t h.cols else .ok []).bind fun head =>
        if r.isDone then .ok head
        else match uniqAggLines env prn t cs c cells as r with
          | none => .panic
          | some out => .ok (head ++ out)

/-- The options of aggregators, in order (`src/bin/cdx/uniq_main.rs` 179-184). -/
inductive AggOpt
  | replace (spec : Bytes)
  | pre (spec : Bytes)
  | post (spec : Bytes)
deriving DecidableEq, Repr

/-- `push_replace`, `push_prefix` and `push_append` (`src/agg.rs` 630-650). -/
def aggOpts {F : Type} (env : AggEnv F) (mkExpr : ExprMaker F) : List AggOpt → Res (List (LineAggerSpec F))
  | [] => .ok []
  | o :: os =>
    (match o with
      | .replace s => LineAggerSpec.new2 env mkExpr .replace s
      | .pre s => LineAggerSpec.newPre env mkExpr s
      | .post s => LineAggerSpec.newPost env mkExpr s).bind fun a =>
      (aggOpts env mkExpr os).bind fun as => .ok (a :: as)

end Cdx
