import Verif.Model.Wc
import Verif.Model.Match
import Verif.Model.Settings

/-!
The `cut` command, `/repo/src/bin/cdx/cut_main.rs`, with the kinds of columns it can write, and the remaining selections of
`/repo/src/column.rs`.

Simplifications. The options are given as pairs of a name and a value, in order. Translators, matchers of column names and
expressions are parameters (`CutEnv`). Files can be read, and writing does not fail. The numbers of expressions are texts.
-/

namespace Cdx

/-- What `cut` uses from elsewhere: whether a translator exists, what it does (`src/trans.rs`), matchers of column names
(`src/matcher.rs`), whether an expression is well formed, and its value for a line, as text, once the names are known
(`src/expr.rs`). -/
structure CutEnv where
  transOk : Bytes → Bool
  trans : Bytes → Bytes → Option Bytes
  colMatch : Bytes → Res (Bytes → Bool)
  compiles : Bytes → Bool
  eval : Bytes → List Bytes → Res (TextLine → Bytes)

/-- A column before its names are looked up: `ReaderColumns` (`src/column.rs` 1320-1330), `ColumnClump` (1247-1251), `ColumnExpr`
(551-555) and `CompositeColumn` (1561-1566). -/
inductive CutSpec
  | fields (cols : ColumnSet)
  | group (delim : UInt8) (name : Bytes) (cols : ColumnSet)
  | expr (name formula : Bytes)
  | comp (name : Bytes) (parts : List (Bytes × NamedCol)) (suffix : Bytes)
deriving DecidableEq

/-- A column after `lookup` (`src/column.rs` 540-548). -/
inductive CutCol
  | fields (trans : List Bytes) (cols : List OutCol)
  | group (delim : UInt8) (name : Bytes) (trans : List Bytes) (cols : List OutCol)
  | expr (name : Bytes) (value : TextLine → Bytes)
  | comp (name : Bytes) (parts : List (Bytes × Nat)) (suffix : Bytes)

/-! ## Reading the specs -/

/-- `ColumnClump::from_spec` (`src/column.rs` 1275-1305). A character that is not ASCII has more than one byte. -/
def groupSpec (env : CutEnv) (spec : Bytes) : Res CutSpec :=
  match spec with
  | [] => .err
  | delim :: spec =>
    if delim ≥ 128 then .err
    else match splitOnce 58 spec with
      | none => .err
      | some (a, b) => (ColumnSet.empty.add env.transOk b false).bind fun g => .ok (.group delim a g)

/-- `ColumnExpr::new` (`src/column.rs` 559-571). -/
def exprSpec (env : CutEnv) (spec : Bytes) : Res CutSpec :=
  match splitOnce 58 spec with
  | some (a, b) => if env.compiles b then .ok (.expr a b) else .err
  | none => if env.compiles spec then .ok (.expr [] spec) else .err

/-- A column within a composite, after the tag (`src/column.rs` 1613-1622). -/
def compPart (c : UInt8) (rest : Bytes) : Res (NamedCol × Bytes) :=
  if c = 123 then
    (NamedCol.parse rest).bind fun p =>
      match p.2 with
      | [] => .err
      | d :: t => if d = 125 then .ok (p.1, t) else .err
  else NamedCol.parse (c :: rest)

/-- The loop of `CompositeColumn::set` (`src/column.rs` 1601-1630): the parts and what follows the last of them. The first argument
bounds the number of turns. -/
def compLoop : Nat → (suffix curr : Bytes) → Res (List (Bytes × NamedCol) × Bytes)
  | 0, _, _ => .panic
  | fuel + 1, suffix, curr =>
    match curr with
    | [] => .ok ([], suffix)
    | ch :: curr =>
      if ch = 94 then
        match curr with
        | [] => compLoop fuel (suffix ++ [94]) []
        | c :: rest =>
          if c = 94 then compLoop fuel (suffix ++ [94]) rest
          else (compPart c rest).bind fun p => (compLoop fuel [] p.2).bind fun q => .ok ((suffix, p.1) :: q.1, q.2)
      else compLoop fuel (suffix ++ [ch]) curr

/-- `CompositeColumn::set` (`src/column.rs` 1590-1632). -/
def compSpec (spec : Bytes) : Res CutSpec :=
  match splitOnce 58 spec with
  | none => .err
  | some (name, curr) => (compLoop (curr.length + 1) [] curr).bind fun p => .ok (.comp name p.1 p.2)

/-! ## Looking up names -/

/-- `lookup` of the parts of a composite (`src/column.rs` 1576-1581). -/
def compLookup (names : List Bytes) : List (Bytes × NamedCol) → Res (List (Bytes × Nat))
  | [] => .ok []
  | p :: ps => (p.2.lookup names).bind fun n => (compLookup names ps).bind fun r => .ok ((p.1, n) :: r)

/-- `lookup` of each kind (`src/column.rs` 584-586, 1317-1319, 1359-1361 and 1652-1654). -/
def CutSpec.lookup (env : CutEnv) (names : List Bytes) : CutSpec → Res CutCol
  | .fields c => (c.lookup env.colMatch names).bind fun cols => .ok (.fields c.trans cols)
  | .group d n c => (c.lookup env.colMatch names).bind fun cols => .ok (.group d n c.trans cols)
  | .expr n f => (env.eval f names).bind fun v => .ok (.expr n v)
  | .comp n ps s => (compLookup names ps).bind fun r => .ok (.comp n r s)

/-- `Writer::lookup` (`src/column.rs` 1391-1396). -/
def cutLookup (env : CutEnv) (names : List Bytes) : List CutSpec → Res (List CutCol)
  | [] => .ok []
  | s :: ss => (s.lookup env names).bind fun c => (cutLookup env names ss).bind fun cs => .ok (c :: cs)

/-! ## Names and values -/

/-- The name of a selected column (`src/column.rs` 1350-1356); beyond the header it is empty. -/
def outName (head : List Bytes) (x : OutCol) : Bytes := if x.name = [] then head.getD x.num [] else x.name

/-- `add_names` of each kind, as the names it adds (`src/column.rs` 575-577, 1314-1316, 1350-1358 and 1638-1640). -/
def CutCol.names (head : List Bytes) : CutCol → List Bytes
  | .fields _ cols => cols.map (outName head)
  | .group _ n _ _ => [n]
  | .expr n _ => [n]
  | .comp n _ _ => [n]

/-- `Writer::add_names` (`src/column.rs` 1402-1407). -/
def cutNames (h : ColumnHeader) (head : List Bytes) (cs : List CutCol) : Res ColumnHeader := h.pushAll (cs.flatMap (·.names head))

/-- `TextFileMode::write` (`src/util.rs` 348-354). -/
def TextMode.write (t : TextMode) (v : Bytes) : Bytes := writeCol t.col t.delim t.eol t.repl v

/-- The translators of a set of columns (`src/column.rs` 1078-1085). -/
def transAt (env : CutEnv) (trans : List Bytes) (k : Nat) (v : Bytes) : Option Bytes :=
  match trans[k]? with
  | none => none
  | some s => env.trans s v

/-- `write` of each kind (`src/column.rs` 578-582, 1309-1312, 1345-1348 and 1641-1649). -/
def CutCol.write (env : CutEnv) (t : TextMode) (line : TextLine) : CutCol → Option Bytes
  | .fields tr cols => ColumnSet.write3 (transAt env tr) t.write t.delim cols line
  | .group d _ tr cols => ColumnSet.write3 (transAt env tr) ({ TextMode.default with delim := d } : TextMode).write d cols line
  | .expr _ v => some (v line)
  | .comp _ ps s => some ((ps.flatMap fun p => t.write p.1 ++ t.write (line.get p.2)) ++ t.write s)

/-! ## The command -/

/-- The options (`src/bin/cdx/cut_main.rs` 15-33). -/
def cutOptions (env : CutEnv) : DupColHandling → List (Bytes × Bytes) → Res (DupColHandling × List CutSpec)
  | dups, [] => .ok (dups, [])
  | dups, (name, value) :: os =>
    if name = ascii "dups" then (DupColHandling.new value).bind fun dups => cutOptions env dups os
    else
      (if name = ascii "fields" then (ColumnSet.empty.add env.transOk value false).bind fun c => .ok (CutSpec.fields c)
       else if name = ascii "group" then groupSpec env value
       else if name = ascii "expr" then exprSpec env value
       else if name = ascii "composite" then compSpec value
       else .panic).bind fun s => (cutOptions env dups os).bind fun p => .ok (p.1, s :: p.2)

/-- The loop over the lines of a file (`src/bin/cdx/cut_main.rs` 58-63). The first argument bounds the number of lines. -/
def cutLoop (env : CutEnv) (t : TextMode) (cs : List CutCol) : Nat → Reader → Option Bytes
  | 0, _ => none
  | fuel + 1, r => (writerWrite t.delim (cs.map fun c l => c.write env t l) r.currLine).bind fun x =>
      let r' := r.getline
      if r'.isDone then some x else (cutLoop env t cs fuel r').map fun y => x ++ y

/-- One file (`src/bin/cdx/cut_main.rs` 42-63): the state of the checker and what is written. -/
def cutFile (env : CutEnv) (nameOk : Bytes → Bool) (m t : TextMode) (dups : DupColHandling) (specs : List CutSpec) (chk : HeaderChecker)
    (f : Bytes) : Res (HeaderChecker × Bytes) :=
  let r := (Reader.newWith 1 m).open_ f
  if r.isEmpty then .ok (chk, [])
  else
    (cutLookup env r.names specs).bind fun cs => (cutNames ⟨[], dups, []⟩ r.names cs).bind fun h =>
      (if r.hasHeader then getHead t h.cols else .ok []).bind fun head =>
        match chk.check nameOk head with
        | none => .err
        | some (chk, shown) =>
          if r.isDone then .ok (chk, if shown then head else [])
          else match cutLoop env t cs (r.file.length + 1) r with
            | none => .panic
            | some body => .ok (chk, (if shown then head else []) ++ body)

/-- The loop over the files (`src/bin/cdx/cut_main.rs` 41-64). -/
def cutFiles (env : CutEnv) (nameOk : Bytes → Bool) (m t : TextMode) (dups : DupColHandling) (specs : List CutSpec) :
    HeaderChecker → List Bytes → Res Bytes
  | _, [] => .ok []
  | chk, f :: fs => (cutFile env nameOk m t dups specs chk f).bind fun p =>
      (cutFiles env nameOk m t dups specs p.1 fs).bind fun rest => .ok (p.2 ++ rest)

/-- `main` (`src/bin/cdx/cut_main.rs` 5-66). -/
def cutMain (env : CutEnv) (nameOk : Bytes → Bool) (m t : TextMode) (mode : HeaderMode) (opts : List (Bytes × Bytes)) (files : List Bytes) :
    Res Bytes :=
  (cutOptions env .fail opts).bind fun p =>
    if p.2 = [] then .err else cutFiles env nameOk m t p.1 p.2 (HeaderChecker.fromMode mode) files

/-! ## Renaming columns -/

/-- `NameMap::new` (`src/column.rs` 47-58). -/
def nameMapNew (spec : Bytes) : Res (Bytes × Bytes) :=
  match splitOnce 46 spec with
  | some p => .ok p
  | none => .err

/-- The loop of `rename` (`src/column.rs` 121-123). -/
def renameLoop (h : ColumnHeader) : List Bytes → Res ColumnHeader
  | [] => .ok h
  | x :: xs => (nameMapNew x).bind fun p => renameLoop { h with rename := h.rename ++ [p] } xs

/-- `ColumnHeader::rename` (`src/column.rs` 119-126). -/
def ColumnHeader.addRename (h : ColumnHeader) (spec : Bytes) : Res ColumnHeader :=
  if spec ≠ [] then renameLoop h (sliceSplit 44 spec) else .ok h

/-- `Display` of `NameMap` (`src/column.rs` 59-63). -/
def nameMapText (p : Bytes × Bytes) : Bytes := p.1 ++ 46 :: p.2

/-- `check_rename` (`src/column.rs` 170-181): the text of the renames not used, if they count. -/
def ColumnHeader.checkRename (h : ColumnHeader) (sloppy : Bool) : Option Bytes :=
  if !sloppy && !h.rename.isEmpty then
    match h.rename with
    | [] => some []
    | p :: ps => some (nameMapText p ++ ps.flatMap fun q => 44 :: nameMapText q)
  else none

/-! ## Other selections -/

/-- `select_sloppy` (`src/column.rs` 1157-1175). -/
def selectSloppy {α : Type} (columns : List OutCol) (cols : List α) (rest : α) : List α :=
  columns.map fun x => if h : x.num < cols.length then cols[x.num] else rest

/-- `write_sloppy` (`src/column.rs` 1129-1141). -/
def writeSloppy (columns : List OutCol) (cols : List Bytes) (rest : Bytes) : Bytes :=
  columns.flatMap fun x => if h : x.num < cols.length then cols[x.num] else rest

/-- `write3s` (`src/column.rs` 1109-1125). -/
def write3s (columns : List OutCol) (cols : List Bytes) (delim : UInt8) : Bytes :=
  match columns with
  | [] => []
  | first :: iter => cols.getD first.num [] ++ iter.flatMap fun x => delim :: cols.getD x.num []

/-- `lookup_cols` (`src/column.rs` 1208-1213). -/
def lookupCols (transOk : Bytes → Bool) (mk : Bytes → Res (Bytes → Bool)) (spec : Bytes) (names : List Bytes) : Res (List Nat) :=
  (ColumnSet.empty.add transOk spec false).bind fun c => (c.lookup mk names).bind fun cols => .ok (cols.map (·.num))

/-- `ranges` (`src/column.rs` 900-905) and `lookup_cols_full` (1216-1221). -/
def lookupColsFull (transOk : Bytes → Bool) (mk : Bytes → Res (Bytes → Bool)) (spec : Bytes) (names : List Bytes) : Res (List OutCol) :=
  (ColumnSet.empty.add transOk spec false).bind fun c => c.lookup mk names

end Cdx
