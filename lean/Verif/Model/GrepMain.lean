import Verif.Model.Cgrep
import Verif.Model.Cut

/-!
The `cgrep` command with its options and location columns: `/repo/src/bin/cdx/cgrep_main.rs`, and `FileLocList` of
`/repo/src/util.rs`.

Simplifications. The options are given as pairs of a name and a value, in order. The texts printed by `--show-const` and
`--show-func` are left out. Files can be read, and writing does not fail. Values of expressions are those of `MEnv`.
-/

namespace Cdx

/-- `FileLocItem` (`src/util.rs` 1349-1357). -/
inductive LocItem | bytes | line | name (parts : Nat)
deriving DecidableEq, Repr

/-- `FileLocItem::new` (`src/util.rs` 1359-1378). -/
def LocItem.new (spec : Bytes) : Res LocItem :=
  if eqIgnoreCase spec (ascii "bytes") then .ok .bytes
  else if eqIgnoreCase spec (ascii "line") then .ok .line
  else if eqIgnoreCase spec (ascii "name") then .ok (.name 0)
  else match splitOnce 46 spec with
    | some (a, b) => if eqIgnoreCase a (ascii "name") then (toUsizeWhole b).bind fun n => .ok (.name n) else .err
    | none => .err

/-- `dflt_name` (`src/util.rs` 1379-1385). -/
def LocItem.dfltName : LocItem → Bytes
  | .bytes => ascii "bytes"
  | .line => ascii "line"
  | .name _ => ascii "filename"

/-- `FileLocData` (`src/util.rs` 1338-1346). -/
structure LocData where
  name : Bytes
  bytes : Nat
  line : Nat
deriving DecidableEq, Repr

/-- `write_data` of `FileLocItem` (`src/util.rs` 1386-1400). -/
def LocItem.write (i : LocItem) (loc : LocData) : Bytes :=
  match i with
  | .bytes => decText loc.bytes
  | .line => decText loc.line
  | .name n => if n = 0 then loc.name else tailPath loc.name n 47

/-- `FileLoc` (`src/util.rs` 1404-1408). -/
structure FileLoc where
  colName : Bytes
  item : LocItem
deriving DecidableEq, Repr

/-- `FileLoc::new` (`src/util.rs` 1410-1423). -/
def FileLoc.new (spec : Bytes) : Res FileLoc :=
  match splitOnce 58 spec with
  | some (a, b) => (LocItem.new b).bind fun i => .ok ⟨a, i⟩
  | none => (LocItem.new spec).bind fun i => .ok ⟨i.dfltName, i⟩

/-- The loop of `push` (`src/util.rs` 1447-1449). -/
def pushLocs (v : List FileLoc) : List Bytes → Res (List FileLoc)
  | [] => .ok v
  | x :: xs => (FileLoc.new x).bind fun l => pushLocs (v ++ [l]) xs

/-- `push` of `FileLocList` (`src/util.rs` 1446-1451). -/
def pushLoc (v : List FileLoc) (spec : Bytes) : Res (List FileLoc) := pushLocs v (sliceSplit 44 spec)

/-- `write_data` of `FileLocList` (`src/util.rs` 1453-1464), with `write_data` of `FileLoc` (1424-1426). -/
def locData (v : List FileLoc) (delim : UInt8) (loc : LocData) : Bytes := v.flatMap fun x => x.item.write loc ++ [delim]

/-- `write_names` (`src/util.rs` 1466-1471). A delimiter outside ASCII would be written as two bytes; it is taken to be ASCII. -/
def locNames (v : List FileLoc) (delim : UInt8) : Bytes := v.flatMap fun x => x.colName ++ [delim]

/-- `add` (`src/util.rs` 1473-1478). -/
def locAdd (v : List FileLoc) (h : ColumnHeader) : Res ColumnHeader := h.pushAll (v.map (·.colName))

/-- What the options of `cgrep` set (`src/bin/cdx/cgrep_main.rs` 18-20). -/
structure GrepConf where
  multi : Combiner
  matchers : List LineMatcher
  reverse : Bool
  locs : List FileLoc

/-- The options (`src/bin/cdx/cgrep_main.rs` 21-39); nothing if a list was printed instead. -/
def grepOptions (env : MEnv) : GrepConf → List (Bytes × Bytes) → Res (Option GrepConf)
  | g, [] => .ok (some g)
  | g, (name, value) :: os =>
    if name = ascii "pattern" then (makeLine env value).bind fun m => grepOptions env { g with matchers := g.matchers ++ [m] } os
    else if name = ascii "or" then grepOptions env { g with multi := .or } os
    else if name = ascii "invert" then grepOptions env { g with reverse := true } os
    else if name = ascii "location" then (pushLoc g.locs value).bind fun v => grepOptions env { g with locs := v } os
    else if name = ascii "show-const" then .ok none
    else if name = ascii "show-func" then .ok none
    else .panic

/-- The place of the current line (`src/util.rs` 1502-1504). -/
def Reader.loc (r : Reader) (name : Bytes) : LocData := ⟨name, r.locBytes, r.locLine⟩

/-- The loop over the lines (`src/bin/cdx/cgrep_main.rs` 62-73). The first argument bounds the number of lines. -/
def grepRows (env : MEnv) (g : GrepConf) (ts : List LineTest) (name : Bytes) : Nat → Reader → Res Bytes
  | 0, _ => .panic
  | fuel + 1, r => (lineListOk env g.multi ts r.currLine).bind fun ok =>
      let out := if ok ^^ g.reverse then locData g.locs TAB (r.loc name) ++ r.writeCurr else []
      let r' := r.getline
      if r'.isDone then .ok out else (grepRows env g ts name fuel r').bind fun rest => .ok (out ++ rest)

/-- One file (`src/bin/cdx/cgrep_main.rs` 42-73), a name and its content: the state of the checker and what is written. -/
def grepFile (env : MEnv) (nameOk : Bytes → Bool) (m t : TextMode) (g : GrepConf) (chk : HeaderChecker) (f : Bytes × Bytes) :
    Res (HeaderChecker × Bytes) :=
  let r := Reader.newOpenWith f.2 1 m
  if r.isEmpty then .ok (chk, [])
  else
    (lookupAll env r.names g.matchers).bind fun ts => (locAdd g.locs ⟨[], .fail, []⟩).bind fun h => (h.pushAll r.names).bind fun h =>
      (if r.hasHeader then getHead t h.cols else .ok []).bind fun head =>
        match chk.check nameOk head with
        | none => .err
        | some (chk, shown) =>
          if r.isDone then .ok (chk, if shown then head else [])
          else (grepRows env g ts f.1 (r.file.length + 1) r).bind fun body => .ok (chk, (if shown then head else []) ++ body)

/-- The loop over the files (`src/bin/cdx/cgrep_main.rs` 41-74). -/
def grepAll (env : MEnv) (nameOk : Bytes → Bool) (m t : TextMode) (g : GrepConf) : HeaderChecker → List (Bytes × Bytes) → Res Bytes
  | _, [] => .ok []
  | chk, f :: fs => (grepFile env nameOk m t g chk f).bind fun p => (grepAll env nameOk m t g p.1 fs).bind fun rest => .ok (p.2 ++ rest)

/-- `main` (`src/bin/cdx/cgrep_main.rs` 6-76). -/
def grepMain (env : MEnv) (nameOk : Bytes → Bool) (m t : TextMode) (mode : HeaderMode) (opts : List (Bytes × Bytes))
    (files : List (Bytes × Bytes)) : Res Bytes :=
  (grepOptions env ⟨.and, [], false, []⟩ opts).bind fun g =>
    match g with
    | none => .ok []
    | some g => grepAll env nameOk m t g (HeaderChecker.fromMode mode) files

end Cdx
