import Verif.Model.Uniq

/-!
The `cat` command, `/repo/src/bin/cdx/cat_main.rs`.

Simplifications. Matchers are given as tests of lines. The line number is not bounded. The header is written in the
default text mode.
-/

namespace Cdx

/-- `PadMode` (`src/bin/cdx/cat_main.rs` 6-11). -/
inductive PadMode | none | all | stop
deriving DecidableEq, Repr

/-- Copying files (`src/bin/cdx/cat_main.rs` 180-210); `none` is an error. `last` is `last_was_cr`, which after the rest of a
file is set from its first line. -/
def catFast (nameOk : Bytes → Bool) (pad : PadMode) : HeaderChecker → (last : Bool) → List Bytes → Option Bytes
  | _, last, [] => some (if pad = .stop ∧ last = false then [NL] else [])
  | chk, last, f :: fs =>
    let r := readUntil NL f
    if r.1 = [] then catFast nameOk pad chk last fs
    else match chk.check nameOk r.1 with
      | Option.none => Option.none
      | some (chk', b) =>
        let nl := r.1.getLast? == some NL
        let last := if b then nl else last
        let last := if r.2 = [] then last else nl
        let padded := pad == .all && !last
        (catFast nameOk pad chk' (last || padded) fs).map fun out =>
          (if b then r.1 else []) ++ r.2 ++ (if padded then [NL] else []) ++ out

/-- `LineNumber` (`src/bin/cdx/cat_main.rs` 13-20). -/
structure LineNumber where
  doIt : Bool
  start : Int
  name : Bytes
  atEnd : Bool

/-- `to_string` of a signed number (used at `src/column.rs` 678). -/
def intText : Int → Bytes
  | .ofNat n => decText n
  | .negSucc n => 45 :: decText (n + 1)

/-- `ColumnWhole::write` (`src/column.rs` 643-646); `none` is the panic for an empty line. -/
def columnWhole (line : TextLine) : Option Bytes := if line.text = [] then Option.none else some line.text.dropLast

/-- What `v` or `not_v` writes for a line (`src/bin/cdx/cat_main.rs` 128-144 with `src/column.rs` 1411-1425), `label` being the
number or the empty text. -/
def catRow (ln : LineNumber) (delim : UInt8) (label : Bytes) (line : TextLine) : Option Bytes :=
  let n : TextLine → Option Bytes := fun _ => some label
  writerWrite delim
    ((if ln.doIt && !ln.atEnd then [n] else []) ++ [columnWhole] ++ (if ln.doIt && ln.atEnd then [n] else [])) line

/-- A row, or the panic for an empty line (`src/bin/cdx/cat_main.rs` 169-172). -/
def catRowRes (ln : LineNumber) (delim : UInt8) (label : Bytes) (line : TextLine) : Res Bytes :=
  match catRow ln delim label line with
  | Option.none => .panic
  | some x => .ok x

/-- The loop over the lines of a file (`src/bin/cdx/cat_main.rs` 166-177): what is written, and the next number. `curr_nl` of an
empty line panics (`src/util.rs` 1561-1565). -/
def catLoop (ln : LineNumber) (remove skip : Bytes → Res Bool) (delim : UInt8) : Nat → Reader → Int → Res (Bytes × Int)
  | 0, _, _ => .panic
  | fuel + 1, r, num =>
    if r.currLine.line = [] then .panic
    else
      let nl := r.currLine.line.dropLast
      ((remove nl).bind fun rm =>
        if rm then .ok ([], num)
        else (skip nl).bind fun sk =>
          if sk then (catRowRes ln delim [] r.currLine).bind fun x => .ok (x, num)
          else (catRowRes ln delim (intText num) r.currLine).bind fun x => .ok (x, if ln.doIt then num + 1 else num)).bind fun p =>
        let r' := r.getline
        if r'.isDone then .ok p else (catLoop ln remove skip delim fuel r' p.2).bind fun q => .ok (p.1 ++ q.1, q.2)

/-- The names of the columns of a file just opened (`src/util.rs` 1305-1335): those in the header, or made up. The made-up
header is joined with tabs but split at the delimiter. -/
def Reader.names (r : Reader) : List Bytes :=
  if r.isEmpty then [] else if r.hasHeader then headNames r.header r.mode.delim
  else headNames (fakeHeader r.currLine.len) r.mode.delim

/-- The columns of the output (`src/bin/cdx/cat_main.rs` 128-136, 155). -/
def catCols (ln : LineNumber) (names : List Bytes) : Res (List Bytes) :=
  let h : ColumnHeader := ⟨[], .fail, []⟩
  (if ln.doIt && !ln.atEnd then h.push ln.name else .ok h).bind fun h => (h.pushAll names).bind fun h =>
    (if ln.doIt && ln.atEnd then h.push ln.name else .ok h).bind fun h => .ok h.cols

/-- The header (`src/bin/cdx/cat_main.rs` 153-161) and the new state of the checker. -/
def catHeader (nameOk : Bytes → Bool) (ln : LineNumber) (chk : HeaderChecker) (r : Reader) :
    Res (HeaderChecker × Bytes) :=
  (catCols ln r.names).bind fun cols => (if r.hasHeader then columnHead cols else .ok []).bind fun head =>
    match chk.check nameOk head with
    | Option.none => .err
    | some (chk', b) => .ok (chk', if b then head else [])

/-- The loop over the files (`src/bin/cdx/cat_main.rs` 147-178). A file with nothing but a header ends it. -/
def catSlow (nameOk : Bytes → Bool) (m : TextMode) (ln : LineNumber) (remove skip : Bytes → Res Bool) :
    HeaderChecker → Int → List Bytes → Res Bytes
  | _, _, [] => .ok []
  | chk, num, f :: fs =>
    let r := Reader.newOpenWith f 1 m
    if r.isEmpty then catSlow nameOk m ln remove skip chk num fs
    else (catHeader nameOk ln chk r).bind fun h =>
      if r.isDone then .ok h.2
      else (catLoop ln remove skip m.delim (r.file.length + 1) (r.setSplit false) num).bind fun p =>
        (catSlow nameOk m ln remove skip h.1 p.2 fs).bind fun out => .ok (h.2 ++ p.1 ++ out)

end Cdx
