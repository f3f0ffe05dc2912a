import Verif.Model.Cgrep

/-!
The `uniq` command without aggregation, `/repo/src/bin/cdx/uniq_main.rs`.

Simplifications. Comparators are given with their columns looked up. The header is written in the default text mode. The
delimiter put between count and line is below 128 (`delim as char` is written as UTF-8).
-/

namespace Cdx

/-- `CountPos` (`src/bin/cdx/uniq_main.rs` 19-24). -/
inductive CountPos | none | begin | stop
deriving DecidableEq, Repr

/-- `Which` (`src/bin/cdx/uniq_main.rs` 31-37). -/
inductive Which | first | last | min | max
deriving DecidableEq, Repr

/-- `Count` (`src/bin/cdx/uniq_main.rs` 43-49). -/
structure Count where
  name : Bytes
  pos : CountPos
  which : Which
  comp : LineComp

/-- `chomp` (`src/bin/cdx/uniq_main.rs` 51-59). -/
def chompLine (x : Bytes) : Bytes := if x.getLast? = some NL then x.dropLast else x

/-- `Count::write` (`src/bin/cdx/uniq_main.rs` 65-80). -/
def Count.write (c : Count) (num : Nat) (line : Bytes) (delim : UInt8) : Bytes :=
  match c.pos with
  | .none => line
  | .begin => decText num ++ delim :: line
  | .stop => chompLine line ++ delim :: decText num ++ [NL]

/-- `Count::assign` (`src/bin/cdx/uniq_main.rs` 134-149). -/
def Count.assign (toF64 : Bytes → F64) (c : Count) (tmp new : TextLine) : TextLine :=
  match c.which with
  | .first => tmp
  | .last => tmp.assign new
  | .min => if c.comp.compCols toF64 tmp new = .gt then tmp.assign new else tmp
  | .max => if c.comp.compCols toF64 tmp new = .lt then tmp.assign new else tmp

/-- `need_split` of `LineComp` (`src/comp.rs` 343-346) and of each `LineCompare` (90-92, 438-440). -/
def LineComp.needSplit (c : LineComp) : Bool :=
  match c.kind with
  | .whole _ => false
  | _ => true

/-- `need_split` of `LineCompList` (`src/comp.rs` 1388-1396). -/
def needSplit (cs : List LineComp) : Bool := cs.any (·.needSplit)

/-- `Reader::do_split` (`src/util.rs` 1513-1516). -/
def Reader.setSplit (r : Reader) (b : Bool) : Reader := { r with doSplit := b }

/-- The loop for the last line of each run (`src/bin/cdx/uniq_main.rs` 252-264); `none` is a panic. The first argument bounds
the number of lines still to be read. -/
def uniqLast (eq : TextLine → TextLine → Bool) (c : Count) : Nat → Reader → Nat → Option Bytes
  | 0, _, _ => Option.none
  | fuel + 1, r, num =>
    let r' := r.getline
    (r'.prevLine 1).bind fun prev =>
      if r'.isDone then some (c.write num prev.text r.mode.delim)
      else if eq prev r'.currLine then uniqLast eq c fuel r' (num + 1)
      else (uniqLast eq c fuel r' 1).map fun out => c.write num prev.text r.mode.delim ++ out

/-- The loop for the first line of each run, not counted (`src/bin/cdx/uniq_main.rs` 267-274). -/
def uniqFirst (eq : TextLine → TextLine → Bool) : Nat → Reader → Option Bytes
  | 0, _ => Option.none
  | fuel + 1, r =>
    let r' := r.getline
    (r'.prevLine 1).bind fun prev =>
      if r'.isDone then some []
      else if eq prev r'.currLine then uniqFirst eq fuel r'
      else (uniqFirst eq fuel r').map fun out => r'.writeCurr ++ out

/-- The loop that keeps a line (`src/bin/cdx/uniq_main.rs` 277-290). -/
def uniqKeep (toF64 : Bytes → F64) (eq : TextLine → TextLine → Bool) (c : Count) :
    Nat → Reader → TextLine → Nat → Option Bytes
  | 0, _, _, _ => Option.none
  | fuel + 1, r, tmp, num =>
    let r' := r.getline
    (r'.prevLine 1).bind fun prev =>
      if r'.isDone then some (c.write num tmp.text r.mode.delim)
      else if eq prev r'.currLine then uniqKeep toF64 eq c fuel r' (c.assign toF64 tmp r'.currLine) (num + 1)
      else (uniqKeep toF64 eq c fuel r' (tmp.assign r'.currLine) 1).map fun out =>
        c.write num tmp.text r.mode.delim ++ out

/-- What is written for the lines (`src/bin/cdx/uniq_main.rs` 232-233, 252-291), the reader being on the first. -/
def uniqLines (toF64 : Bytes → F64) (cs : List LineComp) (c : Count) (r : Reader) : Option Bytes :=
  let r := r.setSplit (needSplit cs)
  let fuel := r.file.length + 1
  if c.which = .last then uniqLast (equalColsList toF64 cs) c fuel r 1
  else if c.which = .first ∧ c.pos = .none then
    (uniqFirst (equalColsList toF64 cs) fuel r).map fun out => r.writeCurr ++ out
  else uniqKeep toF64 (equalColsList toF64 cs) c fuel r r.currLine 1

/-- The header (`src/bin/cdx/uniq_main.rs` 213-227). -/
def uniqHead (c : Count) (names : List Bytes) : Res Bytes :=
  let h : ColumnHeader := ⟨[], .fail, []⟩
  (if c.pos = .begin then h.push c.name else .ok h).bind fun h => (h.pushAll names).bind fun h =>
    (if c.pos = .stop then h.push c.name else .ok h).bind fun h => columnHead h.cols

/-- `uniq` without aggregation (`src/bin/cdx/uniq_main.rs` 190-196, 212-233, 252-293) on the content of its file. -/
def uniqCmd (toF64 : Bytes → F64) (m : TextMode) (cs : List LineComp) (c : Count) (content : Bytes) : Res Bytes :=
  let r := (Reader.newWith 1 m).open_ content
  if r.isEmpty then .ok []
  else (if r.hasHeader then uniqHead c (headNames r.header m.delim) else .ok []).bind fun head =>
    if r.isDone then .ok head
    else match uniqLines toF64 cs c r with
      | Option.none => .panic
      | some out => .ok (head ++ out)

end Cdx
