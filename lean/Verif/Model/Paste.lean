import Verif.Model.Verify

/-!
`ScopedValues`, `/repo/src/column.rs` 379-525, and the `paste` command, `/repo/src/bin/cdx/paste_main.rs`.

Simplifications. Rows and default values are written with tabs, as in the code, and the header in the default text mode. The text
of the error about files of different lengths is left out.
-/

namespace Cdx

/-! ## Values for columns -/

/-- `ScopedValue` (`src/column.rs` 381-384). -/
structure ScopedValue where
  cols : ColumnSet
  value : Bytes
deriving DecidableEq, Repr

/-- The loop of `ScopedValue::new` (`src/column.rs` 406-413): the value and the text after the delimiter, if there is one. -/
def scopedLoop (del : UInt8) : (value spec : Bytes) → Bytes × Option Bytes
  | value, [] => (value, none)
  | value, ch :: spec => if ch = del then (value, some spec) else scopedLoop del (value ++ [ch]) spec

/-- `ScopedValue::new` (`src/column.rs` 388-415). What `skip_first` returns is not used, so a delimiter at the start is put into
the value and then found again by the loop. -/
def ScopedValue.new (transOk : Bytes → Bool) (spec : Bytes) (del : UInt8) : Res ScopedValue :=
  match spec with
  | [] => .ok ⟨.empty, []⟩
  | ch :: _ =>
    match scopedLoop del (if ch = del then [del] else []) spec with
    | (value, none) => .ok ⟨.empty, value⟩
    | (value, some cols) => (ColumnSet.empty.add transOk cols false).bind fun c => .ok ⟨c, value⟩

/-- `strings[j] = value` for each column (`src/column.rs` 459-463); a column that does not exist panics. -/
def setStrings (value : Bytes) : List OutCol → List Bytes → Res (List Bytes)
  | [], strings => .ok strings
  | c :: cs, strings => if c.num < strings.length then setStrings value cs (strings.set c.num value) else .panic

/-- The loop of `ScopedValues::lookup` (`src/column.rs` 457-464). -/
def lookupValues (mk : Bytes → Res (Bytes → Bool)) (names : List Bytes) :
    List ScopedValue → List Bytes → Res (List Bytes)
  | [], strings => .ok strings
  | x :: xs, strings => (x.cols.lookup mk names).bind fun cols => (setStrings x.value cols strings).bind fun strings =>
      lookupValues mk names xs strings

/-- `ScopedValues::lookup` (`src/column.rs` 452-466): the value of each column. -/
def scopedLookup (mk : Bytes → Res (Bytes → Bool)) (dflt : Bytes) (data : List ScopedValue) (names : List Bytes) :
    Res (List Bytes) :=
  lookupValues mk names data (List.replicate names.length dflt)

/-- `ScopedValues::get` (`src/column.rs` 498-504). -/
def scopedGet (strings : List Bytes) (col : Nat) : Res Bytes :=
  match strings[col]? with
  | some s => .ok s
  | none => match strings.getLast? with
    | some s => .ok s
    | none => .panic

/-- `ScopedValues::make_ints` (`src/column.rs` 468-476). The vector that is assigned to is empty. -/
def makeInts (strings : List Bytes) : Res (List Int) := if strings = [] then .ok [] else .panic

/-! ## `paste` -/

/-- `EndMode` (`src/bin/cdx/paste_main.rs` 9-13). -/
inductive EndMode | exact | early | late
deriving DecidableEq, Repr

/-- An open file and its columns in the output (`src/bin/cdx/paste_main.rs` 62-67, 84-88). -/
structure Pasted where
  r : Reader
  start : Nat
  stop : Nat

/-- `curr_nl` (`src/util.rs` 1562-1565). -/
def Reader.currNl (r : Reader) : Res Bytes := if r.currLine.line = [] then .panic else .ok r.currLine.line.dropLast

/-- `prev_nl` (`src/util.rs` 1568-1571). -/
def Reader.prevNl (r : Reader) (n : Nat) : Res Bytes :=
  match r.prevLine n with
  | none => .panic
  | some l => if l.line = [] then .panic else .ok l.line.dropLast

/-- The default values of a file, with tabs (`src/bin/cdx/paste_main.rs` 136-143). -/
def dfltPiece (strings : List Bytes) : (needDelim : Bool) → List Nat → Res Bytes
  | _, [] => .ok []
  | nd, j :: js => (scopedGet strings j).bind fun v => (dfltPiece strings true js).bind fun rest =>
      .ok ((if nd then [TAB] else []) ++ v ++ rest)

/-- What is written for a file (`src/bin/cdx/paste_main.rs` 132-151), the file afterwards, and the numbers of files with and
without more lines. -/
def pastePiece (useLast : Bool) (strings : List Bytes) (f : Pasted) (live dead : Nat) : Res (Bytes × Pasted × Nat × Nat) :=
  if f.r.isDone then
    (if useLast then f.r.prevNl 1 else dfltPiece strings false (List.range' f.start (f.stop - f.start))).bind fun x =>
      .ok (x, f, live, dead)
  else f.r.currNl.bind fun x =>
    let r' := f.r.getline
    if r'.isDone then
      if live = 0 then .panic else .ok (x, { f with r := r' }, live - 1, dead + 1)
    else .ok (x, { f with r := r' }, live, dead)

/-- A row (`src/bin/cdx/paste_main.rs` 126-153). -/
def pasteRow (useLast : Bool) (strings : List Bytes) :
    (needDelim : Bool) → List Pasted → (live dead : Nat) → Res (Bytes × List Pasted × Nat × Nat)
  | _, [], live, dead => .ok ([NL], [], live, dead)
  | nd, f :: fs, live, dead => (pastePiece useLast strings f live dead).bind fun p =>
      (pasteRow useLast strings true fs p.2.2.1 p.2.2.2).bind fun q =>
        .ok ((if nd then [TAB] else []) ++ p.1 ++ q.1, p.2.1 :: q.2.1, q.2.2.1, q.2.2.2)

/-- The loop over the rows (`src/bin/cdx/paste_main.rs` 97-154): what is written, and whether the command succeeds. The first
argument bounds the number of rows. -/
def pasteLoop (mode : EndMode) (useLast : Bool) (strings : List Bytes) :
    Nat → List Pasted → (live dead : Nat) → Res (Bytes × Bool)
  | 0, _, _, _ => .panic
  | fuel + 1, fs, live, dead =>
    if live = 0 then .ok ([], true)
    else if mode = .exact ∧ dead ≠ 0 then .ok ([], false)
    else if mode = .early ∧ dead ≠ 0 then .ok ([], true)
    else (pasteRow useLast strings false fs live dead).bind fun p =>
      (pasteLoop mode useLast strings fuel p.2.1 p.2.2.1 p.2.2.2).bind fun q => .ok (p.1 ++ q.1, q.2)

/-- `push_all_unchecked` (`src/column.rs` 148-152). -/
def ColumnHeader.pushUnchecked (h : ColumnHeader) (names : List Bytes) : ColumnHeader := { h with cols := h.cols ++ names }

/-- The state while the files are opened (`src/bin/cdx/paste_main.rs` 62-67). -/
structure PasteOpen where
  fds : List Pasted
  live : Nat
  dead : Nat
  doHeader : Bool
  cols : Nat
  header : ColumnHeader

/-- Opening the files (`src/bin/cdx/paste_main.rs` 68-90). -/
def pasteOpen (m : TextMode) : PasteOpen → List Bytes → Res PasteOpen
  | s, [] => .ok s
  | s, f :: fs =>
    let r := (Reader.newWith 1 m).open_ f
    let doHeader := s.doHeader && r.hasHeader
    (if doHeader then s.header.pushAll r.names else .ok (s.header.pushUnchecked r.names)).bind fun h =>
      let n := r.names.length
      let live := if r.isDone then s.live else s.live + 1
      let dead := if r.isDone then s.dead + 1 else s.dead
      pasteOpen m ⟨s.fds ++ [⟨r, s.cols, s.cols + n⟩], live, dead, doHeader, s.cols + n, h⟩ fs

/-- `paste` (`src/bin/cdx/paste_main.rs` 62-155): what is written, and whether the command succeeds. `sloppy` says that renames need not
be used (`check_rename`, `src/column.rs` 170-181). -/
def pasteCmd (m : TextMode) (mk : Bytes → Res (Bytes → Bool)) (mode : EndMode) (useLast : Bool) (data : List ScopedValue)
    (header : ColumnHeader) (files : List Bytes) (sloppy : Bool := false) : Res (Bytes × Bool) :=
  (pasteOpen m ⟨[], 0, 0, true, 0, header⟩ files).bind fun s =>
    if sloppy = false ∧ s.header.rename ≠ [] then .err
    else (if s.doHeader then columnHead s.header.cols else .ok []).bind fun head =>
      (scopedLookup mk [] data s.header.cols).bind fun strings =>
        (pasteLoop mode useLast strings ((files.map List.length).sum + 1) s.fds s.live s.dead).bind fun q =>
          .ok (head ++ q.1, q.2)

end Cdx
