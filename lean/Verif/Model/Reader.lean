import Verif.Model.TextLine

/-!
Reading lines and the `Reader` with lookback.
Models `/repo/src/util.rs` 375-450, 1293-1336 and 1481-1684.
-/

namespace Cdx

/-- `BufRead::read_until` (std), used at `src/util.rs` 426 and 445: bytes up to and including the
first `b`, and what remains. The number of bytes read is the length of the first component. -/
def readUntil (b : UInt8) : Bytes → Bytes × Bytes
  | [] => ([], [])
  | x :: xs => if x = b then ([x], xs) else
      let r := readUntil b xs
      (x :: r.1, r.2)

/-- `ensure_eof` (`src/util.rs` 378-384). The code indexes `line[line.len()-1]`; it is only called with
a non-empty line. -/
def ensureEof (eol : UInt8) (line : Bytes) : Bytes :=
  if line.getLast? = some eol then line else line ++ [eol]

/-- Toggling of `within` over the newly read bytes (`src/util.rs` 436-440). -/
def toggle (within : Bool) (chunk : Bytes) : Bool :=
  chunk.foldl (fun w ch => if ch = QUOTE then !w else w) within

/-- The loop of `read_line` in quote mode (`src/util.rs` 433-449). `line` is what was read so far,
`chunk` its part not yet examined for quotes. Each round reads at least one byte or stops, so
`fuel = rest.length + 1` is enough (`Lemmas/Reader.lean`); running out of fuel is unreachable. -/
def readQuoteLoop (eol : UInt8) : Nat → Bool → Bytes → Bytes → Bytes → Bytes × Bytes
  | 0, _, line, _, rest => (line, rest)
  | fuel + 1, within, line, chunk, rest =>
    let w := toggle within chunk
    if w = false then (ensureEof eol line, rest)
    else
      let r := readUntil eol rest
      if r.1 = [] then (ensureEof eol line, rest)
      else readQuoteLoop eol fuel w (line ++ r.1) r.1 r.2

/-- `TextFileMode::read_line` (`src/util.rs` 423-450) on the unread bytes of a file. `none` is the
answer `true` (no bytes read); otherwise the line and the bytes still unread. Read errors are not
modelled. -/
def readLine (mode : QuoteMode) (eol : UInt8) (file : Bytes) : Option (Bytes × Bytes) :=
  let r := readUntil eol file
  if r.1 = [] then none
  else if mode ≠ .quote then some (ensureEof eol r.1, r.2)
  else some (readQuoteLoop eol (r.2.length + 1) false r.1 r.1 r.2)

/-- Reading lines until end of file, the pattern of every main loop (e.g. `src/bin/cdx/cut_main.rs` 56-61). `fuel`
bounds the number of lines; `file.length` is enough because each line consumes a byte. -/
def readLinesFuel (mode : QuoteMode) (eol : UInt8) : Nat → Bytes → List Bytes
  | 0, _ => []
  | fuel + 1, file =>
    match readLine mode eol file with
    | none => []
    | some (l, rest) => l :: readLinesFuel mode eol fuel rest

/-- All lines of a file, by the loop of e.g. `src/bin/cdx/cut_main.rs` 56-61. -/
def readLines (mode : QuoteMode) (eol : UInt8) (file : Bytes) : List Bytes :=
  readLinesFuel mode eol file.length file

/-- `HeadMode` (`src/util.rs`, used at 395-420). -/
inductive HeadMode | yes | no | maybe | skip | cdx
deriving DecidableEq, Repr

/-- `TextFileMode` (`src/util.rs` 248-263). -/
structure TextMode where
  head : HeadMode
  col : QuoteMode
  delim : UInt8
  eol : UInt8
  repl : UInt8
deriving DecidableEq, Repr

/-- `TextFileMode::default` (`src/util.rs` 264-274). -/
def TextMode.default : TextMode := ⟨.maybe, .plain, TAB, NL, SP⟩

/-- `b" CDX"` (`src/util.rs` 1889) -/
def cdxTag : Bytes := [32, 67, 68, 88]

/-- `is_cdx` (`src/util.rs` 1885-1891). -/
def isCdx (data : Bytes) : Bool := cdxTag.isPrefixOf data

/-- `TextFileMode::read_header` (`src/util.rs` 394-422): `none` when the file is empty (or, in Skip
mode, has only a header), otherwise the header text (empty if there is none) and the unread bytes.
The UTF-8 check of `read_string` is not modelled. -/
def readHeader (m : TextMode) (file : Bytes) : Option (Bytes × Bytes) :=
  if file = [] then none
  else match m.head with
    | .yes | .cdx => readLine m.col m.eol file
    | .no => some ([], file)
    | .maybe => if isCdx file then readLine m.col m.eol file else some ([], file)
    | .skip =>
      let rest := if isCdx file then ((readLine m.col m.eol file).map (·.2)).getD file else file
      if rest = [] then none else some ([], rest)

/-- `Reader` (`src/util.rs` 1481-1489) with `InfileContext` (1264-1274) and `FileLocData` (1337-1346)
inlined. The header's column names are not modelled here. -/
structure Reader where
  mode : TextMode
  file : Bytes
  lines : List TextLine
  header : Bytes
  hasHeader : Bool
  isDone : Bool
  isEmpty : Bool
  doSplit : Bool
  curr : Nat
  locBytes : Nat
  locLine : Nat
deriving DecidableEq, Repr

/-- `Reader::new_with` (`src/util.rs` 1517-1530): `lookback + 1` empty lines. -/
def Reader.newWith (lookback : Nat) (m : TextMode) : Reader :=
  { mode := m, file := [], lines := List.replicate (lookback + 1) ⟨[], [], []⟩, header := [],
    hasHeader := false, isDone := true, isEmpty := true, doSplit := true, curr := 0,
    locBytes := 0, locLine := 0 }

/-- `InfileContext::read_header` (`src/util.rs` 1305-1335) as called by `Reader::open`
(1588-1592) on a file with content `file`: reads the header, then the first line into `lines[0]` and
splits it. -/
def Reader.open_ (r : Reader) (file : Bytes) : Reader :=
  match readHeader r.mode file with
  | none => { r with isEmpty := true, file := [] }
  | some (h, rest) =>
    let r := { r with isEmpty := false, header := h, hasHeader := !h.isEmpty }
    match readLine r.mode.col r.mode.eol rest with
    | none => { r with isDone := true, file := rest, lines := r.lines.modify 0 fun l => { l with line := [] } }
    | some (l, rest) =>
      { r with isDone := false, file := rest,
               lines := r.lines.modify 0 fun t =>
                 ({ t with line := l } : TextLine).split r.mode.col r.mode.delim }

/-- `Reader::new_open_with` (`src/util.rs` 1539-1560): as `new_with` and `open`, and then the location
is set. -/
def Reader.newOpenWith (file : Bytes) (lookback : Nat) (m : TextMode) : Reader :=
  let r := (Reader.newWith lookback m).open_ file
  { r with locLine := 1, locBytes := if r.hasHeader then r.header.length else 0 }

/-- `Reader::curr_line`/`curr` (`src/util.rs` 1635-1648). `curr` is always a valid index. -/
def Reader.currLine (r : Reader) : TextLine := r.lines.getD r.curr ⟨[], [], []⟩

/-- `Reader::getline` with `incr` (`src/util.rs` 1613-1634). Returns the new reader; the answer is its
`isDone`. At end of file `read_line` has already cleared the line buffer it was given. -/
def Reader.getline (r : Reader) : Reader :=
  let bytes := r.locBytes + r.currLine.line.length
  let curr := if r.curr + 1 ≥ r.lines.length then 0 else r.curr + 1
  let r := { r with locBytes := bytes, locLine := r.locLine + 1, curr := curr }
  match readLine r.mode.col r.mode.eol r.file with
  | none => { r with isDone := true, lines := r.lines.modify curr fun l => { l with line := [] } }
  | some (l, rest) =>
    { r with file := rest,
             lines := r.lines.modify curr fun t =>
               if r.doSplit then ({ t with line := l } : TextLine).split r.mode.col r.mode.delim
               else { t with line := l } }

/-- `n` calls of `getline` (`src/util.rs` 1621-1634). -/
def Reader.getlines : Nat → Reader → Reader
  | 0, r => r
  | n + 1, r => (Reader.getlines n r).getline

/-- `Reader::prev_line` (`src/util.rs` 1649-1658). `none` is the panic for an index out of range (a
lookback larger than the window, or the subtraction underflow). -/
def Reader.prevLine (r : Reader) (k : Nat) : Option TextLine :=
  if k ≤ r.curr then r.lines[r.curr - k]?
  else if k ≤ r.curr + r.lines.length then r.lines[r.curr + r.lines.length - k]?
  else none

/-- `Reader::write_curr` (`src/util.rs` 1659-1663): writes the `line` field. -/
def Reader.writeCurr (r : Reader) : Bytes := r.currLine.line

end Cdx
