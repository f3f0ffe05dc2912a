import Verif.Model.Basic

/-!
Columns of a line: splitting, writing and single-column extraction.
Models `/repo/src/util.rs` 470-687 and `/repo/src/column.rs` 89-103.
-/

namespace Cdx

/-- `FakeSlice` (`src/util.rs` 469-474): offsets into a line. `u32` is modelled by `Nat`
(lines shorter than 2^32 bytes). -/
structure Slice where
  beg : Nat
  fin : Nat
deriving DecidableEq, Repr

/-- `FakeSlice::get` (`src/util.rs` 504-508), `&data[begin..end]`. In Rust this panics when the
range is not inside `data`; every slice produced by the splitters below is inside (`Slice.Within`,
proved in `Lemmas/TextLine.lean`), so `drop`/`take` never truncates there. -/
def Slice.get (s : Slice) (data : Bytes) : Bytes :=
  (data.drop s.beg).take (s.fin - s.beg)

/-- The precondition under which `&data[begin..end]` (`src/util.rs` 503-506) does not panic. -/
def Slice.Within (s : Slice) (data : Bytes) : Prop :=
  s.beg ≤ s.fin ∧ s.fin ≤ data.length

/-- The loop of `split_plain` (`src/util.rs` 567-576) over the remaining bytes; returns the slices
pushed and the final `begin`, `end`. -/
def splitPlainLoop (delim : UInt8) : Bytes → Nat → Nat → List Slice → List Slice × Nat × Nat
  | [], b, e, parts => (parts, b, e)
  | ch :: rest, b, e, parts =>
    if ch = delim then splitPlainLoop delim rest (e + 1) (e + 1) (parts ++ [⟨b, e⟩])
    else splitPlainLoop delim rest b (e + 1) parts

/-- `split_plain` (`src/util.rs` 565-584). `line[end-1]` cannot be out of range because
`end = line.len()` and `begin != end`. -/
def splitPlain (line : Bytes) (delim : UInt8) : List Slice :=
  let (parts, b, e) := splitPlainLoop delim line 0 0 []
  if b ≠ e then
    if line[e - 1]? = some NL then parts ++ [⟨b, e - 1⟩] else parts ++ [⟨b, e⟩]
  else parts

/-- `unslash` (`src/util.rs` 587-595). -/
def unslash (ch : UInt8) : UInt8 :=
  if ch = CH_n then NL else if ch = CH_r then CR else if ch = CH_t then TAB else ch

/-- `enslash` (`src/util.rs` 597-606). -/
def enslash (ch : UInt8) : UInt8 :=
  if ch = NL then CH_n else if ch = CR then CH_r else if ch = TAB then CH_t else ch

/-- The newline-stripping loop of `split_backslash`/`split_quotes` (`src/util.rs` 612-615 and
648-651): removes every trailing `'\n'`. -/
def stripNL (line : Bytes) : Bytes := (line.reverse.dropWhile (· == NL)).reverse

/-- State of the loop of `split_backslash` (`src/util.rs` 616-637). -/
structure BsState where
  tmp : Bytes
  parts : List Slice
  beg : Nat
  fin : Nat
  slash : Bool
deriving DecidableEq, Repr

/-- One iteration of the loop of `split_backslash` (`src/util.rs` 619-637). -/
def bsStep (delim : UInt8) (s : BsState) (ch : UInt8) : BsState :=
  if s.slash then
    { s with tmp := s.tmp ++ [unslash ch], fin := s.fin + 1, slash := false }
  else if ch = BSLASH then { s with slash := true }
  else if ch = delim then
    { tmp := s.tmp ++ [ch], parts := s.parts ++ [⟨s.beg, s.fin⟩],
      beg := s.fin + 1, fin := s.fin + 1, slash := false }
  else { s with tmp := s.tmp ++ [ch], fin := s.fin + 1, slash := false }

/-- A decoded line: `TextLine` (`src/util.rs` 706-714). `orig` is the undecoded line, if any
decoding was done. -/
structure TextLine where
  line : Bytes
  parts : List Slice
  orig : Bytes
deriving DecidableEq, Repr

/-- `split_backslash` (`src/util.rs` 609-642); returns the decoded text and the slices into it. -/
def splitBackslash (line : Bytes) (delim : UInt8) : Bytes × List Slice :=
  let s := (stripNL line).foldl (bsStep delim) ⟨[], [], 0, 0, false⟩
  (s.tmp, if s.beg ≠ s.fin then s.parts ++ [⟨s.beg, s.fin⟩] else s.parts)

/-- State of the loop of `split_quotes` (`src/util.rs` 652-682). -/
structure QState where
  tmp : Bytes
  parts : List Slice
  beg : Nat
  fin : Nat
  lastQuote : Bool
  inQuote : Bool
deriving DecidableEq, Repr

/-- The part of the loop body of `split_quotes` after the quote handling (`src/util.rs` 676-681). -/
def qPush (delim : UInt8) (s : QState) (ch : UInt8) : QState :=
  let s' := { s with tmp := s.tmp ++ [ch] }
  if ch = delim then
    { s' with parts := s'.parts ++ [⟨s'.beg, s'.fin⟩], beg := s'.fin + 1, fin := s'.fin + 1 }
  else { s' with fin := s'.fin + 1 }

/-- One iteration of the loop of `split_quotes` (`src/util.rs` 656-682). Note that the code never
resets `last_was_quote`. -/
def qStep (delim : UInt8) (s : QState) (ch : UInt8) : QState :=
  if s.inQuote then
    if s.lastQuote then
      if ch = QUOTE then { s with tmp := s.tmp ++ [ch], fin := s.fin + 1 }
      else qPush delim { s with inQuote := false } ch
    else if ch = QUOTE then { s with lastQuote := true }
    else qPush delim s ch
  else if ch = QUOTE then { s with inQuote := true, lastQuote := true }
  else qPush delim s ch

/-- `split_quotes` (`src/util.rs` 645-687). -/
def splitQuotes (line : Bytes) (delim : UInt8) : Bytes × List Slice :=
  let s := (stripNL line).foldl (qStep delim) ⟨[], [], 0, 0, false, false⟩
  (s.tmp, if s.beg ≠ s.fin then s.parts ++ [⟨s.beg, s.fin⟩] else s.parts)

/-- `QuoteMode` (`src/util.rs`, used at 346-371). -/
inductive QuoteMode | plain | backslash | quote
deriving DecidableEq, Repr

/-- `TextFileMode::split` (`src/util.rs` 355-370) applied to a line whose `line` field holds the raw
text. -/
def TextLine.split (mode : QuoteMode) (delim : UInt8) (l : TextLine) : TextLine :=
  match mode with
  | .plain => { l with parts := splitPlain l.line delim }
  | .backslash =>
    let r := splitBackslash l.line delim
    { line := r.1, parts := r.2, orig := l.line }
  | .quote =>
    let r := splitQuotes l.line delim
    { line := r.1, parts := r.2, orig := l.line }

/-- `TextLine::get` (`src/util.rs` 838-846): empty when the index is too big. -/
def TextLine.get (l : TextLine) (i : Nat) : Bytes :=
  match l.parts[i]? with
  | none => []
  | some s => s.get l.line

/-- `TextLine::len` (`src/util.rs` 823-827). -/
def TextLine.len (l : TextLine) : Nat := l.parts.length

/-- `TextLine::vec`/`iter` (`src/util.rs` 865-869 and 987-999): all columns. -/
def TextLine.vec (l : TextLine) : List Bytes := l.parts.map (·.get l.line)

/-- `TextLine::line` (`src/util.rs` 776-784): the text that is written for the line. -/
def TextLine.text (l : TextLine) : Bytes := if l.orig = [] then l.line else l.orig

/-- `TextLine::assign` (`src/util.rs` 794-800): copies `line` and `parts`, not `orig`. -/
def TextLine.assign (dst src : TextLine) : TextLine :=
  { dst with line := src.line, parts := src.parts }

/-- A fresh line holding raw text, as after `read_line` into a new `TextLine`
(`src/util.rs` 847-860 and 424-450). -/
def TextLine.ofRaw (raw : Bytes) : TextLine := ⟨raw, [], []⟩

/-- `write_plain` (`src/util.rs` 525-534). -/
def writePlain (tab eol repl : UInt8) (buf : Bytes) : Bytes :=
  buf.flatMap fun ch => if ch = tab ∨ ch = eol then [repl] else [ch]

/-- `write_backslash` (`src/util.rs` 536-546). -/
def writeBackslash (tab eol : UInt8) (buf : Bytes) : Bytes :=
  buf.flatMap fun ch =>
    if ch = tab ∨ ch = eol ∨ ch = BSLASH then [BSLASH, enslash ch] else [ch]

/-- The loop of `write_quotes` (`src/util.rs` 548-562) with its flag `made_quote`. -/
def writeQuotesLoop (tab eol : UInt8) : Bool → Bytes → Bytes
  | _, [] => []
  | made, ch :: rest =>
    if ch = QUOTE then QUOTE :: QUOTE :: writeQuotesLoop tab eol made rest
    else if made = false ∧ (ch = tab ∨ ch = eol) then
      QUOTE :: ch :: writeQuotesLoop tab eol true rest
    else ch :: writeQuotesLoop tab eol made rest

/-- `write_quotes` (`src/util.rs` 548-562). -/
def writeQuotes (tab eol : UInt8) (buf : Bytes) : Bytes := writeQuotesLoop tab eol false buf

/-- `TextFileMode::write` (`src/util.rs` 345-354). -/
def writeCol (mode : QuoteMode) (delim eol repl : UInt8) (buf : Bytes) : Bytes :=
  match mode with
  | .plain => writePlain delim eol repl buf
  | .backslash => writeBackslash delim eol buf
  | .quote => writeQuotes delim eol buf

/-- A row as the writers emit it: columns written with `TextFileMode::write`, the delimiter between
them, a terminator at the end (the pattern of `ColumnSet::write` and `Writer::write`,
`src/column.rs`). -/
def writeRow (mode : QuoteMode) (delim eol repl : UInt8) (cols : List Bytes) : Bytes :=
  List.intercalate [delim] (cols.map (writeCol mode delim eol repl)) ++ [eol]

/-- `data.split(|ch| *ch == delim)` of the Rust slice API, used by `get_col`
(`src/column.rs` 92): the list of maximal delimiter-free pieces, at least one. -/
def sliceSplit (delim : UInt8) : Bytes → List Bytes
  | [] => [[]]
  | x :: xs =>
    if x = delim then [] :: sliceSplit delim xs
    else match sliceSplit delim xs with
      | [] => [[x]]
      | h :: t => (x :: h) :: t

/-- `get_col` (`src/column.rs` 91-103). -/
def getCol (data : Bytes) (col : Nat) (delim : UInt8) : Bytes :=
  match (sliceSplit delim data)[col]? with
  | none => []
  | some s => if s ≠ [] ∧ s.getLast? = some NL then s.dropLast else s

/-- The loop of `unescape_vec` (`src/util.rs` 1217-1239). -/
def unescapeLoop : Bool → Bytes → Bytes
  | true, [] => [BSLASH]
  | false, [] => []
  | true, x :: xs =>
    (if x = CH_n then NL else if x = CH_t then TAB else if x = CH_s then SP else x)
      :: unescapeLoop false xs
  | false, x :: xs =>
    if x = BSLASH then unescapeLoop true xs else x :: unescapeLoop false xs

/-- `unescape_vec` (`src/util.rs` 1217-1239), applied to what follows `<<` in a file name
(`get_reader`, 1250-1251). -/
def unescapeVec (data : Bytes) : Bytes := unescapeLoop false data

/-- `chomp` (`src/util.rs` 2411-2425): while the last byte is CR or LF, drop it. -/
def chomp (x : Bytes) : Bytes := (x.reverse.dropWhile (fun c => c == NL || c == CR)).reverse

/-- `FakeSlice::get_safe` (`src/util.rs` 508-512). -/
def Slice.getSafe (s : Slice) (data : Bytes) : Bytes :=
  let b := min s.beg data.length
  let e := min s.fin data.length
  (data.drop b).take (e - b)

end Cdx
