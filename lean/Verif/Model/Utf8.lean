import Verif.Model.Header
import Verif.Model.Column
import Verif.Spec.Utf8

/-!
# Strings of headers and names

What the code does with `str`: reading a header as a string, the columns of a header, made-up headers, and names of columns. The
decoder of std is here too: it is what `from_utf8` and `from_utf8_lossy` do. A character is its code; the classes of Unicode
(`is_alphabetic`, `is_alphanumeric`) are parameters, a character is written as in `Verif/Spec/Utf8.lean`.
-/

namespace Cdx

/-! ## Decoding -/

/-- Whether a second byte may follow a first one of three (`Utf8Chunks::next` of std, for `src/util.rs` 391). -/
def second3 (a b : UInt8) : Bool :=
  if a = 224 then 160 ≤ b && b ≤ 191 else if a = 237 then 128 ≤ b && b ≤ 159 else isCont b

/-- Whether a second byte may follow a first one of four (`Utf8Chunks::next` of std, for `src/util.rs` 391). -/
def second4 (a b : UInt8) : Bool :=
  if a = 240 then 144 ≤ b && b ≤ 191 else if a = 244 then 128 ≤ b && b ≤ 143 else isCont b

/-- One step of decoding (`Utf8Chunks::next` of std, for `src/util.rs` 391 and `src/trans.rs` 145): the character at the front or
`none` for a piece that is not one, and the bytes after it. -/
def utf8Next (a : UInt8) (r : Bytes) : Option Nat × Bytes :=
  if a.toNat < 128 then (some a.toNat, r)
  else if a.toNat < 194 then (none, r)
  else if a.toNat < 224 then match r with
    | [] => (none, [])
    | b :: r1 => if isCont b then (some ((a.toNat - 192) * 64 + (b.toNat - 128)), r1) else (none, r)
  else if a.toNat < 240 then match r with
    | [] => (none, [])
    | b :: r1 => if second3 a b then match r1 with
        | [] => (none, [])
        | c :: r2 => if isCont c then (some ((a.toNat - 224) * 4096 + (b.toNat - 128) * 64 + (c.toNat - 128)), r2) else (none, r1)
      else (none, r)
  else if a.toNat < 245 then match r with
    | [] => (none, [])
    | b :: r1 => if second4 a b then match r1 with
        | [] => (none, [])
        | c :: r2 => if isCont c then match r2 with
            | [] => (none, [])
            | d :: r3 => if isCont d then
                (some ((a.toNat - 240) * 262144 + (b.toNat - 128) * 4096 + (c.toNat - 128) * 64 + (d.toNat - 128)), r3)
              else (none, r2)
          else (none, r1)
      else (none, r)
  else (none, r)

/-- The pieces of a text, at most `fuel` (`Utf8Chunks` of std, for `src/util.rs` 391). -/
def utf8Pieces : (fuel : Nat) → Bytes → List (Option Nat)
  | 0, _ => []
  | _, [] => []
  | fuel + 1, a :: r => (utf8Next a r).1 :: utf8Pieces fuel (utf8Next a r).2

/-- The pieces of a text: characters, and `none` for what is none (`Utf8Chunks` of std, for `src/util.rs` 391). -/
def decodeUtf8 (b : Bytes) : List (Option Nat) := utf8Pieces b.length b

/-- `str::from_utf8` of std (`src/util.rs` 391 and 1914). -/
def fromUtf8 (b : Bytes) : Res Bytes := if (decodeUtf8 b).all Option.isSome then .ok b else .err

/-- `String::from_utf8_lossy(…).chars()` (`src/trans.rs` 145, `src/agg.rs` 254): a bad piece becomes U+FFFD. -/
def lossyChars (b : Bytes) : List Nat := (decodeUtf8 b).map fun o => o.getD 0xFFFD

/-- `String::from_utf8_lossy` (`src/matcher.rs` 1036). -/
def lossyText (b : Bytes) : Bytes := encChars (lossyChars b)

/-! ## Headers -/

/-- `read_string` (`src/util.rs` 386-393): `none` at the end of the file. -/
def readString (m : TextMode) (file : Bytes) : Res (Option (Bytes × Bytes)) :=
  match readLine m.col m.eol file with
  | none => .ok none
  | some (l, rest) => (fromUtf8 l).bind fun s => .ok (some (s, rest))

/-- `read_header` (`src/util.rs` 394-422) with the check of `read_string`: `none` if there is nothing to read, otherwise the header and
the bytes after it. -/
def readHeaderStr (m : TextMode) (file : Bytes) : Res (Option (Bytes × Bytes)) :=
  if file = [] then .ok none
  else match m.head with
    | .yes | .cdx => readString m file
    | .no => .ok (some ([], file))
    | .maybe => if isCdx file then readString m file else .ok (some ([], file))
    | .skip =>
      (if isCdx file then (readString m file).bind fun o => .ok ((o.map (·.2)).getD file) else .ok file).bind fun rest =>
        if rest = [] then .ok none else .ok (some ([], rest))

/-- A slice of a `str` (`src/util.rs` 925): panics outside the string and inside a character. -/
def strSlice (b : Bytes) (s e : Nat) : Res Bytes :=
  if e < s || b.length < e || cutsChar b s || cutsChar b e then .panic else .ok ((b.take e).drop s)

/-- `StringLine::get` (`src/util.rs` 919-927). -/
def strGet (line : Bytes) (parts : List Slice) (i : Nat) : Res Bytes :=
  match parts[i]? with
  | none => strSlice line 0 0
  | some p => strSlice line p.beg p.fin

/-- The loop of `vec` (`src/util.rs` 948-950) by `StringLineIter::next` (1014-1021), for the indices left. -/
def strVecLoop (line : Bytes) (parts : List Slice) : List Nat → Res (List Bytes)
  | [] => .ok []
  | i :: is => (strGet line parts i).bind fun x => (strVecLoop line parts is).bind fun xs => .ok (x :: xs)

/-- `StringLine::vec` (`src/util.rs` 948-950). -/
def strVec (line : Bytes) (parts : List Slice) : Res (List Bytes) := strVecLoop line parts (List.range parts.length)

/-- `split_head` (`src/util.rs` 372-377), the parts. -/
def splitHead (delim : UInt8) (line : Bytes) : List Slice :=
  if isCdx line then (splitPlain line delim).drop 1 else splitPlain line delim

/-- `StringLine::fake` (`src/util.rs` 890-899): a byte that is no character panics. -/
def fakeLoop (delim : UInt8) : List Nat → Bytes → Res Bytes
  | [], line => .ok line
  | i :: is, line => match fromUtf8 [delim] with
    | .ok d => fakeLoop delim is (line ++ d ++ [99] ++ decText i)
    | _ => .panic

/-- `StringLine::fake` (`src/util.rs` 890-899). -/
def fakeLine (n : Nat) (delim : UInt8) : Res Bytes := (fakeLoop delim (List.range' 1 n) cdxTag).bind fun l => .ok (l ++ [NL])

/-! ## Names -/

/-- The classes of characters of Unicode that std knows (used at `src/column.rs` 1530-1535 and `src/util.rs` 1920-1924). -/
structure CharClass where
  alpha : Nat → Bool
  alnum : Nat → Bool

/-- The loop of `get_col_name` (`src/column.rs` 1533-1540) on the characters left: those after the name. -/
def colNameRest (k : CharClass) : List Nat → List Nat
  | [] => []
  | c :: cs => if k.alnum c || c == 95 then colNameRest k cs else c :: cs

/-- `get_col_name` (`src/column.rs` 1524-1542) on the characters of a string; lengths are in bytes. -/
def colNameLen (k : CharClass) : List Nat → Nat
  | [] => 0
  | c :: cs => if k.alpha c = false then 0 else (encChars (c :: cs)).length - (encChars (colNameRest k cs)).length

/-- The test of one name in `is_valid_cdx` (`src/util.rs` 1917-1927). -/
def nameOkChars (k : CharClass) : List Nat → Bool
  | [] => false
  | c :: cs => k.alpha c && (c :: cs).all fun d => k.alnum d || d == 95

/-- The per-name test of `is_valid_cdx` (`src/util.rs` 1914-1927) on bytes. -/
def nameOkBytes (k : CharClass) (b : Bytes) : Bool := (decodeUtf8 b).all Option.isSome && nameOkChars k (lossyChars b)

/-- `split(|ch| ch == delim)` of `str` (`src/util.rs` 1916). -/
def splitChars (d : Nat) : List Nat → List (List Nat)
  | [] => [[]]
  | c :: cs => if c = d then [] :: splitChars d cs else match splitChars d cs with
    | [] => [[c]]
    | w :: ws => (c :: w) :: ws

/-- `is_valid_cdx` (`src/util.rs` 1893-1930) with the names as strings; `none` is the error. -/
def isValidCdxStr (k : CharClass) (mode : HeaderMode) (dataIn : Bytes) : Option Bool :=
  if mode = .ignore then some false
  else if isCdx dataIn = false then some false
  else if mode = .strip ∨ mode = .none then some true
  else
    let data := if dataIn.getLast? = some NL then dataIn.dropLast else dataIn
    if data.length < 6 then Option.none
    else
      let delim := data.getD 4 0
      if delim = NL ∨ isAsciiAlnum delim = true ∨ delim > 127 then Option.none
      else match fromUtf8 (data.drop 5) with
        | .ok s => if (splitChars delim.toNat (lossyChars s)).all (nameOkChars k) then some true else Option.none
        | _ => Option.none

end Cdx
