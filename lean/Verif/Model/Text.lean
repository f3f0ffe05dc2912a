import Verif.Model.TextLine

/-!
Text functions. Models `/repo/src/text.rs` 22-37, 95-113, 217-303, 535-554, 624-674,
`/repo/src/num.rs` 261-337, `/repo/src/util.rs` 476-512, 2378-2409, `/repo/src/trans.rs` 20-40 and
`/repo/src/matcher.rs` 375-438.

The `Text` trait is implemented for `str` (characters) and `[u8]` (bytes); functions that only use the
trait are modelled over an arbitrary character type.
-/

namespace Cdx

/-! ## Glob -/

/-- Outcome of the glob loop: an answer, or the panic of `skip_first` on an empty slice
(`src/text.rs` 354-357 and 535-538), or fuel exhausted (proved unreachable). -/
inductive GlobRes | yes | no | panic | noFuel
deriving DecidableEq, Repr

/-- The answer `b` of `glob` (`src/text.rs` 218). -/
def GlobRes.ofBool (b : Bool) : GlobRes := if b then .yes else .no

section
variable {α : Type} [DecidableEq α] (ce : α → α → Bool) (star : α)

/-- First loop of `glob` (`src/text.rs` 222-229): returns `none` for `return false`, otherwise the
remaining text and pattern. `ce` is `chars_equal` (pattern character first). -/
def globHead : List α → List α → Option (List α × List α)
  | [], wild => some ([], wild)
  | b :: bs, [] => some (b :: bs, [])
  | b :: bs, w :: ws =>
    if w = star then some (b :: bs, w :: ws)
    else if ce w b then globHead bs ws else none

/-- Last loop of `glob` (`src/text.rs` 255-258). -/
def globTail : List α → Bool
  | [] => true
  | w :: ws => if w = star then globTail ws else false

/-- Second loop of `glob` (`src/text.rs` 237-253) followed by the last one. -/
def globLoop : Nat → (buff wild cp mp : List α) → GlobRes
  | 0, _, _, _, _ => .noFuel
  | _ + 1, [], wild, _, _ => .ofBool (globTail star wild)
  | fuel + 1, b :: bs, wild, cp, mp =>
    match wild with
    | w :: ws =>
      if w = star then
        if ws = [] then .yes
        else globLoop fuel (b :: bs) ws bs ws
      else if ce w b then globLoop fuel bs ws cp mp
      else match cp with
        | [] => .panic
        | _ :: cs => globLoop fuel cs mp cs mp
    | [] => match cp with
        | [] => .panic
        | _ :: cs => globLoop fuel cs mp cs mp

/-- `Text::glob` (`src/text.rs` 217-259). -/
def glob (text pattern : List α) : GlobRes :=
  match globHead ce star text pattern with
  | none => .no
  | some (buff, wild) =>
    if wild = [] ∧ buff ≠ [] then .no
    else globLoop ce star ((wild.length + 1) * (buff.length + 2) * (buff.length + 2) + 1) buff wild [] []

end

/-- `u8::to_ascii_lowercase` of std (used at `src/text.rs` 553). -/
def lowerByte (c : UInt8) : UInt8 := if 65 ≤ c ∧ c ≤ 90 then c + 32 else c

/-- `to_ascii_lowercase` / `new_lower` on bytes (`src/text.rs` 593-601). -/
def lower (l : Bytes) : Bytes := l.map lowerByte

/-- `chars_equal` for bytes (`src/text.rs` 543-554); `insens` is `Case::Insens`. -/
def charsEqual (insens : Bool) (c1 c2 : UInt8) : Bool :=
  if c1 = c2 then true
  else if c1 = 63 then true
  else if insens = false then false
  else lowerByte c1 = lowerByte c2

/-- `glob` on bytes (`src/text.rs` 218-259 with the impl at 543-554). -/
def globU8 (text pattern : Bytes) (insens : Bool) : GlobRes := glob (charsEqual insens) 42 text pattern

/-! ## Brackets -/

/-- `closer` (`src/util.rs` 2378-2387). -/
def closer (ch : UInt8) : Option UInt8 :=
  if ch = 40 then some 41 else if ch = 123 then some 125 else if ch = 91 then some 93
  else if ch = 60 then some 62 else none

/-- The loop of `find_close` (`src/util.rs` 2398-2407); `i` is the position, `depth` is `i32` in the
code (texts nested deeper than `2^31` are not modelled). -/
def findCloseLoop (opn close : UInt8) : Bytes → Nat → Int → Option Nat
  | [], _, _ => none
  | x :: xs, i, depth =>
    let depth := if x = opn then depth + 1 else if x = close then depth - 1 else depth
    if depth = 0 then some (i + 1) else findCloseLoop opn close xs (i + 1) depth

/-- `find_close` (`src/util.rs` 2389-2409); `none` is an error. -/
def findClose (spec : Bytes) : Option Nat :=
  match spec with
  | [] => none
  | x :: _ => match closer x with
    | none => none
    | some c => findCloseLoop x c spec 0 0

/-! ## Cutting strings -/

/-- A byte inside a character of UTF-8, not its first (`is_char_boundary` of std, which the slices at `src/agg.rs` 745 and
`src/matcher.rs` 958 check). -/
def isCont (c : UInt8) : Bool := 128 ≤ c && c ≤ 191

/-- Whether cutting a `str` before byte `i` cuts a character, which panics (`src/agg.rs` 745 and `src/matcher.rs` 958). -/
def cutsChar (b : Bytes) (i : Nat) : Bool := (b[i]?.map isCont).getD false

/-! ## Numbers -/

/-- `P2_LETTERS` (`src/num.rs` 261) -/
def p2Letters : Bytes := [48, 75, 77, 71, 84, 80, 69, 90, 89]
/-- `P10_LETTERS` (`src/num.rs` 262) -/
def p10Letters : Bytes := [48, 107, 109, 103, 116, 112, 101, 122, 121]

/-- `usize::MAX` on a 64-bit machine (bounds `src/text.rs` 624-645). -/
def usizeMax : Nat := 2 ^ 64 - 1

/-- `P2_VALUES_U` (`src/num.rs` 263-273). `^` on integers in Rust is exclusive or. -/
def p2ValuesU : List Nat :=
  [1, 1024, Nat.xor 1024 2, Nat.xor 1024 3, Nat.xor 1024 4, Nat.xor 1024 5, Nat.xor 1024 6, usizeMax, usizeMax]
/-- `P10_VALUES_U` (`src/num.rs` 285-295) -/
def p10ValuesU : List Nat :=
  [1, 1000, Nat.xor 1000 2, Nat.xor 1000 3, Nat.xor 1000 4, Nat.xor 1000 5, Nat.xor 1000 6, usizeMax, usizeMax]
/-- `P2_VALUES_F` (`src/num.rs` 274-284), as exact numbers. -/
def p2ValuesF : List Nat :=
  [1, 1024, 1024 * 1024, 1024 * 1024 * 1024, 1024 * 1024 * 1024 * 1024,
   1024 * 1024 * 1024 * 1024 * 1024, 1024 * 1024 * 1024 * 1024 * 1024 * 1024,
   1024 * 1024 * 1024 * 1024 * 1024 * 1024 * 1024,
   1024 * 1024 * 1024 * 1024 * 1024 * 1024 * 1024 * 1024]
/-- `P10_VALUES_F` (`src/num.rs` 296-306), as exact numbers (rounding of the last two to f64 is not
modelled). -/
def p10ValuesF : List Nat :=
  [1, 1000, 1000 * 1000, 1000 * 1000 * 1000, 1000 * 1000 * 1000 * 1000,
   1000 * 1000 * 1000 * 1000 * 1000, 1000 * 1000 * 1000 * 1000 * 1000 * 1000,
   1000 * 1000 * 1000 * 1000 * 1000 * 1000 * 1000,
   1000 * 1000 * 1000 * 1000 * 1000 * 1000 * 1000 * 1000]

/-- The loop over a letter table: the value at the first position holding `ch` (`src/num.rs` 300-337). -/
def tableFind (ch : UInt8) : Bytes → List Nat → Option Nat
  | x :: xs, v :: vs => if x = ch then some v else tableFind ch xs vs
  | _, _ => none

/-- `suffix_valu` (`src/num.rs` 323-337). -/
def suffixValU (ch : UInt8) : Option Nat :=
  match tableFind ch p2Letters p2ValuesU with
  | some v => some v
  | none => tableFind ch p10Letters p10ValuesU

/-- `suffix_valf` (`src/num.rs` 308-322). -/
def suffixValF (ch : UInt8) : Option Nat :=
  match tableFind ch p2Letters p2ValuesF with
  | some v => some v
  | none => tableFind ch p10Letters p10ValuesF

/-- `u8::is_ascii_digit` of std (used at `src/text.rs` 630-633). -/
def isDigit (c : UInt8) : Bool := 48 ≤ c && c ≤ 57

/-- The digit loop of `to_usize` (`src/text.rs` 633-637), with the overflow checks of debug builds:
`none` when a value exceeds `lim`. -/
def digitLoop (lim : Nat) : Nat → Bytes → Option (Nat × Bytes)
  | ret, [] => some (ret, [])
  | ret, c :: cs =>
    if isDigit c then
      if ret * 10 > lim then none
      else if ret * 10 + (c.toNat - 48) > lim then none
      else digitLoop lim (ret * 10 + (c.toNat - 48)) cs
    else some (ret, c :: cs)

/-- Skipping a leading plus sign (`src/text.rs` 625-628). -/
def dropPlus : Bytes → Bytes
  | [] => []
  | c :: cs => if c = 43 then cs else c :: cs

/-- `to_usize` on bytes (`src/text.rs` 624-645); `none` is an overflow panic. -/
def toUsize (self : Bytes) : Option (Nat × Bytes) :=
  match dropPlus self with
  | [] => some (0, self)
  | c :: cs =>
    if isDigit c = false then some (0, self)
    else match digitLoop usizeMax 0 (c :: cs) with
      | none => none
      | some (ret, rest) => match rest with
        | [] => some (ret, [])
        | s :: rest' => match suffixValU s with
          | none => some (ret, s :: rest')
          | some mul => if ret * mul > usizeMax then none else some (ret * mul, rest')

/-- Answer of a fallible function that can also panic (`Result` of `src/util.rs`). -/
inductive Res (α : Type) | ok (a : α) | err | panic
deriving DecidableEq, Repr

/-- `to_usize_whole` (`src/text.rs` 101-113). -/
def toUsizeWhole (self : Bytes) : Res Nat :=
  match toUsize self with
  | none => .panic
  | some (v, rest) => if rest ≠ [] then .err else .ok v

/-! ## Parts of a delimited value -/

/-- `tail_u8_len` (`src/text.rs` 22-37): the loop runs from the end; `rev` is the part of the buffer not
yet visited, reversed, so its length is `pos + 1`. -/
def tailLenLoop {α : Type} [DecidableEq α] (delim : α) : Nat → List α → Nat
  | _, [] => 0
  | left, x :: xs =>
    if x = delim then
      if left - 1 = 0 then xs.length + 1 else tailLenLoop delim (left - 1) xs
    else tailLenLoop delim left xs

/-- `tail_u8_len` (`src/text.rs` 22-37). -/
def tailLen {α : Type} [DecidableEq α] (buff : List α) (num : Nat) (delim : α) : Nat :=
  if num = 0 then buff.length else tailLenLoop delim num buff.reverse

/-- `tail_u8` (`src/text.rs` 449-451 and 611-613). -/
def tailParts {α : Type} [DecidableEq α] (buff : List α) (num : Nat) (delim : α) : List α :=
  buff.drop (tailLen buff num delim)

/-- The loop of `head` (`src/text.rs` 269-277): the length of the result. -/
def headLenLoop {α : Type} [DecidableEq α] (self : List α) (delim : α) : Nat → List α → List α
  | _, [] => self
  | left, x :: xs =>
    if x = delim then
      if left - 1 = 0 then self.take (self.length - (x :: xs).length)
      else headLenLoop self delim (left - 1) xs
    else headLenLoop self delim left xs

/-- `head` (`src/text.rs` 262-279). -/
def headParts {α : Type} [DecidableEq α] (self : List α) (num : Nat) (delim : α) : List α :=
  if num = 0 ∨ self = [] then [] else headLenLoop self delim num self

/-- `tail_path_u8` (`src/text.rs` 280-290). -/
def tailPath {α : Type} [DecidableEq α] (self : List α) (num : Nat) (delim : α) : List α :=
  if self = [] then []
  else if self.getLast? = some delim then tailParts self (num + 1) delim
  else tailParts self num delim

/-- `head_path` (`src/text.rs` 291-302). -/
def headPath {α : Type} [DecidableEq α] (self : List α) (num : Nat) (delim : α) : List α :=
  match self with
  | [] => []
  | x :: xs => if x = delim then headParts (x :: xs) (num + 1) delim else headParts (x :: xs) num delim

/-! ## Prefix and suffix -/

/-- `bcase_prefix` (`src/matcher.rs` 393-403): index loop as a recursion on both. -/
def bcasePrefix : Bytes → Bytes → Bool
  | _, [] => true
  | [], _ :: _ => false
  | h :: hs, n :: ns => if lowerByte h ≠ n then false else bcasePrefix hs ns

/-- `bcase_suffix` (`src/matcher.rs` 405-417). The index runs from the ends, which is the same recursion
on the reversed texts; `none` is the panic of `haystack.len() - 1` or `needle.len() - 1`. -/
def bcaseSuffix (hay needle : Bytes) : Option Bool :=
  if needle.length > hay.length then some false
  else if hay = [] ∨ needle = [] then none
  else some (bcasePrefix hay.reverse needle.reverse)

/-- `scase_prefix` (`src/matcher.rs` 375-391) over characters; `low` is `char::to_lowercase`, which may
produce several characters. The loop compares the needle with the lower-cased haystack. -/
def scasePrefixLoop {α : Type} [DecidableEq α] : List α → List α → Bool
  | [], _ => true
  | _ :: _, [] => false
  | n :: ns, h :: hs => if n ≠ h then false else scasePrefixLoop ns hs

/-- `scase_prefix` (`src/matcher.rs` 375-391). -/
def scasePrefix {α : Type} [DecidableEq α] (low : α → List α) (hay needle : List α) : Bool :=
  scasePrefixLoop needle (hay.flatMap low)

/-- `scase_suffix` (`src/matcher.rs` 420-438). -/
def scaseSuffix {α : Type} [DecidableEq α] (low : α → List α) (hay needle : List α) : Bool :=
  let h := hay.flatMap low
  if needle.length > h.length then false
  else scasePrefixLoop needle (h.drop (h.length - needle.length))

/-! ## Byte ranges -/

/-- `as u32` (used at `src/util.rs` 476-502) -/
def asU32 (n : Nat) : Nat := n % 2 ^ 32

/-- `str::split_once` of std, on bytes (used at `src/util.rs` 478 and `src/column.rs` 810, 911). -/
def splitOnce (d : UInt8) : Bytes → Option (Bytes × Bytes)
  | [] => none
  | x :: xs => if x = d then some ([], xs) else (splitOnce d xs).map fun p => (x :: p.1, p.2)

/-- `FakeSlice::new` (`src/util.rs` 476-502). -/
def Slice.parse (spec : Bytes) : Res Slice :=
  match splitOnce 45 spec with
  | some (a, b) =>
    match toUsizeWhole a with
    | .panic => .panic
    | .err => .err
    | .ok v => match toUsizeWhole b with
      | .panic => .panic
      | .err => .err
      | .ok w =>
        if asU32 v = 0 ∨ asU32 w = 0 then .err
        else if asU32 v > asU32 w then .err
        else .ok ⟨asU32 v - 1, asU32 w⟩
  | none => match toUsizeWhole spec with
    | .panic => .panic
    | .err => .err
    | .ok v => if asU32 v = 0 then .err else .ok ⟨asU32 v - 1, asU32 v⟩

/-- The loop of `BytesTrans::new` (`src/trans.rs` 25-31) over the items. -/
def bytesTransNew : List Bytes → Res (List Slice)
  | [] => .ok []
  | x :: xs => match Slice.parse x with
    | .err => .err
    | .panic => .panic
    | .ok s => match bytesTransNew xs with
      | .err => .err
      | .panic => .panic
      | .ok ss => .ok (s :: ss)

/-- `BytesTrans::trans` (`src/trans.rs` 33-39). -/
def bytesTrans (v : List Slice) (src : Bytes) : Bytes := v.flatMap (·.getSafe src)

/-- The whole translation for a spec and a value (`src/trans.rs` 21-40). -/
def bytesTransSpec (spec src : Bytes) : Res Bytes :=
  match bytesTransNew (sliceSplit 44 spec) with
  | .err => .err
  | .panic => .panic
  | .ok v => .ok (bytesTrans v src)

end Cdx
