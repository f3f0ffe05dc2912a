import Verif.Model.Match

/-!
Transforms of values, `/repo/src/trans.rs`.

Simplifications. Texts are bytes; what std does with Unicode is left open (`TransOps`). Base64 is the one of RFC 4648 that
`general_purpose::STANDARD` of the base64 crate implements: padding is written and required, and unused bits must be zero.
Transforms that users of the library register are left out. No transform of the table uses the line it is given.
-/

namespace Cdx

/-- The Unicode functions of std used by `src/trans.rs`. -/
structure TransOps where
  /-- the characters of `String::from_utf8_lossy` (`src/trans.rs` 145) -/
  chars : Bytes → List Char
  /-- `String::bytes` of a string with these characters (`src/trans.rs` 156) -/
  encode : List Char → Bytes
  /-- `char::to_lowercase` (`src/text.rs` 433) -/
  low : Char → List Char
  /-- `char::to_uppercase` (`src/text.rs` 442) -/
  up : Char → List Char
  /-- `char::is_whitespace` (`src/trans.rs` 146) -/
  space : Char → Bool

/-! ## White space -/

/-- The loop of `NormSpace` (`src/trans.rs` 121-131) and of `NormSpaceUtf8` (145-155): `sp` is what counts as white space,
`blank` is the space written. -/
def normLoop {α : Type} (sp : α → Bool) (blank : α) : List α → (needSpace : Bool) → (dst : List α) → List α
  | [], _, dst => dst
  | x :: xs, needSpace, dst =>
    if sp x then normLoop sp blank xs true dst
    else if needSpace && !dst.isEmpty then normLoop sp blank xs false (dst ++ [blank] ++ [x])
    else normLoop sp blank xs needSpace (dst ++ [x])

/-- `NormSpace::trans` (`src/trans.rs` 119-133) into an empty `dst`. -/
def normSpace (src : Bytes) : Bytes := normLoop (· ≤ 32) 32 src false []

/-- `NormSpaceUtf8::trans` (`src/trans.rs` 142-158). -/
def normSpaceUtf8 (o : TransOps) (src : Bytes) : Bytes :=
  o.encode (normLoop (fun c => o.space c || c == '�') ' ' (o.chars src) false [])

/-! ## Base64 -/

/-- The characters of the base64 crate's `STANDARD` engine (used at `src/trans.rs` 55-58). -/
def b64Alphabet : Bytes := ascii "ABCDEFGHIJKLMNOPQRSTUVWXYZabcdefghijklmnopqrstuvwxyz0123456789+/"

/-- The character for six bits (for `src/trans.rs` 55). -/
def b64Char (n : Nat) : UInt8 := b64Alphabet.getD n 0

/-- The six bits of a character (for `src/trans.rs` 58). -/
def b64Val (c : UInt8) : Option Nat := b64Alphabet.findIdx? (· == c)

/-- `encode_slice` (used at `src/trans.rs` 55). -/
def b64Encode : Bytes → Bytes
  | [] => []
  | [a] => [b64Char (a.toNat / 4), b64Char (a.toNat % 4 * 16), 61, 61]
  | [a, b] => [b64Char (a.toNat / 4), b64Char (a.toNat % 4 * 16 + b.toNat / 16), b64Char (b.toNat % 16 * 4), 61]
  | a :: b :: c :: rest =>
    b64Char (a.toNat / 4) :: b64Char (a.toNat % 4 * 16 + b.toNat / 16) ::
      b64Char (b.toNat % 16 * 4 + c.toNat / 64) :: b64Char (c.toNat % 64) :: b64Encode rest

/-- The bytes of one to three bytes' worth of characters (for `src/trans.rs` 58). -/
def b64Group (w x : Nat) (y z : Option Nat) : Option Bytes :=
  match y, z with
  | some y, some z => some [UInt8.ofNat (w * 4 + x / 16), UInt8.ofNat (x % 16 * 16 + y / 4), UInt8.ofNat (y % 4 * 64 + z)]
  | some y, none => if y % 4 = 0 then some [UInt8.ofNat (w * 4 + x / 16), UInt8.ofNat (x % 16 * 16 + y / 4)] else none
  | none, none => if x % 16 = 0 then some [UInt8.ofNat (w * 4 + x / 16)] else none
  | none, some _ => none

/-- `decode_vec` (used at `src/trans.rs` 58); `none` is an error. -/
def b64Decode : Bytes → Option Bytes
  | [] => some []
  | w :: x :: y :: z :: rest =>
    match b64Val w, b64Val x with
    | some w, some x =>
      if z = 61 ∧ rest = [] then
        if y = 61 then b64Group w x none none
        else match b64Val y with
          | some y => b64Group w x (some y) none
          | none => none
      else match b64Val y, b64Val z with
        | some y, some z => match b64Group w x (some y) (some z), b64Decode rest with
          | some g, some r => some (g ++ r)
          | _, _ => none
        | _, _ => none
    | _, _ => none
  | _ => none

/-! ## Single transforms -/

/-- The implementations of `Trans` (`src/trans.rs` 20-160). -/
inductive Trans
  | bytes (v : List Slice)
  | toBase64
  | fromBase64
  | lower
  | upper
  | lowerUtf
  | upperUtf
  | norm
  | normUtf
deriving DecidableEq

/-- `u8::to_ascii_uppercase` (used at `src/trans.rs` 111). -/
def upperByte (c : UInt8) : UInt8 := if 97 ≤ c ∧ c ≤ 122 then c - 32 else c

/-- `trans` of each `Trans` into an empty `dst` (`src/trans.rs` 34-39, 52-61, 67-72, 81-87, 96-102, 108-113, 119-133 and
142-158). Encoding fails if the room made for it is too small. -/
def Trans.apply (o : TransOps) : Trans → Bytes → Res Bytes
  | .bytes v, src => .ok (bytesTrans v src)
  | .toBase64, src => if (b64Encode src).length ≤ src.length * 4 / 3 + 4 then .ok (b64Encode src) else .err
  | .fromBase64, src => match b64Decode src with
    | some v => .ok v
    | none => .err
  | .lower, src => .ok (Cdx.lower src)
  | .upper, src => .ok (src.map upperByte)
  | .lowerUtf, src => .ok (o.encode ((o.chars src).flatMap o.low))
  | .upperUtf, src => .ok (o.encode ((o.chars src).flatMap o.up))
  | .norm, src => .ok (normSpace src)
  | .normUtf, src => .ok (normSpaceUtf8 o src)

/-! ## Lists -/

/-- The loop of `TransList::trans` (`src/trans.rs` 221-234): the two buffers, and whether the first holds the result. -/
def transLoop (o : TransOps) (src : Bytes) : List Trans → (i : Nat) → (tmp1 tmp2 : Bytes) → (use1 : Bool) →
    Res (Bytes × Bytes × Bool)
  | [], _, tmp1, tmp2, use1 => .ok (tmp1, tmp2, use1)
  | x :: xs, i, tmp1, tmp2, use1 =>
    if i = 0 then (x.apply o src).bind fun t => transLoop o src xs (i + 1) t tmp2 use1
    else if i % 2 = 0 then (x.apply o tmp2).bind fun t => transLoop o src xs (i + 1) t tmp2 true
    else (x.apply o tmp1).bind fun t => transLoop o src xs (i + 1) tmp1 t false

/-- `TransList::trans` (`src/trans.rs` 219-240); the buffers hold what the previous call left. -/
def transList (o : TransOps) (v : List Trans) (tmp1 tmp2 src : Bytes) : Res Bytes :=
  (transLoop o src v 0 tmp1 tmp2 true).bind fun r => .ok (if r.2.2 then r.1 else r.2.1)

/-! ## Making transforms -/

/-- The loop of `make2` over the words (`src/trans.rs` 401-407): whether `utf8` was among them, and the last other one. -/
def transWords : List Bytes → (utf8 : Bool) → (kind : Bytes) → Bool × Bytes
  | [], utf8, kind => (utf8, kind)
  | x :: xs, utf8, kind => if eqIgnoreCase x (ascii "utf8") then transWords xs true kind else transWords xs utf8 x

/-- `resolve_alias` (`src/trans.rs` 331-338): `known` tells whether `init` has already put its aliases (283-284) in the
table. -/
def transAlias (known : Bool) (name : Bytes) : Bytes :=
  if known then
    if name = ascii "lowercase" then ascii "lower" else if name = ascii "uppercase" then ascii "upper" else name
  else name

/-- `make_box` (`src/trans.rs` 417-425) with the makers of `init` (285-314). -/
def transBox (kind : Bytes) (utf8 : Bool) (pattern : Bytes) : Res Trans :=
  if kind = ascii "normspace" then .ok (if utf8 then .normUtf else .norm)
  else if kind = ascii "lower" then .ok (if utf8 then .lowerUtf else .lower)
  else if kind = ascii "upper" then .ok (if utf8 then .upperUtf else .upper)
  else if kind = ascii "from_base64" then .ok .fromBase64
  else if kind = ascii "to_base64" then .ok .toBase64
  else if kind = ascii "bytes" then (bytesTransNew (sliceSplit 44 pattern)).bind fun v => .ok (.bytes v)
  else .err

/-- `make2` (`src/trans.rs` 392-415). `init` is called only by `make_box`, after the alias has been looked up, so `known` is
false for the first transform made by the program. -/
def transMake2 (known : Bool) (trans pattern : Bytes) : Res Trans :=
  if trans = [] then transBox [] false pattern
  else
    let w := transWords (sliceSplit 46 trans) false []
    transBox (transAlias known w.2) w.1 pattern

/-- `make` (`src/trans.rs` 428-434). -/
def transMake (known : Bool) (spec : Bytes) : Res Trans :=
  match splitOnce 44 spec with
  | some (a, b) => transMake2 known a b
  | none => transMake2 known spec []

/-- The specification a transform keeps (`src/trans.rs` 393-397). -/
def transSpec (spec : Bytes) : Bytes :=
  match splitOnce 44 spec with
  | some (a, b) => if b = [] then a else a ++ 44 :: b
  | none => spec

/-- `clone` of a transform made from `spec` (`src/trans.rs` 182-184). By then `init` has been called. -/
def transClone (spec : Bytes) : Res Trans :=
  match transMake true (transSpec spec) with
  | .ok t => .ok t
  | _ => .panic

/-- The loop of `TransList::new` (`src/trans.rs` 206-212). -/
def transMakeAll : (known : Bool) → List Bytes → Res (List Trans)
  | _, [] => .ok []
  | known, x :: xs => (transMake known x).bind fun t => (transMakeAll true xs).bind fun ts => .ok (t :: ts)

/-- `TransList::new` (`src/trans.rs` 206-212). -/
def transListNew (known : Bool) (spec : Bytes) : Res (List Trans) := transMakeAll known (sliceSplit 43 spec)

end Cdx
