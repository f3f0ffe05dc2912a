import Verif.Model.FloatOps
import Verif.Model.Num
import Verif.Model.Cat

/-!
Texts of doubles: `print` of `/repo/src/num.rs` for every `f64`.

The four ways std writes an `f64` (`{}`, `{:e}`, `{:.N}` and `{:.Ne}`) are modelled by what they promise: without a precision the shortest
decimal that is rounded to the number, and of these the nearest; with a precision the decimal rounded to the nearest, ties to
even. How std finds these digits is not modelled.
-/

namespace Cdx

/-- The double nearest to `d * 10^k`, without its sign (`core::fmt` of std, used at `src/num.rs` 194-206). -/
def roundDec (d : Nat) (k : Int) : Nat := roundMag (d * 10 ^ k.toNat * 2 ^ 1074) (10 ^ (-k).toNat)

/-- The multiple of `10^k` that is rounded to the number of `a` units `2^-1074` and magnitude `mag`, the nearer one if there are two (`core::fmt` of std,
used at `src/num.rs` 197 and 205). -/
def pickDigits (a mag : Nat) (k : Int) : Option Nat :=
  let den := 2 ^ 1074 * 10 ^ k.toNat
  let n := a * 10 ^ (-k).toNat
  if roundDec (n / den) k = mag then
    if roundDec (n / den + 1) k = mag then some (if 2 * (n % den) < den then n / den else n / den + 1) else some (n / den)
  else if roundDec (n / den + 1) k = mag then some (n / den + 1)
  else none

/-- All digits of a double, a multiple of `10^-1074` (`core::fmt` of std, used at `src/num.rs` 197 and 205). -/
def exactDigits (a : Nat) : Nat × Int := (a * 5 ^ 1074, -1074)

/-- The search for the shortest digits, from great powers of ten to small ones; `last` is the answer if none has an answer before. The third argument is the
number of rounds left (`core::fmt` of std, used at `src/num.rs` 197 and 205). -/
def shortLoop (pick : Int → Option Nat) (last : Nat × Int) : Nat → Int → Nat × Int
  | 0, _ => last
  | left + 1, k => match pick k with
    | some d => (d, k)
    | none => shortLoop pick last left (k - 1)

/-- The shortest digits `d` and the exponent `k` of a number `d * 10^k` that is rounded to `x` (`core::fmt` of std, used at `src/num.rs` 197 and 205). -/
def F64.shortest (x : F64) : Nat × Int :=
  if x.abs = 0 then (0, 0) else shortLoop (pickDigits x.abs (x.toNat % 2 ^ 63)) (exactDigits x.abs) 1382 308

/-- Digits `t` times `10^k` without an exponent (`core::fmt` of std, used at `src/num.rs` 197). -/
def pointText (t : Bytes) (k : Int) : Bytes :=
  let m := (-k).toNat
  if 0 ≤ k then t ++ List.replicate k.toNat 48
  else if m < t.length then t.take (t.length - m) ++ 46 :: t.drop (t.length - m)
  else [48, 46] ++ List.replicate (m - t.length) 48 ++ t

/-- Digits `t` times `10^k` with an exponent (`core::fmt` of std, used at `src/num.rs` 203-205). -/
def powText (t : Bytes) (k : Int) : Bytes :=
  match t with
  | [] => []
  | c :: cs => (if cs = [] then [c] else c :: 46 :: cs) ++ 101 :: intText (k + cs.length)

/-- The sign, and the texts of infinity and NaN (`core::fmt` of std, used at `src/num.rs` 194-206). -/
def F64.signed (x : F64) (t : Bytes) : Bytes :=
  if x.isNaN then ascii "NaN" else (if x.isNeg then [45] else []) ++ if x.isInf then ascii "inf" else t

/-- `{num}` (`src/num.rs` 197). -/
def F64.display (x : F64) : Bytes := x.signed (pointText (decText x.shortest.1) x.shortest.2)

/-- `{num:e}` (`src/num.rs` 205). -/
def F64.lowerExp (x : F64) : Bytes := x.signed (powText (decText x.shortest.1) x.shortest.2)

/-- A number of at least `p` digits, with zeros before it (`core::fmt` of std, used at `src/num.rs` 194). -/
def padText (p n : Nat) : Bytes := List.replicate (p - (decText n).length) 48 ++ decText n

/-- `{num:.p$}` (`src/num.rs` 194). -/
def F64.fixed (x : F64) (p : Nat) : Bytes :=
  let q := roundHE (x.abs * 10 ^ p) (2 ^ 1074)
  x.signed (decText (q / 10 ^ p) ++ if p = 0 then [] else 46 :: padText p (q % 10 ^ p))

/-- The greatest power of ten not above the number. The first argument is the number of rounds left (`core::fmt` of std, used at
`src/num.rs` 202). -/
def leadLoop (a : Nat) : Nat → Int → Int
  | 0, k => k
  | left + 1, k => if 2 ^ 1074 * 10 ^ k.toNat ≤ a * 10 ^ (-k).toNat then k else leadLoop a left (k - 1)

/-- The digits and the exponent of a number rounded to `p` digits after the first (`core::fmt` of std, used at `src/num.rs` 202). -/
def F64.rounded (x : F64) (p : Nat) : Nat × Int :=
  let e := leadLoop x.abs 632 308
  let k := e - p
  let q := roundHE (x.abs * 10 ^ (-k).toNat) (2 ^ 1074 * 10 ^ k.toNat)
  if q = 10 ^ (p + 1) then (10 ^ p, k + 1) else (q, k)

/-- `{num:.p$e}` (`src/num.rs` 202). -/
def F64.fixedExp (x : F64) (p : Nat) : Bytes :=
  x.signed (if x.abs = 0 then powText (List.replicate (p + 1) 48) (-p) else powText (decText (x.rounded p).1) (x.rounded p).2)

/-- `new_format` (`src/num.rs` 175-188). -/
def NumFormat.newFormatF (f : NumFormat) (x : F64) : NumFormat :=
  match f with
  | .short p => if x.absF.ge (F64.lit 1 10000) && x.absF.lt (F64.ofNat 1000) then .plain p else .float p
  | f => f

/-- The loop over the exponents (`src/num.rs` 226-259). The first argument is the number of rounds left. -/
def powerLoopF (letters : Bytes) (base : F64) (x : F64) : (left : Nat) → (expNum : Nat) → (curr : F64) → Option Bytes
  | 0, _, _ => none
  | left + 1, expNum, curr =>
    if x.lt ((F64.ofNat 999).mul curr) then
      letters[expNum]?.map fun c =>
        if x.ge ((F64.ofNat 10).mul curr) then (x.div curr).fixed 0 ++ [c]
        else if x.ge ((F64.lit 11 10).mul curr) then (x.div curr).fixed 1 ++ [c]
        else [49, c]
    else if expNum + 1 ≥ 8 then letters[8]?.map fun c => (x.div (curr.mul base)).fixed 1 ++ [c]
    else powerLoopF letters base x left (expNum + 1) (curr.mul base)

/-- The formats with letters (`src/num.rs` 208-259). -/
def powerText (letters : Bytes) (base : Nat) (x : F64) : Option Bytes :=
  let r := x.round
  if r.absF.lt (F64.ofNat 1000) || r.isNaN || r.isInf then some r.display
  else
    let neg := r.lt (F64.ofNat 0)
    (powerLoopF letters (F64.ofNat base) (if neg then r.negate else r) 8 0 (F64.ofNat 1)).map ((if neg then [45] else []) ++ ·)

/-- `print` (`src/num.rs` 191-260); none is an index out of range. -/
def NumFormat.printF (f : NumFormat) (x : F64) : Option Bytes :=
  match f.newFormatF x with
  | .plain none => some x.display
  | .plain (some p) => some (x.fixed p)
  | .float none => some x.lowerExp
  | .float (some p) => some (x.fixedExp p)
  | .power2 => powerText p2Letters 1024 x
  | .power10 => powerText p10Letters 1000 x
  | .short _ => none

end Cdx
