import Verif.Model.Comp
import Verif.Model.Sampler
import Verif.Model.TextNum

/-!
Arithmetic of doubles, bit by bit, and the code that uses it: numbers in texts (`/repo/src/text.rs` 675-753) and quotients of counts
(`/repo/src/num.rs` 5-31).

Simplifications. The arithmetic is that of IEEE 754 binary64, rounding to nearest with ties to even, as Rust defines `f64`. All
operations that are not numbers give the same bit pattern, `F64.nan`; the sign and payload of real machines differ. `libm::exp10` is a
parameter.
-/

namespace Cdx

/-- The bit pattern of infinity (`f64` of std, used at `src/text.rs` 675-753). -/
def infMag : Nat := 2047 * 2 ^ 52

/-- The bit pattern of the double nearest to `a / b` times `2^-1074` (`f64` of std, used at `src/text.rs` 675-753). With 53 bits kept,
one unit of the pattern is one unit in the last place, also from one exponent to the next. -/
def roundMag (a b : Nat) : Nat :=
  let k := (a / b).log2 - 52
  min (k * 2 ^ 52 + roundHE a (b * 2 ^ k)) infMag

/-- Sign and magnitude put together (`f64` of std, used at `src/text.rs` 675-753). -/
def F64.make (neg : Bool) (mag : Nat) : F64 := UInt64.ofNat (mag + if neg then 2 ^ 63 else 0)

/-- The sign bit (`f64` of std, used at `src/text.rs` 752). -/
def F64.isNeg (x : F64) : Bool := 2 ^ 63 ≤ x.toNat

/-- An infinity (`is_infinite` of std, used at `src/num.rs` 209). -/
def F64.isInf (x : F64) : Bool := x.toNat % 2 ^ 63 = infMag

/-- Not a number (`f64` of std, used at `src/num.rs` 209). -/
def F64.nan : F64 := 0x7ff8000000000000

/-- The magnitude in units of `2^-1074` (`f64` of std, used at `src/text.rs` 675-753). -/
def F64.abs (x : F64) : Nat := x.scaled.natAbs

/-- The double nearest to an integer number of units `2^-1074`; `zneg` is the sign of a zero (`f64` of std, used at `src/text.rs`
675-753). -/
def F64.ofScaled (zneg : Bool) (s : Int) (b : Nat) : F64 :=
  if s = 0 then F64.make zneg 0 else F64.make (s < 0) (roundMag s.natAbs b)

/-- `as f64` of an unsigned number (used at `src/num.rs` 8-9). -/
def F64.ofNat (n : Nat) : F64 := F64.make false (roundMag (n * 2 ^ 1074) 1)

/-- A literal with a decimal point, or a fraction `n / d` (used at `src/text.rs` 695). -/
def F64.lit (n d : Nat) : F64 := F64.make false (roundMag (n * 2 ^ 1074) d)

/-- `-x` (used at `src/num.rs` 214). -/
def F64.negate (x : F64) : F64 := x ^^^ 0x8000000000000000

/-- `x * y` (used at `src/text.rs` 689). -/
def F64.mul (x y : F64) : F64 :=
  let s := x.isNeg != y.isNeg
  if x.isNaN || y.isNaN then F64.nan
  else if x.isInf || y.isInf then if x.abs = 0 ∨ y.abs = 0 then F64.nan else F64.make s infMag
  else F64.make s (roundMag (x.abs * y.abs) (2 ^ 1074))

/-- `x + y` (used at `src/text.rs` 690). -/
def F64.add (x y : F64) : F64 :=
  if x.isNaN || y.isNaN then F64.nan
  else if x.isInf then if y.isInf && x.isNeg != y.isNeg then F64.nan else x
  else if y.isInf then y
  else F64.ofScaled (x.isNeg && y.isNeg) (x.scaled + y.scaled) 1

/-- `x / y` (used at `src/num.rs` 10). -/
def F64.div (x y : F64) : F64 :=
  let s := x.isNeg != y.isNeg
  if x.isNaN || y.isNaN then F64.nan
  else if x.isInf then if y.isInf then F64.nan else F64.make s infMag
  else if y.isInf then F64.make s 0
  else if y.abs = 0 then if x.abs = 0 then F64.nan else F64.make s infMag
  else F64.make s (roundMag (x.abs * 2 ^ 1074) y.abs)

/-- `x.mul_add(y, z)` of std (used at `src/num.rs` 10): one rounding. -/
def F64.mulAdd (x y z : F64) : F64 :=
  let s := x.isNeg != y.isNeg
  if x.isNaN || y.isNaN || z.isNaN then F64.nan
  else if x.isInf || y.isInf then
    if x.abs = 0 ∨ y.abs = 0 ∨ (z.isInf && z.isNeg != s) then F64.nan else F64.make s infMag
  else if z.isInf then z
  else F64.ofScaled (s && z.isNeg) (x.scaled * y.scaled + z.scaled * 2 ^ 1074) (2 ^ 1074)

/-- `x as usize` for an `f64` (used at `src/sampler.rs` 96): cut off, and within the range. -/
def F64.toUsize (x : F64) : Nat :=
  if x.isNaN || x.isNeg then 0 else min (x.abs / 2 ^ 1074) (2 ^ 64 - 1)

/-! ## Numbers in texts -/

/-- The loop over the digits before the point (`src/text.rs` 688-692). -/
def intLoopF : F64 → Bytes → F64 × Bytes
  | ret, [] => (ret, [])
  | ret, c :: cs =>
    if isDigit c then intLoopF ((ret.mul (F64.ofNat 10)).add (F64.ofNat (c.toNat - 48))) cs else (ret, c :: cs)

/-- The loop over the digits after the point (`src/text.rs` 696-700). -/
def fracLoopF : F64 → F64 → Bytes → F64 × Bytes
  | ret, _, [] => (ret, [])
  | ret, place, c :: cs =>
    if isDigit c then fracLoopF (ret.add (place.mul (F64.ofNat (c.toNat - 48)))) (place.mul (F64.lit 1 10)) cs
    else (ret, c :: cs)

/-- The part after the point (`src/text.rs` 693-701). -/
def pointPartF (ret : F64) : Bytes → F64 × Bytes
  | [] => (ret, [])
  | c :: cs => if c = 46 then fracLoopF ret (F64.lit 1 10) cs else (ret, c :: cs)

/-- The multiplication by a power of ten (`src/text.rs` 721-744). -/
def timesTenPow (exp10 : Int → F64) (ret : F64) (e : Int) : F64 :=
  if e = -2 then ret.mul (F64.lit 1 100)
  else if e = -1 then ret.mul (F64.lit 1 10)
  else if e = 0 then ret
  else if e = 1 then ret.mul (F64.ofNat 10)
  else if e = 2 then ret.mul (F64.ofNat 100)
  else if e = 3 then ret.mul (F64.ofNat 1000)
  else ret.mul (exp10 e)

/-- The exponent (`src/text.rs` 703-745); none is an overflow. -/
def expPartF (exp10 : Int → F64) (ret : F64) (curr : Bytes) : Option (F64 × Bytes) :=
  if isExp curr then
    let s := signPart (curr.drop 1)
    (digitLoop (2 ^ 31 - 1) 0 s.2).map fun p => (timesTenPow exp10 ret (if s.1 then -(p.1 : Int) else p.1), p.2)
  else some (ret, curr)

/-- The suffix (`src/text.rs` 746-751). The factors are products of exact numbers, so they are rounded at most once (`src/num.rs`
274-306). -/
def suffixPartF (ret : F64) : Bytes → F64 × Bytes
  | [] => (ret, [])
  | c :: cs => match suffixValF c with
    | some mul => (ret.mul (F64.ofNat mul), cs)
    | none => (ret, c :: cs)

/-- `to_f64` (`src/text.rs` 675-753); none is an overflow of the exponent. -/
def readF64 (exp10 : Int → F64) (self : Bytes) : Option (F64 × Bytes) :=
  if self = [] then some (F64.ofNat 0, [])
  else
    let s := signPart self
    let i := intLoopF (F64.ofNat 0) s.2
    let f := pointPartF i.1 i.2
    (expPartF exp10 f.1 f.2).map fun e =>
      let r := suffixPartF e.1 e.2
      ((if s.1 then (F64.ofNat 1).negate else F64.ofNat 1).mul r.1, r.2)

/-! ## Quotients of counts -/

/-- `lower` (`src/num.rs` 10 and 20): half a step below `num / denom`. -/
def f64Lower (num denom : Nat) : F64 :=
  ((F64.ofNat 2).mulAdd (F64.ofNat num) (F64.ofNat 1).negate).div ((F64.ofNat 2).mul (F64.ofNat denom))

/-- `upper` (`src/num.rs` 11 and 29): half a step above `num / denom`. -/
def f64Upper (num denom : Nat) : F64 :=
  ((F64.ofNat 2).mulAdd (F64.ofNat num) (F64.ofNat 1)).div ((F64.ofNat 2).mul (F64.ofNat denom))

/-- `x >= y` of `f64` (used at `src/num.rs` 12). -/
def F64.ge (x y : F64) : Bool := F64.gt x y || F64.eq x y

/-- `f64_equal` (`src/num.rs` 7-13). -/
def f64EqualF (target : F64) (num denom : Nat) : Bool :=
  target.ge (f64Lower num denom) && (f64Upper num denom).gt target

/-- `f64_greater` (`src/num.rs` 17-22). -/
def f64GreaterF (target : F64) (num denom : Nat) : Bool := target.gt (f64Lower num denom)

/-- `f64_less` (`src/num.rs` 26-31). -/
def f64LessF (target : F64) (num denom : Nat) : Bool := (f64Upper num denom).gt target

/-! ## Positions of the sampler -/

/-- `ratio` (`src/sampler.rs` 94). -/
def ratioF (a b : Nat) : F64 := (F64.ofNat a).div (F64.ofNat b)

/-- `((i as f64) * ratio) as usize` (`src/sampler.rs` 96). -/
def posF (i : Nat) (ratio : F64) : Nat := ((F64.ofNat i).mul ratio).toUsize

variable {α : Type}

/-- The loop of `collapse` with doubles (`src/sampler.rs` 95-98). -/
def collapseLoopF (ratio : F64) : (n i : Nat) → List α → Res (List α)
  | 0, _, data => .ok data
  | n + 1, i, data => (swapAt data i (posF i ratio)).bind fun d => collapseLoopF ratio n (i + 1) d

/-- `collapse` with doubles (`src/sampler.rs` 79-101). -/
def Smooth.collapseF (s : Smooth α) : Res (Smooth α) :=
  if s.verify = false then .panic
  else if s.size ≤ s.small then .ok s
  else if s.small = 2 then
    (swapAt s.data 1 (s.size - 1)).bind fun d => .ok { s with data := d, size := 2 }
  else
    (collapseLoopF (ratioF (s.size - 2) (s.small - 2)) (s.small - 2) 1 s.data).bind fun d =>
      (swapAt d (s.small - 1) (s.size - 1)).bind fun d => .ok { s with data := d, size := s.small }

/-- `add` with doubles (`src/sampler.rs` 47-75). -/
def Smooth.addF (s : Smooth α) (x : α) : Res (Smooth α) :=
  if s.verify = false then .panic
  else if s.pos = 0 then
    (if s.size ≥ s.large then ({ s with jump := s.jump * 2 } : Smooth α).collapseF else .ok s).bind fun s =>
      (setAt s.data s.size x).bind fun d =>
        .ok { s with data := d, size := s.size + 1, pos := if s.jump > 1 then s.pos + 1 else s.pos }
  else if s.size = 0 then .panic
  else
    (setAt s.data (s.size - 1) x).bind fun d =>
      let limit := if s.size = s.large then 2 * s.jump else s.jump
      .ok { s with data := d, pos := if s.pos + 1 ≥ limit then 0 else s.pos + 1 }

/-- The lines added one after the other (`src/bin/cdx/sample_main.rs` 149-154). -/
def Smooth.addAllF : List α → Smooth α → Res (Smooth α)
  | [], s => .ok s
  | x :: xs, s => (s.addF x).bind fun s => Smooth.addAllF xs s

/-- Sampling with doubles (`src/bin/cdx/sample_main.rs` 148-155 with `finalize` and `write`, `src/sampler.rs` 104-115). -/
def smoothF (z : α) (sz : Nat) (input : List α) : Res (List α) :=
  (Smooth.addAllF input (Smooth.new z sz)).bind fun s => s.collapseF.bind fun s =>
    if s.size ≤ s.data.length then .ok (s.data.take s.size) else .panic

end Cdx
