import Verif.Model.Expr
import Verif.Model.Agg
import Verif.Model.Float

/-!
Formulas (`src/expr.rs`) and aggregators (`src/agg.rs`) with doubles.

The operators, comparisons, `abs`, `floor`, `ceil`, `round`, `trunc`, `copysign`, `fmax`, `fmin`, `fdim`, `fmod` and `fma` are modelled bit
by bit. Powers, the other functions of the library and the constants are taken from `rest`, an arbitrary choice. Which NaN
a result is, is left out.
-/

namespace Cdx

/-- `x - y` of `f64` (used at `src/expr.rs` 419). -/
def F64.sub (x y : F64) : F64 := x.add y.negate

/-- `x % y` of `f64` (used at `src/expr.rs` 422 and 348): exact, with the sign of `x`. -/
def F64.rem (x y : F64) : F64 :=
  if x.isNaN || y.isNaN || x.isInf || decide (y.abs = 0) then F64.nan
  else if y.isInf then x
  else F64.ofScaled x.isNeg (x.scaled.tmod y.scaled) 1

/-- `x < y` of `f64` (used at `src/expr.rs` 424). -/
def F64.lt (x y : F64) : Bool := F64.gt y x

/-- `to_f` (`src/expr.rs` 298-304). -/
def F64.ofBool (b : Bool) : F64 := if b then F64.ofNat 1 else F64.ofNat 0

/-- `apply_binary` (`src/expr.rs` 416-431); `pow` is `powf` of std. -/
def applyBinaryF (pow : F64 → F64 → F64) : BinOp → F64 → F64 → F64
  | .plus, x, y => x.add y
  | .minus, x, y => x.sub y
  | .times, x, y => x.mul y
  | .div, x, y => x.div y
  | .rem, x, y => x.rem y
  | .pow, x, y => pow x y
  | .lt, x, y => F64.ofBool (x.lt y)
  | .gt, x, y => F64.ofBool (x.gt y)
  | .eq, x, y => F64.ofBool (x.eq y)
  | .ne, x, y => F64.ofBool (!x.eq y)
  | .le, x, y => F64.ofBool (F64.ge y x)
  | .ge, x, y => F64.ofBool (F64.ge x y)

/-- `abs` of std (used at `src/expr.rs` 322, 341 and 380). -/
def F64.absF (x : F64) : F64 := if x.isNeg then x.negate else x

/-- A function from `f64` of std to whole numbers: `f` is given the number in units of `2^-1074` and makes it a multiple of `2^1074`; a
zero keeps the sign (used at `src/expr.rs` 330, 343, 366 and 376). -/
def F64.toWhole (f : Int → Int) (x : F64) : F64 := if x.isNaN || x.isInf then x else F64.ofScaled x.isNeg (f x.scaled) 1

/-- `floor` of std (used at `src/expr.rs` 343). -/
def F64.floor (x : F64) : F64 := x.toWhole fun s => s.fdiv (2 ^ 1074) * 2 ^ 1074

/-- `ceil` of std (used at `src/expr.rs` 330). -/
def F64.ceil (x : F64) : F64 := x.toWhole fun s => -((-s).fdiv (2 ^ 1074) * 2 ^ 1074)

/-- `trunc` of std (used at `src/expr.rs` 376). -/
def F64.trunc (x : F64) : F64 := x.toWhole fun s => s.tdiv (2 ^ 1074) * 2 ^ 1074

/-- `round` of std (used at `src/expr.rs` 366 and 643): half away from zero. -/
def F64.round (x : F64) : F64 :=
  x.toWhole fun s => (if s < 0 then -((2 * -s + 2 ^ 1074).tdiv (2 * 2 ^ 1074)) else (2 * s + 2 ^ 1074).tdiv (2 * 2 ^ 1074)) * 2 ^ 1074

/-- `max` of std (used at `src/expr.rs` 346): a number rather than NaN. Which zero is the greater one is left open by std; here
the second. -/
def F64.fmax (x y : F64) : F64 := if x.isNaN then y else if y.isNaN then x else if x.gt y then x else y

/-- `min` of std (used at `src/expr.rs` 347). -/
def F64.fmin (x y : F64) : F64 := if x.isNaN then y else if y.isNaN then x else if y.gt x then x else y

/-- `fdim` of libm (used at `src/expr.rs` 342). -/
def F64.fdim (x y : F64) : F64 := if x.isNaN then x else if y.isNaN then y else if x.gt y then x.sub y else F64.ofNat 0

/-- `copysign` of std (used at `src/expr.rs` 332). -/
def F64.copysign (x y : F64) : F64 := if x.isNeg = y.isNeg then x else x.negate

/-- `factorial` (`src/expr.rs` 639-649): negative numbers give 0, `x.round() as usize` is the place in the table, above 170 it is infinity. The table has doubles
nearest to the literals. -/
def factF (x : F64) : F64 :=
  if x.lt (F64.ofNat 0) then F64.ofNat 0
  else
    let pos := x.round.toUsize
    if pos > 170 then F64.make false infMag
    else F64.ofNat ((factorialTable.getD pos (0, 0)).1 * 10 ^ (factorialTable.getD pos (0, 0)).2)

/-- The functions of one argument (`src/expr.rs` 322-380); `lib` has those of the library. -/
def lib1F (lib : FuncOp → F64 → F64) (f : FuncOp) (x : F64) : F64 :=
  if f = .abs then x.absF
  else if f = .floor then x.floor
  else if f = .ceil then x.ceil
  else if f = .round then x.round
  else if f = .trunc then x.trunc
  else lib f x

/-- The functions of two arguments (`src/expr.rs` 322-380); `lib` has those of the library. -/
def lib2F (lib : FuncOp → F64 → F64 → F64) (f : FuncOp) (x y : F64) : F64 :=
  if f = .fmod then x.rem y
  else if f = .fmax then F64.fmax x y
  else if f = .fmin then F64.fmin x y
  else if f = .fdim then F64.fdim x y
  else if f = .copysign then F64.copysign x y
  else lib f x y

/-- The operations of doubles (`src/expr.rs` 298-431 and 639-649); `rest` has powers, the other functions of the library and the
constants. -/
def f64Ops (rest : FloatOps F64) : FloatOps F64 where
  zero := F64.ofNat 0
  neg := F64.negate
  fact := factF
  bin := applyBinaryF (rest.bin .pow)
  add := F64.add
  div := F64.div
  ofNat := F64.ofNat
  gt := F64.gt
  lt := F64.lt
  isZero := fun x => x.eq (F64.ofNat 0)
  lib1 := lib1F rest.lib1
  lib2 := lib2F rest.lib2
  lib3 := fun _ x y z => x.mulAdd y z
  const := rest.const

/-- `to_f64` for the number parser of formulas (`src/text.rs` 675-753, used at `src/tok2.rs` 160); an overflow of the exponent,
a panic, is made the number 0 with nothing left. -/
def parseF64 (exp10 : Int → F64) (s : Bytes) : F64 × Bytes := (readF64 exp10 s).getD (F64.ofNat 0, [])

/-- `to_f64_lossy` (`src/text.rs` 179-181) for aggregators (`src/agg.rs` 899 and 935). -/
def lossyF64 (exp10 : Int → F64) (s : Bytes) : F64 := (parseF64 exp10 s).1

/-- The surroundings of aggregators (`src/agg.rs` 689-1241) with doubles. -/
def AggEnv.doubles (rest : FloatOps F64) (exp10 : Int → F64) (env : AggEnv F64) : AggEnv F64 :=
  { env with ops := f64Ops rest, toF := lossyF64 exp10 }

end Cdx
