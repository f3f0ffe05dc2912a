import Verif.Spec.Expr
import Verif.Spec.Float

/-!
Whole number arithmetic, without doubles: the exact value of a formula, as long as every step of it is a whole number.
-/

namespace Cdx

/-- `n`, if its size is at most the limit. -/
def withinLim (lim : Option Nat) (n : Int) : Option Int :=
  match lim with
  | none => some n
  | some l => if n.natAbs ≤ l then some n else none

/-- 1 for true, 0 for false. -/
def truth (b : Bool) : Int := if b then 1 else 0

/-- The operators in whole numbers. A quotient must have no remainder; the remainder has the sign of the first number. -/
def exactBin : BinOp → Int → Int → Option Int
  | .plus, x, y => some (x + y)
  | .minus, x, y => some (x - y)
  | .times, x, y => some (x * y)
  | .div, x, y => if y ≠ 0 ∧ y * (x / y) = x then some (x / y) else none
  | .rem, x, y => if y ≠ 0 then some (x.tmod y) else none
  | .pow, _, _ => none
  | .lt, x, y => some (truth (x < y))
  | .gt, x, y => some (truth (x > y))
  | .eq, x, y => some (truth (x = y))
  | .ne, x, y => some (truth (x ≠ y))
  | .le, x, y => some (truth (x ≤ y))
  | .ge, x, y => some (truth (x ≥ y))

/-- The factorial. -/
def factorialNat : Nat → Nat
  | 0 => 1
  | n + 1 => (n + 1) * factorialNat n

/-- Functions that have whole values on whole numbers. -/
def exactCall (f : FuncOp) (args : List Int) : Option Int :=
  match f, args with
  | .max, x :: xs => some (xs.foldl max x)
  | .min, x :: xs => some (xs.foldl min x)
  | .if_, [x, y, z] => some (if x = 0 then z else y)
  | .fma, [x, y, z] => some (x * y + z)
  | .abs, [x] => some x.natAbs
  | .fabs, [x] => some x.natAbs
  | .floor, [x] => some x
  | .ceil, [x] => some x
  | .round, [x] => some x
  | .trunc, [x] => some x
  | .fmod, [x, y] => exactBin .rem x y
  | .fmax, [x, y] => some (max x y)
  | .fmin, [x, y] => some (min x y)
  | .fdim, [x, y] => some (if x > y then x - y else 0)
  | _, _ => none

mutual
/-- The exact value of a formula with whole numbers, if every step is a whole number of size at most `lim`. Factorials are only those of
positive numbers. -/
def exactVal (lim : Option Nat) (env : Bytes → Int) : Tree Nat → Option Int
  | .num n => withinLim lim n
  | .var s => if constNames.contains s then none else withinLim lim (env s)
  | .bin op a b =>
    (exactVal lim env a).bind fun x => (exactVal lim env b).bind fun y => (exactBin op x y).bind (withinLim lim)
  | .sign m a => (exactVal lim env a).map fun x => if m then -x else x
  | .fact a =>
    (exactVal lim env a).bind fun x => if 0 < x ∧ x ≤ 170 then withinLim lim (factorialNat x.toNat) else none
  | .call s a rest =>
    (exactVal lim env a).bind fun x => (exactVals lim env rest).bind fun xs =>
      (findFunc s).bind fun f => (exactCall f (x :: xs)).bind (withinLim lim)

/-- The exact values of several formulas. -/
def exactVals (lim : Option Nat) (env : Bytes → Int) : List (Tree Nat) → Option (List Int)
  | [] => some []
  | t :: ts => (exactVal lim env t).bind fun x => (exactVals lim env ts).map fun xs => x :: xs
end

mutual
/-- A formula with other numbers. -/
def Tree.mapNum {F G : Type} (f : F → G) : Tree F → Tree G
  | .num x => .num (f x)
  | .var s => .var s
  | .bin op a b => .bin op (a.mapNum f) (b.mapNum f)
  | .sign m a => .sign m (a.mapNum f)
  | .fact a => .fact (a.mapNum f)
  | .call s a rest => .call s (a.mapNum f) (mapNums f rest)

/-- Several formulas with other numbers. -/
def mapNums {F G : Type} (f : F → G) : List (Tree F) → List (Tree G)
  | [] => []
  | t :: ts => t.mapNum f :: mapNums f ts
end

end Cdx
