import Verif.Lemmas.F64
import Verif.Model.Float

/-!
What rounding to a double means, independent of how it is computed.
-/

namespace Cdx

/-- How far the double with magnitude `m` is from `a / b`, in units of `2^-1074 / b`. -/
def distMag (a b m : Nat) : Nat := if magVal m * b ≤ a then a - magVal m * b else magVal m * b - a

/-- `r` is the magnitude of the double nearest to `a / b`, and of two equally near ones the even one. Infinity counts as `2^1024`. -/
def NearestEven (a b r : Nat) : Prop :=
  r ≤ infMag ∧ ∀ m, m ≤ infMag → m ≠ r → distMag a b r < distMag a b m ∨ (distMag a b r = distMag a b m ∧ r % 2 = 0)

/-- A number of units `2^-1074` that is a double. -/
def Rep (v : Nat) : Prop := ∃ m, m < infMag ∧ magVal m = v

/-- The double is the integer `n`. -/
def F64.Is (x : F64) (n : Int) : Prop := x.isNaN = false ∧ x.isInf = false ∧ x.scaled = n * 2 ^ 1074

/-- The number that a double stands for, when it is not infinite. -/
def F64.val (x : F64) : Rat := (x.scaled : Rat) / ((2 ^ 1074 : Nat) : Rat)

/-- A number, not infinite. -/
def F64.Fin (x : F64) : Prop := x.toNat % 2 ^ 63 < infMag

end Cdx
