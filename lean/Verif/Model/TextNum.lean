import Verif.Model.Agg

/-!
Numbers in texts, `/repo/src/text.rs` 115-215, 475-492, 675-752.

Simplifications. Floating-point numbers are rational numbers, so sums and products are exact, there are no infinities, and the two
zeros are equal. The exponent is an `i32`; an overflow is a panic.
-/

namespace Cdx

/-- `is_exp` (`src/text.rs` 475-492). -/
def isExp : Bytes → Bool
  | a :: b :: rest => (a == 101 || a == 69) &&
    (isDigit b || ((b == 43 || b == 45) && match rest with
      | c :: _ => isDigit c
      | [] => false))
  | _ => false

/-- The loop over the digits before the point (`src/text.rs` 688-692). -/
def intLoop : Rat → Bytes → Rat × Bytes
  | ret, [] => (ret, [])
  | ret, c :: cs => if isDigit c then intLoop (ret * 10 + ((c.toNat - 48 : Nat) : Rat)) cs else (ret, c :: cs)

/-- The loop over the digits after the point (`src/text.rs` 696-700). -/
def fracLoop : Rat → Rat → Bytes → Rat × Bytes
  | ret, _, [] => (ret, [])
  | ret, place, c :: cs =>
    if isDigit c then fracLoop (ret + place * ((c.toNat - 48 : Nat) : Rat)) (place * (1 / 10)) cs else (ret, c :: cs)

/-- A sign (`src/text.rs` 681-686 and 706-713). -/
def signPart : Bytes → Bool × Bytes
  | [] => (false, [])
  | c :: cs => if c = 43 then (false, cs) else if c = 45 then (true, cs) else (false, c :: cs)

/-- The part after the point (`src/text.rs` 693-701). -/
def pointPart (ret : Rat) : Bytes → Rat × Bytes
  | [] => (ret, [])
  | c :: cs => if c = 46 then fracLoop ret (1 / 10) cs else (ret, c :: cs)

/-- A power of ten (`src/text.rs` 721-744). -/
def tenPow (neg : Bool) (e : Nat) : Rat := if neg then 1 / 10 ^ e else 10 ^ e

/-- The exponent (`src/text.rs` 703-745); none is an overflow. -/
def expPart (ret : Rat) (curr : Bytes) : Option (Rat × Bytes) :=
  if isExp curr then
    let s := signPart (curr.drop 1)
    (digitLoop (2 ^ 31 - 1) 0 s.2).map fun p => (ret * tenPow s.1 p.1, p.2)
  else some (ret, curr)

/-- The suffix (`src/text.rs` 746-751). -/
def suffixPart (ret : Rat) : Bytes → Rat × Bytes
  | [] => (ret, [])
  | c :: cs => match suffixValF c with
    | some mul => (ret * (mul : Rat), cs)
    | none => (ret, c :: cs)

/-- `to_f64` (`src/text.rs` 675-753); none is an overflow. -/
def toRat (self : Bytes) : Option (Rat × Bytes) :=
  if self = [] then some (0, [])
  else
    let s := signPart self
    let i := intLoop 0 s.2
    let f := pointPart i.1 i.2
    (expPart f.1 f.2).map fun e =>
      let r := suffixPart e.1 e.2
      (if s.1 then -r.1 else r.1, r.2)

/-- `to_f64_whole` (`src/text.rs` 183-194). -/
def toRatWhole (self : Bytes) : Res Rat :=
  match toRat self with
  | none => .panic
  | some (v, rest) => if rest ≠ [] then .err else .ok v

/-- `JunkType` (`src/num.rs` 35-42). -/
inductive JunkType | any | trailing | none
deriving DecidableEq, Repr

/-- `to_usize_junk`, `to_isize_junk` and `to_f64_junk` (`src/text.rs` 116-135, 156-175, 196-215), from the result of the conversion.
`junk` is `Junk::val`. -/
def junkVal {α : Type} (t : JunkType) (junk : α) (self : Bytes) (p : α × Bytes) : α :=
  match t with
  | .any => p.1
  | .trailing => if self.length ≠ p.2.length then p.1 else junk
  | .none => if p.2 = [] ∧ self ≠ [] then p.1 else junk

end Cdx
