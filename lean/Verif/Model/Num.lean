import Verif.Model.Column
import Verif.Model.Match

/-!
Formats of numbers, `/repo/src/num.rs`.

Simplifications. Numbers are integers, as counts and sums of counts are; they are printed exactly, which for f64 holds up to 2^53.
Products and quotients in the formats with powers are exact. Texts are ASCII.
-/

namespace Cdx

/-- `NumFormat` (`src/num.rs` 129-140). -/
inductive NumFormat
  | short (prec : Option Nat)
  | plain (prec : Option Nat)
  | float (prec : Option Nat)
  | power2
  | power10
deriving DecidableEq, Repr

/-- `NumFormat::default` (`src/num.rs` 141-145). -/
def NumFormat.default : NumFormat := .short none

/-- `NumFormat::new` (`src/num.rs` 148-173). -/
def NumFormat.parse (spec : Bytes) : Res NumFormat :=
  if eqIgnoreCase spec (ascii "plain") then .ok (.plain none)
  else if eqIgnoreCase spec (ascii "short") then .ok (.short none)
  else if eqIgnoreCase spec (ascii "float") then .ok (.float none)
  else if eqIgnoreCase spec (ascii "power2") || eqIgnoreCase spec (ascii "p2") then .ok .power2
  else if eqIgnoreCase spec (ascii "power10") || eqIgnoreCase spec (ascii "p10") then .ok .power10
  else match splitOnce 46 spec with
    | some (a, b) => (toUsizeWhole b).bind fun p =>
        if eqIgnoreCase a (ascii "plain") then .ok (.plain (some p))
        else if eqIgnoreCase a (ascii "short") then .ok (.short (some p))
        else if eqIgnoreCase a (ascii "float") then .ok (.float (some p))
        else .err
    | none => .err

/-- `new_format` (`src/num.rs` 175-187). An integer is between 0.0001 and 1000 if it is not zero and below 1000. -/
def NumFormat.newFormat (f : NumFormat) (n : Nat) : NumFormat :=
  match f with
  | .short x => if 1 ≤ n ∧ n < 1000 then .plain x else .float x
  | f => f

/-- Division with rounding to the nearest, ties to even, as `{:.0}` does (used at `src/num.rs` 231). -/
def divRound (a b : Nat) : Nat :=
  if 2 * (a % b) > b ∨ (2 * (a % b) = b ∧ (a / b) % 2 = 1) then a / b + 1 else a / b

/-- `{num:.prec$}` for an integer (`src/num.rs` 194). -/
def plainText (n : Nat) : Option Nat → Bytes
  | none => decText n
  | some p => decText n ++ if p = 0 then [] else 46 :: List.replicate p 48

/-- The digits with a dot after the first, an `e` and the exponent, as `{:e}` writes them (used at `src/num.rs` 202-204). -/
def sciText (digits : Bytes) (e : Nat) : Bytes :=
  match digits with
  | [] => []
  | d :: ds => (if ds = [] then [d] else d :: 46 :: ds) ++ 101 :: decText e

/-- A text without the zeros at its end (used for `{:e}` at `src/num.rs` 204). -/
def noTrailing (t : Bytes) : Bytes := (t.reverse.dropWhile (· == 48)).reverse

/-- `{num:e}` and `{num:.prec$e}` for an integer (`src/num.rs` 202-204). -/
def floatText (n : Nat) : Option Nat → Bytes
  | none => if n = 0 then sciText [48] 0 else sciText (noTrailing (decText n)) ((decText n).length - 1)
  | some p =>
    let e := (decText n).length - 1
    if e ≤ p then sciText (decText n ++ List.replicate (p - e) 48) e
    else
      let q := divRound n (10 ^ (e - p))
      if q = 10 ^ (p + 1) then sciText (decText (10 ^ p)) (e + 1) else sciText (decText q) e

/-- `{:.1}` of a number of tenths (used at `src/num.rs` 239). -/
def tenthsText (q : Nat) : Bytes := decText (q / 10) ++ 46 :: decText (q % 10)

/-- The loop over the exponents (`src/num.rs` 226-259). The first argument is the number of rounds left. -/
def powerLoop (letters : Bytes) (base n : Nat) : (left : Nat) → (expNum curr : Nat) → Option Bytes
  | 0, _, _ => none
  | left + 1, expNum, curr =>
    if n < 999 * curr then
      letters[expNum]?.map fun c =>
        if n ≥ 10 * curr then decText (divRound n curr) ++ [c]
        else if 10 * n ≥ 11 * curr then tenthsText (divRound (10 * n) curr) ++ [c]
        else [49, c]
    else if expNum + 1 ≥ 8 then letters[8]?.map fun c => tenthsText (divRound (10 * n) (curr * base)) ++ [c]
    else powerLoop letters base n left (expNum + 1) (curr * base)

/-- `print` (`src/num.rs` 190-260), for an integer. -/
def NumFormat.print (f : NumFormat) (num : Int) : Option Bytes :=
  let n := num.natAbs
  let sign : Bytes := if num < 0 then [45] else []
  match f.newFormat n with
  | .plain p => some (sign ++ plainText n p)
  | .float p => some (sign ++ floatText n p)
  | .power2 => if n < 1000 then some (sign ++ decText n) else (powerLoop p2Letters 1024 n 8 0 1).map (sign ++ ·)
  | .power10 => if n < 1000 then some (sign ++ decText n) else (powerLoop p10Letters 1000 n 8 0 1).map (sign ++ ·)
  | .short _ => none

end Cdx
