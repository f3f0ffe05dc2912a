import Verif.Spec.Text

/-!
Specification of orderings.
-/

namespace Cdx

/-- A comparison that behaves like one: reflexive, swapping the arguments reverses the answer, transitive. -/
structure TotalPreorder {α : Type} (cmp : α → α → Ordering) : Prop where
  refl : ∀ a, cmp a a = .eq
  swap : ∀ a b, cmp b a = (cmp a b).swap
  trans : ∀ a b c, cmp a b ≠ .gt → cmp b c ≠ .gt → cmp a c ≠ .gt

/-- The same on the elements with property `S`. -/
structure PreorderOn {α : Type} (S : α → Prop) (cmp : α → α → Ordering) : Prop where
  refl : ∀ a, S a → cmp a a = .eq
  swap : ∀ a b, S a → S b → cmp b a = (cmp a b).swap
  trans : ∀ a b c, S a → S b → S c → cmp a b ≠ .gt → cmp b c ≠ .gt → cmp a c ≠ .gt

/-- Lexicographic order of lists, a proper prefix being less. -/
def listCmp {α : Type} (cmp : α → α → Ordering) : List α → List α → Ordering
  | [], [] => .eq
  | [], _ :: _ => .lt
  | _ :: _, [] => .gt
  | x :: xs, y :: ys => (cmp x y).then (listCmp cmp xs ys)

/-- The dot separated leading digit groups of a text. -/
def ipSegs : Bytes → List Bytes
  | [] => [[]]
  | x :: xs =>
    if 48 ≤ x ∧ x ≤ 57 then
      match ipSegs xs with
      | [] => [[x]]
      | g :: gs => (x :: g) :: gs
    else if x = 46 then [] :: ipSegs xs
    else [[]]

/-- Digit groups: the longer one is greater, else the first different digit decides. -/
def segCmp (a b : Bytes) : Ordering := (compare a.length b.length).then (listCmp compare a b)

/-- Texts made of digits and grouping commas. -/
def DigitsCommas (d : Bytes) : Prop := ∀ c ∈ d, (48 ≤ c ∧ c ≤ 57) ∨ c = 44

/-- Their value: commas do not count. -/
def groupedVal (d : Bytes) : Nat := decVal (d.filter (· ≠ 44))

/-- Blanks that may precede a number. -/
def Blanks (s : Bytes) : Prop := ∀ c ∈ s, c ≤ 32

/-- A decimal integer as text. -/
structure IntText where
  blanks : Bytes
  neg : Bool
  digits : Bytes

def IntText.WF (t : IntText) : Prop := Blanks t.blanks ∧ DigitsCommas t.digits
def IntText.text (t : IntText) : Bytes := t.blanks ++ (if t.neg then [45] else []) ++ t.digits
def IntText.value (t : IntText) : Int := if t.neg then -(groupedVal t.digits : Int) else groupedVal t.digits

/-- A decimal number with a point as text. -/
structure DecText where
  blanks : Bytes
  neg : Bool
  digits : Bytes
  frac : Bytes

def DecText.WF (t : DecText) : Prop :=
  Blanks t.blanks ∧ DigitsCommas t.digits ∧ ∀ c ∈ t.frac, 48 ≤ c ∧ c ≤ 57
def DecText.text (t : DecText) : Bytes :=
  t.blanks ++ (if t.neg then [45] else []) ++ t.digits ++ 46 :: t.frac

/-- Order of magnitudes: integer part, then the digits of the fraction. -/
def DecText.magCmp (a b : DecText) : Ordering :=
  (compare (groupedVal a.digits) (groupedVal b.digits)).then (listCmp compare a.frac b.frac)

/-- Order of decimal texts: negative ones first, in reverse order of magnitude. -/
def DecText.cmp (a b : DecText) : Ordering :=
  match a.neg, b.neg with
  | true, true => b.magCmp a
  | true, false => .lt
  | false, true => .gt
  | false, false => a.magCmp b

/-- The magnitude times `10^n`, for `n` at least the number of fraction digits. -/
def DecText.scaledMag (n : Nat) (a : DecText) : Nat :=
  groupedVal a.digits * 10 ^ n + decVal a.frac * 10 ^ (n - a.frac.length)

/-- The value times `10^n`. -/
def DecText.scaled (n : Nat) (a : DecText) : Int := if a.neg then -(a.scaledMag n : Int) else a.scaledMag n

end Cdx
