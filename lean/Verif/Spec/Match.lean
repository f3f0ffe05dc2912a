import Verif.Model.Match
import Verif.Spec.Text

/-!
What matchers are meant to accept, stated on its own.
-/

namespace Cdx

/-- One or more decimal digits. -/
def Digits (d : Bytes) : Prop := d ≠ [] ∧ ∀ c ∈ d, isDigit c = true

/-- Nothing or a minus sign. -/
def Minus (s : Bytes) : Prop := s = [] ∨ s = [45]

/-- `-12` -/
def IntegerText (v : Bytes) : Prop := ∃ s d, v = s ++ d ∧ Minus s ∧ Digits d

/-- `-12` or `-12.5` -/
def NumberText (v : Bytes) : Prop :=
  ∃ s d f, v = s ++ d ++ f ∧ Minus s ∧ Digits d ∧ (f = [] ∨ ∃ e, f = 46 :: e ∧ Digits e)

/-- A mantissa: digits, or possibly no digits, a point, and digits. -/
def Mantissa (m : Bytes) : Prop :=
  Digits m ∨ ∃ a b, m = a ++ 46 :: b ∧ (∀ c ∈ a, isDigit c = true) ∧ Digits b

/-- Nothing, or `e`, a sign, and digits. -/
def Exponent (e : Bytes) : Prop :=
  e = [] ∨ ∃ x s d, e = x :: (s ++ d) ∧ (x = 101 ∨ x = 69) ∧ (s = [] ∨ s = [45] ∨ s = [43]) ∧ Digits d

/-- `-12.5e+10` -/
def FloatText (v : Bytes) : Prop := ∃ s m e, v = s ++ m ++ e ∧ Minus s ∧ Mantissa m ∧ Exponent e

/-- One to three digits, with a value of at most 255. -/
def Octet (o : Bytes) : Prop := Digits o ∧ o.length ≤ 3 ∧ decVal o ≤ 255

/-- Four octets with points between them. -/
def IpText (v : Bytes) : Prop :=
  ∃ a b c d, v = a ++ 46 :: (b ++ 46 :: (c ++ 46 :: d)) ∧ Octet a ∧ Octet b ∧ Octet c ∧ Octet d

/-- Nothing but blanks and control characters. -/
def BlankText (v : Bytes) : Prop := ∀ c ∈ v, c ≤ 32

/-- The words of a method: none, or what stands between the points. -/
def methodWords (method : Bytes) : List Bytes := if method = [] then [] else sliceSplit 46 method

/-- The method has the words of the other one, and one more. -/
def WordAdded (word : Bytes) (method more : Bytes) : Prop :=
  ∃ l r x, methodWords method = l ++ r ∧ methodWords more = l ++ x :: r ∧ eqIgnoreCase x word = true

/-- The methods that test the text against the pattern, and what they are meant to accept. -/
def plainMethods : List (Bytes × (Bytes → Bytes → Prop)) :=
  [(ascii "prefix", fun p v => p <+: v), (ascii "suffix", fun p v => p <:+ v), (ascii "infix", fun p v => p <:+: v),
   (ascii "substr", fun p v => p <:+: v), (ascii "substring", fun p v => p <:+: v), (ascii "exact", fun p v => v = p),
   (ascii "yes", fun _ _ => True), (ascii "empty", fun _ v => v = []), (ascii "blank", fun _ v => BlankText v)]

/-- The same ignoring case. -/
def caseMethods : List (Bytes × (Bytes → Bytes → Prop)) :=
  [(ascii "prefix.case", fun p v => lower p <+: lower v), (ascii "case.suffix", fun p v => lower p <:+ lower v),
   (ascii "infix.case", fun p v => lower p <:+: lower v), (ascii "exact.case", fun p v => lower v = lower p)]

/-- White space, then the pattern. -/
def CommentText (p v : Bytes) : Prop := ∃ w r, v = w ++ p ++ r ∧ BlankText w

end Cdx
