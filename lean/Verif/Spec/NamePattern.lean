import Verif.Model.Match

/-! Columns chosen by a pattern, such as `(prefix,x)`: what the patterns mean. -/

namespace Cdx

/-- The methods a name is tested with here, and the names each accepts for a pattern. -/
def nameMethods : List (Bytes × (Bytes → Bytes → Prop)) :=
  [(ascii "exact", fun p n => n = p), (ascii "prefix", fun p n => p <+: n), (ascii "suffix", fun p n => p <:+ n),
   (ascii "infix", fun p n => p <:+: n)]

/-- One pattern: method, its meaning, whether `not.` stands before it, and the text searched. -/
structure NamePat where
  entry : Bytes × (Bytes → Bytes → Prop)
  neg : Bool
  arg : Bytes

/-- The pattern as written, without the parentheses. -/
def NamePat.inner (q : NamePat) : Bytes := (if q.neg then ascii "not." else []) ++ q.entry.1 ++ 44 :: q.arg

/-- The pattern as written. -/
def NamePat.text (q : NamePat) : Bytes := 40 :: q.inner ++ [41]

/-- The pattern accepts the name. -/
def NamePat.accepts (q : NamePat) (n : Bytes) : Prop := if q.neg then ¬ q.entry.2 q.arg n else q.entry.2 q.arg n

/-- A pattern that reads as one: the method is known, and the text searched has no parenthesis, nor a plus, which would begin a
translator, nor a colon, which would end the name of the column. -/
def NamePat.WF (q : NamePat) : Prop := q.entry ∈ nameMethods ∧ 40 ∉ q.arg ∧ 41 ∉ q.arg ∧ 43 ∉ q.arg ∧ 58 ∉ q.arg

/-- `is` are the positions of the names that a test accepts, in order. -/
def PositionsOf (names : List Bytes) (ok : Bytes → Prop) (is : List Nat) : Prop :=
  is.Pairwise (· < ·) ∧ ∀ i, i ∈ is ↔ ∃ n, names[i]? = some n ∧ ok n

end Cdx
