import Verif.Model.Uniq
import Verif.Spec.Agg
import Verif.Spec.Text

/-! Specification of choosing lines from runs of adjacent equal lines. -/

namespace Cdx

variable {α : Type}

/-- `R` are the runs of adjacent elements of `D` that `eq` relates. -/
structure IsRuns (eq : α → α → Bool) (D : List α) (R : List (List α)) : Prop where
  /-- together they are the list -/
  join : R.flatten = D
  nonempty : ∀ g ∈ R, g ≠ []
  /-- adjacent elements of a run are equal -/
  inside : ∀ g ∈ R, ∀ a b x y, g = a ++ x :: y :: b → eq x y = true
  /-- the last of a run differs from the first of the next -/
  between : ∀ A B g h x y, R = A ++ g :: h :: B → g.getLast? = some x → h.head? = some y → eq x y = false

/-- `x` is the element of the run asked for. -/
def Chosen (which : Which) (cmp : α → α → Ordering) (g : List α) (x : α) : Prop :=
  match which with
  | .first => g.head? = some x
  | .last => g.getLast? = some x
  | .min => FirstMin cmp g x
  | .max => FirstMax cmp g x

/-- `d` is the decimal form of a number: no leading zero. -/
def IsDecimal (n : Nat) (d : Bytes) : Prop := d ≠ [] ∧ (∀ c ∈ d, 48 ≤ c ∧ c ≤ 57) ∧ (d.head? = some 48 → d = [48]) ∧ decVal d = n

/-- `out` is `line` with the number `n` added in the place asked for. -/
def Counted (pos : CountPos) (delim : UInt8) (n : Nat) (line out : Bytes) : Prop :=
  match pos with
  | .none => out = line
  | .begin => ∃ d, IsDecimal n d ∧ out = d ++ [delim] ++ line
  | .stop => ∃ d body, IsDecimal n d ∧ line = body ++ [10] ∧ out = body ++ [delim] ++ d ++ [10]

/-- `out` has a line for each run: the one asked for, with the length of the run. -/
inductive OnePerRun (which : Which) (cmp : Bytes → Bytes → Ordering) (pos : CountPos) (delim : UInt8) :
    List (List Bytes) → Bytes → Prop
  | nil : OnePerRun which cmp pos delim [] []
  | cons (g : List Bytes) (R : List (List Bytes)) (x row out : Bytes) : Chosen which cmp g x →
      Counted pos delim g.length x row → OnePerRun which cmp pos delim R out →
      OnePerRun which cmp pos delim (g :: R) (row ++ out)

end Cdx
