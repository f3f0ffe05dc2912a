import Verif.Spec.Expr
import Verif.Model.ExprLine

/-!
What formulas on lines mean: the names in an expression, and which column a name stands for. Nothing here mentions the algorithms of
`Verif/Model/ExprLine.lean`.
-/

namespace Cdx

mutual
/-- The names in an expression that are not constants. -/
def treeNames {F : Type} : Tree F → List Bytes
  | .num _ => []
  | .var s => if s ∈ constNames then [] else [s]
  | .bin _ a b => treeNames a ++ treeNames b
  | .sign _ a => treeNames a
  | .fact a => treeNames a
  | .call _ a rest => treeNames a ++ treeNamesAll rest

/-- The names in several expressions. -/
def treeNamesAll {F : Type} : List (Tree F) → List Bytes
  | [] => []
  | t :: ts => treeNames t ++ treeNamesAll ts
end

/-- The name stands for column `i`: it is the name of that column and of none before it, or it is `cN` with `N = i + 1`, and no column
has that name. -/
def VarCol (names : List Bytes) (x : Bytes) (i : Nat) : Prop :=
  (names[i]? = some x ∧ ∀ j, j < i → names[j]? ≠ some x) ∨ (x ∉ names ∧ i + 1 ≤ usizeMax ∧ x = 99 :: decText (i + 1))

/-- The name stands for no column: no column has it, and it is not a `c` and digits. -/
def NoCol (names : List Bytes) (x : Bytes) : Prop :=
  x ∉ names ∧ ∀ ds, x = 99 :: ds → ds = [] ∨ ∃ c ∈ ds, isDigit c = false

end Cdx
