import Verif.Spec.Text
import Verif.Model.Text

/-!
When a text holds a number that does not fit into 64 bits.
-/

namespace Cdx

/-- Digits, or digits and a letter for a size, that stand for more than a `usize` can hold. -/
def BigNumber (p : Bytes) : Prop :=
  ∃ ds, ds ≠ [] ∧ (∀ c ∈ ds, isDigit c = true) ∧
    ((p = ds ∧ usizeMax < decVal ds) ∨ ∃ c m, p = ds ++ [c] ∧ isDigit c = false ∧ suffixValU c = some m ∧ usizeMax < decVal ds * m)

/-- Somewhere in the text there is such a number. -/
def HoldsBig (s : Bytes) : Prop := ∃ a p b, s = a ++ p ++ b ∧ BigNumber p

end Cdx
