import Verif.Spec.Sort

/-! Specification of checking the order of lines. -/

namespace Cdx

variable {α : Type}

/-- Each element is less than the next one, or, unless all have to differ, equal to it. -/
def InOrder (cmp : α → α → Ordering) (unique : Bool) (D : List α) : Prop :=
  ∀ p a b s, D = p ++ a :: b :: s → cmp a b = .lt ∨ (unique = false ∧ cmp a b = .eq)

/-- Sorted, without equal elements if all have to differ. -/
def LinesInOrder (cmp : α → α → Ordering) (unique : Bool) (D : List α) : Prop :=
  if unique then D.Pairwise fun a b => cmp a b = .lt else SortedBy cmp D

end Cdx
