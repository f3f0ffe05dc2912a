import Verif.Spec.Sort

/-!
Specification of a join.
-/

namespace Cdx

variable {α β : Type}

/-- Each element of `as` with the first element of `bs` that has the same key, where there is one. -/
def matchPairs (same : α → β → Bool) (as : List α) (bs : List β) : List (α × β) :=
  as.filterMap fun a => (bs.find? (same a)).map fun b => (a, b)

/-- The elements of `as` whose key does not occur in `bs`. -/
def unmatchedLeft (same : α → β → Bool) (as : List α) (bs : List β) : List α :=
  as.filter fun a => !bs.any (same a)

/-- The elements of `bs` whose key does not occur in `as`. -/
def unmatchedRight (same : α → β → Bool) (as : List α) (bs : List β) : List β :=
  bs.filter fun b => !as.any fun a => same a b

end Cdx
