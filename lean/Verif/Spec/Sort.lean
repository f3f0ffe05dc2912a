import Verif.Spec.Comp

/-!
Specification of sorting.
-/

namespace Cdx

variable {α : Type}

/-- In order: no element is greater than a later one. -/
def SortedBy (cmp : α → α → Ordering) (l : List α) : Prop := l.Pairwise fun a b => cmp a b ≠ .gt

/-- The elements equal to `x`, in their order. -/
def classOf (cmp : α → α → Ordering) (x : α) (l : List α) : List α := l.filter fun y => cmp x y == .eq

/-- `out` is the stable sort of `inp`. -/
structure StableSort (cmp : α → α → Ordering) (inp out : List α) : Prop where
  perm : out.Perm inp
  sorted : SortedBy cmp out
  stable : ∀ x, classOf cmp x out = classOf cmp x inp

/-- `out` is the sorted list of the first element of each class of equal elements of `inp`. -/
structure UniqueSort (cmp : α → α → Ordering) (inp out : List α) : Prop where
  strict : out.Pairwise fun a b => cmp a b = .lt
  first : ∀ x, classOf cmp x out = (classOf cmp x inp).take 1

/-- `out` is a sorted list of one element of each class of equal elements of `inp`. -/
structure SomeUniqueSort (cmp : α → α → Ordering) (inp out : List α) : Prop where
  strict : out.Pairwise fun a b => cmp a b = .lt
  sub : ∀ y ∈ out, y ∈ inp
  covers : ∀ x ∈ inp, ∃ y ∈ out, cmp x y = .eq

end Cdx
