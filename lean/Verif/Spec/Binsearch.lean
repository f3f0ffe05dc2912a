import Verif.Model.Basic

/-!
Specification for binary search: a buffer as a list of lines.
-/

namespace Cdx

/-- Cut a buffer into lines, each including its newline; the last one may lack it. -/
def cutLines : Bytes → List Bytes
  | [] => []
  | c :: cs =>
    if c = 10 then [10] :: cutLines cs
    else match cutLines cs with
      | [] => [[c]]
      | l :: ls => (c :: l) :: ls

/-- The byte offset where line number `k` (from 0) starts. -/
def lineStart (ls : List Bytes) (k : Nat) : Nat := (ls.take k).flatten.length

/-- The lines are in the order the comparator implies: first those the value is greater than, then those it
equals, then those it is less than. -/
structure Ordered (cmp : Bytes → Ordering) (gs es ss : List Bytes) : Prop where
  greater : ∀ l ∈ gs, cmp l = .gt
  equal : ∀ l ∈ es, cmp l = .eq
  less : ∀ l ∈ ss, cmp l = .lt

end Cdx
