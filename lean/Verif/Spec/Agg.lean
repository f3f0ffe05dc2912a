import Verif.Spec.Sort
import Verif.Spec.Trans

/-! Specifications for aggregation, independent of the model. -/

namespace Cdx

variable {α : Type}

/-- `p` is the longest list that all of `l` start with. -/
def LongestPrefix (l : List (List α)) (p : List α) : Prop :=
  (∀ x ∈ l, p <+: x) ∧ ∀ q, (∀ x ∈ l, q <+: x) → q <+: p

/-- `p` is the longest list that all of `l` end with. -/
def LongestSuffix (l : List (List α)) (p : List α) : Prop :=
  (∀ x ∈ l, p <:+ x) ∧ ∀ q, (∀ x ∈ l, q <:+ x) → q <:+ p

/-- `m` is the first of the smallest elements of `l`. -/
def FirstMin (cmp : α → α → Ordering) (l : List α) (m : α) : Prop :=
  ∃ a b, l = a ++ m :: b ∧ (∀ x ∈ a, cmp m x = .lt) ∧ ∀ x ∈ b, cmp m x ≠ .gt

/-- `m` is the first of the greatest elements of `l`. -/
def FirstMax (cmp : α → α → Ordering) (l : List α) (m : α) : Prop :=
  ∃ a b, l = a ++ m :: b ∧ (∀ x ∈ a, cmp m x = .gt) ∧ ∀ x ∈ b, cmp m x ≠ .lt

/-- `out` keeps the first of each run of elements equal to it. -/
inductive Collapsed (eq : α → α → Bool) : List α → List α → Prop
  | nil : Collapsed eq [] []
  | run (x : α) (same rest out : List α) : (∀ y ∈ same, eq y x = true) → (∀ y, rest.head? = some y → eq y x = false) →
      Collapsed eq rest out → Collapsed eq (x :: (same ++ rest)) (x :: out)

/-- An ASCII letter or digit. -/
def IsAlnum (b : UInt8) : Prop := (48 ≤ b ∧ b ≤ 57) ∨ (65 ≤ b ∧ b ≤ 90) ∨ (97 ≤ b ∧ b ≤ 122)

instance (b : UInt8) : Decidable (IsAlnum b) := by unfold IsAlnum; infer_instance

/-- `out` has the elements of `inp` in order, equal ones as in `inp`. -/
structure StableOn (cmp : α → α → Ordering) (inp out : List α) : Prop where
  perm : out.Perm inp
  sorted : SortedBy cmp out
  stable : ∀ x ∈ inp, classOf cmp x out = classOf cmp x inp

/-- `out` is `inp`, sorted if asked for, then with the runs of equal elements collapsed if asked for. -/
def Listed (cmp : α → α → Ordering) (sort uniq : Bool) (inp out : List α) : Prop :=
  ∃ mid, (if sort then StableOn cmp inp mid else mid = inp) ∧
    (if uniq then Collapsed (fun a b => cmp a b == .eq) mid out else out = mid)

/-- Text without one newline at its end. -/
def chopNL (l : Bytes) : Bytes := if l.getLast? = some 10 then l.dropLast else l

/-- An empty last part is dropped, otherwise its newline. -/
def tidyLast (ps : List Bytes) : List Bytes :=
  match ps.getLast? with
  | none => []
  | some l => if l = [] then ps.dropLast else ps.dropLast ++ [chopNL l]

/-- The first `n` of the texts whose length is in bounds. -/
def limited (minLen maxLen n : Nat) (ps : List Bytes) : List Bytes :=
  (ps.filter fun p => decide (minLen ≤ p.length ∧ p.length ≤ maxLen)).take n

end Cdx
