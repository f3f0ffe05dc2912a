import Verif.Spec.Text

/-!
Specification of column selections: what the texts mean, without reference to the code.
-/

namespace Cdx

/-- An ASCII letter. -/
abbrev Letter (c : UInt8) : Prop := (65 ≤ c ∧ c ≤ 90) ∨ (97 ≤ c ∧ c ≤ 122)

/-- A decimal digit. -/
abbrev Digit (c : UInt8) : Prop := 48 ≤ c ∧ c ≤ 57

/-- A column name: a letter followed by letters, digits and underscores. -/
def IsName (s : Bytes) : Prop :=
  ∃ c cs, s = c :: cs ∧ Letter c ∧ ∀ x ∈ cs, Letter x ∨ Digit x ∨ x = 95

/-- The usual decimal form of a number that fits a machine word: no leading zero. -/
def IsNumber (s : Bytes) : Prop :=
  s ≠ [] ∧ (∀ x ∈ s, Digit x) ∧ (s.head? = some 48 → s = [48]) ∧ decVal s < 2 ^ 64

/-- Reference to one column. -/
inductive ColRef
  /-- `3`: the third column -/
  | num (digits : Bytes)
  /-- `+3`: the third column from the end -/
  | fromEnd (digits : Bytes)
  /-- `abc`: the column of that name -/
  | name (s : Bytes)

/-- How it is written. -/
def ColRef.text : ColRef → Bytes
  | .num ds => ds
  | .fromEnd ds => 43 :: ds
  | .name s => s

/-- The parts have the right form. -/
def ColRef.WF : ColRef → Prop
  | .num ds => IsNumber ds
  | .fromEnd ds => IsNumber ds
  | .name s => IsName s

/-- The column (counted from 0) it refers to, if there is one. -/
def ColRef.resolve (names : List Bytes) : ColRef → Option Nat
  | .num ds => if 1 ≤ decVal ds ∧ decVal ds ≤ names.length then some (decVal ds - 1) else none
  | .fromEnd ds => if 1 ≤ decVal ds ∧ decVal ds ≤ names.length then some (names.length - decVal ds) else none
  | .name s => names.findIdx? (fun n => n == s)

/-- A selection: one column, or a range whose ends may be left open. -/
inductive Sel
  | one (r : ColRef)
  | span (lo hi : Option ColRef)

/-- How it is written: `r`, `lo-hi`. -/
def Sel.text : Sel → Bytes
  | .one r => r.text
  | .span lo hi => (lo.map ColRef.text).getD [] ++ 45 :: (hi.map ColRef.text).getD []

/-- The references in it. -/
def Sel.refs : Sel → List ColRef
  | .one r => [r]
  | .span lo hi => lo.toList ++ hi.toList

/-- The lower end of a range; an open end is the first column. -/
def loEnd (names : List Bytes) : Option ColRef → Option Nat
  | none => if names = [] then none else some 0
  | some r => r.resolve names

/-- The upper end of a range; an open end is the last column. -/
def hiEnd (names : List Bytes) : Option ColRef → Option Nat
  | none => if names = [] then none else some (names.length - 1)
  | some r => r.resolve names

/-- The columns selected, if it makes sense for the header. -/
def Sel.denote (names : List Bytes) : Sel → Option (List Nat)
  | .one r => (r.resolve names).map fun n => [n]
  | .span lo hi =>
    match loEnd names lo, hiEnd names hi with
    | some a, some b => if a ≤ b then some (List.range' a (b + 1 - a)) else none
    | _, _ => none

/-- An item of a column list: a selection, maybe negated by `~`, maybe with an output name. -/
structure ColItem where
  tilde : Bool
  outName : Option Bytes
  sel : Sel

/-- How the output name is written: `name:`. -/
def namePart : Option Bytes → Bytes
  | none => []
  | some n => n ++ [58]

/-- How it is written, without the tilde: `name:sel`. -/
def ColItem.body (i : ColItem) : Bytes := namePart i.outName ++ i.sel.text

/-- How it is written: `~name:sel`. -/
def ColItem.text (i : ColItem) : Bytes := (if i.tilde then [126] else []) ++ i.body

/-- The parts have the right form. -/
def ColItem.WF (i : ColItem) : Prop :=
  (∀ n, i.outName = some n → IsName n) ∧ ∀ r ∈ i.sel.refs, r.WF

/-- The columns of a list of items, or `none` if one of them makes no sense. -/
def denoteAll (names : List Bytes) : List ColItem → Option (List (Nat × Bytes))
  | [] => some []
  | i :: is => match i.sel.denote names, denoteAll names is with
    | some v, some w => some (v.map (fun n => (n, i.outName.getD [])) ++ w)
    | _, _ => none

/-- The meaning of chosen and rejected items: the chosen columns in order (all columns if nothing is chosen)
without the rejected ones. -/
def selectSpec (names : List Bytes) (chosen rejected : List ColItem) : Option (List (Nat × Bytes)) :=
  match denoteAll names chosen, denoteAll names rejected with
  | some yes, some no =>
    some ((if chosen = [] then (List.range names.length).map (fun n => (n, [])) else yes).filter
      fun x => !(no.map (·.1)).contains x.1)
  | _, _ => none

/-- A sequence of calls of `add_yes` (`false`) and `add_no` (`true`): the items chosen and rejected. -/
def chosenOf (calls : List (Bool × List ColItem)) : List ColItem :=
  calls.flatMap fun c => c.2.filter fun i => i.tilde == c.1
def rejectedOf (calls : List (Bool × List ColItem)) : List ColItem :=
  calls.flatMap fun c => c.2.filter fun i => i.tilde != c.1

end Cdx
