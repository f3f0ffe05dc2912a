import Verif.Model.Ops

/-!
Specification of comparison operators, checks against values, and of how many columns have to match.
-/

namespace Cdx

/-- What an operator says about the outcome of comparing left with right. -/
def OpHolds : CompareOp → Ordering → Prop
  | .lt, o => o = .lt
  | .gt, o => o = .gt
  | .le, o => o = .lt ∨ o = Ordering.eq
  | .ge, o => o = .gt ∨ o = Ordering.eq
  | .eq, o => o = Ordering.eq
  | .ne, o => o = .lt ∨ o = .gt

instance (op : CompareOp) (o : Ordering) : Decidable (OpHolds op o) := by
  cases op <;> unfold OpHolds <;> infer_instance

/-- The relation of numbers an operator is written for. -/
def opRel : CompareOp → Int → Int → Prop
  | .lt, a, b => a < b
  | .gt, a, b => a > b
  | .le, a, b => a ≤ b
  | .ge, a, b => a ≥ b
  | .eq, a, b => a = b
  | .ne, a, b => a ≠ b

/-- How the key of a line compares with a value: the column, or the line without its end. -/
def keyVsValue (toF64 : Bytes → F64) (c : LineComp) (v : Bytes) (line : TextLine) : Ordering :=
  let o := match c.kind with
    | .whole k => compK toF64 k line.text.dropLast v
    | .col k num => compK toF64 k (line.get (num 0)) v
    | .expr eval => fcmp (eval 0 line.text) (toF64 v)
  if c.reverse then o.swap else o

/-- How a line compares with a list of values: the first difference decides. -/
def lineVsValues (toF64 : Bytes → F64) (line : TextLine) : List (LineComp × Bytes) → Ordering
  | [] => .eq
  | (c, v) :: rest => (keyVsValue toF64 c v line).then (lineVsValues toF64 line rest)

/-- `line OP value`, the value being one value for a single comparator, else comma separated. -/
def BoundHolds (toF64 : Bytes → F64) (cs : List LineComp) (opText value : Bytes) (line : TextLine) : Prop :=
  ∃ op vs, CompareOp.parse opText = .ok op ∧ (cs.length = 1 ∧ vs = [value] ∨ cs.length ≠ 1 ∧ vs = sliceSplit 44 value) ∧
    vs.length = cs.length ∧ OpHolds op (lineVsValues toF64 line (cs.zip vs))

/-- All bounds of a range. -/
def RangeHolds (toF64 : Bytes → F64) (cs : List LineComp) (r : RangeSpec) (line : TextLine) : Prop :=
  BoundHolds toF64 cs r.op1 r.val1 line ∧
    ∀ o2 v2, r.op2 = some o2 → r.val2 = some v2 → BoundHolds toF64 cs o2 v2 line

/-- The number of columns out of `tot` nearest to the fraction `p/q` of them, the greater one if two are as near. -/
def nearest (p q tot : Nat) : Nat := (2 * p * tot + q) / (2 * q)

/-- A threshold as a number of columns. -/
def Thresh.columns (tot : Nat) : Thresh → Nat
  | .count c => c
  | .frac p q => nearest p q tot

/-- What a determiner says about the answers of the columns. -/
def DetHolds : Determiner → List Bool → Prop
  | .all, bs => ∀ b ∈ bs, b = true
  | .some, bs => ∃ b ∈ bs, b = true
  | .none, bs => ∀ b ∈ bs, b = false
  | .notAll, bs => ∃ b ∈ bs, b = false
  | .mixed, bs => true ∈ bs ∧ false ∈ bs
  | .uniform, bs => ∀ b ∈ bs, ∀ c ∈ bs, b = c
  | .atMost t, bs => bs.count true ≤ t.columns bs.length
  | .atLeast t, bs => bs.count true ≥ t.columns bs.length
  | .exactly t, bs => bs.count true = t.columns bs.length
  | .atMostNo t, bs => bs.count false ≤ t.columns bs.length
  | .atLeastNo t, bs => bs.count false ≥ t.columns bs.length
  | .exactlyNo t, bs => bs.count false = t.columns bs.length

/-- The threshold of a determiner is a fraction, used as a lower or upper limit. -/
def Determiner.fracLimit : Determiner → Bool
  | .atMost (.frac _ _) | .atLeast (.frac _ _) | .atMostNo (.frac _ _) | .atLeastNo (.frac _ _) => true
  | _ => false

/-- Fractions have a denominator. -/
def Determiner.WF : Determiner → Prop
  | .atMost (.frac _ q) | .atLeast (.frac _ q) | .exactly (.frac _ q)
  | .atMostNo (.frac _ q) | .atLeastNo (.frac _ q) | .exactlyNo (.frac _ q) => 0 < q
  | _ => True

end Cdx

namespace Cdx

/-- An operator as a symbol. -/
def symText : CompareOp → Bytes
  | .lt => [60]
  | .gt => [62]
  | .le => [60, 61]
  | .ge => [62, 61]
  | .eq => [61, 61]
  | .ne => [33, 61]

/-- An operator as a name. -/
def nameText : CompareOp → Bytes
  | .lt => [76, 84]
  | .gt => [71, 84]
  | .le => [76, 69]
  | .ge => [71, 69]
  | .eq => [69, 81]
  | .ne => [78, 69]

/-- Texts without a comma, an operator character or an end of line. -/
def NoMarks (v : Bytes) : Prop := ∀ c ∈ v, c ≠ 44 ∧ c ≠ 60 ∧ c ≠ 62 ∧ c ≠ 33 ∧ c ≠ 61 ∧ c ≠ 10

end Cdx
