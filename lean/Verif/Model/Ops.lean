import Verif.Model.Sort

/-!
Model of the comparison operators and range checks of `/repo/src/util.rs` and of the thresholds and determiners of
`/repo/src/matcher.rs` and `/repo/src/num.rs`.

Simplifications. Messages on stderr are left out. The regular expressions of `RangeSpec` are written out as the
backtracking search they stand for: alternatives in order, leftmost match. Specifications are bytes; the characters
that matter are ASCII. The fraction of a threshold is an exact fraction `p/q` (every `f64` between 0 and 1 is one) and
the arithmetic of `src/num.rs` is exact, where the code rounds each quotient to an `f64`.
-/

namespace Cdx

/-! ## Operators -/

/-- `CompareOp` (`src/util.rs` 2041-2054). -/
inductive CompareOp | lt | gt | le | ge | eq | ne
deriving DecidableEq, Repr

/-- `str::eq_ignore_ascii_case` of std (used at `src/util.rs` 2064-2087). -/
def eqIgnoreCase (a b : Bytes) : Bool := lower a == lower b

/-- `CompareOp::from_str` (`src/util.rs` 2061-2095): the names in the order they are tried. -/
def opNames : List (Bytes × CompareOp) :=
  [([108, 116], .lt), ([103, 116], .gt), ([108, 101], .le), ([103, 101], .ge), ([101, 113], .eq), ([110, 101], .ne),
   ([60], .lt), ([62], .gt), ([60, 61], .le), ([62, 61], .ge), ([61, 61], .eq), ([33, 61], .ne)]

/-- `CompareOp::from_str` (`src/util.rs` 2063-2094). -/
def CompareOp.parse (s : Bytes) : Res CompareOp :=
  match opNames.find? fun p => eqIgnoreCase s p.1 with
  | some p => .ok p.2
  | none => .err

/-- `CompareOp::invert` (`src/util.rs` 2100-2110). -/
def CompareOp.invert : CompareOp → CompareOp
  | .lt => .gt
  | .gt => .lt
  | .le => .ge
  | .ge => .le
  | .eq => .eq
  | .ne => .ne

/-- `CompareOp::ord_ok` (`src/util.rs` 2136-2147). -/
def CompareOp.ordOk (op : CompareOp) (o : Ordering) : Bool :=
  match op with
  | .lt => o == .lt
  | .gt => o == .gt
  | .le => o != .gt
  | .ge => o != .lt
  | .eq => o == Ordering.eq
  | .ne => o != Ordering.eq

/-! ## Range specifications -/

/-- `RangeSpec` (`src/util.rs` 2150-2155). -/
structure RangeSpec where
  op1 : Bytes
  val1 : Bytes
  op2 : Option Bytes
  val2 : Option Bytes
deriving DecidableEq, Repr

/-- `<|>|<=|>=|==|!=`, in the order of the regular expressions (`src/util.rs` 2161-2162 and 2202-2203). -/
def symOps : List Bytes := [[60], [62], [60, 61], [62, 61], [61, 61], [33, 61]]

/-- `LT|GT|LE|GE|EQ|NE` (`src/util.rs` 2164-2165 and 2205-2206). -/
def nameOps : List Bytes := [[76, 84], [71, 84], [76, 69], [71, 69], [69, 81], [78, 69]]

/-- The characters outside of `[^<>!=]` (`src/util.rs` 2161). -/
def isOpChar (c : UInt8) : Bool := c == 60 || c == 62 || c == 33 || c == 61

/-- `(.+)$` (`src/util.rs` 2161-2165): something, without an end of line. -/
def dotPlus (s : Bytes) : Bool := s != [] && !s.contains NL

/-- `([^=].*)$` (`src/util.rs` 2202-2203). -/
def notEqDot : Bytes → Bool
  | [] => false
  | x :: xs => x != 61 && !xs.contains NL

/-- The alternatives of an operator, tried in order, with the rest of the pattern (`src/util.rs` 2161-2165). -/
def tryOps {α : Type} (ops : List Bytes) (s : Bytes) (rest : Bytes → Bytes → Option α) : Option α :=
  ops.findSome? fun o => if o.isPrefixOf s then rest o (s.drop o.length) else none

/-- `RE1` after the anchor (`src/util.rs` 2161 and 2202), given what the last group accepts. A shorter match of
`[^<>!=]+` is followed by no operator, so only the longest is tried. -/
def symTwo (last : Bytes → Bool) (s : Bytes) : Option RangeSpec :=
  tryOps symOps s fun o1 r =>
    let v := r.takeWhile fun c => !isOpChar c
    if v = [] then none
    else tryOps symOps (r.dropWhile fun c => !isOpChar c) fun o2 w =>
      if last w then some ⟨o1, v, some o2, some w⟩ else none

/-- `RE2` after the anchor (`src/util.rs` 2162 and 2203). -/
def symOne (last : Bytes → Bool) (s : Bytes) : Option RangeSpec :=
  tryOps symOps s fun o1 r => if last r then some ⟨o1, r, none, none⟩ else none

/-- A comma and what follows (`src/util.rs` 2164-2165). -/
def afterComma : Bytes → Option Bytes
  | 44 :: xs => some xs
  | _ => none

/-- `RE3` after the anchor (`src/util.rs` 2164 and 2205). A shorter match of `[^,]+` is followed by no comma. -/
def nameTwo (s : Bytes) : Option RangeSpec :=
  tryOps nameOps s fun o1 r =>
    match afterComma r with
    | none => none
    | some r =>
      let v := r.takeWhile (· != 44)
      if v = [] then none
      else match afterComma (r.dropWhile (· != 44)) with
        | none => none
        | some r2 => tryOps nameOps r2 fun o2 w =>
          match afterComma w with
          | none => none
          | some w => if dotPlus w then some ⟨o1, v, some o2, some w⟩ else none

/-- `RE4` after the anchor (`src/util.rs` 2165 and 2206). -/
def nameOne (s : Bytes) : Option RangeSpec :=
  tryOps nameOps s fun o1 r =>
    match afterComma r with
    | none => none
    | some r => if dotPlus r then some ⟨o1, r, none, none⟩ else none

/-- `RangeSpec::new` (`src/util.rs` 2158-2198). -/
def RangeSpec.new (spec : Bytes) : Res RangeSpec :=
  match symTwo dotPlus spec with
  | some r => .ok r
  | none => match symOne dotPlus spec with
    | some r => .ok r
    | none => match nameTwo spec with
      | some r => .ok r
      | none => match nameOne spec with
        | some r => .ok r
        | none => .err

/-- Leftmost match after `(^|,)` (`src/util.rs` 2202-2206): the match and where it starts. -/
def trailLoop (body : Bytes → Option RangeSpec) : Nat → Bytes → Option (RangeSpec × Nat)
  | _, [] => none
  | i, x :: xs =>
    match (if x = 44 then body xs else none) with
    | some r => some (r, i)
    | none => trailLoop body (i + 1) xs

/-- The same from the start of the text, where `^` is tried first (`src/util.rs` 2202-2206). -/
def trail (body : Bytes → Option RangeSpec) (spec : Bytes) : Option (RangeSpec × Nat) :=
  match body spec with
  | some r => some (r, 0)
  | none => trailLoop body 0 spec

/-- `RangeSpec::new_trail` (`src/util.rs` 2199-2251). -/
def RangeSpec.newTrail (spec : Bytes) : Res (RangeSpec × Nat) :=
  match trail (symTwo notEqDot) spec with
  | some r => .ok r
  | none => match trail (symOne notEqDot) spec with
    | some r => .ok r
    | none => match trail nameTwo spec with
      | some r => .ok r
      | none => match trail nameOne spec with
        | some r => .ok r
        | none => .err

/-! ## Checking lines -/

/-- `comp_self_cols` of a `LineComp` after `set` (`src/comp.rs` 360-363, 454-456, 566-568 and 1917-1920). The whole-line
comparator looks at the line with its end of line. -/
def LineComp.compSelfCols (toF64 : Bytes → F64) (c : LineComp) (value : Bytes) (r : TextLine) : Ordering :=
  rev c.reverse (match c.kind with
    | .whole k => compSelfK toF64 k value r.text
    | .col k num => compSelfK toF64 k value (r.get (num 0))
    | .expr eval => fcmp (toF64 value) (eval 0 r.text))

/-- `comp_self_cols` of `LineCompList` (`src/comp.rs` 1435-1443), given one value for each comparator. -/
def compSelfCols (toF64 : Bytes → F64) : List LineComp → List Bytes → TextLine → Ordering
  | c :: cs, v :: vs, r =>
    if c.compSelfCols toF64 v r ≠ .eq then c.compSelfCols toF64 v r else compSelfCols toF64 cs vs r
  | _, _, _ => .eq

/-- `CompareOp::line_ok` (`src/util.rs` 2130-2133), given the values set. -/
def CompareOp.lineOk (toF64 : Bytes → F64) (op : CompareOp) (cs : List LineComp) (vs : List Bytes) (line : TextLine) :
    Bool :=
  op.ordOk (compSelfCols toF64 cs vs line)

/-- `CompareOp::line_ok_verbose` (`src/util.rs` 2112-2128), given the values set. -/
def CompareOp.lineOkVerbose (toF64 : Bytes → F64) (op : CompareOp) (cs : List LineComp) (vs : List Bytes)
    (line : TextLine) : Bool :=
  op.invert.lineOk toF64 cs vs line

/-- `CheckLine` (`src/util.rs` 2256-2261). -/
structure CheckLine where
  op : CompareOp
  val : Bytes
  op2 : Option CompareOp
  val2 : Option Bytes
deriving DecidableEq, Repr

/-- `CheckLine::set_with` (`src/util.rs` 2271-2285): the second value is taken from the text of the second operator. -/
def CheckLine.setWith (r : RangeSpec) : Res CheckLine :=
  (CompareOp.parse r.op1).bind fun op =>
    match r.op2, r.val2 with
    | none, none => .ok ⟨op, r.val1, none, none⟩
    | none, some _ => .panic
    | some o2, v2 => (CompareOp.parse o2).bind fun op2 => .ok ⟨op, r.val1, some op2, v2.map fun _ => o2⟩

/-- `CheckLine::new` and `set` (`src/util.rs` 2265-2269 and 2287-2289). -/
def CheckLine.new (spec : Bytes) : Res CheckLine := (RangeSpec.new spec).bind CheckLine.setWith

/-- `CheckLine::line_ok_verbose` (`src/util.rs` 2291-2299). -/
def CheckLine.lineOkVerbose (toF64 : Bytes → F64) (c : CheckLine) (cs : List LineComp) (line : TextLine) : Res Bool :=
  (setParts cs.length c.val 44).bind fun vs => .ok (c.op.lineOkVerbose toF64 cs vs line)

/-- `CheckLine::line_ok` (`src/util.rs` 2301-2314). -/
def CheckLine.lineOk (toF64 : Bytes → F64) (c : CheckLine) (cs : List LineComp) (line : TextLine) : Res Bool :=
  (setParts cs.length c.val 44).bind fun vs =>
    if !c.op.lineOk toF64 cs vs line then .ok false
    else match c.op2, c.val2 with
      | none, _ => .ok true
      | some _, none => .panic
      | some o, some v2 => (setParts cs.length v2 44).bind fun vs2 => .ok (o.lineOk toF64 cs vs2 line)

/-- `CheckBuff` (`src/util.rs` 2320-2325): operators and values, and the comparison method. -/
structure CheckBuff where
  op : CompareOp
  val : Bytes
  op2 : Option CompareOp
  val2 : Option Bytes
  kind : CompKind
deriving DecidableEq, Repr

/-- `CheckBuff::new_with` (`src/util.rs` 2339-2360), given the method made of the specification. -/
def CheckBuff.newWith (kind : CompKind) (r : RangeSpec) : Res CheckBuff :=
  (CompareOp.parse r.op1).bind fun op =>
    match r.op2 with
    | none => .ok ⟨op, r.val1, none, r.val2, kind⟩
    | some o2 => (CompareOp.parse o2).bind fun op2 => .ok ⟨op, r.val1, some op2, r.val2, kind⟩

/-- `CheckBuff::new` (`src/util.rs` 2334-2337). `mkComp` stands for `CompMaker::make_comp_box`. -/
def CheckBuff.new (mkComp : Bytes → Res CompKind) (spec : Bytes) : Res CheckBuff :=
  (RangeSpec.newTrail spec).bind fun r => (mkComp (spec.take r.2)).bind fun k => CheckBuff.newWith k r.1

/-- `CheckBuff::buff_ok` (`src/util.rs` 2363-2375). -/
def CheckBuff.buffOk (toF64 : Bytes → F64) (c : CheckBuff) (right : Bytes) : Res Bool :=
  if !c.op.invert.ordOk (compSelfK toF64 c.kind c.val right) then .ok false
  else match c.op2, c.val2 with
    | none, _ => .ok true
    | some _, none => .panic
    | some o, some v2 => .ok (o.invert.ordOk (compSelfK toF64 c.kind v2 right))

/-! ## Determiners -/

/-- `Tri` (`src/util.rs` 84-91). -/
inductive Tri | yes | no | maybe
deriving DecidableEq, Repr

/-- `Tri::yes_if` (`src/util.rs` 115-121). -/
def Tri.yesIf (x : Bool) : Tri := if x then .yes else .maybe

/-- `Tri::no_if` (`src/util.rs` 124-130). -/
def Tri.noIf (x : Bool) : Tri := if x then .no else .maybe

/-- `Thresh` (`src/matcher.rs` 131-137); a fraction is `p/q`. -/
inductive Thresh
  | count (c : Nat)
  | frac (p q : Nat)
deriving DecidableEq, Repr

/-- `f64_equal` (`src/num.rs` 7-13) for the target `p/q`, multiplied out. With no columns at all both limits are
infinite, as they are after multiplying out. -/
def fracEqual (p q n tot : Nat) : Bool := (2 * n - 1 : Int) * q ≤ 2 * p * tot && (2 * p * tot : Int) < (2 * n + 1) * q

/-- `f64_greater` (`src/num.rs` 17-22). -/
def fracGreater (p q n tot : Nat) : Bool := (2 * p * tot : Int) > (2 * n - 1) * q

/-- `f64_less` (`src/num.rs` 26-31). -/
def fracLess (p q n tot : Nat) : Bool := (2 * p * tot : Int) < (2 * n + 1) * q

/-- `Thresh::at_most_mid` (`src/matcher.rs` 170-175). -/
def Thresh.atMostMid (t : Thresh) (n : Nat) : Tri :=
  match t with
  | .count c => .noIf (n > c)
  | .frac _ _ => .maybe

/-- `Thresh::at_least_mid` (`src/matcher.rs` 178-183). -/
def Thresh.atLeastMid (t : Thresh) (n : Nat) : Tri :=
  match t with
  | .count c => .yesIf (n ≥ c)
  | .frac _ _ => .maybe

/-- `Thresh::at_most_final` (`src/matcher.rs` 186-191). -/
def Thresh.atMostFinal (t : Thresh) (n tot : Nat) : Bool :=
  match t with
  | .count c => n ≤ c
  | .frac p q => fracLess p q n tot

/-- `Thresh::at_least_final` (`src/matcher.rs` 194-199). -/
def Thresh.atLeastFinal (t : Thresh) (n tot : Nat) : Bool :=
  match t with
  | .count c => n ≥ c
  | .frac p q => fracGreater p q n tot

/-- `Thresh::exactly` (`src/matcher.rs` 202-207). -/
def Thresh.exactly (t : Thresh) (n tot : Nat) : Bool :=
  match t with
  | .count c => n == c
  | .frac p q => fracEqual p q n tot

/-- `Determiner` (`src/matcher.rs` 212-237). -/
inductive Determiner
  | all | some | none | notAll | mixed | uniform
  | atMost (t : Thresh) | atLeast (t : Thresh) | exactly (t : Thresh)
  | atMostNo (t : Thresh) | atLeastNo (t : Thresh) | exactlyNo (t : Thresh)
deriving DecidableEq, Repr

/-- `Determiner::match_mid` (`src/matcher.rs` 277-297). -/
def Determiner.matchMid (d : Determiner) (yes no : Nat) : Tri :=
  match d with
  | .all => .noIf (no > 0)
  | .some => .yesIf (yes > 0)
  | .none => .noIf (yes > 0)
  | .notAll => .yesIf (no > 0)
  | .mixed => .yesIf (yes > 0 && no > 0)
  | .uniform => .noIf (yes > 0 && no > 0)
  | .atMost t => t.atMostMid yes
  | .atLeast t => t.atLeastMid yes
  | .exactly t => t.atMostMid yes
  | .atMostNo t => t.atMostMid no
  | .atLeastNo t => t.atLeastMid no
  | .exactlyNo t => t.atMostMid no

/-- `Determiner::match_final` (`src/matcher.rs` 300-321). -/
def Determiner.matchFinal (d : Determiner) (yes no : Nat) : Bool :=
  match d with
  | .all => no == 0
  | .some => yes > 0
  | .none => yes == 0
  | .notAll => no > 0
  | .mixed => yes > 0 && no > 0
  | .uniform => yes == 0 || no == 0
  | .atMost t => t.atMostFinal yes (yes + no)
  | .atLeast t => t.atLeastFinal yes (yes + no)
  | .exactly t => t.exactly yes (yes + no)
  | .atMostNo t => t.atMostFinal no (yes + no)
  | .atLeastNo t => t.atLeastFinal no (yes + no)
  | .exactlyNo t => t.exactly no (yes + no)

/-- The loop over the columns of `CompMatcher` and `ColSetMatcher` (`src/matcher.rs` 985-1002 and 1115-1136), given
what each column answers. -/
def detLoop (d : Determiner) : List Bool → (yes no : Nat) → Bool
  | [], yes, no => d.matchFinal yes no
  | b :: bs, yes, no =>
    let yes' := if b then yes + 1 else yes
    let no' := if b then no else no + 1
    match d.matchMid yes' no' with
    | .maybe => detLoop d bs yes' no'
    | .yes => true
    | .no => false

end Cdx
