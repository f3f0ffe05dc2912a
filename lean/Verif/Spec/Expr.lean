import Verif.Model.Expr

/-!
What formulas mean: expression trees, how they are written, their postfix form and their value. Nothing here mentions
the algorithms of `Verif/Model/Expr.lean`; only the alphabet of tokens, the operations on numbers and the table of
functions are shared.
-/

namespace Cdx

/-- An expression. `sign true` is unary minus, `sign false` unary plus. A call has at least one argument. -/
inductive Tree (F : Type)
  | num (x : F)
  | var (name : Bytes)
  | bin (op : BinOp) (a b : Tree F)
  | sign (minus : Bool) (a : Tree F)
  | fact (a : Tree F)
  | call (name : Bytes) (first : Tree F) (rest : List (Tree F))

/-- The token of a sign. -/
def signOp (minus : Bool) : UnOp := if minus then .minus else .plus

/-- How tightly the operators that associate to the left bind: comparisons, sums, products. -/
def leftLevel : BinOp → Option Nat
  | .lt | .gt | .eq | .ne | .le | .ge => some 1
  | .plus | .minus => some 2
  | .times | .div | .rem => some 3
  | .pow => none

mutual
/-- The postfix form of an expression: the operands, then the operator. -/
def postfixOf {F : Type} : Tree F → List (Token F)
  | .num x => [.number x]
  | .var s => [.var s]
  | .bin op a b => postfixOf a ++ postfixOf b ++ [.binary op]
  | .sign m a => postfixOf a ++ [.unary (signOp m)]
  | .fact a => postfixOf a ++ [.unary .fact]
  | .call s a rest => postfixOf a ++ postfixAll rest ++ [.func s (some (rest.length + 1))]

/-- The postfix forms of several expressions. -/
def postfixAll {F : Type} : List (Tree F) → List (Token F)
  | [] => []
  | t :: ts => postfixOf t ++ postfixAll ts
end

/-- The grammar of formulas. `Writes p toks [t]` for `p ≥ 1`: the tokens are a way to write the expression `t` as an
operand of an operator that needs level `p`: 1 anything, 2 sums, 3 products, 4 signed, 5 powers, 6 factorials,
7 numbers, variables, calls and parentheses. `Writes 0 toks args`: the tokens are a list of arguments. Sums, products
and comparisons group to the left, powers to the right; the exponent may have a sign. -/
inductive Writes {F : Type} : Nat → List (Token F) → List (Tree F) → Prop
  | num (x : F) : Writes 7 [.number x] [.num x]
  | var (s : Bytes) : Writes 7 [.var s] [.var s]
  | paren {ts t} : Writes 1 ts [t] → Writes 7 (.lparen :: (ts ++ [.rparen])) [t]
  | call {ts s a rest} : Writes 0 ts (a :: rest) → Writes 7 (.func s none :: (ts ++ [.rparen])) [.call s a rest]
  | arg {ts t} : Writes 1 ts [t] → Writes 0 ts [t]
  | args {ts us t rest} : Writes 1 ts [t] → Writes 0 us rest → Writes 0 (ts ++ .comma :: us) (t :: rest)
  | fact {ts t} : Writes 6 ts [t] → Writes 6 (ts ++ [.unary .fact]) [.fact t]
  | pow {ts us a b} : Writes 6 ts [a] → Writes 4 us [b] → Writes 5 (ts ++ .binary .pow :: us) [.bin .pow a b]
  | sign {ts t} (m : Bool) : Writes 4 ts [t] → Writes 4 (.unary (signOp m) :: ts) [.sign m t]
  | bin {ts us a b op p} : leftLevel op = some p → Writes p ts [a] → Writes (p + 1) us [b] →
      Writes p (ts ++ .binary op :: us) [.bin op a b]
  | up {p ts t} : 1 ≤ p → p ≤ 6 → Writes (p + 1) ts [t] → Writes p ts [t]

/-- The level of an expression written without outer parentheses. -/
def ownLevel {F : Type} : Tree F → Nat
  | .num _ => 7
  | .var _ => 7
  | .call _ _ _ => 7
  | .fact _ => 6
  | .sign _ _ => 4
  | .bin op _ _ => (leftLevel op).getD 5

/-- Parentheses around the tokens, if `b` holds. -/
def wrapIf {F : Type} (b : Bool) (ts : List (Token F)) : List (Token F) :=
  if b then .lparen :: (ts ++ [.rparen]) else ts

mutual
/-- An expression written with the fewest parentheses, where level `p` is needed. -/
def infixOf {F : Type} (p : Nat) : Tree F → List (Token F)
  | .num x => [.number x]
  | .var s => [.var s]
  | .call s a rest => .func s none :: (infixOf 1 a ++ infixArgs rest ++ [.rparen])
  | .fact a => wrapIf (6 < p) (infixOf 6 a ++ [.unary .fact])
  | .sign m a => wrapIf (4 < p) (.unary (signOp m) :: infixOf 4 a)
  | .bin op a b =>
    match leftLevel op with
    | some l => wrapIf (l < p) (infixOf l a ++ .binary op :: infixOf (l + 1) b)
    | none => wrapIf (5 < p) (infixOf 6 a ++ .binary op :: infixOf 4 b)
/-- The further arguments of a call. -/
def infixArgs {F : Type} : List (Tree F) → List (Token F)
  | [] => []
  | t :: ts => .comma :: (infixOf 1 t ++ infixArgs ts)
end

/-- May the function be called with `n` arguments? -/
def arityOk (f : FuncOp) (n : Nat) : Prop := minArgs f ≤ n ∧ (maxArgs f = 0 ∨ n ≤ maxArgs f)

instance (f : FuncOp) (n : Nat) : Decidable (arityOk f n) := by unfold arityOk; exact inferInstance

/-- The value of a name: the constant of that name, else the variable. -/
def nameVal {F : Type} (ops : FloatOps F) (env : Bytes → F) (s : Bytes) : F :=
  if constNames.contains s then ops.const s else env s

/-- A function by name applied to values; an error if there is no such function, or not with so many arguments. -/
def callVal {F : Type} (ops : FloatOps F) (s : Bytes) (args : List F) : Res F :=
  match findFunc s with
  | none => .err
  | some f => if arityOk f args.length then applyFunc ops f args else .err

mutual
/-- The value of an expression. -/
def treeVal {F : Type} (ops : FloatOps F) (env : Bytes → F) : Tree F → Res F
  | .num x => .ok x
  | .var s => .ok (nameVal ops env s)
  | .bin op a b => (treeVal ops env a).bind fun x => (treeVal ops env b).map' fun y => ops.bin op x y
  | .sign m a => (treeVal ops env a).map' fun x => if m then ops.neg x else x
  | .fact a => (treeVal ops env a).map' ops.fact
  | .call s a rest =>
    (treeVal ops env a).bind fun x => (treeVals ops env rest).bind fun xs => callVal ops s (x :: xs)

/-- The values of several expressions. -/
def treeVals {F : Type} (ops : FloatOps F) (env : Bytes → F) : List (Tree F) → Res (List F)
  | [] => .ok []
  | t :: ts => (treeVal ops env t).bind fun x => (treeVals ops env ts).map' fun xs => x :: xs
end

/-- Evaluating one token of a postfix formula as it stands, with nothing computed in advance. The stack has its top
first; `panic` is a missing operand. -/
def tokEvalStep {F : Type} (ops : FloatOps F) (env : Bytes → F) (s : List F) : Token F → Res (List F)
  | .number x => .ok (x :: s)
  | .var name => .ok (nameVal ops env name :: s)
  | .unary op =>
    match s with
    | x :: s => .ok ((match op with | .plus => x | .minus => ops.neg x | .fact => ops.fact x) :: s)
    | [] => .panic
  | .binary op =>
    match s with
    | y :: x :: s => .ok (ops.bin op x y :: s)
    | _ => .panic
  | .func name (some n) =>
    match findFunc name with
    | none => .err
    | some f =>
      if ¬ arityOk f n then .err
      else if s.length < n ∨ n = 0 then .panic
      else (applyFunc ops f (s.take n).reverse).map' fun v => v :: s.drop n
  | _ => .panic

/-- Evaluating a postfix formula token by token. -/
def tokEval {F : Type} (ops : FloatOps F) (env : Bytes → F) : List F → List (Token F) → Res (List F)
  | s, [] => .ok s
  | s, t :: ts => (tokEvalStep ops env s t).bind fun s' => tokEval ops env s' ts

end Cdx
