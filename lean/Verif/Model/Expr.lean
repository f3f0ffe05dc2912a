import Verif.Model.Column

/-!
Formulas. Models `/repo/src/tok2.rs`, `/repo/src/shunting_yard.rs` and the compiler and evaluator of
`/repo/src/expr.rs`.

`F` is the type of numbers. The floating point operations are parameters (`FloatOps`), so every theorem holds whatever
they compute. `Vec`s used as stacks are lists with the top first. Messages to the terminal are left out.
-/

namespace Cdx

/-- `BinaryOp` (`src/tok2.rs` 6-20). -/
inductive BinOp | plus | minus | times | div | rem | pow | lt | gt | eq | ne | le | ge
deriving DecidableEq, Repr

/-- `UnaryOp` (`src/tok2.rs` 21-28). -/
inductive UnOp | plus | minus | fact
deriving DecidableEq, Repr

/-- `Token` (`src/tok2.rs` 31-50). -/
inductive Token (F : Type)
  | binary (op : BinOp)
  | unary (op : UnOp)
  | lparen
  | rparen
  | comma
  | number (x : F)
  | var (name : Bytes)
  | func (name : Bytes) (nargs : Option Nat)
deriving DecidableEq, Repr

/-! ## Text to tokens -/

/-- `can_binary` (`src/tok2.rs` 62-74). -/
def canBinary {F : Type} : Token F → Bool
  | .binary _ => false
  | .unary _ => false
  | .lparen => false
  | .rparen => true
  | .comma => false
  | .number _ => true
  | .var _ => true
  | .func _ _ => true

/-- `make_func` and its caller (`src/tok2.rs` 52-59, 88-97): the tokens after an opening parenthesis. `res` has the last
token first. -/
def pushParen {F : Type} : List (Token F) → List (Token F)
  | .var s :: res => .func s none :: res
  | res => .lparen :: res

/-- Is a sign a unary operator here (`src/tok2.rs` 105, 112)? -/
def signIsUnary {F : Type} : List (Token F) → Bool
  | [] => true
  | t :: _ => !canBinary t

/-- One round of the loop of `tokenize` (`src/tok2.rs` 80-168): `ch` is the first character, `input` the rest; the
result is the tokens so far (last first) and the text still to read. `toF64` is the number parser of `src/text.rs` 675.
Characters are bytes: letters and digits outside ASCII are not modelled. -/
def tokStep {F : Type} (toF64 : Bytes → F × Bytes) (res : List (Token F)) (ch : UInt8) (input : Bytes) :
    Res (List (Token F) × Bytes) :=
  if ch = 40 then .ok (pushParen res, input)
  else if ch = 41 then .ok (.rparen :: res, input)
  else if ch = 44 then .ok (.comma :: res, input)
  else if ch = 94 then .ok (.binary .pow :: res, input)
  else if ch = 37 then .ok (.binary .rem :: res, input)
  else if ch = 47 then .ok (.binary .div :: res, input)
  else if ch = 42 then .ok (.binary .times :: res, input)
  else if ch = 43 then .ok ((if signIsUnary res then .unary .plus else .binary .plus) :: res, input)
  else if ch = 45 then .ok ((if signIsUnary res then .unary .minus else .binary .minus) :: res, input)
  else if ch = 33 then
    if input.head? = some 61 then .ok (.binary .ne :: res, input.tail) else .ok (.unary .fact :: res, input)
  else if ch = 60 then
    if input.head? = some 61 then .ok (.binary .le :: res, input.tail) else .ok (.binary .lt :: res, input)
  else if ch = 62 then
    if input.head? = some 61 then .ok (.binary .ge :: res, input.tail) else .ok (.binary .gt :: res, input)
  else if ch = 61 then
    if input.head? = some 61 then .ok (.binary .eq :: res, input.tail) else .err
  else if isAlpha ch then
    .ok (.var (ch :: input.takeWhile fun c => isAlpha c || isDigit c) :: res,
      input.dropWhile fun c => isAlpha c || isDigit c)
  else if isDigit ch then .ok (.number (toF64 (ch :: input)).1 :: res, (toF64 (ch :: input)).2)
  else .err

/-- The loop of `tokenize` (`src/tok2.rs` 80-168); `fuel` bounds the number of rounds, each round reads at least one
character. -/
def tokLoop {F : Type} (toF64 : Bytes → F × Bytes) : Nat → List (Token F) → Bytes → Res (List (Token F))
  | _, res, [] => .ok res.reverse
  | 0, _, _ :: _ => .panic
  | fuel + 1, res, ch :: input =>
    (tokStep toF64 res ch input).bind fun r => tokLoop toF64 fuel r.1 r.2

/-- `tokenize` (`src/tok2.rs` 75-170). -/
def tokenize {F : Type} (toF64 : Bytes → F × Bytes) (orig : Bytes) : Res (List (Token F)) :=
  tokLoop toF64 orig.length [] orig

/-! ## Tokens to reverse Polish notation -/

/-- The precedence in `prec_assoc` (`src/shunting_yard.rs` 24-38). -/
def prec {F : Type} : Token F → Nat
  | .binary .le => 1
  | .binary .ge => 1
  | .binary .lt => 1
  | .binary .gt => 1
  | .binary .eq => 1
  | .binary .ne => 1
  | .binary .plus => 2
  | .binary .minus => 2
  | .binary .times => 3
  | .binary .div => 3
  | .binary .rem => 3
  | .binary .pow => 5
  | .unary .plus => 4
  | .unary .minus => 4
  | .unary .fact => 6
  | _ => 0

/-- The associativity in `prec_assoc` (`src/shunting_yard.rs` 24-38): does the binary operator associate to the right? -/
def assocRight (op : BinOp) : Bool := op == .pow

/-- Does the operator `op` send the entry `t` on top of the stack to the output (`src/shunting_yard.rs` 60-70)? -/
def popsFor {F : Type} (op : BinOp) (t : Token F) : Bool :=
  if assocRight op then prec (.binary op : Token F) < prec t else prec (.binary op : Token F) ≤ prec t

/-- The loop for a binary operator (`src/shunting_yard.rs` 57-70). -/
def popBinary {F : Type} (op : BinOp) : List (Token F) → List (Token F) → List (Token F) × List (Token F)
  | out, [] => (out, [])
  | out, t :: stack => if popsFor op t then popBinary op (out ++ [t]) stack else (out, t :: stack)

/-- The loop for a right parenthesis (`src/shunting_yard.rs` 75-94). -/
def popRParen {F : Type} : List (Token F) → List (Token F) → Res (List (Token F) × List (Token F))
  | _, [] => .err
  | out, .lparen :: stack => .ok (out, stack)
  | out, .func name nargs :: stack => .ok (out ++ [.func name (some (nargs.getD 0 + 1))], stack)
  | out, t :: stack => popRParen (out ++ [t]) stack

/-- The loop for a comma (`src/shunting_yard.rs` 95-113). -/
def popComma {F : Type} : List (Token F) → List (Token F) → Res (List (Token F) × List (Token F))
  | _, [] => .err
  | _, .lparen :: _ => .err
  | out, .func name nargs :: stack => .ok (out, .func name (some (nargs.getD 0 + 1)) :: stack)
  | out, t :: stack => popComma (out ++ [t]) stack

/-- One round of the main loop of `to_rpn` (`src/shunting_yard.rs` 49-116). -/
def rpnStep {F : Type} (st : List (Token F) × List (Token F)) (t : Token F) :
    Res (List (Token F) × List (Token F)) :=
  match t with
  | .number x => .ok (st.1 ++ [.number x], st.2)
  | .var s => .ok (st.1 ++ [.var s], st.2)
  | .unary op => .ok (st.1, .unary op :: st.2)
  | .binary op => .ok ((popBinary op st.1 st.2).1, .binary op :: (popBinary op st.1 st.2).2)
  | .lparen => .ok (st.1, .lparen :: st.2)
  | .rparen => popRParen st.1 st.2
  | .comma => popComma st.1 st.2
  | .func s n => .ok (st.1, .func s n :: st.2)

/-- The main loop of `to_rpn` (`src/shunting_yard.rs` 49-116). -/
def rpnLoop {F : Type} : List (Token F) × List (Token F) → List (Token F) → Res (List (Token F) × List (Token F))
  | st, [] => .ok st
  | st, t :: ts => (rpnStep st t).bind fun st' => rpnLoop st' ts

/-- Emptying the stack at the end (`src/shunting_yard.rs` 118-126). -/
def rpnEnd {F : Type} : List (Token F) → List (Token F) → Res (List (Token F))
  | out, [] => .ok out
  | out, .unary op :: stack => rpnEnd (out ++ [.unary op]) stack
  | out, .binary op :: stack => rpnEnd (out ++ [.binary op]) stack
  | _, .lparen :: _ => .err
  | _, .func _ _ :: _ => .err
  | _, _ :: _ => .panic

/-- How a token changes `n_operands` (`src/shunting_yard.rs` 131-137); `none` is the panic. -/
def operandStep {F : Type} : Token F → Option Int
  | .var _ => some 1
  | .number _ => some 1
  | .unary _ => some 0
  | .binary _ => some (-1)
  | .func _ (some n) => some (-((n : Int) - 1))
  | _ => none

/-- The check of the output (`src/shunting_yard.rs` 129-145). -/
def verifyRpn {F : Type} : Int → List (Token F) → Res Unit
  | n, [] => if n > 1 then .err else .ok ()
  | n, t :: ts =>
    match operandStep t with
    | none => .panic
    | some d => if n + d ≤ 0 then .err else verifyRpn (n + d) ts

/-- `to_rpn` (`src/shunting_yard.rs` 45-149). -/
def toRpn {F : Type} (input : List (Token F)) : Res (List (Token F)) :=
  (rpnLoop ([], []) input).bind fun st =>
  (rpnEnd st.1 st.2).bind fun out =>
  (verifyRpn 0 out).bind fun _ => .ok out

/-! ## Functions and constants -/

/-- `FuncOp` (`src/expr.rs` 56-111). -/
inductive FuncOp
  | acos | acosh | asin | asinh | atan | atan2 | atanh | cbrt | ceil
  | copysign | cos | cosh | erf | exp | exp2 | exp10 | expm1 | fabs
  | fdim | floor | fma | fmax | fmin | fmod | hypot | j0 | j1
  | jn | ldexp | lgamma | log | log1p | log2 | log10 | nextafter | pow
  | remainder | round | scalbn | sin | sinh | sqrt | tan | tanh | tgamma
  | trunc | y0 | y1 | yn | abs | if_ | max | min | avg
deriving DecidableEq, Repr

/-- `FUNCS` (`src/expr.rs` 180-235). -/
def funcTable : List (Bytes × FuncOp) := [
  ([97, 99, 111, 115], .acos),
  ([97, 99, 111, 115, 104], .acosh),
  ([97, 115, 105, 110], .asin),
  ([97, 115, 105, 110, 104], .asinh),
  ([97, 116, 97, 110], .atan),
  ([97, 116, 97, 110, 50], .atan2),
  ([97, 116, 97, 110, 104], .atanh),
  ([99, 98, 114, 116], .cbrt),
  ([99, 101, 105, 108], .ceil),
  ([99, 111, 112, 121, 115, 105, 103, 110], .copysign),
  ([99, 111, 115], .cos),
  ([99, 111, 115, 104], .cosh),
  ([101, 114, 102], .erf),
  ([101, 120, 112], .exp),
  ([101, 120, 112, 50], .exp2),
  ([101, 120, 112, 49, 48], .exp10),
  ([101, 120, 112, 109, 49], .expm1),
  ([102, 97, 98, 115], .fabs),
  ([102, 100, 105, 109], .fdim),
  ([102, 108, 111, 111, 114], .floor),
  ([102, 109, 97], .fma),
  ([102, 109, 97, 120], .fmax),
  ([102, 109, 105, 110], .fmin),
  ([102, 109, 111, 100], .fmod),
  ([104, 121, 112, 111, 116], .hypot),
  ([106, 48], .j0),
  ([106, 49], .j1),
  ([106, 110], .jn),
  ([108, 100, 101, 120, 112], .ldexp),
  ([108, 103, 97, 109, 109, 97], .lgamma),
  ([108, 111, 103], .log),
  ([108, 111, 103, 49, 112], .log1p),
  ([108, 111, 103, 50], .log2),
  ([108, 111, 103, 49, 48], .log10),
  ([110, 101, 120, 116, 97, 102, 116, 101, 114], .nextafter),
  ([112, 111, 119], .pow),
  ([114, 101, 109, 97, 105, 110, 100, 101, 114], .remainder),
  ([114, 111, 117, 110, 100], .round),
  ([115, 99, 97, 108, 98, 110], .scalbn),
  ([115, 105, 110], .sin),
  ([115, 105, 110, 104], .sinh),
  ([115, 113, 114, 116], .sqrt),
  ([116, 97, 110], .tan),
  ([116, 97, 110, 104], .tanh),
  ([116, 103, 97, 109, 109, 97], .tgamma),
  ([116, 114, 117, 110, 99], .trunc),
  ([121, 48], .y0),
  ([121, 49], .y1),
  ([121, 110], .yn),
  ([97, 98, 115], .abs),
  ([105, 102], .if_),
  ([109, 97, 120], .max),
  ([109, 105, 110], .min),
  ([97, 118, 103], .avg)]

/-- The names in `CONSTS` (`src/expr.rs` 125-146), in their order. -/
def constNames : List Bytes := [
  [112, 105],
  [101],
  [77, 95, 69],
  [77, 95, 76, 79, 71, 50, 69],
  [77, 95, 76, 79, 71, 49, 48, 69],
  [77, 95, 76, 78, 50],
  [77, 95, 76, 78, 49, 48],
  [77, 95, 80, 73],
  [77, 95, 80, 73, 95, 50],
  [77, 95, 80, 73, 95, 52],
  [77, 95, 49, 95, 80, 73],
  [77, 95, 50, 95, 80, 73],
  [77, 95, 50, 95, 83, 81, 82, 84, 80, 73],
  [77, 95, 83, 81, 82, 84, 50],
  [77, 95, 83, 81, 82, 84, 49, 95, 50],
  [77, 95, 73, 78, 70],
  [77, 95, 78, 69, 71, 95, 73, 78, 70],
  [77, 95, 77, 65, 88],
  [77, 95, 77, 73, 78],
  [77, 95, 77, 73, 78, 95, 80, 79, 83]]

/-- `find_func` (`src/expr.rs` 46-53). -/
def findFunc (x : Bytes) : Option FuncOp := (funcTable.find? fun f => f.1 == x).map (·.2)

/-- Functions of two arguments (`src/expr.rs` 243-244, 256-257). -/
def twoArgs : FuncOp → Bool
  | .atan2 | .copysign | .fmin | .fdim | .fmax | .fmod | .hypot | .jn | .ldexp | .nextafter | .remainder | .scalbn
  | .pow | .yn => true
  | _ => false

/-- `min_args` (`src/expr.rs` 237-248). -/
def minArgs (f : FuncOp) : Nat :=
  if twoArgs f then 2 else if f = .fma ∨ f = .if_ then 3 else 1

/-- `max_args` (`src/expr.rs` 250-263); `0` means no limit. -/
def maxArgs (f : FuncOp) : Nat :=
  if twoArgs f then 2 else if f = .fma ∨ f = .if_ then 3
  else if f = .min ∨ f = .max ∨ f = .avg then 0 else 1

/-- The floating point operations used by a formula (`src/expr.rs` 125-146, 306-431, 639-649): operators, comparisons, the library functions by name and number
of arguments, the values of the constants by name. -/
structure FloatOps (F : Type) where
  zero : F
  neg : F → F
  fact : F → F
  bin : BinOp → F → F → F
  add : F → F → F
  div : F → F → F
  ofNat : Nat → F
  gt : F → F → Bool
  lt : F → F → Bool
  isZero : F → Bool
  lib1 : FuncOp → F → F
  lib2 : FuncOp → F → F → F
  lib3 : FuncOp → F → F → F → F
  const : Bytes → F

/-- `find_const` (`src/expr.rs` 37-44). -/
def findConst {F : Type} (ops : FloatOps F) (x : Bytes) : Option F :=
  if constNames.contains x then some (ops.const x) else none

/-- `apply_unary` (`src/expr.rs` 306-312). -/
def applyUnary {F : Type} (ops : FloatOps F) : UnOp → F → F
  | .plus, x => x
  | .minus, x => ops.neg x
  | .fact, x => ops.fact x

/-- The library function behind a function of one argument (`src/expr.rs` 322-378). -/
def libOne : FuncOp → FuncOp
  | .acos => .abs
  | .fabs => .abs
  | f => f

/-- `apply_func` (`src/expr.rs` 314-414); an argument out of range is a panic. -/
def applyFunc {F : Type} (ops : FloatOps F) (f : FuncOp) (args : List F) : Res F :=
  match f, args with
  | .max, x :: xs => .ok (xs.foldl (fun v x => if ops.gt x v then x else v) x)
  | .min, x :: xs => .ok (xs.foldl (fun v x => if ops.lt x v then x else v) x)
  | .avg, xs => .ok (ops.div (xs.foldl ops.add ops.zero) (ops.ofNat xs.length))
  | .if_, x :: y :: z :: _ => .ok (if ops.isZero x then z else y)
  | .fma, x :: y :: z :: _ => .ok (ops.lib3 .fma x y z)
  | _, [] => .panic
  | f, [x] => if minArgs f = 1 then .ok (ops.lib1 (libOne f) x) else .panic
  | f, x :: y :: _ =>
    if minArgs f = 1 then .ok (ops.lib1 (libOne f) x)
    else if minArgs f = 2 then .ok (ops.lib2 f x y) else .panic

/-! ## Compiling and evaluating -/

/-- `Node` (`src/expr.rs` 265-271). -/
inductive Node (F : Type)
  | value (x : F)
  | var (i : Nat)
  | unary (op : UnOp)
  | binary (op : BinOp)
  | func (f : FuncOp) (n : Nat)
deriving DecidableEq, Repr

/-- `find_var` (`src/expr.rs` 522-530): the index, and the names afterwards. -/
def findVar (vars : List Bytes) (name : Bytes) : Nat × List Bytes :=
  match vars.findIdx? (· == name) with
  | some i => (i, vars)
  | none => (vars.length, vars ++ [name])

/-- A binary operator in `rpn_to_expr` (`src/expr.rs` 535-545); `e` has the last node first. -/
def compileBinary {F : Type} (ops : FloatOps F) (op : BinOp) : List (Node F) → Res (List (Node F))
  | .value right :: .value left :: e => .ok (.value (ops.bin op left right) :: e)
  | [.value _] => .panic
  | [] => .panic
  | e => .ok (.binary op :: e)

/-- A unary operator in `rpn_to_expr` (`src/expr.rs` 546-554). -/
def compileUnary {F : Type} (ops : FloatOps F) (op : UnOp) (e : List (Node F)) : Res (List (Node F)) :=
  if op = .plus then .ok e else
  match e with
  | [] => .panic
  | .value v :: e => .ok (.value (applyUnary ops op v) :: e)
  | e => .ok (.unary op :: e)

/-- A function in `rpn_to_expr` (`src/expr.rs` 567-586). -/
def compileFunc {F : Type} (ops : FloatOps F) (name : Bytes) (n : Nat) (e : List (Node F)) : Res (List (Node F)) :=
  match findFunc name with
  | none => .err
  | some f =>
    if n < minArgs f then .err
    else if maxArgs f > 0 ∧ n > maxArgs f then .err
    else if n = 1 then
      match e with
      | [] => .panic
      | .value v :: e => (applyFunc ops f [v]).map' fun v => .value v :: e
      | e => .ok (.func f n :: e)
    else .ok (.func f n :: e)

/-- One round of `rpn_to_expr` (`src/expr.rs` 534-589); the state is the program (last node first) and the names of the
variables. -/
def compileStep {F : Type} (ops : FloatOps F) (st : List (Node F) × List Bytes) (t : Token F) :
    Res (List (Node F) × List Bytes) :=
  match t with
  | .binary op => (compileBinary ops op st.1).map' fun e => (e, st.2)
  | .unary op => (compileUnary ops op st.1).map' fun e => (e, st.2)
  | .number n => .ok (.value n :: st.1, st.2)
  | .var name =>
    match findConst ops name with
    | some c => .ok (.value c :: st.1, st.2)
    | none => .ok (.var (findVar st.2 name).1 :: st.1, (findVar st.2 name).2)
  | .func name (some n) => (compileFunc ops name n st.1).map' fun e => (e, st.2)
  | _ => .ok st

/-- The loop of `rpn_to_expr` (`src/expr.rs` 533-589). -/
def compileLoop {F : Type} (ops : FloatOps F) :
    List (Node F) × List Bytes → List (Token F) → Res (List (Node F) × List Bytes)
  | st, [] => .ok st
  | st, t :: ts => (compileStep ops st t).bind fun st' => compileLoop ops st' ts

/-- `rpn_to_expr` (`src/expr.rs` 531-593): the program and the names of the variables, for an `Expr` with the variables
`vars`. -/
def rpnToExpr {F : Type} (ops : FloatOps F) (vars : List Bytes) (rpn : List (Token F)) :
    Res (List (Node F) × List Bytes) :=
  (compileLoop ops ([], vars) rpn).map' fun r => (r.1.reverse, r.2)

/-- One round of `do_eval` (`src/expr.rs` 612-634): the stack, top first. `vals` is the values of the variables. -/
def evalStep {F : Type} (ops : FloatOps F) (vals : List F) (stack : List F) : Node F → Res (List F)
  | .value v => .ok (v :: stack)
  | .var i =>
    match vals[i]? with
    | some v => .ok (v :: stack)
    | none => .panic
  | .unary op =>
    match stack with
    | x :: s => .ok (applyUnary ops op x :: s)
    | [] => .panic
  | .binary op =>
    match stack with
    | right :: left :: s => .ok (ops.bin op left right :: s)
    | _ => .panic
  | .func f n =>
    if stack.length < n ∨ n = 0 then .panic
    else (applyFunc ops f (stack.take n).reverse).map' fun v => v :: stack.drop n

/-- The loop of `do_eval` (`src/expr.rs` 612-634). -/
def evalLoop {F : Type} (ops : FloatOps F) (vals : List F) : List F → List (Node F) → Res (List F)
  | stack, [] => .ok stack
  | stack, n :: ns => (evalStep ops vals stack n).bind fun s => evalLoop ops vals s ns

/-- `do_eval` (`src/expr.rs` 610-636): the result is the bottom of the stack. -/
def doEval {F : Type} (ops : FloatOps F) (vals : List F) (prog : List (Node F)) : Res F :=
  (evalLoop ops vals [] prog).bind fun s =>
  match s.getLast? with
  | some v => .ok v
  | none => .panic

/-- `parse` (`src/expr.rs` 455-464): the program and the variables. -/
def parseFormula {F : Type} (ops : FloatOps F) (toF64 : Bytes → F × Bytes) (vars : List Bytes) (exp : Bytes) :
    Res (List (Node F) × List Bytes) :=
  (tokenize toF64 exp).bind fun tokens => (toRpn tokens).bind fun rpn => rpnToExpr ops vars rpn

/-- Compiling a formula in a fresh `Expr` and evaluating it (`src/expr.rs` 16-19, 594-609); `env` gives the values of the
variables by name. In `eval_plain` every variable is zero. -/
def evalFormula {F : Type} (ops : FloatOps F) (toF64 : Bytes → F × Bytes) (env : Bytes → F) (exp : Bytes) : Res F :=
  (parseFormula ops toF64 [] exp).bind fun r => doEval ops (r.2.map env) r.1

/-! ## Columns in formulas -/

/-- The text put in place of a column set in brackets (`src/expr.rs` 472-478), `v` being its columns. -/
def bracketText (v : List Nat) : Bytes := List.intercalate [44] (v.map fun i => 99 :: decText (i + 1))

/-- The column of a variable (`src/expr.rs` 482-499): the first column of that name, else the number after a `c`.
`c0` is a subtraction overflow, a number too big for `usize` an overflow as well. -/
def resolveVar (fieldnames : List Bytes) (name : Bytes) : Res Nat :=
  match fieldnames.findIdx? (· == name) with
  | some i => .ok i
  | none =>
    match name with
    | 99 :: ds =>
      if ds ≠ [] ∧ ds.all isDigit then
        match toUsizeWhole ds with
        | .ok n => if n = 0 then .panic else .ok (n - 1)
        | _ => .panic
      else .err
    | _ => .err

/-! ## Factorials -/

/-- `FACTORIAL` (`src/expr.rs` 651-823): the literals as written, `(m, k)` for `m * 10^k`. -/
def factorialTable : List (Nat × Nat) := [
  (0, 0), (1, 0), (2, 0), (6, 0), (24, 0), (120, 0), (720, 0), (504, 1), (4032, 1), (36288, 1), (36288, 2),
  (399168, 2), (4790016, 2), (62270208, 2), (871782912, 2), (1307674368, 3), (20922789888, 3), (355687428096, 3),
  (6402373705728, 3), (121645100408832, 3), (243290200817664, 4), (5109094217170944, 4), (11240007277776077, 5),
  (2585201673888498, 7), (6204484017332394, 8), (15511210043330986, 9), (40329146112660565, 10),
  (10888869450418352, 12), (30488834461171384, 13), (8841761993739701, 15), (26525285981219103, 16),
  (8222838654177922, 18), (2631308369336935, 20), (8683317618811886, 21), (29523279903960412, 22),
  (10333147966386144, 24), (3719933267899012, 26), (13763753091226343, 27), (523022617466601, 30),
  (20397882081197442, 30), (8159152832478977, 32), (33452526613163803, 33), (14050061177528798, 35),
  (6041526306337383, 37), (26582715747884485, 38), (11962222086548019, 40), (55026221598120885, 41),
  (25862324151116818, 43), (12413915592536073, 45), (6082818640342675, 47), (30414093201713376, 48),
  (15511187532873822, 50), (8065817517094388, 52), (42748832840600255, 53), (2308436973392414, 56),
  (12696403353658276, 57), (7109985878048635, 59), (4052691950487722, 61), (2350561331282879, 63),
  (13868311854568986, 64), (8320987112741392, 66), (5075802138772248, 68), (3146997326038794, 70),
  (198260831540444, 73), (12688693218588417, 73), (8247650592082472, 75), (5443449390774431, 77),
  (3647111091818868, 79), (24800355424368305, 80), (1711224524281413, 83), (1197857166996989, 85),
  (8504785885678622, 86), (6123445837688608, 88), (44701154615126834, 89), (33078854415193856, 91),
  (2480914081139539, 94), (18854947016660498, 95), (14518309202828584, 97), (11324281178206295, 99),
  (8946182130782973, 101), (7156945704626378, 103), (5797126020747366, 105), (475364333701284, 108),
  (3945523969720657, 109), (3314240134565352, 111), (28171041143805494, 112), (24227095383672724, 114),
  (2107757298379527, 117), (18548264225739836, 118), (16507955160908452, 120), (14857159644817607, 122),
  (13520015276784023, 124), (124384140546413, 128), (11567725070816409, 128), (10873661566567424, 130),
  (10329978488239052, 132), (9916779348709491, 134), (9619275968248206, 136), (9426890448883242, 138),
  (933262154439441, 141), (933262154439441, 143), (9425947759838354, 144), (9614466715035121, 146),
  (9902900716486175, 148), (10299016745145622, 150), (10813967582402903, 152), (11462805637347078, 154),
  (12265202031961373, 156), (13246418194518284, 158), (14438595832024928, 160), (15882455415227421, 162),
  (17629525510902437, 164), (19745068572210728, 166), (22311927486598123, 168), (2543559733472186, 171),
  (2925093693493014, 173), (33931086844518965, 174), (3969937160808719, 177), (46845258497542883, 178),
  (5574585761207603, 181), (6689502913449124, 183), (809429852527344, 186), (9875044200833598, 187),
  (12146304367025325, 189), (15061417415111404, 191), (18826771768889254, 193), (2372173242880046, 196),
  (3012660018457658, 198), (38562048236258025, 199), (49745042224772855, 201), (6466855489220472, 204),
  (8471580690878817, 206), (1118248651196004, 209), (14872707060906852, 210), (1992942746161518, 213),
  (26904727073180495, 214), (3659042881952547, 217), (501288874827499, 220), (6917786472619486, 221),
  (9615723196941086, 223), (1346201247571752, 226), (189814375907617, 229), (26953641378881614, 229),
  (38543707171800706, 231), (5550293832739301, 234), (8047926057471987, 236), (117499720439091, 240),
  (17272458904546376, 240), (25563239178728637, 242), (3808922637630567, 245), (57133839564458505, 246),
  (8627209774233235, 249), (13113358856834518, 251), (2006343905095681, 254), (3089769613847349, 256),
  (4789142901463391, 258), (747106292628289, 261), (11729568794264138, 262), (18532718694937338, 264),
  (2946702272495037, 267), (4714723635992059, 269), (7590705053947215, 271), (12296942187394488, 273),
  (20044015765453015, 275), (32872185855342945, 277), (5423910666131586, 280), (9003691705778433, 282),
  (15036165148649983, 284), (2526075744973197, 287), (42690680090047027, 288), (7257415615307994, 291)]

/-- `factorial` (`src/expr.rs` 639-649) of a whole number; `none` is infinity. The table entries stand for their decimal
values, so the rounding to a double is left out; so are numbers that are not whole, which are rounded first. -/
def factorialOf (x : Int) : Option Nat :=
  if x < 0 then some 0
  else if x > 170 then none
  else some ((factorialTable.getD x.toNat (0, 0)).1 * 10 ^ (factorialTable.getD x.toNat (0, 0)).2)

end Cdx
