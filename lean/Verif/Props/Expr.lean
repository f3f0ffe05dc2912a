import Verif.Lemmas.ExprEval
import Verif.Lemmas.ExprParse
import Verif.Props.ColumnOut

/-!
Properties of formulas: C35, C36, C37, C71, C72, C73, C74.
-/

namespace Cdx

variable {F : Type}

/-! ## C35: accepted formulas evaluate -/

/-- The full claim: an accepted formula compiles to a program that leaves exactly one value. -/
def C35_statement : Prop :=
  ∀ (F : Type) (ops : FloatOps F) (env : Bytes → F) (ts rpn : List (Token F)) (vars vars' : List Bytes)
    (prog : List (Node F)), toRpn ts = .ok rpn → rpnToExpr ops vars rpn = .ok (prog, vars') →
    ∃ v, evalLoop ops (vars'.map env) [] prog = .ok [v] ∧ doEval ops (vars'.map env) prog = .ok v

/-- Numbers for the examples: whole numbers, subtraction cut off at zero. -/
def natOps : FloatOps Nat where
  zero := 0
  neg x := x
  fact x := x
  bin op x y := match op with
    | .plus => x + y
    | .minus => x - y
    | .times => x * y
    | .pow => x ^ y
    | _ => 0
  add := (· + ·)
  div := (· / ·)
  ofNat x := x
  gt x y := decide (x > y)
  lt x y := decide (x < y)
  isZero x := x == 0
  lib1 _ x := x + 100
  lib2 _ x y := x + y
  lib3 _ x y z := x + y + z
  const _ := 3

/-- `()` is accepted; evaluating it fails. The code behaves so. -/
theorem C35_refuted : ¬ C35_statement := by
  intro h
  obtain ⟨v, h1, _⟩ := h Nat natOps (fun _ => 0) [.lparen, .rparen] [] [] [] [] (by decide) (by decide)
  simp [evalLoop] at h1

/-- The empty formula is accepted as well, and evaluation panics. -/
example : evalFormula natOps (fun s => (0, s)) (fun _ => 0) [] = .panic := by decide

/-- An accepted formula that is not made of parentheses alone: compiling it never fails for want of operands, and
evaluating it leaves exactly one value. -/
theorem C35_value_partial (ops : FloatOps F) (env : Bytes → F) {ts rpn : List (Token F)} (vars : List Bytes)
    (h : toRpn ts = .ok rpn) (hne : rpn ≠ []) :
    rpnToExpr ops vars rpn = .err ∨
    ∃ prog w v, rpnToExpr ops vars rpn = .ok (prog, vars ++ w) ∧
      evalLoop ops ((vars ++ w).map env) [] prog = .ok [v] ∧ doEval ops ((vars ++ w).map env) prog = .ok v := by
  rcases tokEval_operands ops env (s := []) rfl (toRpn_verified h) with h1 | ⟨s, h1, _, h3⟩
  · exact .inl (by rw [rpnToExpr, compileLoop_err ops env (s := []) rfl h1]; rfl)
  · obtain ⟨e, w, h4, h5⟩ := compileLoop_ok ops env (e := []) (vars := vars) (s := []) rfl h1
    match s, h3 hne, h5 with
    | [v], _, h5 =>
      refine .inr ⟨e.reverse, w, v, by rw [rpnToExpr, h4]; rfl, h5, ?_⟩
      rw [doEval, h5]; rfl

example : toRpn [.number 2, .binary .times, .lparen, .var [120], .binary .plus, .number 3, .rparen] =
    .ok [.number 2, .var [120], .number 3, .binary .plus, .binary .times] ∧
    rpnToExpr natOps [] [.number 2, .var [120], .number 3, .binary .plus, .binary .times] =
      .ok ([.value 2, .var 0, .value 3, .binary .plus, .binary .times], [[120]]) ∧
    doEval natOps [7] [.value 2, .var 0, .value 3, .binary .plus, .binary .times] = .ok 20 := by decide +kernel

/-- What may be on the stack and in the output. -/
def StackTok : Token F → Prop
  | .unary _ | .binary _ | .lparen | .func _ _ => True
  | _ => False

def OutTok : Token F → Prop
  | .number _ | .var _ | .unary _ | .binary _ | .func _ (some _) => True
  | _ => False

/-- Something other than an opening parenthesis is in the output or on the stack. -/
def SomeTok (st : List (Token F) × List (Token F)) : Prop := st.1 ≠ [] ∨ ∃ t ∈ st.2, t ≠ .lparen

/-- The state of `to_rpn` holds the right sort of tokens. -/
def RpnInv (st : List (Token F) × List (Token F)) : Prop := (∀ t ∈ st.1, OutTok t) ∧ (∀ t ∈ st.2, StackTok t)

theorem popBinary_inv (op : BinOp) {out stack : List (Token F)} (h : RpnInv (out, stack)) (hs : ∀ t ∈ stack, ∀ o,
    popsFor o t = true → OutTok t) : RpnInv (popBinary op out stack) := by
  induction stack generalizing out with
  | nil => exact h
  | cons t stack ih =>
    rw [popBinary]
    split
    · rename_i hp
      refine ih ⟨?_, fun u hu => h.2 u (by simp [hu])⟩ (fun u hu => hs u (by simp [hu]))
      intro u hu
      rcases List.mem_append.1 hu with hu | hu
      · exact h.1 u hu
      · simp at hu; subst hu; exact hs u (by simp) op hp
    · exact h

theorem pops_out {t : Token F} (ht : StackTok t) (o : BinOp) (h : popsFor o t = true) : OutTok t := by
  cases t with
  | unary op => trivial
  | binary op => trivial
  | lparen => cases o <;> simp [popsFor, assocRight, prec] at h
  | func s n => cases o <;> simp [popsFor, assocRight, prec] at h
  | _ => exact ht.elim

theorem popRParen_inv {out stack : List (Token F)} (h : RpnInv (out, stack)) :
    popRParen out stack = .err ∨ ∃ st, popRParen out stack = .ok st ∧ RpnInv st := by
  induction stack generalizing out with
  | nil => exact .inl rfl
  | cons t stack ih =>
    have ht := h.2 t (by simp)
    have hs : ∀ t ∈ stack, StackTok t := fun u hu => h.2 u (by simp [hu])
    cases t with
    | lparen => exact .inr ⟨_, rfl, h.1, hs⟩
    | func s n =>
      refine .inr ⟨_, rfl, ?_, hs⟩
      intro u hu
      rcases List.mem_append.1 hu with hu | hu
      · exact h.1 u hu
      · simp at hu; subst hu; trivial
    | unary op =>
      rw [show popRParen out (.unary op :: stack) = popRParen (out ++ [.unary op]) stack by simp [popRParen]]
      refine ih ⟨?_, hs⟩
      intro u hu
      rcases List.mem_append.1 hu with hu | hu
      · exact h.1 u hu
      · simp at hu; subst hu; trivial
    | binary op =>
      rw [show popRParen out (.binary op :: stack) = popRParen (out ++ [.binary op]) stack by simp [popRParen]]
      refine ih ⟨?_, hs⟩
      intro u hu
      rcases List.mem_append.1 hu with hu | hu
      · exact h.1 u hu
      · simp at hu; subst hu; trivial
    | _ => exact ht.elim

theorem popComma_inv {out stack : List (Token F)} (h : RpnInv (out, stack)) :
    popComma out stack = .err ∨ ∃ st, popComma out stack = .ok st ∧ RpnInv st ∧ SomeTok st := by
  induction stack generalizing out with
  | nil => exact .inl rfl
  | cons t stack ih =>
    have ht := h.2 t (by simp)
    have hs : ∀ t ∈ stack, StackTok t := fun u hu => h.2 u (by simp [hu])
    cases t with
    | lparen => exact .inl rfl
    | func s n =>
      refine .inr ⟨_, rfl, ⟨h.1, ?_⟩, .inr ⟨_, List.mem_cons_self, by simp⟩⟩
      intro u hu
      rcases List.mem_cons.1 hu with rfl | hu
      · trivial
      · exact hs u hu
    | unary op =>
      rw [show popComma out (.unary op :: stack) = popComma (out ++ [.unary op]) stack by simp [popComma]]
      refine ih ⟨?_, hs⟩
      intro u hu
      rcases List.mem_append.1 hu with hu | hu
      · exact h.1 u hu
      · simp at hu; subst hu; trivial
    | binary op =>
      rw [show popComma out (.binary op :: stack) = popComma (out ++ [.binary op]) stack by simp [popComma]]
      refine ih ⟨?_, hs⟩
      intro u hu
      rcases List.mem_append.1 hu with hu | hu
      · exact h.1 u hu
      · simp at hu; subst hu; trivial
    | _ => exact ht.elim

theorem rpnStep_inv {st : List (Token F) × List (Token F)} (t : Token F) (h : RpnInv st) :
    rpnStep st t = .err ∨ ∃ st', rpnStep st t = .ok st' ∧ RpnInv st' := by
  cases t with
  | number x =>
    refine .inr ⟨_, rfl, ?_, h.2⟩
    intro u hu
    rcases List.mem_append.1 hu with hu | hu
    · exact h.1 u hu
    · simp at hu; subst hu; trivial
  | var x =>
    refine .inr ⟨_, rfl, ?_, h.2⟩
    intro u hu
    rcases List.mem_append.1 hu with hu | hu
    · exact h.1 u hu
    · simp at hu; subst hu; trivial
  | unary op =>
    refine .inr ⟨_, rfl, h.1, fun u hu => ?_⟩
    rcases List.mem_cons.1 hu with rfl | hu
    · trivial
    · exact h.2 u hu
  | lparen =>
    refine .inr ⟨_, rfl, h.1, fun u hu => ?_⟩
    rcases List.mem_cons.1 hu with rfl | hu
    · trivial
    · exact h.2 u hu
  | func s n =>
    refine .inr ⟨_, rfl, h.1, fun u hu => ?_⟩
    rcases List.mem_cons.1 hu with rfl | hu
    · trivial
    · exact h.2 u hu
  | binary op =>
    have := popBinary_inv op (out := st.1) (stack := st.2) h (fun t ht o => pops_out (h.2 t ht) o)
    refine .inr ⟨_, rfl, this.1, fun u hu => ?_⟩
    rcases List.mem_cons.1 hu with rfl | hu
    · trivial
    · exact this.2 u hu
  | rparen => exact popRParen_inv h
  | comma =>
    rcases popComma_inv h with h1 | ⟨st', h1, h2, _⟩
    · exact .inl h1
    · exact .inr ⟨st', h1, h2⟩

theorem rpnLoop_inv {st : List (Token F) × List (Token F)} (ts : List (Token F)) (h : RpnInv st) :
    rpnLoop st ts = .err ∨ ∃ st', rpnLoop st ts = .ok st' ∧ RpnInv st' := by
  induction ts generalizing st with
  | nil => exact .inr ⟨st, rfl, h⟩
  | cons t ts ih =>
    rcases rpnStep_inv t h with h1 | ⟨st', h1, h2⟩
    · exact .inl (by rw [rpnLoop, h1]; rfl)
    · rw [rpnLoop, h1, Res.bind_ok]; exact ih h2

theorem rpnEnd_inv {out stack : List (Token F)} (h : RpnInv (out, stack)) :
    rpnEnd out stack = .err ∨ ∃ out', rpnEnd out stack = .ok out' ∧ (∀ t ∈ out', OutTok t) := by
  induction stack generalizing out with
  | nil => exact .inr ⟨out, rfl, h.1⟩
  | cons t stack ih =>
    have ht := h.2 t (by simp)
    have hs : ∀ t ∈ stack, StackTok t := fun u hu => h.2 u (by simp [hu])
    cases t with
    | lparen => exact .inl rfl
    | func s n => exact .inl rfl
    | unary op =>
      rw [rpnEnd]
      refine ih ⟨?_, hs⟩
      intro u hu
      rcases List.mem_append.1 hu with hu | hu
      · exact h.1 u hu
      · simp at hu; subst hu; trivial
    | binary op =>
      rw [rpnEnd]
      refine ih ⟨?_, hs⟩
      intro u hu
      rcases List.mem_append.1 hu with hu | hu
      · exact h.1 u hu
      · simp at hu; subst hu; trivial
    | _ => exact ht.elim

theorem verifyRpn_no_panic (n : Int) {ts : List (Token F)} (h : ∀ t ∈ ts, OutTok t) : verifyRpn n ts ≠ .panic := by
  induction ts generalizing n with
  | nil => rw [verifyRpn]; split <;> simp
  | cons t ts ih =>
    rw [verifyRpn]
    have ht := h t (by simp)
    have : ∃ d, operandStep t = some d := by
      cases t with
      | func s m => cases m with
        | none => exact ht.elim
        | some m => exact ⟨_, rfl⟩
      | number x => exact ⟨_, rfl⟩
      | var x => exact ⟨_, rfl⟩
      | unary x => exact ⟨_, rfl⟩
      | binary x => exact ⟨_, rfl⟩
      | _ => exact ht.elim
    obtain ⟨d, hd⟩ := this
    rw [hd]
    simp only
    split
    · simp
    · exact ih _ (fun u hu => h u (by simp [hu]))

/-- Neither of the two panics of `to_rpn` can happen. -/
theorem C35_no_panic (ts : List (Token F)) : toRpn ts ≠ .panic := by
  rw [toRpn]
  rcases rpnLoop_inv (st := ([], [])) ts ⟨by simp, by simp⟩ with h1 | ⟨st, h1, h2⟩
  · rw [h1]; simp [Res.bind]
  rw [h1, Res.bind_ok]
  rcases rpnEnd_inv (out := st.1) (stack := st.2) h2 with h3 | ⟨out, h3, h4⟩
  · rw [h3]; simp [Res.bind]
  rw [h3, Res.bind_ok]
  have := verifyRpn_no_panic 0 h4
  cases hv : verifyRpn 0 out with
  | ok u => simp [Res.bind]
  | err => simp [Res.bind]
  | panic => exact absurd hv this

theorem someTok_popBinary (op : BinOp) {out stack : List (Token F)} (h : SomeTok (out, stack)) :
    SomeTok (popBinary op out stack) := by
  induction stack generalizing out with
  | nil => exact h
  | cons t stack ih =>
    rw [popBinary]
    split
    · exact ih (.inl (by simp))
    · exact h

theorem someTok_popRParen {out stack : List (Token F)} {st : List (Token F) × List (Token F)}
    (h : SomeTok (out, stack)) (hst : popRParen out stack = .ok st) : SomeTok st := by
  induction stack generalizing out with
  | nil => simp [popRParen] at hst
  | cons t stack ih =>
    cases t with
    | lparen =>
      simp [popRParen] at hst
      subst hst
      rcases h with h | ⟨u, hu, hn⟩
      · exact .inl h
      · rcases List.mem_cons.1 hu with rfl | hu
        · exact absurd rfl hn
        · exact .inr ⟨u, hu, hn⟩
    | func s n => simp [popRParen] at hst; subst hst; exact .inl (by simp)
    | _ => rw [popRParen] at hst <;> first | exact ih (.inl (by simp)) hst | simp

theorem someTok_step {st st' : List (Token F) × List (Token F)} {t : Token F} (hi : RpnInv st)
    (h : SomeTok st ∨ (t ≠ .lparen ∧ t ≠ .rparen)) (hst : rpnStep st t = .ok st') : SomeTok st' := by
  cases t with
  | number x => simp [rpnStep] at hst; subst hst; exact .inl (by simp)
  | var x => simp [rpnStep] at hst; subst hst; exact .inl (by simp)
  | unary op => simp [rpnStep] at hst; subst hst; exact .inr ⟨_, List.mem_cons_self, by simp⟩
  | func s n => simp [rpnStep] at hst; subst hst; exact .inr ⟨_, List.mem_cons_self, by simp⟩
  | binary op => simp [rpnStep] at hst; subst hst; exact .inr ⟨_, List.mem_cons_self, by simp⟩
  | lparen =>
    simp [rpnStep] at hst
    subst hst
    rcases h with (h | ⟨u, hu, hn⟩) | h
    · exact .inl h
    · exact .inr ⟨u, by simp [hu], hn⟩
    · exact absurd rfl h.1
  | rparen =>
    rcases h with h | h
    · exact someTok_popRParen h hst
    · exact absurd rfl h.2
  | comma =>
    rcases popComma_inv hi with h1 | ⟨st1, h1, _, h2⟩
    · simp [rpnStep, h1] at hst
    · simp [rpnStep, h1] at hst; subst hst; exact h2

theorem someTok_loop {st st' : List (Token F) × List (Token F)} {ts : List (Token F)} (hi : RpnInv st)
    (h : SomeTok st ∨ ∃ t ∈ ts, t ≠ .lparen ∧ t ≠ .rparen) (hst : rpnLoop st ts = .ok st') : SomeTok st' := by
  induction ts generalizing st with
  | nil =>
    simp [rpnLoop] at hst
    subst hst
    rcases h with h | ⟨t, ht, _⟩
    · exact h
    · simp at ht
  | cons t ts ih =>
    rw [rpnLoop] at hst
    rcases rpnStep_inv t hi with h1 | ⟨st1, h1, h2⟩
    · simp [h1, Res.bind] at hst
    · rw [h1, Res.bind_ok] at hst
      refine ih h2 ?_ hst
      rcases h with h | ⟨u, hu, hn⟩
      · exact .inl (someTok_step hi (.inl h) h1)
      · rcases List.mem_cons.1 hu with rfl | hu
        · exact .inl (someTok_step hi (.inr hn) h1)
        · exact .inr ⟨u, hu, hn⟩

theorem rpnEnd_grows {out stack out' : List (Token F)} (h : rpnEnd out stack = .ok out') (hs : out ≠ [] ∨ stack ≠ []) :
    out' ≠ [] := by
  induction stack generalizing out with
  | nil =>
    simp [rpnEnd] at h
    subst h
    rcases hs with hs | hs
    · exact hs
    · exact absurd rfl hs
  | cons t stack ih =>
    cases t with
    | unary op => rw [rpnEnd] at h; exact ih h (.inl (by simp))
    | binary op => rw [rpnEnd] at h; exact ih h (.inl (by simp))
    | _ => simp [rpnEnd] at h

/-- The output is empty only if the formula has nothing but parentheses. -/
theorem C35_nonempty {ts rpn : List (Token F)} (h : toRpn ts = .ok rpn) (ht : ∃ t ∈ ts, t ≠ .lparen ∧ t ≠ .rparen) :
    rpn ≠ [] := by
  rw [toRpn] at h
  have hi : RpnInv (([], []) : List (Token F) × List (Token F)) := ⟨by simp, by simp⟩
  rcases rpnLoop_inv ts hi with h1 | ⟨st, h1, h2⟩
  · rw [h1] at h; simp [Res.bind] at h
  have hsome := someTok_loop hi (.inr ht) h1
  rw [h1, Res.bind_ok] at h
  cases h3 : rpnEnd st.1 st.2 with
  | ok out =>
    rw [h3, Res.bind_ok] at h
    cases h4 : verifyRpn 0 out with
    | ok u =>
      rw [h4, Res.bind_ok] at h
      simp at h
      subst h
      refine rpnEnd_grows h3 ?_
      rcases hsome with h | ⟨u, hu, _⟩
      · exact .inl h
      · exact .inr (List.ne_nil_of_mem hu)
    | err => simp [h4, Res.bind] at h
    | panic => simp [h4, Res.bind] at h
  | err => simp [h3, Res.bind] at h
  | panic => simp [h3, Res.bind] at h

/-- The rest of the text is no longer than `n`. -/
def Shorter {α : Type} (n : Nat) (r : Res (α × Bytes)) : Prop := r = .err ∨ ∃ x, r = .ok x ∧ x.2.length ≤ n

theorem shorter_ite {α : Type} {n : Nat} {c : Prop} [Decidable c] {a b : Res (α × Bytes)} (ha : c → Shorter n a)
    (hb : ¬ c → Shorter n b) : Shorter n (if c then a else b) := by
  split
  · exact ha (by assumption)
  · exact hb (by assumption)

theorem tokLoop_no_panic {toF64 : Bytes → F × Bytes}
    (hf : ∀ c r, isDigit c = true → (toF64 (c :: r)).2.length ≤ r.length) (fuel : Nat) (res : List (Token F))
    (input : Bytes) (h : input.length ≤ fuel) : tokLoop toF64 fuel res input ≠ .panic := by
  induction fuel generalizing res input with
  | zero =>
    have : input = [] := List.length_eq_zero_iff.1 (by omega)
    subst this
    simp [tokLoop]
  | succ fuel ih =>
    cases input with
    | nil => simp [tokLoop]
    | cons c r =>
      rw [tokLoop]
      have hstep : Shorter r.length (tokStep toF64 res c r) := by
        unfold tokStep
        have hdrop : (r.dropWhile fun c => isAlpha c || isDigit c).length ≤ r.length :=
          (List.dropWhile_sublist _).length_le
        repeat' refine shorter_ite (fun _ => ?_) (fun _ => ?_)
        all_goals first
          | exact .inl rfl
          | exact .inr ⟨_, rfl, Nat.le_refl _⟩
          | exact .inr ⟨_, rfl, hdrop⟩
          | exact .inr ⟨_, rfl, hf c r (by assumption)⟩
          | exact .inr ⟨_, rfl, by simp⟩
      rcases hstep with h1 | ⟨x, h1, h2⟩
      · rw [h1]; simp [Res.bind]
      · rw [h1, Res.bind_ok]; exact ih _ _ (by simp at h; omega)

/-- Whatever the text of a formula, compiling and evaluating it panics only if the text has nothing but
parentheses. The number parser is only known to read at least the first digit. -/
theorem C35_total_partial (ops : FloatOps F) {toF64 : Bytes → F × Bytes} (env : Bytes → F)
    (hf : ∀ c r, isDigit c = true → (toF64 (c :: r)).2.length ≤ r.length) (exp : Bytes)
    (h : evalFormula ops toF64 env exp = .panic) :
    ∃ ts, tokenize toF64 exp = .ok ts ∧ ∀ t ∈ ts, t = .lparen ∨ t = .rparen := by
  unfold evalFormula parseFormula at h
  cases h1 : tokenize toF64 exp with
  | ok ts =>
    rw [h1, Res.bind_ok] at h
    refine ⟨ts, rfl, ?_⟩
    apply Classical.byContradiction
    intro hne
    have hex : ∃ t ∈ ts, t ≠ .lparen ∧ t ≠ .rparen := by
      apply Classical.byContradiction
      intro hno
      apply hne
      intro t ht
      apply Classical.byContradiction
      intro hn
      exact hno ⟨t, ht, fun e => hn (.inl e), fun e => hn (.inr e)⟩
    cases h2 : toRpn ts with
    | ok rpn =>
      rw [h2, Res.bind_ok] at h
      rcases C35_value_partial ops env [] h2 (C35_nonempty h2 hex) with h3 | ⟨prog, w, v, h3, _, h4⟩
      · rw [h3] at h; simp [Res.bind] at h
      · rw [h3, Res.bind_ok] at h; simp only [h4] at h; simp at h
    | err => simp [h2, Res.bind] at h
    | panic => exact C35_no_panic ts h2
  | err => simp [h1, Res.bind] at h
  | panic => exact absurd h1 (tokLoop_no_panic hf _ _ _ (Nat.le_refl _))

/-! ## C36: precedence and associativity -/

/-- However an expression is written, with the fewest parentheses or with more, the tokens are turned into its postfix
form. -/
theorem C36_postfix {ts : List (Token F)} {t : Tree F} (h : Writes 1 ts [t]) : toRpn ts = .ok (postfixOf t) :=
  toRpn_writes h

/-- Written with the fewest parentheses. -/
theorem C36_minimal (t : Tree F) : toRpn (infixOf 1 t) = .ok (postfixOf t) :=
  toRpn_writes (writes_infixOf t 1 (by omega) (by omega))

/-- `a-b-c^-d^e*f!`: grouping to the left, powers to the right, a sign in an exponent. -/
example : infixOf 1 (.bin .minus (.bin .minus (.var [97]) (.var [98])) (.bin .times (.bin .pow (.var [99])
      (.sign true (.bin .pow (.var [100]) (.var [101])))) (.fact (.num 6)))) =
    [.var [97], .binary .minus, .var [98], .binary .minus, .var [99], .binary .pow, .unary .minus, .var [100],
      .binary .pow, .var [101], .binary .times, .number (6 : Nat), .unary .fact] := by decide +kernel

/-- `(a-(b-c))^(-d)!`: parentheses where they are needed, and only there. -/
example : infixOf 1 (.bin .pow (.bin .minus (.var [97]) (.bin .minus (.var [98]) (.var [99])))
      (.fact (.sign true (.var [100])))) =
    ([.lparen, .var [97], .binary .minus, .lparen, .var [98], .binary .minus, .var [99], .rparen, .rparen, .binary .pow,
      .lparen, .unary .minus, .var [100], .rparen, .unary .fact] : List (Token Nat)) := by decide +kernel

/-- Reading a postfix form back into expressions, with a stack. -/
def unpostfix : List (Tree F) → List (Token F) → Option (List (Tree F))
  | s, [] => some s
  | s, .number x :: ts => unpostfix (.num x :: s) ts
  | s, .var n :: ts => unpostfix (.var n :: s) ts
  | b :: a :: s, .binary op :: ts => unpostfix (.bin op a b :: s) ts
  | a :: s, .unary .plus :: ts => unpostfix (.sign false a :: s) ts
  | a :: s, .unary .minus :: ts => unpostfix (.sign true a :: s) ts
  | a :: s, .unary .fact :: ts => unpostfix (.fact a :: s) ts
  | s, .func name (some n) :: ts =>
    match (s.take n).reverse with
    | a :: rest => unpostfix (.call name a rest :: s.drop n) ts
    | [] => none
  | _, _ => none

mutual
theorem unpostfix_postfixOf (t : Tree F) (s : List (Tree F)) (rest : List (Token F)) :
    unpostfix s (postfixOf t ++ rest) = unpostfix (t :: s) rest := by
  cases t with
  | num x => simp [postfixOf, unpostfix]
  | var x => simp [postfixOf, unpostfix]
  | bin op a b =>
    rw [postfixOf, List.append_assoc, List.append_assoc, unpostfix_postfixOf a, unpostfix_postfixOf b]
    simp [unpostfix]
  | sign m a => cases m <;> simp [postfixOf, unpostfix_postfixOf a, signOp, unpostfix]
  | fact a => simp [postfixOf, unpostfix_postfixOf a, unpostfix]
  | call name a more =>
    rw [postfixOf, List.append_assoc, List.append_assoc, unpostfix_postfixOf a, unpostfix_postfixAll more]
    have h1 : (more.reverse ++ a :: s).take (more.length + 1) = more.reverse ++ [a] := by
      rw [List.take_append, List.take_of_length_le (by simp)]; simp
    have h2 : (more.reverse ++ a :: s).drop (more.length + 1) = s := by
      rw [List.drop_append]; simp
    simp only [List.singleton_append, unpostfix]
    rw [h1, h2]
    simp

theorem unpostfix_postfixAll (ts : List (Tree F)) (s : List (Tree F)) (rest : List (Token F)) :
    unpostfix s (postfixAll ts ++ rest) = unpostfix (ts.reverse ++ s) rest := by
  cases ts with
  | nil => simp [postfixAll]
  | cons t ts =>
    rw [postfixAll, List.append_assoc, unpostfix_postfixOf t, unpostfix_postfixAll ts]
    simp
end

/-- A formula has only one meaning: a list of tokens writes at most one expression. -/
theorem C36_unique {ts : List (Token F)} {t u : Tree F} (h1 : Writes 1 ts [t]) (h2 : Writes 1 ts [u]) : t = u := by
  have h : postfixOf t = postfixOf u := by
    have := toRpn_writes h1
    rw [toRpn_writes h2] at this
    simpa using this.symm
  have ht := unpostfix_postfixOf t [] []
  have hu := unpostfix_postfixOf u [] []
  rw [h, hu] at ht
  simpa [unpostfix] using ht.symm

/-- A parser for whole numbers, for the examples. -/
def natF64 (s : Bytes) : Nat × Bytes := (decVal (s.takeWhile isDigit), s.dropWhile isDigit)

theorem natLit (n : Nat) : LitOk natF64 decText n := by
  have hd : ∀ c ∈ decText n, isDigit c = true := fun c hc => by simpa [isDigit] using decText_digits n c hc
  refine ⟨?_, ?_⟩
  · cases h : decText n with
    | nil =>
      have h1 : ∀ k m, decRev (k + 1) m ≠ [] := by intro k m; rw [decRev]; split <;> simp
      exact absurd (List.reverse_eq_nil_iff.1 h) (h1 n n)
    | cons c r => exact ⟨c, r, rfl, hd c (by simp [h])⟩
  · intro rest hrest
    have hstop : ∀ c, rest.head? = some c → isDigit c = false := by
      intro c hc
      have := stop_not_alnum (hrest c hc)
      simp at this
      exact this.2
    have htw : (decText n ++ rest).takeWhile isDigit = decText n := by
      rw [List.takeWhile_append_of_pos hd]
      cases rest with
      | nil => simp
      | cons a rest => rw [List.takeWhile_cons_of_neg (by simpa using hstop a rfl)]; simp
    have hdw : (decText n ++ rest).dropWhile isDigit = rest := by
      rw [List.dropWhile_append_of_pos hd]
      cases rest with
      | nil => simp
      | cons a rest => rw [List.dropWhile_cons_of_neg (by simpa using hstop a rfl)]
    rw [natF64, htw, hdw, decVal_decText]

/-- The full claim, about the text of a formula. -/
def C36_statement : Prop :=
  ∀ (F : Type) (toF64 : Bytes → F × Bytes) (lit : F → Bytes) (t : Tree F),
    (∀ tok ∈ infixOf 1 t, Writable toF64 lit tok) →
    (tokenize toF64 (formulaText lit (infixOf 1 t))).bind toRpn = .ok (postfixOf t)

/-- `abs(-3)` is rejected: just after the parenthesis of a call the minus is taken for a subtraction. The code behaves
so. -/
theorem C36_refuted : ¬ C36_statement := by
  intro h
  have := h Nat natF64 decText (.call [97, 98, 115] (.sign true (.num 3)) []) (by
    intro tok ht
    have : infixOf 1 (.call [97, 98, 115] (.sign true (.num 3)) []) =
        ([.func [97, 98, 115] none, .unary .minus, .number 3, .rparen] : List (Token Nat)) := by decide +kernel
    rw [this] at ht
    simp only [List.mem_cons, List.not_mem_nil, or_false] at ht
    rcases ht with rfl | rfl | rfl | rfl
    · exact ⟨⟨97, [98, 115], rfl, by decide, by decide⟩, rfl⟩
    · trivial
    · exact natLit 3
    · trivial)
  revert this
  decide +kernel

/-- `5!-3` and `5!==3` are rejected too. -/
example : (tokenize natF64 (formulaText decText (infixOf 1 (.bin .minus (.fact (.num 5)) (.num 3))))).bind toRpn = .err ∧
    (tokenize natF64 (formulaText decText (infixOf 1 (.bin .eq (.fact (.num 5)) (.num 3))))).bind toRpn = .err := by
  decide +kernel

/-- The text of a formula reads back as its tokens, unless a sign comes just after the parenthesis of a call, or a
plus, a minus or an equality just after a factorial. -/
theorem C36_text_partial (toF64 : Bytes → F × Bytes) (lit : F → Bytes) {ts : List (Token F)} {t : Tree F}
    (h : Writes 1 ts [t]) (hw : ∀ tok ∈ ts, Writable toF64 lit tok) (hc : NoClash ts) :
    (tokenize toF64 (formulaText lit ts)).bind toRpn = .ok (postfixOf t) := by
  rw [tokenize_text toF64 lit h hw hc, Res.bind_ok, toRpn_writes h]

/-- `max(1,-x)*2`. -/
example : formulaText decText ([.func [109, 97, 120] none, .number 1, .comma, .unary .minus, .var [120], .rparen,
      .binary .times, .number 2] : List (Token Nat)) = [109, 97, 120, 40, 49, 44, 45, 120, 41, 42, 50] ∧
    NoClash ([.func [109, 97, 120] none, .number 1, .comma, .unary .minus, .var [120], .rparen,
      .binary .times, .number 2] : List (Token Nat)) ∧
    infixOf 1 (.bin .times (.call [109, 97, 120] (.num 1) [.sign true (.var [120])]) (.num 2)) =
      ([.func [109, 97, 120] none, .number 1, .comma, .unary .minus, .var [120], .rparen,
      .binary .times, .number 2] : List (Token Nat)) := by
  refine ⟨by decide +kernel, ?_, by decide +kernel⟩
  simp [NoClash, clash]

/-! ## C37: constant folding -/

/-- Compiling a postfix formula, which computes constant parts in advance, and running the program gives what
evaluating the formula token by token gives; if that is an error, compiling is the error. -/
theorem C37_fold (ops : FloatOps F) (env : Bytes → F) (vars : List Bytes) (rpn : List (Token F)) :
    (∀ s, tokEval ops env [] rpn = .ok s → ∃ prog w, rpnToExpr ops vars rpn = .ok (prog, vars ++ w) ∧
      evalLoop ops ((vars ++ w).map env) [] prog = .ok s) ∧
    (tokEval ops env [] rpn = .err → rpnToExpr ops vars rpn = .err) := by
  constructor
  · intro s h
    obtain ⟨e, w, h1, h2⟩ := compileLoop_ok ops env (e := []) (vars := vars) (s := []) rfl h
    exact ⟨e.reverse, w, by rw [rpnToExpr, h1]; rfl, h2⟩
  · intro h
    rw [rpnToExpr, compileLoop_err ops env (e := []) (vars := vars) (s := []) rfl h]
    rfl

example : tokEval natOps (fun _ => 5) [] [.number 2, .number 3, .binary .times, .var [120], .binary .plus] = .ok [11] ∧
    rpnToExpr natOps [] [.number 2, .number 3, .binary .times, .var [120], .binary .plus] =
      .ok ([.value 6, .var 0, .binary .plus], [[120]]) := by decide +kernel

/-- A formula evaluates to the value of the expression it writes; an unknown function, or a wrong number of arguments,
is an error. -/
theorem C37_value (ops : FloatOps F) (env : Bytes → F) (vars : List Bytes) {ts : List (Token F)} {t : Tree F}
    (h : Writes 1 ts [t]) :
    (toRpn ts).bind (fun rpn => (rpnToExpr ops vars rpn).bind fun r => doEval ops (r.2.map env) r.1) =
      treeVal ops env t := by
  rw [toRpn_writes h, Res.bind_ok]
  have hv := tokEval_postfixOf ops env t []
  cases ht : treeVal ops env t with
  | ok v =>
    rw [ht] at hv
    obtain ⟨prog, w, h1, h2⟩ := (C37_fold ops env vars (postfixOf t)).1 _ hv
    rw [h1, Res.bind_ok]
    simp only [doEval, h2, Res.bind_ok]
    rfl
  | err =>
    rw [ht] at hv
    rw [(C37_fold ops env vars (postfixOf t)).2 hv]
    rfl
  | panic =>
    rw [ht] at hv
    rcases tokEval_operands ops env (s := []) (ts := postfixOf t) rfl (toRpn_verified (toRpn_writes h)) with h1 | ⟨s, h1, _⟩
    · rw [hv] at h1; simp [Res.map'] at h1
    · rw [hv] at h1; simp [Res.map'] at h1

/-! ## C71: nothing else is accepted -/

/-- The full claim: an accepted formula, other than parentheses alone, is one of the grammar. -/
def C71_statement : Prop :=
  ∀ (F : Type) (toF64 : Bytes → F × Bytes) (exp : Bytes) (ts rpn : List (Token F)),
    tokenize toF64 exp = .ok ts → toRpn ts = .ok rpn → rpn ≠ [] → ∃ t, Writes 1 ts [t]

/-- `(2)(3)+` is accepted, and is five. The code behaves so. -/
theorem C71_refuted : ¬ C71_statement := by
  intro h
  obtain ⟨t, ht⟩ := h Nat natF64 [40, 50, 41, 40, 51, 41, 43]
    [.lparen, .number 2, .rparen, .lparen, .number 3, .rparen, .binary .plus]
    [.number 2, .number 3, .binary .plus] (by decide +kernel) (by decide +kernel) (by simp)
  have := writes_flow ht
  simp [Flow, needsLeft, endsOperand] at this

example : evalFormula natOps natF64 (fun _ => 0) [40, 50, 41, 40, 51, 41, 43] = .ok 5 := by decide +kernel

/-- If operands and operators alternate, exactly the formulas of the grammar are accepted. The tokenizer gives calls
without a count. -/
theorem C71_grammar_partial {ts : List (Token F)} (hf : ∀ t ∈ ts, ∀ s n, t = .func s n → n = none) :
    (∃ t, Writes 1 ts [t]) ↔ Flow false ts true ∧ ∃ rpn, toRpn ts = .ok rpn :=
  ⟨fun ⟨t, h⟩ => ⟨writes_flow h, postfixOf t, toRpn_writes h⟩, fun ⟨h1, _, h2⟩ => writes_of_accepted h1 hf h2⟩

example : Flow false ([.func [109, 97, 120] none, .number 1, .comma, .unary .minus, .var [120], .rparen,
    .binary .times, .number 2] : List (Token Nat)) true ∧
    toRpn ([.func [109, 97, 120] none, .number 1, .comma, .unary .minus, .var [120], .rparen,
    .binary .times, .number 2] : List (Token Nat)) =
      .ok [.number 1, .var [120], .unary .minus, .func [109, 97, 120] (some 2), .number 2, .binary .times] := by
  refine ⟨by simp [Flow, needsLeft, endsOperand], by decide +kernel⟩

/-! ## C72: columns in formulas -/

/-- The full claim: the variable that stands for column `i` in brackets refers to column `i`. -/
def C72_statement : Prop :=
  ∀ (fieldnames : List Bytes) (i : Nat), i < fieldnames.length → i + 1 ≤ usizeMax →
    resolveVar fieldnames (99 :: decText (i + 1)) = .ok i

/-- With the columns `x` and `c1`, `[x]` means the column `c1`. The code behaves so. -/
theorem C72_refuted : ¬ C72_statement := by
  intro h
  have := h [[120], [99, 49]] 0 (by decide) (by decide)
  revert this
  decide +kernel

/-- If no column is named so, the variable refers to the right column. -/
theorem C72_bracket_partial (fieldnames : List Bytes) (i : Nat) (hi : i + 1 ≤ usizeMax)
    (hn : (99 :: decText (i + 1)) ∉ fieldnames) : resolveVar fieldnames (99 :: decText (i + 1)) = .ok i := by
  have h1 : fieldnames.findIdx? (· == 99 :: decText (i + 1)) = none := by
    rw [List.findIdx?_eq_none_iff]
    intro x hx
    simp only [beq_eq_false_iff_ne]
    intro h; subst h; exact hn hx
  have hd : ∀ c ∈ decText (i + 1), isDigit c = true := fun c hc => by simpa [isDigit] using decText_digits (i + 1) c hc
  have h2 : toUsizeWhole (decText (i + 1)) = .ok (i + 1) :=
    (C39_whole _ _).2 (.inr ⟨[], decText (i + 1), [], .inl rfl, decText_ne_nil _, hd, by simp,
      .inl ⟨rfl, (decVal_decText _).symm⟩, hi⟩)
  unfold resolveVar
  rw [h1]
  have h3 : decText (i + 1) ≠ [] ∧ (decText (i + 1)).all isDigit = true := ⟨decText_ne_nil _, by simpa using hd⟩
  simp only [h2]
  rw [if_pos h3]
  simp

example : resolveVar [[120], [121]] (99 :: decText 2) = .ok 1 ∧ (99 :: decText 2) ∉ ([[120], [121]] : List Bytes) := by
  decide +kernel

/-- A variable with the name of a column is the first column of that name. -/
theorem C72_named (fieldnames : List Bytes) (i : Nat) (name : Bytes) (h : fieldnames[i]? = some name)
    (hfirst : ∀ j, j < i → fieldnames[j]? ≠ some name) : resolveVar fieldnames name = .ok i := by
  have : fieldnames.findIdx? (· == name) = some i := by
    obtain ⟨hi, h1⟩ := List.getElem?_eq_some_iff.1 h
    rw [List.findIdx?_eq_some_iff_getElem]
    refine ⟨hi, by simp [h1], fun j hj => ?_⟩
    have := hfirst j hj
    rw [List.getElem?_eq_getElem (by omega)] at this
    simpa using this
  unfold resolveVar
  rw [this]

example : resolveVar [[97], [98], [97]] [98] = .ok 1 := by decide +kernel

/-- `c0` is a panic. -/
example : resolveVar [[97]] [99, 48] = .panic := by decide +kernel

/-! ## C73: functions compute what they are called -/

/-- The full claim for the functions of one argument: `ops.lib1 f` is the library function of the name; `fabs` is
another name for `abs`. -/
def C73_statement : Prop :=
  ∀ (F : Type) (ops : FloatOps F) (f : FuncOp) (x : F), ops.lib1 .fabs = ops.lib1 .abs → maxArgs f = 1 →
    applyFunc ops f [x] = .ok (ops.lib1 f x)

/-- `acos` computes the absolute value. The code behaves so. -/
theorem C73_refuted : ¬ C73_statement := by
  intro h
  have := h Nat { natOps with lib1 := fun f _ => if f = .acos then 1 else 0 } .acos 5
    rfl rfl
  revert this
  decide

/-- Every other function of one argument does. -/
theorem C73_one_partial (ops : FloatOps F) (f : FuncOp) (x : F) (habs : ops.lib1 .fabs = ops.lib1 .abs)
    (h1 : maxArgs f = 1) (hf : f ≠ .acos) : applyFunc ops f [x] = .ok (ops.lib1 f x) := by
  cases f <;> simp_all [applyFunc, minArgs, maxArgs, twoArgs, libOne]

/-- Functions of two and three arguments. -/
theorem C73_two (ops : FloatOps F) (f : FuncOp) (x y : F) (h : maxArgs f = 2) :
    applyFunc ops f [x, y] = .ok (ops.lib2 f x y) := by
  cases f <;> simp_all [applyFunc, minArgs, maxArgs, twoArgs]

theorem C73_three (ops : FloatOps F) (x y z : F) :
    applyFunc ops .fma [x, y, z] = .ok (ops.lib3 .fma x y z) ∧
    applyFunc ops .if_ [x, y, z] = .ok (if ops.isZero x then z else y) := ⟨rfl, rfl⟩

theorem foldl_pick (gt : F → F → Bool) (hirr : ∀ x, gt x x = false)
    (htr : ∀ x y z, gt x y = false → gt y z = false → gt x z = false) (has : ∀ x y, gt x y = true → gt y x = false)
    (xs : List F) (v : F) :
    let r := xs.foldl (fun v x => if gt x v then x else v) v
    r ∈ v :: xs ∧ ∀ x ∈ v :: xs, gt x r = false := by
  induction xs generalizing v with
  | nil => simp [hirr]
  | cons y ys ih =>
    simp only [List.foldl_cons]
    obtain ⟨h1, h2⟩ := ih (if gt y v then y else v)
    refine ⟨?_, ?_⟩
    · rcases List.mem_cons.1 h1 with h | h
      · rw [h]; split <;> simp
      · simp [h]
    · have hhead := h2 (if gt y v then y else v) (by simp)
      intro x hx
      rcases List.mem_cons.1 hx with rfl | hx
      · by_cases hg : gt y x = true
        · simp only [hg, if_true] at hhead ⊢
          exact htr _ _ _ (has _ _ hg) hhead
        · rw [if_neg hg] at hhead ⊢; exact hhead
      · rcases List.mem_cons.1 hx with rfl | hx
        · by_cases hg : gt x v = true
          · simp only [hg, if_true] at hhead ⊢; exact hhead
          · simp only [hg] at hhead ⊢; exact htr _ _ _ (by simpa using hg) hhead
        · exact h2 x (by simp [hx])

/-- `max` is one of its arguments, and no argument is greater; `min` likewise. The comparison has to be a strict weak
order, as it is for numbers other than NaN. -/
theorem C73_max_min (ops : FloatOps F) (x : F) (xs : List F)
    (hirr : ∀ x, ops.gt x x = false) (htr : ∀ x y z, ops.gt x y = false → ops.gt y z = false → ops.gt x z = false)
    (has : ∀ x y, ops.gt x y = true → ops.gt y x = false) (hlt : ∀ x y, ops.lt x y = ops.gt y x) :
    (∃ v, applyFunc ops .max (x :: xs) = .ok v ∧ v ∈ x :: xs ∧ ∀ y ∈ x :: xs, ops.gt y v = false) ∧
    (∃ v, applyFunc ops .min (x :: xs) = .ok v ∧ v ∈ x :: xs ∧ ∀ y ∈ x :: xs, ops.gt v y = false) := by
  refine ⟨⟨_, rfl, foldl_pick ops.gt hirr htr has xs x⟩, _, rfl, ?_⟩
  have := foldl_pick ops.lt (by simp [hlt, hirr]) (by intro x y z h1 h2; simp only [hlt] at *; exact htr _ _ _ h2 h1)
    (by intro x y h; simp only [hlt] at *; exact has _ _ h) xs x
  refine ⟨this.1, fun y hy => ?_⟩
  have h := this.2 y hy
  rw [hlt] at h
  exact h

example : applyFunc natOps .max [3, 9, 4] = .ok 9 ∧ applyFunc natOps .min [3, 9, 2, 4] = .ok 2 ∧
    applyFunc natOps .avg [3, 9, 6] = .ok 6 := by decide +kernel

/-- Constants with an underscore in their name cannot be written in a formula: `M_PI` is rejected. -/
example : constNames[7]? = some [77, 95, 80, 73] ∧ evalFormula natOps natF64 (fun _ => 0) [77, 95, 80, 73] = .err := by
  decide +kernel

/-! ## C74: factorials -/

/-- `1 * 2 * … * n`. -/
def fact : Nat → Nat
  | 0 => 1
  | n + 1 => (n + 1) * fact n

/-- The full claim: the factorial of a whole number is right to 15 digits, and infinite only beyond the range of
doubles. -/
def C74_statement : Prop :=
  ∀ n : Nat, match factorialOf n with
    | some v => (v - fact n) * 10 ^ 15 ≤ fact n ∧ (fact n - v) * 10 ^ 15 ≤ fact n
    | none => 2 ^ 1024 ≤ fact n

/-- `0!` is 0. The code behaves so. -/
theorem C74_refuted : ¬ C74_statement := by
  intro h
  have h0 : factorialOf ((0 : Nat) : Int) = some 0 := by decide +kernel
  have := h 0
  rw [h0] at this
  revert this
  decide +kernel

theorem fact_pos (n : Nat) : 1 ≤ fact n := by
  induction n with
  | zero => simp [fact]
  | succ n ih => rw [fact]; exact Nat.mul_pos (by omega) ih

theorem fact_mono {m n : Nat} (h : m ≤ n) : fact m ≤ fact n := by
  induction h with
  | refl => exact Nat.le_refl _
  | step _ ih => rw [fact]; exact Nat.le_trans ih (Nat.le_mul_of_pos_left _ (by omega))

theorem factorial_table : ∀ n : Fin 171, n.val ≠ 0 →
    (((factorialOf n.val).getD 0 - fact n.val) * 10 ^ 15 ≤ fact n.val ∧
      (fact n.val - (factorialOf n.val).getD 0) * 10 ^ 15 ≤ fact n.val) := by decide +kernel

/-- The factorial of every positive whole number. -/
theorem C74_factorial_partial (n : Nat) (hn : n ≠ 0) :
    match factorialOf n with
    | some v => (v - fact n) * 10 ^ 15 ≤ fact n ∧ (fact n - v) * 10 ^ 15 ≤ fact n
    | none => 2 ^ 1024 ≤ fact n := by
  by_cases h : n ≤ 170
  · have := factorial_table ⟨n, by omega⟩ hn
    simp only at this
    have hs : ∃ v, factorialOf n = some v := by
      unfold factorialOf
      rw [if_neg (by omega), if_neg (by omega)]
      exact ⟨_, rfl⟩
    obtain ⟨v, hv⟩ := hs
    rw [hv] at this ⊢
    simpa using this
  · have : factorialOf n = none := by
      unfold factorialOf
      rw [if_neg (by omega), if_pos (by omega)]
    rw [this]
    refine Nat.le_trans ?_ (fact_mono (show 171 ≤ n by omega))
    decide +kernel

example : factorialOf 5 = some 120 ∧ fact 5 = 120 := by decide +kernel

end Cdx
