import Verif.Lemmas.Expr

/-!
Lemmas about compiling and evaluating formulas.
-/

namespace Cdx

variable {F : Type}

theorem evalLoop_append (ops : FloatOps F) (vals s : List F) (p q : List (Node F)) :
    evalLoop ops vals s (p ++ q) = (evalLoop ops vals s p).bind fun s' => evalLoop ops vals s' q := by
  induction p generalizing s with
  | nil => rfl
  | cons n p ih =>
    simp only [List.cons_append, evalLoop]
    cases evalStep ops vals s n with
    | ok s' => exact ih s'
    | err => rfl
    | panic => rfl

theorem evalStep_more {ops : FloatOps F} {vals s r : List F} {n : Node F} (w : List F)
    (h : evalStep ops vals s n = .ok r) : evalStep ops (vals ++ w) s n = .ok r := by
  cases n with
  | var i =>
    simp only [evalStep] at h ⊢
    cases hv : vals[i]? with
    | none => simp [hv] at h
    | some v =>
      have : (vals ++ w)[i]? = some v := by
        obtain ⟨hi, _⟩ := List.getElem?_eq_some_iff.1 hv
        rw [List.getElem?_append_left hi, hv]
      simp [hv] at h
      simp [this, h]
  | _ => exact h

theorem evalLoop_more {ops : FloatOps F} {vals s r : List F} {p : List (Node F)} (w : List F)
    (h : evalLoop ops vals s p = .ok r) : evalLoop ops (vals ++ w) s p = .ok r := by
  induction p generalizing s with
  | nil => exact h
  | cons n p ih =>
    simp only [evalLoop] at h ⊢
    cases hs : evalStep ops vals s n with
    | ok s' => rw [hs, Res.bind_ok] at h; rw [evalStep_more w hs, Res.bind_ok]; exact ih h
    | err => simp [hs, Res.bind] at h
    | panic => simp [hs, Res.bind] at h

theorem evalLoop_snoc {ops : FloatOps F} {vals s : List F} {e : List (Node F)} (n : Node F)
    (h : evalLoop ops vals [] e.reverse = .ok s) :
    evalLoop ops vals [] (n :: e).reverse = evalStep ops vals s n := by
  rw [List.reverse_cons, evalLoop_append, h, Res.bind_ok, evalLoop]
  cases evalStep ops vals s n <;> rfl

/-- A program ending in a constant has it on top of the stack. -/
theorem evalLoop_value {ops : FloatOps F} {vals s : List F} {e : List (Node F)} {v : F}
    (h : evalLoop ops vals [] (.value v :: e).reverse = .ok s) :
    ∃ s', s = v :: s' ∧ evalLoop ops vals [] e.reverse = .ok s' := by
  rw [List.reverse_cons, evalLoop_append] at h
  cases he : evalLoop ops vals [] e.reverse with
  | ok s' =>
    rw [he, Res.bind_ok] at h
    simp [evalLoop, evalStep, Res.bind] at h
    exact ⟨s', h.symm, rfl⟩
  | err => simp [he, Res.bind] at h
  | panic => simp [he, Res.bind] at h

theorem findVar_spec (vars : List Bytes) (name : Bytes) :
    ∃ w, (findVar vars name).2 = vars ++ w ∧ (findVar vars name).2[(findVar vars name).1]? = some name := by
  unfold findVar
  cases h : vars.findIdx? (· == name) with
  | none => exact ⟨[name], rfl, by simp⟩
  | some i =>
    refine ⟨[], by simp, ?_⟩
    obtain ⟨hi, h1, _⟩ := List.findIdx?_eq_some_iff_getElem.1 h
    simp only
    rw [List.getElem?_eq_getElem hi]
    simpa using h1

theorem compileBinary_ok (ops : FloatOps F) (op : BinOp) {vals s : List F} {e : List (Node F)} {x y : F}
    (h : evalLoop ops vals [] e.reverse = .ok (y :: x :: s)) :
    ∃ e', compileBinary ops op e = .ok e' ∧ evalLoop ops vals [] e'.reverse = .ok (ops.bin op x y :: s) := by
  have gen : evalLoop ops vals [] (.binary op :: e).reverse = .ok (ops.bin op x y :: s) := by
    rw [evalLoop_snoc _ h]; rfl
  match e, h, gen with
  | [], h, _ => simp [evalLoop] at h
  | .value r :: e, h, gen =>
    obtain ⟨s1, h1, h2⟩ := evalLoop_value h
    simp at h1
    obtain ⟨rfl, rfl⟩ := h1
    match e, h2, gen with
    | [], h2, _ => simp [evalLoop] at h2
    | .value l :: e, h2, _ =>
      obtain ⟨s2, h3, h4⟩ := evalLoop_value h2
      simp at h3
      obtain ⟨rfl, rfl⟩ := h3
      exact ⟨.value (ops.bin op x y) :: e, rfl, by rw [evalLoop_snoc _ h4]; rfl⟩
    | .var i :: e, _, gen => exact ⟨_, rfl, gen⟩
    | .unary o :: e, _, gen => exact ⟨_, rfl, gen⟩
    | .binary o :: e, _, gen => exact ⟨_, rfl, gen⟩
    | .func f n :: e, _, gen => exact ⟨_, rfl, gen⟩
  | .var i :: e, _, gen => exact ⟨_, rfl, gen⟩
  | .unary o :: e, _, gen => exact ⟨_, rfl, gen⟩
  | .binary o :: e, _, gen => exact ⟨_, rfl, gen⟩
  | .func f n :: e, _, gen => exact ⟨_, rfl, gen⟩

theorem compileUnary_ok (ops : FloatOps F) (op : UnOp) {vals s : List F} {e : List (Node F)} {x : F}
    (h : evalLoop ops vals [] e.reverse = .ok (x :: s)) :
    ∃ e', compileUnary ops op e = .ok e' ∧ evalLoop ops vals [] e'.reverse = .ok (applyUnary ops op x :: s) := by
  unfold compileUnary
  by_cases hop : op = .plus
  · subst hop; exact ⟨e, rfl, h⟩
  rw [if_neg hop]
  have gen : evalLoop ops vals [] (.unary op :: e).reverse = .ok (applyUnary ops op x :: s) := by
    rw [evalLoop_snoc _ h]; rfl
  match e, h, gen with
  | [], h, _ => simp [evalLoop] at h
  | .value r :: e, h, gen =>
    obtain ⟨s1, h1, h2⟩ := evalLoop_value h
    simp at h1
    obtain ⟨rfl, rfl⟩ := h1
    exact ⟨_, rfl, by rw [evalLoop_snoc _ h2]; rfl⟩
  | .var i :: e, _, gen => exact ⟨_, rfl, gen⟩
  | .unary o :: e, _, gen => exact ⟨_, rfl, gen⟩
  | .binary o :: e, _, gen => exact ⟨_, rfl, gen⟩
  | .func f n :: e, _, gen => exact ⟨_, rfl, gen⟩

/-- With enough arguments a function has a value. -/
theorem applyFunc_ok (ops : FloatOps F) (f : FuncOp) (args : List F) (h : minArgs f ≤ args.length) :
    ∃ v, applyFunc ops f args = .ok v := by
  match args, h with
  | [], h => cases f <;> simp [minArgs, twoArgs] at h
  | [x], h => cases f <;> first | exact ⟨_, rfl⟩ | (simp [minArgs, twoArgs] at h)
  | [x, y], h => cases f <;> first | exact ⟨_, rfl⟩ | (simp [minArgs, twoArgs] at h)
  | x :: y :: z :: r, h => cases f <;> exact ⟨_, rfl⟩

theorem minArgs_pos (f : FuncOp) : 1 ≤ minArgs f := by unfold minArgs; repeat' split <;> try omega

theorem arity_iff (f : FuncOp) (n : Nat) : ¬ arityOk f n ↔ n < minArgs f ∨ (maxArgs f > 0 ∧ n > maxArgs f) := by
  unfold arityOk; omega

theorem compileFunc_ok (ops : FloatOps F) {f : FuncOp} {name : Bytes} (n : Nat) {vals s : List F}
    {e : List (Node F)} (hf : findFunc name = some f) (ha : arityOk f n)
    (h : evalLoop ops vals [] e.reverse = .ok s) (hn : n ≤ s.length) (hn0 : n ≠ 0) :
    ∃ e' v, applyFunc ops f (s.take n).reverse = .ok v ∧ compileFunc ops name n e = .ok e' ∧
      evalLoop ops vals [] e'.reverse = .ok (v :: s.drop n) := by
  obtain ⟨v, hv⟩ := applyFunc_ok ops f (s.take n).reverse (by have := ha.1; simp; omega)
  have gen : evalLoop ops vals [] (.func f n :: e).reverse = .ok (v :: s.drop n) := by
    rw [evalLoop_snoc _ h, evalStep, if_neg (by omega), hv]; rfl
  have h1 : ¬ n < minArgs f := by have := ha.1; omega
  have h2 : ¬ (maxArgs f > 0 ∧ n > maxArgs f) := by have := ha.2; omega
  unfold compileFunc
  rw [hf]
  simp only [if_neg h1, if_neg h2]
  by_cases h3 : n = 1
  · subst h3
    rw [if_pos rfl]
    match e, h, gen with
    | [], h, _ => simp [evalLoop] at h; subst h; simp at hn
    | .value r :: e, h, gen =>
      obtain ⟨s1, h4, h5⟩ := evalLoop_value h
      subst h4
      simp at hv
      refine ⟨.value v :: e, v, by simpa using hv, by simp [hv, Res.map'], ?_⟩
      rw [evalLoop_snoc _ h5]; rfl
    | .var i :: e, _, gen => exact ⟨_, v, hv, rfl, gen⟩
    | .unary o :: e, _, gen => exact ⟨_, v, hv, rfl, gen⟩
    | .binary o :: e, _, gen => exact ⟨_, v, hv, rfl, gen⟩
    | .func f n :: e, _, gen => exact ⟨_, v, hv, rfl, gen⟩
  · rw [if_neg h3]
    exact ⟨_, v, hv, rfl, gen⟩

/-- One token: compiling it and running the program is evaluating the token. -/
theorem compileStep_ok (ops : FloatOps F) (env : Bytes → F) {e : List (Node F)} {vars : List Bytes} {s s' : List F}
    {t : Token F} (h : evalLoop ops (vars.map env) [] e.reverse = .ok s) (ht : tokEvalStep ops env s t = .ok s') :
    ∃ e' w, compileStep ops (e, vars) t = .ok (e', vars ++ w) ∧
      evalLoop ops ((vars ++ w).map env) [] e'.reverse = .ok s' := by
  cases t with
  | number x =>
    simp [tokEvalStep] at ht
    subst ht
    exact ⟨.value x :: e, [], by simp [compileStep], by simp only [List.append_nil]; rw [evalLoop_snoc _ h]; rfl⟩
  | var name =>
    simp [tokEvalStep] at ht
    subst ht
    by_cases hc : constNames.contains name
    · refine ⟨.value (ops.const name) :: e, [], ?_, ?_⟩
      · simp only [compileStep, findConst, hc, if_true, List.append_nil]
      · simp only [List.append_nil]
        rw [evalLoop_snoc _ h]
        simp [evalStep, nameVal]
        intro hn
        exact absurd hc (by simpa using hn)
    · obtain ⟨w, h1, h2⟩ := findVar_spec vars name
      refine ⟨.var (findVar vars name).1 :: e, w, ?_, ?_⟩
      · simp only [compileStep, findConst, hc]
        simp [h1]
      · rw [evalLoop_snoc (s := s) _ (by rw [List.map_append]; exact evalLoop_more _ h)]
        rw [h1] at h2
        simp only [evalStep, List.getElem?_map, h2, Option.map_some, nameVal, hc]
        simp
  | unary op =>
    match s, ht, h with
    | [], ht, _ => simp [tokEvalStep] at ht
    | x :: s, ht, h =>
      simp only [tokEvalStep, Res.ok.injEq] at ht
      obtain ⟨e', h1, h2⟩ := compileUnary_ok ops op h
      refine ⟨e', [], by simp [compileStep, h1, Res.map'], ?_⟩
      rw [← ht]
      cases op <;> simpa [applyUnary] using h2
  | binary op =>
    match s, ht, h with
    | [], ht, _ => simp [tokEvalStep] at ht
    | [_], ht, _ => simp [tokEvalStep] at ht
    | y :: x :: s, ht, h =>
      simp only [tokEvalStep, Res.ok.injEq] at ht
      obtain ⟨e', h1, h2⟩ := compileBinary_ok ops op h
      refine ⟨e', [], by simp [compileStep, h1, Res.map'], ?_⟩
      rw [← ht]
      simpa using h2
  | func name n =>
    match n, ht with
    | none, ht => simp [tokEvalStep] at ht
    | some n, ht =>
      simp only [tokEvalStep] at ht
      cases hf : findFunc name with
      | none => simp [hf] at ht
      | some f =>
        simp only [hf] at ht
        by_cases ha : arityOk f n
        · rw [if_neg (by simpa using ha)] at ht
          by_cases hn : s.length < n ∨ n = 0
          · simp [hn] at ht
          · rw [if_neg hn] at ht
            obtain ⟨e', v, h1, h2, h3⟩ := compileFunc_ok ops n hf ha h (by omega) (by omega)
            rw [h1] at ht
            simp [Res.map'] at ht
            refine ⟨e', [], by simp [compileStep, h2, Res.map'], ?_⟩
            rw [← ht]
            simpa using h3
        · simp [ha] at ht
  | lparen => simp [tokEvalStep] at ht
  | rparen => simp [tokEvalStep] at ht
  | comma => simp [tokEvalStep] at ht

theorem compileStep_err (ops : FloatOps F) (env : Bytes → F) {e : List (Node F)} {vars : List Bytes} {s : List F}
    {t : Token F} (ht : tokEvalStep ops env s t = .err) : compileStep ops (e, vars) t = .err := by
  cases t with
  | func name n =>
    match n, ht with
    | none, ht => simp [tokEvalStep] at ht
    | some n, ht =>
      simp only [tokEvalStep] at ht
      simp only [compileStep, compileFunc]
      cases hf : findFunc name with
      | none => rfl
      | some f =>
        simp only [hf] at ht ⊢
        by_cases ha : arityOk f n
        · rw [if_neg (by simpa using ha)] at ht
          by_cases hn : s.length < n ∨ n = 0
          · simp [hn] at ht
          · rw [if_neg hn] at ht
            obtain ⟨v, hv⟩ := applyFunc_ok ops f (s.take n).reverse (by have := ha.1; simp; omega)
            simp [hv, Res.map'] at ht
        · rcases (arity_iff f n).1 ha with h | h
          · simp [h, Res.map']
          · by_cases h1 : n < minArgs f
            · simp [h1, Res.map']
            · rw [if_neg h1, if_pos h]; rfl
  | unary op => cases s <;> simp [tokEvalStep] at ht
  | binary op =>
    match s, ht with
    | [], ht => simp [tokEvalStep] at ht
    | [_], ht => simp [tokEvalStep] at ht
    | y :: x :: s, ht => simp [tokEvalStep] at ht
  | _ => simp [tokEvalStep] at ht

theorem compileLoop_ok (ops : FloatOps F) (env : Bytes → F) {e : List (Node F)} {vars : List Bytes} {s s' : List F}
    {ts : List (Token F)} (h : evalLoop ops (vars.map env) [] e.reverse = .ok s)
    (ht : tokEval ops env s ts = .ok s') :
    ∃ e' w, compileLoop ops (e, vars) ts = .ok (e', vars ++ w) ∧
      evalLoop ops ((vars ++ w).map env) [] e'.reverse = .ok s' := by
  induction ts generalizing e vars s with
  | nil => simp [tokEval] at ht; subst ht; exact ⟨e, [], by simp [compileLoop], by simpa using h⟩
  | cons t ts ih =>
    simp only [tokEval] at ht
    cases hs : tokEvalStep ops env s t with
    | ok s1 =>
      rw [hs, Res.bind_ok] at ht
      obtain ⟨e1, w1, h1, h2⟩ := compileStep_ok ops env h hs
      obtain ⟨e2, w2, h3, h4⟩ := ih h2 ht
      refine ⟨e2, w1 ++ w2, ?_, ?_⟩
      · rw [compileLoop, h1, Res.bind_ok, h3, List.append_assoc]
      · rw [← List.append_assoc]; exact h4
    | err => simp [hs, Res.bind] at ht
    | panic => simp [hs, Res.bind] at ht

theorem compileLoop_err (ops : FloatOps F) (env : Bytes → F) {e : List (Node F)} {vars : List Bytes} {s : List F}
    {ts : List (Token F)} (h : evalLoop ops (vars.map env) [] e.reverse = .ok s)
    (ht : tokEval ops env s ts = .err) : compileLoop ops (e, vars) ts = .err := by
  induction ts generalizing e vars s with
  | nil => simp [tokEval] at ht
  | cons t ts ih =>
    simp only [tokEval] at ht
    cases hs : tokEvalStep ops env s t with
    | ok s1 =>
      rw [hs, Res.bind_ok] at ht
      obtain ⟨e1, w1, h1, h2⟩ := compileStep_ok ops env h hs
      rw [compileLoop, h1, Res.bind_ok, ih h2 ht]
    | err => rw [compileLoop, compileStep_err ops env hs]; rfl
    | panic => simp [hs, Res.bind] at ht

/-! ## Checked formulas do not run out of operands -/

theorem tokEvalStep_operands (ops : FloatOps F) (env : Bytes → F) {t : Token F} {d : Int} {s : List F}
    (hd : operandStep t = some d) (hn : 0 < s.length + d) :
    tokEvalStep ops env s t = .err ∨ ∃ s', tokEvalStep ops env s t = .ok s' ∧ (s'.length : Int) = s.length + d := by
  cases t with
  | number x => simp [operandStep] at hd; subst hd; exact .inr ⟨_, rfl, by simp⟩
  | var x => simp [operandStep] at hd; subst hd; exact .inr ⟨_, rfl, by simp⟩
  | unary op =>
    simp [operandStep] at hd
    subst hd
    match s, hn with
    | [], hn => simp at hn
    | x :: s, _ => exact .inr ⟨_, rfl, by simp⟩
  | binary op =>
    simp [operandStep] at hd
    subst hd
    match s, hn with
    | [], hn => simp at hn
    | [x], hn => simp at hn
    | y :: x :: s, _ => exact .inr ⟨_, rfl, by simp; omega⟩
  | func name n =>
    match n, hd with
    | none, hd => simp [operandStep] at hd
    | some n, hd =>
      simp [operandStep] at hd
      subst hd
      simp only [tokEvalStep]
      cases hf : findFunc name with
      | none => exact .inl rfl
      | some f =>
        by_cases ha : arityOk f n
        · have h1 : 1 ≤ n := Nat.le_trans (minArgs_pos f) ha.1
          obtain ⟨v, hv⟩ := applyFunc_ok ops f (s.take n).reverse (by have := ha.1; simp; omega)
          refine .inr ⟨v :: s.drop n, ?_, by simp; omega⟩
          simp only
          rw [if_neg (by simpa using ha), if_neg (by omega), hv]
          rfl
        · exact .inl (by simp [ha])
  | lparen => simp [operandStep] at hd
  | rparen => simp [operandStep] at hd
  | comma => simp [operandStep] at hd

theorem tokEval_operands (ops : FloatOps F) (env : Bytes → F) {ts : List (Token F)} {n : Int} {s : List F}
    (hs : (s.length : Int) = n) (hv : verifyRpn n ts = .ok ()) :
    tokEval ops env s ts = .err ∨ ∃ s', tokEval ops env s ts = .ok s' ∧ s'.length ≤ 1 ∧ (ts ≠ [] → s'.length = 1) := by
  induction ts generalizing n s with
  | nil =>
    refine .inr ⟨s, rfl, ?_, by simp⟩
    simp only [verifyRpn] at hv
    split at hv
    · simp at hv
    · omega
  | cons t ts ih =>
    simp only [verifyRpn] at hv
    cases hd : operandStep t with
    | none => simp [hd] at hv
    | some d =>
      simp only [hd] at hv
      by_cases hn : n + d ≤ 0
      · simp [hn] at hv
      · rw [if_neg hn] at hv
        rcases tokEvalStep_operands ops env hd (by omega : 0 < s.length + d) with h | ⟨s1, h1, h2⟩
        · exact .inl (by simp [tokEval, h, Res.bind])
        · rcases ih (by omega : (s1.length : Int) = n + d) hv with h | ⟨s2, h3, h4, h5⟩
          · exact .inl (by simp [tokEval, h1, h, Res.bind])
          · refine .inr ⟨s2, by simp [tokEval, h1, h3, Res.bind], h4, fun _ => ?_⟩
            by_cases hts : ts = []
            · subst hts
              simp [tokEval] at h3
              subst h3
              omega
            · exact h5 hts

theorem toRpn_verified {ts rpn : List (Token F)} (h : toRpn ts = .ok rpn) : verifyRpn 0 rpn = .ok () := by
  unfold toRpn at h
  cases h1 : rpnLoop ([], []) ts with
  | ok st =>
    rw [h1, Res.bind_ok] at h
    cases h2 : rpnEnd st.1 st.2 with
    | ok out =>
      rw [h2, Res.bind_ok] at h
      cases h3 : verifyRpn 0 out with
      | ok u =>
        rw [h3, Res.bind_ok] at h
        simp at h
        subst h
        exact h3
      | err => simp [h3, Res.bind] at h
      | panic => simp [h3, Res.bind] at h
    | err => simp [h2, Res.bind] at h
    | panic => simp [h2, Res.bind] at h
  | err => simp [h1, Res.bind] at h
  | panic => simp [h1, Res.bind] at h

/-! ## The value of a postfix form -/

theorem tokEval_append (ops : FloatOps F) (env : Bytes → F) (s : List F) (ts us : List (Token F)) :
    tokEval ops env s (ts ++ us) = (tokEval ops env s ts).bind fun s' => tokEval ops env s' us := by
  induction ts generalizing s with
  | nil => rfl
  | cons t ts ih =>
    simp only [List.cons_append, tokEval]
    cases tokEvalStep ops env s t with
    | ok s' => exact ih s'
    | err => rfl
    | panic => rfl

theorem tokEval_one (ops : FloatOps F) (env : Bytes → F) (s : List F) (t : Token F) :
    tokEval ops env s [t] = tokEvalStep ops env s t := by
  simp only [tokEval]
  cases tokEvalStep ops env s t <;> rfl

theorem treeVals_length (ops : FloatOps F) (env : Bytes → F) {ts : List (Tree F)} {xs : List F}
    (h : treeVals ops env ts = .ok xs) : xs.length = ts.length := by
  induction ts generalizing xs with
  | nil => simp [treeVals] at h; subst h; rfl
  | cons t ts ih =>
    simp only [treeVals] at h
    cases h1 : treeVal ops env t with
    | ok x =>
      rw [h1, Res.bind_ok] at h
      cases h2 : treeVals ops env ts with
      | ok ys => simp [h2, Res.map'] at h; subst h; simp [ih h2]
      | err => simp [h2, Res.map'] at h
      | panic => simp [h2, Res.map'] at h
    | err => simp [h1, Res.bind] at h
    | panic => simp [h1, Res.bind] at h

mutual
theorem tokEval_postfixOf (ops : FloatOps F) (env : Bytes → F) (t : Tree F) (s : List F) :
    tokEval ops env s (postfixOf t) = (treeVal ops env t).map' fun v => v :: s := by
  cases t with
  | num x => rfl
  | var x => rfl
  | bin op a b =>
    rw [postfixOf, tokEval_append, tokEval_append, tokEval_postfixOf ops env a, treeVal]
    cases treeVal ops env a with
    | ok x =>
      simp only [Res.map', Res.bind_ok]
      rw [tokEval_postfixOf ops env b]
      cases treeVal ops env b <;> rfl
    | err => rfl
    | panic => rfl
  | sign m a =>
    rw [postfixOf, tokEval_append, tokEval_postfixOf ops env a, treeVal]
    cases treeVal ops env a with
    | ok x => cases m <;> rfl
    | err => rfl
    | panic => rfl
  | fact a =>
    rw [postfixOf, tokEval_append, tokEval_postfixOf ops env a, treeVal]
    cases treeVal ops env a <;> rfl
  | call name a rest =>
    rw [postfixOf, tokEval_append, tokEval_append, tokEval_postfixOf ops env a, treeVal]
    cases treeVal ops env a with
    | ok x =>
      simp only [Res.map', Res.bind_ok]
      rw [tokEval_postfixAll ops env rest]
      cases hr : treeVals ops env rest with
      | ok xs =>
        have hl := treeVals_length ops env hr
        simp only [Res.map', Res.bind_ok]
        rw [tokEval_one, tokEvalStep, callVal]
        cases findFunc name with
        | none => rfl
        | some f =>
          simp only [List.length_cons, hl]
          by_cases ha : arityOk f (rest.length + 1)
          · rw [if_neg (by simpa using ha), if_pos ha, if_neg (by simp; omega)]
            have h1 : (xs.reverse ++ x :: s).take (rest.length + 1) = xs.reverse ++ [x] := by
              rw [← hl, List.take_append, List.take_of_length_le (by simp)]; simp
            have h2 : (xs.reverse ++ x :: s).drop (rest.length + 1) = s := by
              rw [← hl, List.drop_append]; simp
            rw [h1, h2]
            simp only [List.reverse_append, List.reverse_reverse, List.reverse_cons, List.reverse_nil, List.nil_append,
              List.singleton_append]
            cases applyFunc ops f (x :: xs) <;> rfl
          · simp [ha]
      | err => rfl
      | panic => rfl
    | err => rfl
    | panic => rfl

theorem tokEval_postfixAll (ops : FloatOps F) (env : Bytes → F) (ts : List (Tree F)) (s : List F) :
    tokEval ops env s (postfixAll ts) = (treeVals ops env ts).map' fun vs => vs.reverse ++ s := by
  cases ts with
  | nil => rfl
  | cons t ts =>
    rw [postfixAll, tokEval_append, tokEval_postfixOf ops env t, treeVals]
    cases treeVal ops env t with
    | ok x =>
      simp only [Res.map', Res.bind_ok]
      rw [tokEval_postfixAll ops env ts]
      cases treeVals ops env ts with
      | ok xs => simp [Res.map']
      | err => rfl
      | panic => rfl
    | err => rfl
    | panic => rfl
end

end Cdx
