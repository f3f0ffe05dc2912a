import Verif.Spec.Expr

/-!
Lemmas about the shunting yard and the evaluator.
-/

namespace Cdx

variable {F : Type}

theorem rpnLoop_append (st : List (Token F) × List (Token F)) (ts us : List (Token F)) :
    rpnLoop st (ts ++ us) = (rpnLoop st ts).bind fun st' => rpnLoop st' us := by
  induction ts generalizing st with
  | nil => rfl
  | cons t ts ih =>
    simp only [List.cons_append, rpnLoop]
    cases rpnStep st t with
    | ok st' => exact ih st'
    | err => rfl
    | panic => rfl

/-- An operator on the stack. -/
def IsOp : Token F → Prop
  | .binary _ => True
  | .unary _ => True
  | _ => False

/-- The precedence of the top of the stack. -/
def topPrec : List (Token F) → Nat
  | [] => 0
  | t :: _ => prec t

/-- The highest precedence the top of the stack may have before an operand of level `p`. -/
def bound : Nat → Nat
  | 0 => 0
  | 1 => 0
  | 2 => 1
  | 3 => 2
  | 4 => 5
  | 5 => 5
  | _ => 6

theorem popBinary_ops (op : BinOp) (out ops S : List (Token F)) (h : ∀ o ∈ ops, popsFor op o = true)
    (hS : ∀ t, S.head? = some t → popsFor op t = false) : popBinary op out (ops ++ S) = (out ++ ops, S) := by
  induction ops generalizing out with
  | nil =>
    cases S with
    | nil => simp [popBinary]
    | cons t S => simp [popBinary, hS t rfl]
  | cons o ops ih =>
    rw [List.cons_append, popBinary, if_pos (h o (by simp)), ih _ (fun o ho => h o (by simp [ho]))]
    simp

theorem popRParen_ops (out ops S : List (Token F)) (h : ∀ o ∈ ops, IsOp o) :
    popRParen out (ops ++ S) = popRParen (out ++ ops) S := by
  induction ops generalizing out with
  | nil => simp
  | cons o ops ih =>
    have ho := h o (by simp)
    have hr := ih (out ++ [o]) (fun o ho => h o (by simp [ho]))
    cases o <;> simp_all [popRParen, IsOp]

theorem popComma_ops (out ops S : List (Token F)) (h : ∀ o ∈ ops, IsOp o) :
    popComma out (ops ++ S) = popComma (out ++ ops) S := by
  induction ops generalizing out with
  | nil => simp
  | cons o ops ih =>
    have ho := h o (by simp)
    have hr := ih (out ++ [o]) (fun o ho => h o (by simp [ho]))
    cases o <;> simp_all [popComma, IsOp]

theorem rpnEnd_ops (out ops : List (Token F)) (h : ∀ o ∈ ops, IsOp o) : rpnEnd out ops = .ok (out ++ ops) := by
  induction ops generalizing out with
  | nil => simp [rpnEnd]
  | cons o ops ih =>
    have ho := h o (by simp)
    have hr := ih (out ++ [o]) (fun o ho => h o (by simp [ho]))
    cases o <;> simp_all [rpnEnd, IsOp]

theorem prec_left {op : BinOp} {p : Nat} (h : leftLevel op = some p) :
    prec (.binary op : Token F) = p ∧ assocRight op = false ∧ 1 ≤ p ∧ p ≤ 3 := by
  cases op <;> simp_all [leftLevel, prec, assocRight] <;> omega

theorem prec_le_six (t : Token F) : prec t ≤ 6 := by
  cases t with
  | binary op => cases op <;> simp [prec]
  | unary op => cases op <;> simp [prec]
  | _ => simp [prec]

theorem op_six {o : Token F} (h : IsOp o) (h6 : 6 ≤ prec o) : o = .unary .fact := by
  cases o with
  | binary op => cases op <;> simp [prec] at h6
  | unary op => cases op <;> simp_all [prec]
  | _ => exact h.elim

theorem postfixAll_append (ts us : List (Tree F)) : postfixAll (ts ++ us) = postfixAll ts ++ postfixAll us := by
  induction ts with
  | nil => rfl
  | cons t ts ih => simp [postfixAll, ih]

/-- The lowest precedence of the operators left on the stack by an operand of level `p`: a power may have a sign in its
exponent. -/
def lowPrec (p : Nat) : Nat := if p = 5 then 4 else p

/-- What the loop does with an operand of level `p`, or with a list of arguments. -/
def Runs (p : Nat) (ts : List (Token F)) (trees : List (Tree F)) : Prop :=
  match p with
  | 0 => trees ≠ [] ∧ ∀ out name n S, rpnLoop (out, .func name n :: S) (ts ++ [.rparen]) =
      .ok (out ++ postfixAll trees ++ [.func name (some (n.getD 0 + trees.length))], S)
  | p + 1 => ∀ out S, topPrec S ≤ bound (p + 1) → ∃ out' ops, rpnLoop (out, S) ts = .ok (out', ops ++ S) ∧
      out' ++ ops = out ++ postfixAll trees ∧ (∀ o ∈ ops, IsOp o ∧ lowPrec (p + 1) ≤ prec o)

theorem popsFor_left {op : BinOp} {p : Nat} (h : leftLevel op = some p) (t : Token F) :
    popsFor op t = decide (p ≤ prec t) := by
  obtain ⟨h1, h2, _⟩ := prec_left (F := F) h
  simp [popsFor, h1, h2]

theorem popsFor_pow (t : Token F) : popsFor .pow t = decide (5 < prec t) := rfl

theorem bound_left {p : Nat} (h1 : 1 ≤ p) (h3 : p ≤ 3) : bound p + 1 = p ∧ p ≤ bound (p + 1) := by
  have : p = 1 ∨ p = 2 ∨ p = 3 := by omega
  rcases this with rfl | rfl | rfl <;> simp [bound]

theorem head_prec {S : List (Token F)} {t : Token F} (h : S.head? = some t) : topPrec S = prec t := by
  cases S with
  | nil => simp at h
  | cons a S => simp at h; simp [topPrec, h]

theorem writes_runs {p : Nat} {ts : List (Token F)} {trees : List (Tree F)} (h : Writes p ts trees) :
    Runs p ts trees := by
  induction h with
  | num x =>
    intro out S _
    exact ⟨out ++ [.number x], [], by simp [rpnLoop, rpnStep, Res.bind], by simp [postfixAll, postfixOf], by simp⟩
  | var s =>
    intro out S _
    exact ⟨out ++ [.var s], [], by simp [rpnLoop, rpnStep, Res.bind], by simp [postfixAll, postfixOf], by simp⟩
  | @paren ts t _ ih =>
    intro out S _
    obtain ⟨out', ops, h1, h2, h3⟩ := ih out (.lparen :: S) (by simp [topPrec, prec])
    refine ⟨out' ++ ops, [], ?_, by simpa using h2, by simp⟩
    rw [rpnLoop]
    simp only [rpnStep, Res.bind_ok]
    rw [rpnLoop_append, h1, Res.bind_ok, rpnLoop]
    simp only [rpnStep]
    rw [popRParen_ops _ _ _ (fun o ho => (h3 o ho).1), popRParen]
    rfl
  | @call ts s a rest _ ih =>
    intro out S _
    obtain ⟨_, ih⟩ := ih
    refine ⟨out ++ postfixAll (a :: rest) ++ [.func s (some (rest.length + 1))], [], ?_, ?_, by simp⟩
    · rw [rpnLoop]
      simp only [rpnStep, Res.bind_ok]
      rw [ih]
      simp
    · simp [postfixAll, postfixOf]
  | @arg ts t _ ih =>
    refine ⟨by simp, fun out name n S => ?_⟩
    obtain ⟨out', ops, h1, h2, h3⟩ := ih out (.func name n :: S) (by simp [topPrec, prec])
    rw [rpnLoop_append, h1, Res.bind_ok, rpnLoop]
    simp only [rpnStep]
    rw [popRParen_ops _ _ _ (fun o ho => (h3 o ho).1), h2, popRParen, Res.bind_ok]
    simp [rpnLoop]
  | @args ts us t rest _ _ ih1 ih2 =>
    refine ⟨by simp, fun out name n S => ?_⟩
    obtain ⟨out', ops, h1, h2, h3⟩ := ih1 out (.func name n :: S) (by simp [topPrec, prec])
    rw [List.append_assoc, rpnLoop_append, h1, Res.bind_ok, List.cons_append, rpnLoop]
    simp only [rpnStep]
    rw [popComma_ops _ _ _ (fun o ho => (h3 o ho).1), h2, popComma, Res.bind_ok, ih2.2]
    simp [postfixAll, Nat.add_comm]
    omega
  | @fact ts t _ ih =>
    intro out S hS
    obtain ⟨out', ops, h1, h2, h3⟩ := ih out S hS
    refine ⟨out', .unary .fact :: ops, ?_, ?_, ?_⟩
    · rw [rpnLoop_append, h1, Res.bind_ok]; rfl
    · have hops : ∀ l : List (Token F), (∀ o ∈ l, IsOp o ∧ lowPrec (5 + 1) ≤ prec o) →
          (.unary .fact) :: l = l ++ [.unary .fact] := by
        intro l
        induction l with
        | nil => simp
        | cons a l ih =>
          intro h
          have ha := op_six (h a (by simp)).1 (h a (by simp)).2
          rw [ha, List.cons_append, ← ih (fun o ho => h o (by simp [ho]))]
      rw [hops ops h3, ← List.append_assoc, h2]
      simp [postfixAll, postfixOf]
    · intro o ho
      rcases List.mem_cons.1 ho with rfl | ho
      · simp [IsOp, prec, lowPrec]
      · exact h3 o ho
  | @pow ts us a b _ _ ih1 ih2 =>
    intro out S hS
    obtain ⟨out1, ops1, h1, h2, h3⟩ := ih1 out S (Nat.le_trans hS (by simp [bound]))
    obtain ⟨out2, ops2, h4, h5, h6⟩ := ih2 (out1 ++ ops1) (.binary .pow :: S) (by simp [topPrec, prec, bound])
    refine ⟨out2, ops2 ++ [.binary .pow], ?_, ?_, ?_⟩
    · rw [rpnLoop_append, h1, Res.bind_ok, rpnLoop]
      simp only [rpnStep, Res.bind_ok]
      rw [popBinary_ops _ _ _ _ _ _]
      · simpa using h4
      · intro o ho
        have := (h3 o ho).2
        change 6 ≤ prec o at this
        simp [popsFor_pow]
        omega
      · intro t ht
        have := head_prec ht
        simp [bound] at hS
        simp [popsFor_pow]
        omega
    · rw [← List.append_assoc, h5, h2]
      simp [postfixAll, postfixOf]
    · intro o ho
      rcases List.mem_append.1 ho with ho | ho
      · exact h6 o ho
      · simp at ho
        subst ho
        simp [IsOp, prec, lowPrec]
  | @sign ts t m _ ih =>
    intro out S hS
    obtain ⟨out', ops, h1, h2, h3⟩ := ih out (.unary (signOp m) :: S) (by cases m <;> simp [topPrec, signOp, prec, bound])
    refine ⟨out', ops ++ [.unary (signOp m)], ?_, ?_, ?_⟩
    · rw [rpnLoop]
      simp only [rpnStep, Res.bind_ok]
      simpa using h1
    · rw [← List.append_assoc, h2]; simp [postfixAll, postfixOf]
    · intro o ho
      rcases List.mem_append.1 ho with ho | ho
      · exact h3 o ho
      · simp at ho
        subst ho
        cases m <;> simp [IsOp, prec, signOp, lowPrec]
  | @bin ts us a b op p hop _ _ ih1 ih2 =>
    obtain ⟨hp, _, hp1, hp3⟩ := prec_left (F := F) hop
    obtain ⟨hb1, hb2⟩ := bound_left hp1 hp3
    obtain ⟨q, rfl⟩ : ∃ q, p = q + 1 := ⟨p - 1, by omega⟩
    intro out S hS
    obtain ⟨out1, ops1, h1, h2, h3⟩ := ih1 out S hS
    obtain ⟨out2, ops2, h4, h5, h6⟩ := ih2 (out1 ++ ops1) (.binary op :: S) (by simpa [topPrec, hp] using hb2)
    refine ⟨out2, ops2 ++ [.binary op], ?_, ?_, ?_⟩
    · rw [rpnLoop_append, h1, Res.bind_ok, rpnLoop]
      simp only [rpnStep, Res.bind_ok]
      rw [popBinary_ops _ _ _ _ _ _]
      · simpa using h4
      · intro o ho
        have := h3 o ho
        have h' := this.2
        have : lowPrec (q + 1) = q + 1 := by simp [lowPrec]; omega
        rw [this] at h'
        simpa [popsFor_left hop] using h'
      · intro t ht
        have := head_prec ht
        simp [popsFor_left hop]
        omega
    · rw [← List.append_assoc, h5, h2]
      simp [postfixAll, postfixOf]
    · intro o ho
      rcases List.mem_append.1 ho with ho | ho
      · have := h6 o ho
        have h' := this.2
        have h1 : lowPrec (q + 1) = q + 1 := by simp [lowPrec]; omega
        have h2 : lowPrec (q + 1 + 1) = q + 1 + 1 := by simp [lowPrec]; omega
        exact ⟨this.1, by omega⟩
      · simp at ho
        subst ho
        have h1 : lowPrec (q + 1) = q + 1 := by simp [lowPrec]; omega
        exact ⟨trivial, by omega⟩
  | @up p ts t hp1 hp6 _ ih =>
    obtain ⟨q, rfl⟩ : ∃ q, p = q + 1 := ⟨p - 1, by omega⟩
    intro out S hS
    have hb : bound (q + 1) ≤ bound (q + 1 + 1) := by
      have : q = 0 ∨ q = 1 ∨ q = 2 ∨ q = 3 ∨ q = 4 ∨ q = 5 := by omega
      rcases this with rfl | rfl | rfl | rfl | rfl | rfl <;> simp [bound]
    obtain ⟨out', ops, h1, h2, h3⟩ := ih out S (Nat.le_trans hS hb)
    exact ⟨out', ops, h1, h2, fun o ho => ⟨(h3 o ho).1, by have := (h3 o ho).2; simp only [lowPrec] at this ⊢; split <;> split at this <;> omega⟩⟩

/-! ## The check of the output -/

/-- Running the check over a list of tokens: the number of operands afterwards. -/
def operands : Int → List (Token F) → Option Int
  | n, [] => some n
  | n, t :: ts =>
    match operandStep t with
    | none => none
    | some d => if n + d ≤ 0 then none else operands (n + d) ts

theorem operands_append (n : Int) (ts us : List (Token F)) :
    operands n (ts ++ us) = (operands n ts).bind fun m => operands m us := by
  induction ts generalizing n with
  | nil => rfl
  | cons t ts ih =>
    simp only [List.cons_append, operands]
    cases operandStep t with
    | none => rfl
    | some d => dsimp only; split <;> simp [ih]

theorem verifyRpn_of_operands {n m : Int} {ts : List (Token F)} (h : operands n ts = some m) (hm : m ≤ 1) :
    verifyRpn n ts = .ok () := by
  induction ts generalizing n with
  | nil => simp [operands] at h; subst h; simp [verifyRpn]; omega
  | cons t ts ih =>
    simp only [operands] at h
    simp only [verifyRpn]
    cases hd : operandStep t with
    | none => simp [hd] at h
    | some d =>
      simp only [hd] at h ⊢
      by_cases hn : n + d ≤ 0
      · simp [hn] at h
      · rw [if_neg hn] at h ⊢; exact ih h

mutual
theorem operands_postfixOf (t : Tree F) (n : Int) (hn : 0 ≤ n) : operands n (postfixOf t) = some (n + 1) := by
  cases t with
  | num x => simp [postfixOf, operands, operandStep]; omega
  | var s => simp [postfixOf, operands, operandStep]; omega
  | bin op a b =>
    rw [postfixOf, operands_append, operands_append, operands_postfixOf a n hn]
    simp only [Option.bind_some]
    rw [operands_postfixOf b (n + 1) (by omega)]
    simp [operands, operandStep]; omega
  | sign m a =>
    rw [postfixOf, operands_append, operands_postfixOf a n hn]
    simp [operands, operandStep]; omega
  | fact a =>
    rw [postfixOf, operands_append, operands_postfixOf a n hn]
    simp [operands, operandStep]; omega
  | call s a rest =>
    rw [postfixOf, operands_append, operands_append, operands_postfixOf a n hn]
    simp only [Option.bind_some]
    rw [operands_postfixAll rest (n + 1) (by omega)]
    simp [operands, operandStep]; omega

theorem operands_postfixAll (ts : List (Tree F)) (n : Int) (hn : 0 ≤ n) :
    operands n (postfixAll ts) = some (n + ts.length) := by
  cases ts with
  | nil => simp [postfixAll, operands]
  | cons t ts =>
    rw [postfixAll, operands_append, operands_postfixOf t n hn]
    simp only [Option.bind_some]
    rw [operands_postfixAll ts (n + 1) (by omega)]
    simp; omega
end

theorem toRpn_writes {ts : List (Token F)} {t : Tree F} (h : Writes 1 ts [t]) : toRpn ts = .ok (postfixOf t) := by
  obtain ⟨out, ops, h1, h2, h3⟩ := writes_runs h [] [] (by simp [topPrec])
  simp [postfixAll] at h2
  simp at h1
  rw [toRpn, h1]
  simp only [Res.bind_ok]
  rw [rpnEnd_ops _ _ (fun o ho => (h3 o ho).1), h2]
  simp only [Res.bind_ok]
  rw [verifyRpn_of_operands (operands_postfixOf t 0 (by omega)) (by omega)]
  rfl

/-! ## Writing with the fewest parentheses -/

theorem Writes.mono {p q : Nat} {ts : List (Token F)} {t : Tree F} (h : Writes q ts [t]) (hp : 1 ≤ p) (hpq : p ≤ q)
    (hq : q ≤ 7) : Writes p ts [t] := by
  obtain ⟨d, rfl⟩ : ∃ d, q = p + d := ⟨q - p, by omega⟩
  induction d generalizing p with
  | zero => exact h
  | succ d ih =>
    refine .up hp (by omega) (ih (p := p + 1) (by omega) ?_ (by omega) (by omega))
    rw [show p + 1 + d = p + (d + 1) by omega]; exact h

theorem writes_wrap {p l : Nat} {ts : List (Token F)} {t : Tree F} (h : Writes l ts [t]) (hl1 : 1 ≤ l) (hl : l ≤ 7)
    (hp1 : 1 ≤ p) (hp : p ≤ 7) : Writes p (wrapIf (l < p) ts) [t] := by
  unfold wrapIf
  by_cases hlp : l < p
  · simp only [hlp, decide_true, if_true]
    exact (Writes.paren (h.mono (by omega) hl1 hl)).mono hp1 hp (by omega)
  · simp only [hlp, decide_false]
    exact h.mono hp1 (by omega) hl

mutual
theorem writes_infixOf (t : Tree F) (p : Nat) (hp1 : 1 ≤ p) (hp : p ≤ 7) : Writes p (infixOf p t) [t] := by
  cases t with
  | num x => rw [infixOf]; exact (Writes.num x).mono hp1 hp (by omega)
  | var s => rw [infixOf]; exact (Writes.var s).mono hp1 hp (by omega)
  | bin op a b =>
    rw [infixOf]
    cases hop : leftLevel op with
    | none =>
      have : op = .pow := by cases op <;> simp_all [leftLevel]
      subst this
      exact writes_wrap (.pow (writes_infixOf a 6 (by omega) (by omega)) (writes_infixOf b 4 (by omega) (by omega)))
        (by omega) (by omega) hp1 hp
    | some l =>
      obtain ⟨_, _, h1, h3⟩ := prec_left (F := F) hop
      exact writes_wrap (.bin hop (writes_infixOf a l h1 (by omega)) (writes_infixOf b (l + 1) (by omega) (by omega)))
        h1 (by omega) hp1 hp
  | sign m a =>
    rw [infixOf]
    exact writes_wrap (.sign m (writes_infixOf a 4 (by omega) (by omega))) (by omega) (by omega) hp1 hp
  | fact a =>
    rw [infixOf]
    exact writes_wrap (.fact (writes_infixOf a 6 (by omega) (by omega))) (by omega) (by omega) hp1 hp
  | call s a rest =>
    rw [infixOf]
    exact (Writes.call (writes_infixArgs rest a _ (writes_infixOf a 1 (by omega) (by omega)))).mono hp1 hp (by omega)

theorem writes_infixArgs (rest : List (Tree F)) (a : Tree F) (ts : List (Token F)) (h : Writes 1 ts [a]) :
    Writes 0 (ts ++ infixArgs rest) (a :: rest) := by
  cases rest with
  | nil => rw [infixArgs, List.append_nil]; exact .arg h
  | cons t rest =>
    rw [infixArgs]
    exact .args h (writes_infixArgs rest t _ (writes_infixOf t 1 (by omega) (by omega)))
end

end Cdx
