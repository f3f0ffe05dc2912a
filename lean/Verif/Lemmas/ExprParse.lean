import Verif.Lemmas.ExprTok

/-!
The shunting yard accepts nothing but formulas, if operands and operators alternate.
-/

namespace Cdx

variable {F : Type}

/-- Complete arguments, each followed by a comma. -/
inductive ArgsPre : List (Token F) → List (Tree F) → Prop
  | nil : ArgsPre [] []
  | snoc {us as ts t} : ArgsPre us as → Writes 1 ts [t] → ArgsPre (us ++ (ts ++ [.comma])) (as ++ [t])

theorem ArgsPre.writes {us ts : List (Token F)} {as bs : List (Tree F)} (h : ArgsPre us as) (hw : Writes 0 ts bs) :
    Writes 0 (us ++ ts) (as ++ bs) := by
  induction h generalizing ts bs with
  | nil => exact hw
  | @snoc us as us' t _ h2 ih =>
    have := ih (Writes.args h2 hw)
    simpa using this

/-- Tokens read so far, when an operand is expected, and the stack. -/
inductive Open : List (Token F) → List (Token F) → Prop
  | nil : Open [] []
  | paren {pre S} : Open pre S → Open (pre ++ [.lparen]) (.lparen :: S)
  | func {pre S us as} (s : Bytes) (n : Option Nat) : Open pre S → ArgsPre us as →
      Open (pre ++ (.func s none :: us)) (.func s n :: S)
  | sign {pre S} (m : Bool) : Open pre S → Open (pre ++ [.unary (signOp m)]) (.unary (signOp m) :: S)
  | bin {pre S us a op p} : Open pre S → leftLevel op = some p → Writes p us [a] → topPrec S < p →
      Open (pre ++ (us ++ [.binary op])) (.binary op :: S)
  | pow {pre S us a} : Open pre S → Writes 6 us [a] → Open (pre ++ (us ++ [.binary .pow])) (.binary .pow :: S)

/-- The level an operand after this stack entry needs. -/
def needed : List (Token F) → Nat
  | .unary _ :: _ => 4
  | .binary op :: _ => ((leftLevel op).map (· + 1)).getD 4
  | _ => 1

theorem needed_pos (S : List (Token F)) : 1 ≤ needed S ∧ needed S ≤ 4 := by
  unfold needed
  split
  · omega
  · rename_i op _; cases op <;> simp [leftLevel]
  · omega

theorem needed_of_topPrec {pre S : List (Token F)} (h : Open pre S) {p : Nat} (hp : p ≤ 3) (ht : topPrec S < p) :
    needed S ≤ p := by
  cases h with
  | nil => simp [needed]; omega
  | paren _ => simp [needed]; omega
  | func s n _ _ => simp [needed]; omega
  | sign m _ => cases m <;> simp [topPrec, signOp, prec] at ht <;> omega
  | bin _ hl _ _ =>
    obtain ⟨h1, _⟩ := prec_left (F := F) hl
    simp [topPrec, h1] at ht
    simp [needed, hl]; omega
  | pow _ _ => simp [topPrec, prec] at ht; omega

/-- Taking an operator from the stack: it and its operands are an operand. -/
theorem open_reduce {pre S us : List (Token F)} {o : Token F} {t : Tree F} {L : Nat} (h : Open pre (o :: S)) (ho : IsOp o)
    (hw : Writes L us [t]) (hL : needed (o :: S) ≤ L) (hL7 : L ≤ 7) :
    ∃ pre' us' t', Open pre' S ∧ pre ++ us = pre' ++ us' ∧ Writes (prec o) us' [t'] ∧ needed S ≤ prec o := by
  cases h with
  | paren _ => exact ho.elim
  | func s n _ _ => exact ho.elim
  | @sign pre _ m h =>
    refine ⟨pre, .unary (signOp m) :: us, .sign m t, h, by simp, ?_, ?_⟩
    · have := Writes.sign m (hw.mono (by omega) hL hL7)
      cases m <;> simpa [prec, signOp] using this
    · have := needed_pos S
      cases m <;> simp [prec, signOp] <;> omega
  | @bin pre _ vs a op p h hl hv ht =>
    obtain ⟨h1, _, h2, h3⟩ := prec_left (F := F) hl
    refine ⟨pre, vs ++ .binary op :: us, .bin op a t, h, by simp, ?_, ?_⟩
    · rw [h1]
      refine .bin hl hv (hw.mono (by omega) ?_ hL7)
      simpa [needed, hl] using hL
    · rw [h1]; exact needed_of_topPrec h h3 ht
  | @pow pre _ vs a h hv =>
    refine ⟨pre, vs ++ .binary .pow :: us, .bin .pow a t, h, by simp, ?_, ?_⟩
    · exact .pow hv (hw.mono (by omega) (by simpa [needed, leftLevel] using hL) hL7)
    · have := needed_pos S
      simp [prec]; omega

theorem open_fact {pre S : List (Token F)} : ¬ Open pre (.unary .fact :: S) := by
  intro h
  cases hs : (.unary .fact : Token F) :: S
  · simp at hs
  · rw [hs] at h
    cases h with
    | sign m _ => cases m <;> simp [signOp] at hs
    | _ => simp at hs

/-- Taking all operators that bind at least as tightly as an operator grouping to the left. -/
theorem open_popBinary {op : BinOp} {q : Nat} (hop : leftLevel op = some q) {S : List (Token F)} {pre us out : List (Token F)}
    {t : Tree F} {L : Nat} (h : Open pre S) (hw : Writes L us [t]) (hL : needed S ≤ L) (hL7 : L ≤ 7) (hq : q ≤ L) :
    ∃ pre' us' t', Open pre' (popBinary op out S).2 ∧ pre ++ us = pre' ++ us' ∧ Writes q us' [t'] ∧
      topPrec (popBinary op out S).2 < q := by
  obtain ⟨_, _, hq1, hq3⟩ := prec_left (F := F) hop
  induction S generalizing pre us out t L with
  | nil => exact ⟨pre, us, t, h, rfl, hw.mono hq1 hq hL7, by simp [popBinary, topPrec]; omega⟩
  | cons o S ih =>
    rw [popBinary, popsFor_left hop]
    by_cases hp : q ≤ prec o
    · simp only [hp, decide_true, if_true]
      have ho : IsOp o := by
        cases o with
        | binary _ => trivial
        | unary _ => trivial
        | _ => simp [prec] at hp; omega
      obtain ⟨pre', us', t', h1, h2, h3, h4⟩ := open_reduce h ho hw hL hL7
      obtain ⟨pre2, us2, t2, h5, h6, h7⟩ := ih (out := out ++ [o]) h1 h3 h4 (by have := prec_le_six o; omega) hp
      exact ⟨pre2, us2, t2, h5, h2.trans h6, h7⟩
    · simp only [hp, decide_false]
      exact ⟨pre, us, t, h, rfl, hw.mono hq1 hq hL7, by simp [topPrec]; omega⟩

/-- Taking all operators down to a parenthesis or a call. -/
theorem open_popRParen {S : List (Token F)} {pre us out : List (Token F)} {t : Tree F} {L : Nat} (h : Open pre S)
    (hw : Writes L us [t]) (hL : needed S ≤ L) (hL7 : L ≤ 7) {st : List (Token F) × List (Token F)}
    (hst : popRParen out S = .ok st) :
    ∃ pre' us' t', Open pre' st.2 ∧ pre ++ us ++ [.rparen] = pre' ++ us' ∧ Writes 7 us' [t'] := by
  induction S generalizing pre us out t L with
  | nil => simp [popRParen] at hst
  | cons o S ih =>
    have hn := needed_pos (o :: S)
    have hw1 : Writes 1 us [t] := hw.mono (by omega) (by omega) hL7
    have op : ∀ hs : popRParen (out ++ [o]) S = .ok st, IsOp o →
        ∃ pre' us' t', Open pre' st.2 ∧ pre ++ us ++ [.rparen] = pre' ++ us' ∧ Writes 7 us' [t'] := by
      intro hs ho
      obtain ⟨pre', us', t', h1, h2, h3, h4⟩ := open_reduce h ho hw hL hL7
      obtain ⟨pre2, us2, t2, h5, h6, h7⟩ := ih h1 h3 h4 (by have := prec_le_six o; omega) hs
      exact ⟨pre2, us2, t2, h5, by rw [h2, h6], h7⟩
    cases o with
    | binary _ => exact op (by simpa [popRParen] using hst) trivial
    | unary _ => exact op (by simpa [popRParen] using hst) trivial
    | lparen =>
      simp [popRParen] at hst
      subst hst
      cases h with
      | @paren pre _ h => exact ⟨pre, .lparen :: (us ++ [.rparen]), t, h, by simp, .paren hw1⟩
    | func s n =>
      simp [popRParen] at hst
      subst hst
      cases h with
      | @func pre _ vs as _ _ h ha =>
        have hall := ha.writes (.arg hw1)
        have : ∃ b bs, as ++ [t] = b :: bs := by
          cases as with
          | nil => exact ⟨t, [], rfl⟩
          | cons a as => exact ⟨a, as ++ [t], rfl⟩
        obtain ⟨b, bs, hb⟩ := this
        rw [hb] at hall
        exact ⟨pre, .func s none :: (vs ++ us ++ [.rparen]), .call s b bs, h, by simp, .call hall⟩
    | _ => cases h

theorem open_popComma {S : List (Token F)} {pre us out : List (Token F)} {t : Tree F} {L : Nat} (h : Open pre S)
    (hw : Writes L us [t]) (hL : needed S ≤ L) (hL7 : L ≤ 7) {st : List (Token F) × List (Token F)}
    (hst : popComma out S = .ok st) : Open (pre ++ us ++ [.comma]) st.2 := by
  induction S generalizing pre us out t L with
  | nil => simp [popComma] at hst
  | cons o S ih =>
    have hn := needed_pos (o :: S)
    have hw1 : Writes 1 us [t] := hw.mono (by omega) (by omega) hL7
    have op : ∀ hs : popComma (out ++ [o]) S = .ok st, IsOp o → Open (pre ++ us ++ [.comma]) st.2 := by
      intro hs ho
      obtain ⟨pre', us', t', h1, h2, h3, h4⟩ := open_reduce h ho hw hL hL7
      rw [h2]
      exact ih h1 h3 h4 (by have := prec_le_six o; omega) hs
    cases o with
    | binary _ => exact op (by simpa [popComma] using hst) trivial
    | unary _ => exact op (by simpa [popComma] using hst) trivial
    | lparen => simp [popComma] at hst
    | func s n =>
      simp [popComma] at hst
      subst hst
      cases h with
      | @func pre _ vs as _ _ h ha =>
        have := Open.func s (some (n.getD 0 + 1)) h (ha.snoc hw1)
        simpa using this
    | _ => cases h

theorem open_rpnEnd {S : List (Token F)} {pre us out rpn : List (Token F)} {t : Tree F} {L : Nat} (h : Open pre S)
    (hw : Writes L us [t]) (hL : needed S ≤ L) (hL7 : L ≤ 7) (hst : rpnEnd out S = .ok rpn) :
    ∃ t', Writes 1 (pre ++ us) [t'] := by
  induction S generalizing pre us out t L with
  | nil =>
    cases h
    exact ⟨t, by simpa using hw.mono (by omega) (by have := needed_pos ([] : List (Token F)); omega) hL7⟩
  | cons o S ih =>
    have op : ∀ hs : rpnEnd (out ++ [o]) S = .ok rpn, IsOp o → ∃ t', Writes 1 (pre ++ us) [t'] := by
      intro hs ho
      obtain ⟨pre', us', t', h1, h2, h3, h4⟩ := open_reduce h ho hw hL hL7
      rw [h2]
      exact ih h1 h3 h4 (by have := prec_le_six o; omega) hs
    cases o with
    | binary _ => exact op (by simpa [rpnEnd] using hst) trivial
    | unary _ => exact op (by simpa [rpnEnd] using hst) trivial
    | _ => simp [rpnEnd] at hst

/-- What has been read: `b` says whether an operand is complete. Factorials wait on the stack. -/
def ReadState (b : Bool) (pre S : List (Token F)) : Prop :=
  if b then ∃ pre0 us t k S0, Open pre0 S0 ∧ Writes 6 us [t] ∧ pre = pre0 ++ us ∧ S = List.replicate k (.unary .fact) ++ S0
  else Open pre S

theorem popBinary_facts (op : BinOp) (k : Nat) (out S : List (Token F)) :
    (popBinary op out (List.replicate k (.unary .fact) ++ S)).2 =
      (popBinary op (out ++ List.replicate k (.unary .fact)) S).2 := by
  induction k generalizing out with
  | zero => simp
  | succ k ih =>
    rw [List.replicate_succ, List.cons_append, popBinary]
    have : popsFor op (.unary .fact : Token F) = true := by cases op <;> rfl
    rw [if_pos this, ih]
    simp

theorem facts_isOp (k : Nat) : ∀ o ∈ List.replicate k (.unary .fact : Token F), IsOp o := by
  intro o ho
  rw [List.eq_of_mem_replicate ho]
  trivial

theorem open_popPow {pre S out : List (Token F)} (h : Open pre S) : (popBinary .pow out S).2 = S := by
  cases S with
  | nil => rfl
  | cons o S =>
    rw [popBinary, popsFor_pow]
    have : ¬ 5 < prec o := by
      intro hp
      have ho : IsOp o := by
        cases o with
        | binary _ => trivial
        | unary _ => trivial
        | _ => simp [prec] at hp
      have := op_six ho hp
      subst this
      exact open_fact h
    simp [this]

theorem readState_step {b : Bool} {pre out S : List (Token F)} {t : Token F} {st : List (Token F) × List (Token F)}
    (h : ReadState b pre S) (hn : needsLeft t = b) (hf : ∀ s n, t = .func s n → n = none)
    (hst : rpnStep (out, S) t = .ok st) : ReadState (endsOperand t) (pre ++ [t]) st.2 := by
  cases b with
  | false =>
    have h : Open pre S := h
    cases t with
    | number x =>
      simp [rpnStep] at hst
      subst hst
      exact ⟨pre, [.number x], .num x, 0, S, h, (Writes.num x).mono (by omega) (by omega) (by omega), rfl, rfl⟩
    | var s =>
      simp [rpnStep] at hst
      subst hst
      exact ⟨pre, [.var s], .var s, 0, S, h, (Writes.var s).mono (by omega) (by omega) (by omega), rfl, rfl⟩
    | lparen => simp [rpnStep] at hst; subst hst; exact .paren h
    | func s n =>
      have := hf s n rfl
      subst this
      simp [rpnStep] at hst
      subst hst
      exact .func s none h .nil
    | unary op =>
      simp [rpnStep] at hst
      subst hst
      cases op with
      | plus => exact Open.sign false h
      | minus => exact Open.sign true h
      | fact => simp [needsLeft] at hn
    | binary op => simp [needsLeft] at hn
    | rparen => simp [needsLeft] at hn
    | comma => simp [needsLeft] at hn
  | true =>
    obtain ⟨pre0, us, t0, k, S0, h1, h2, h3, h4⟩ := h
    have hnd := needed_pos S0
    cases t with
    | unary op =>
      cases op with
      | fact =>
        simp [rpnStep] at hst
        subst hst
        refine ⟨pre0, us ++ [.unary .fact], .fact t0, k + 1, S0, h1, .fact h2, by simp [h3], ?_⟩
        simp [h4, List.replicate_succ]
      | _ => simp [needsLeft] at hn
    | binary op =>
      simp [rpnStep] at hst
      subst hst
      show Open _ _
      simp only
      rw [h4, popBinary_facts]
      cases hl : leftLevel op with
      | some q =>
        obtain ⟨_, _, hq1, hq3⟩ := prec_left (F := F) hl
        obtain ⟨pre', us', t', h5, h6, h7, h8⟩ := open_popBinary hl (out := out ++ List.replicate k (.unary .fact)) h1 h2
          (by omega) (by omega) (by omega)
        have := Open.bin h5 hl h7 h8
        rw [h3, h6]
        simpa using this
      | none =>
        have : op = .pow := by cases op <;> simp_all [leftLevel]
        subst this
        rw [open_popPow h1, h3]
        have := Open.pow h1 h2
        simpa using this
    | rparen =>
      simp only [rpnStep] at hst
      rw [h4, popRParen_ops _ _ _ (facts_isOp k)] at hst
      obtain ⟨pre', us', t', h5, h6, h7⟩ := open_popRParen h1 h2 (by omega) (by omega) hst
      exact ⟨pre', us', t', 0, st.2, h5, h7.mono (by omega) (by omega) (by omega), by rw [h3, h6], rfl⟩
    | comma =>
      simp only [rpnStep] at hst
      rw [h4, popComma_ops _ _ _ (facts_isOp k)] at hst
      rw [h3]
      exact open_popComma h1 h2 (by omega) (by omega) hst
    | _ => simp [needsLeft] at hn

theorem readState_loop {b : Bool} {pre out S ts : List (Token F)} {st : List (Token F) × List (Token F)}
    (h : ReadState b pre S) (hfl : Flow b ts true) (hf : ∀ t ∈ ts, ∀ s n, t = .func s n → n = none)
    (hst : rpnLoop (out, S) ts = .ok st) : ReadState true (pre ++ ts) st.2 := by
  induction ts generalizing b pre out S with
  | nil =>
    simp [rpnLoop] at hst
    simp [Flow] at hfl
    subst hst hfl
    simpa using h
  | cons t ts ih =>
    rw [rpnLoop] at hst
    cases h1 : rpnStep (out, S) t with
    | ok st1 =>
      rw [h1, Res.bind_ok] at hst
      have h2 := readState_step h hfl.1 (hf t (by simp)) h1
      have := ih h2 hfl.2 (fun u hu => hf u (by simp [hu])) hst
      simpa using this
    | err => simp [h1, Res.bind] at hst
    | panic => simp [h1, Res.bind] at hst

theorem rpnEnd_facts (k : Nat) (out S : List (Token F)) :
    rpnEnd out (List.replicate k (.unary .fact) ++ S) = rpnEnd (out ++ List.replicate k (.unary .fact)) S := by
  induction k generalizing out with
  | zero => simp
  | succ k ih => rw [List.replicate_succ, List.cons_append, rpnEnd, ih]; simp

/-- A list of tokens with alternating operands and operators that is accepted is a formula. -/
theorem writes_of_accepted {ts rpn : List (Token F)} (hfl : Flow false ts true)
    (hf : ∀ t ∈ ts, ∀ s n, t = .func s n → n = none) (h : toRpn ts = .ok rpn) : ∃ t, Writes 1 ts [t] := by
  unfold toRpn at h
  cases h1 : rpnLoop ([], []) ts with
  | ok st =>
    rw [h1, Res.bind_ok] at h
    cases h2 : rpnEnd st.1 st.2 with
    | ok out =>
      obtain ⟨pre0, us, t, k, S0, h3, h4, h5, h6⟩ := readState_loop (b := false) (pre := []) Open.nil hfl hf h1
      have hnd := needed_pos S0
      rw [h6, rpnEnd_facts] at h2
      obtain ⟨t', ht'⟩ := open_rpnEnd h3 h4 (by omega) (by omega) h2
      rw [← h5] at ht'
      exact ⟨t', by simpa using ht'⟩
    | err => simp [h2, Res.bind] at h
    | panic => simp [h2, Res.bind] at h
  | err => simp [h1, Res.bind] at h
  | panic => simp [h1, Res.bind] at h

end Cdx
