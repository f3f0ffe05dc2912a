import Verif.Lemmas.Expr
import Verif.Lemmas.Column

/-!
Lemmas about splitting a formula into tokens.
-/

namespace Cdx

variable {F : Type}

/-- The text of a token; `lit` is the text of a number. An opened call is its name and the parenthesis. -/
def tokText (lit : F → Bytes) : Token F → Bytes
  | .binary .plus => [43]
  | .binary .minus => [45]
  | .binary .times => [42]
  | .binary .div => [47]
  | .binary .rem => [37]
  | .binary .pow => [94]
  | .binary .lt => [60]
  | .binary .gt => [62]
  | .binary .eq => [61, 61]
  | .binary .ne => [33, 61]
  | .binary .le => [60, 61]
  | .binary .ge => [62, 61]
  | .unary .plus => [43]
  | .unary .minus => [45]
  | .unary .fact => [33]
  | .lparen => [40]
  | .rparen => [41]
  | .comma => [44]
  | .number x => lit x
  | .var s => s
  | .func s _ => s ++ [40]

/-- The text of a list of tokens. -/
def formulaText (lit : F → Bytes) (ts : List (Token F)) : Bytes := ts.flatMap (tokText lit)

/-- A name a formula can contain: a letter, then letters and digits. -/
def NameOk (s : Bytes) : Prop := ∃ c r, s = c :: r ∧ isAlpha c = true ∧ r.all (fun c => isAlpha c || isDigit c) = true

/-- The characters that can follow a number. -/
def stopChars : List UInt8 := [43, 45, 42, 47, 37, 94, 60, 62, 61, 33, 41, 44]

/-- The text `lit x` reads as the number `x`: it starts with a digit, and the number parser stops at its end when an
operator, a closing parenthesis or a comma follows, or nothing. -/
def LitOk (toF64 : Bytes → F × Bytes) (lit : F → Bytes) (x : F) : Prop :=
  (∃ c r, lit x = c :: r ∧ isDigit c = true) ∧
  ∀ rest : Bytes, (∀ c, rest.head? = some c → c ∈ stopChars) → toF64 (lit x ++ rest) = (x, rest)

/-- The numbers and names in a token are writable. -/
def Writable (toF64 : Bytes → F × Bytes) (lit : F → Bytes) : Token F → Prop
  | .number x => LitOk toF64 lit x
  | .var s => NameOk s
  | .func s n => NameOk s ∧ n = none
  | _ => True

/-- Does the token need an operand before it? -/
def needsLeft : Token F → Bool
  | .binary _ => true
  | .unary .fact => true
  | .rparen => true
  | .comma => true
  | _ => false

/-- Is an operand complete after the token? -/
def endsOperand : Token F → Bool
  | .number _ => true
  | .var _ => true
  | .rparen => true
  | .unary .fact => true
  | _ => false

/-- Operands and operators alternate. -/
def Flow : Bool → List (Token F) → Bool → Prop
  | b, [], b' => b = b'
  | b, t :: ts, b' => needsLeft t = b ∧ Flow (endsOperand t) ts b'

theorem Flow.append {b c d : Bool} {ts us : List (Token F)} (h1 : Flow b ts c) (h2 : Flow c us d) :
    Flow b (ts ++ us) d := by
  induction ts generalizing b with
  | nil => simp [Flow] at h1; subst h1; exact h2
  | cons t ts ih => exact ⟨h1.1, ih h1.2⟩

theorem writes_flow {p : Nat} {ts : List (Token F)} {trees : List (Tree F)} (h : Writes p ts trees) :
    Flow false ts true := by
  induction h with
  | num x => simp [Flow, needsLeft, endsOperand]
  | var s => simp [Flow, needsLeft, endsOperand]
  | paren _ ih => exact ⟨rfl, Flow.append ih ⟨rfl, rfl⟩⟩
  | call _ ih => exact ⟨rfl, Flow.append ih ⟨rfl, rfl⟩⟩
  | arg _ ih => exact ih
  | args _ _ ih1 ih2 => exact ih1.append ⟨rfl, ih2⟩
  | fact _ ih => exact ih.append ⟨rfl, rfl⟩
  | pow _ _ ih1 ih2 => exact ih1.append ⟨rfl, ih2⟩
  | sign m _ ih => cases m <;> exact ⟨rfl, ih⟩
  | bin _ _ _ ih1 ih2 => exact ih1.append ⟨rfl, ih2⟩
  | up _ _ _ ih => exact ih

/-- Neighbouring tokens whose texts run together: a sign just after the parenthesis of a call, a plus, a minus or an
equality just after a factorial. -/
def clash : Token F → Token F → Bool
  | .func _ _, .unary .plus => true
  | .func _ _, .unary .minus => true
  | .unary .fact, .binary .plus => true
  | .unary .fact, .binary .minus => true
  | .unary .fact, .binary .eq => true
  | _, _ => false

/-- No two neighbours run together. -/
def NoClash : List (Token F) → Prop
  | [] => True
  | [_] => True
  | a :: b :: ts => clash a b = false ∧ NoClash (b :: ts)

theorem alpha_facts : ∀ c : UInt8, isAlpha c = true → c ≠ 40 ∧ c ≠ 41 ∧ c ≠ 44 ∧ c ≠ 94 ∧ c ≠ 37 ∧ c ≠ 47 ∧ c ≠ 42 ∧
    c ≠ 43 ∧ c ≠ 45 ∧ c ≠ 33 ∧ c ≠ 60 ∧ c ≠ 62 ∧ c ≠ 61 := byte_forall (by decide +kernel)

theorem digit_facts : ∀ c : UInt8, isDigit c = true → isAlpha c = false ∧ c ≠ 40 ∧ c ≠ 41 ∧ c ≠ 44 ∧ c ≠ 94 ∧ c ≠ 37 ∧
    c ≠ 47 ∧ c ≠ 42 ∧ c ≠ 43 ∧ c ≠ 45 ∧ c ≠ 33 ∧ c ≠ 60 ∧ c ≠ 62 ∧ c ≠ 61 := byte_forall (by decide +kernel)

theorem tokStep_alpha (toF64 : Bytes → F × Bytes) (res : List (Token F)) {c : UInt8} {r rest : Bytes}
    (hc : isAlpha c = true) (hr : r.all (fun c => isAlpha c || isDigit c) = true)
    (hrest : ∀ c, rest.head? = some c → (isAlpha c || isDigit c) = false) :
    tokStep toF64 res c (r ++ rest) = .ok (.var (c :: r) :: res, rest) := by
  obtain ⟨h1, h2, h3, h4, h5, h6, h7, h8, h9, h10, h11, h12, h13⟩ := alpha_facts c hc
  have htw : (r ++ rest).takeWhile (fun c => isAlpha c || isDigit c) = r := by
    rw [List.takeWhile_append_of_pos (by simpa using hr)]
    cases rest with
    | nil => simp
    | cons a rest => rw [List.takeWhile_cons_of_neg (by simpa using hrest a rfl)]; simp
  have hdw : (r ++ rest).dropWhile (fun c => isAlpha c || isDigit c) = rest := by
    rw [List.dropWhile_append_of_pos (by simpa using hr)]
    cases rest with
    | nil => simp
    | cons a rest => rw [List.dropWhile_cons_of_neg (by simpa using hrest a rfl)]
  unfold tokStep
  rw [if_neg h1, if_neg h2, if_neg h3, if_neg h4, if_neg h5, if_neg h6, if_neg h7, if_neg h8, if_neg h9, if_neg h10,
    if_neg h11, if_neg h12, if_neg h13, if_pos hc, htw, hdw]

theorem tokStep_digit (toF64 : Bytes → F × Bytes) (res : List (Token F)) {c : UInt8} {r rest : Bytes} {x : F}
    (hc : isDigit c = true) (h : toF64 (c :: r) = (x, rest)) :
    tokStep toF64 res c r = .ok (.number x :: res, rest) := by
  obtain ⟨h0, h1, h2, h3, h4, h5, h6, h7, h8, h9, h10, h11, h12, h13⟩ := digit_facts c hc
  unfold tokStep
  rw [if_neg h1, if_neg h2, if_neg h3, if_neg h4, if_neg h5, if_neg h6, if_neg h7, if_neg h8, if_neg h9, if_neg h10,
    if_neg h11, if_neg h12, if_neg h13, if_neg (by simp [h0]), if_pos hc, h]

theorem stop_not_alnum {c : UInt8} (h : c ∈ stopChars) : (isAlpha c || isDigit c) = false :=
  byte_forall (P := fun c => c ∈ stopChars → (isAlpha c || isDigit c) = false) (by decide +kernel) c h

/-- The first character of a token that needs an operand before it. -/
theorem head_needsLeft (lit : F → Bytes) {t : Token F} (h : needsLeft t = true) (rest : Bytes) :
    ∃ c, (tokText lit t ++ rest).head? = some c ∧ c ∈ stopChars ∧ (c = 61 → t = .binary .eq) := by
  cases t with
  | binary op => cases op <;> exact ⟨_, rfl, by decide, by simp⟩
  | unary op => cases op <;> first | exact ⟨_, rfl, by decide, by simp⟩ | simp [needsLeft] at h
  | rparen => exact ⟨_, rfl, by decide, by simp⟩
  | comma => exact ⟨_, rfl, by decide, by simp⟩
  | _ => simp [needsLeft] at h

/-- The first character of a token that needs no operand before it. -/
theorem head_opener {toF64 : Bytes → F × Bytes} (lit : F → Bytes) {t : Token F} (h : needsLeft t = false)
    (hw : Writable toF64 lit t) (rest : Bytes) : (tokText lit t ++ rest).head? ≠ some 61 := by
  cases t with
  | binary op => simp [needsLeft] at h
  | unary op => cases op <;> simp_all [needsLeft, tokText]
  | lparen => simp [tokText]
  | rparen => simp [tokText]
  | comma => simp [tokText]
  | number x =>
    obtain ⟨⟨c, r, h1, h2⟩, _⟩ := hw
    simp only [tokText, h1, List.cons_append, List.head?_cons, ne_eq, Option.some.injEq]
    exact (digit_facts c h2).2.2.2.2.2.2.2.2.2.2.2.2.2
  | var s =>
    obtain ⟨c, r, h1, h2, _⟩ := hw
    simp only [tokText, h1, List.cons_append, List.head?_cons, ne_eq, Option.some.injEq]
    exact (alpha_facts c h2).2.2.2.2.2.2.2.2.2.2.2.2
  | func s n =>
    obtain ⟨⟨c, r, h1, h2, _⟩, _⟩ := hw
    simp only [tokText, h1, List.cons_append, List.head?_cons, ne_eq, Option.some.injEq]
    exact (alpha_facts c h2).2.2.2.2.2.2.2.2.2.2.2.2

/-- What the tokens read so far look like: their last one is `a`, if any. -/
def lastIs (res : List (Token F)) (b : Bool) : Prop :=
  match res with
  | [] => b = false
  | a :: _ => endsOperand a = b

/-- The last token read does not run together with the first one to come. -/
def joinOk (res : List (Token F)) (ts : List (Token F)) : Prop :=
  match res, ts with
  | a :: _, t :: _ => clash a t = false
  | _, _ => True

theorem tokLoop_text (toF64 : Bytes → F × Bytes) (lit : F → Bytes) (ts : List (Token F))
    (hw : ∀ t ∈ ts, Writable toF64 lit t) (hc : NoClash ts) {b : Bool} (hf : Flow b ts true) (res : List (Token F))
    (hres : lastIs res b) (hj : joinOk res ts) (fuel : Nat) (hfuel : (formulaText lit ts).length ≤ fuel) :
    tokLoop toF64 fuel res (formulaText lit ts) = .ok (res.reverse ++ ts) := by
  induction ts generalizing b res fuel with
  | nil => cases fuel <;> simp [formulaText, tokLoop]
  | cons t ts ih =>
    obtain ⟨hn, hf'⟩ := hf
    have hw' : ∀ t ∈ ts, Writable toF64 lit t := fun t h => hw t (by simp [h])
    have hc' : NoClash ts := by cases ts with | nil => trivial | cons u ts => exact hc.2
    have hj' : ∀ res', joinOk (t :: res') ts := by
      intro _; cases ts with | nil => trivial | cons u ts => exact hc.1
    have ht : formulaText lit (t :: ts) = tokText lit t ++ formulaText lit ts := by simp [formulaText]
    rw [ht] at hfuel ⊢
    rw [List.length_append] at hfuel
    -- what comes next
    have hnext : endsOperand t = true → ∀ c, (formulaText lit ts).head? = some c → c ∈ stopChars := by
      intro he c hcc
      cases ts with
      | nil => simp [formulaText] at hcc
      | cons u us =>
        obtain ⟨c', h1, h2, _⟩ := head_needsLeft lit (hf'.1.trans he) (formulaText lit us)
        have : formulaText lit (u :: us) = tokText lit u ++ formulaText lit us := by simp [formulaText]
        rw [this, h1] at hcc
        simp at hcc; subst hcc; exact h2
    have hopen : endsOperand t = false → (formulaText lit ts).head? ≠ some 61 := by
      intro he
      cases ts with
      | nil => simp [formulaText]
      | cons u us =>
        have : formulaText lit (u :: us) = tokText lit u ++ formulaText lit us := by simp [formulaText]
        rw [this]
        exact head_opener lit (hf'.1.trans he) (hw' u (by simp)) _
    have hrest := fun fuel res' hfu => ih hw' hc' hf' (t :: res') rfl (hj' res') fuel hfu
    -- one character, one token
    have one : ∀ c, tokText lit t = [c] → tokStep toF64 res c (formulaText lit ts) = .ok (t :: res, formulaText lit ts) →
        tokLoop toF64 fuel res (tokText lit t ++ formulaText lit ts) = .ok (res.reverse ++ t :: ts) := by
      intro c h1 h2
      rw [h1] at hfuel ⊢
      obtain ⟨fuel, rfl⟩ : ∃ k, fuel = k + 1 := ⟨fuel - 1, by simp at hfuel; omega⟩
      rw [List.singleton_append, tokLoop, h2, Res.bind_ok, hrest fuel res (by simp at hfuel; omega)]
      simp
    have two : ∀ c d, tokText lit t = [c, d] →
        tokStep toF64 res c (d :: formulaText lit ts) = .ok (t :: res, formulaText lit ts) →
        tokLoop toF64 fuel res (tokText lit t ++ formulaText lit ts) = .ok (res.reverse ++ t :: ts) := by
      intro c d h1 h2
      rw [h1] at hfuel ⊢
      obtain ⟨fuel, rfl⟩ : ∃ k, fuel = k + 1 := ⟨fuel - 1, by simp at hfuel; omega⟩
      rw [show [c, d] ++ formulaText lit ts = c :: d :: formulaText lit ts from rfl, tokLoop, h2, Res.bind_ok,
        hrest fuel res (by simp at hfuel; omega)]
      simp
    have sgn : b = true → (∀ a r, res = a :: r → a ≠ .unary .fact) → signIsUnary res = false := by
      intro hb hx
      cases res with
      | nil => simp [lastIs, hb] at hres
      | cons a r =>
        have : endsOperand a = true := hres.trans hb
        cases a with
        | unary op => cases op <;> simp_all [endsOperand]
        | _ => simp_all [endsOperand, signIsUnary, canBinary]
    have sgn' : b = false → (∀ a r, res = a :: r → ∀ s n, a ≠ .func s n) → signIsUnary res = true := by
      intro hb hx
      cases res with
      | nil => rfl
      | cons a r =>
        have : endsOperand a = false := hres.trans hb
        cases a with
        | unary op => cases op <;> simp_all [endsOperand, signIsUnary, canBinary]
        | _ => simp_all [endsOperand, signIsUnary, canBinary]
    cases t with
    | binary op =>
      have hb : b = true := hn.symm
      cases op with
      | plus =>
        refine one 43 rfl ?_
        have := sgn hb (by intro a r hr ha; subst ha; subst hr; simp [joinOk, clash] at hj)
        simp [tokStep, this]
      | minus =>
        refine one 45 rfl ?_
        have := sgn hb (by intro a r hr ha; subst ha; subst hr; simp [joinOk, clash] at hj)
        simp [tokStep, this]
      | times => exact one 42 rfl (by simp [tokStep])
      | div => exact one 47 rfl (by simp [tokStep])
      | rem => exact one 37 rfl (by simp [tokStep])
      | pow => exact one 94 rfl (by simp [tokStep])
      | lt => exact one 60 rfl (by simp [tokStep, hopen rfl])
      | gt => exact one 62 rfl (by simp [tokStep, hopen rfl])
      | eq => exact two 61 61 rfl (by simp [tokStep])
      | ne => exact two 33 61 rfl (by simp [tokStep])
      | le => exact two 60 61 rfl (by simp [tokStep])
      | ge => exact two 62 61 rfl (by simp [tokStep])
    | unary op =>
      cases op with
      | plus =>
        refine one 43 rfl ?_
        have := sgn' hn.symm (by intro a r hr s n ha; subst ha; subst hr; simp [joinOk, clash] at hj)
        simp [tokStep, this]
      | minus =>
        refine one 45 rfl ?_
        have := sgn' hn.symm (by intro a r hr s n ha; subst ha; subst hr; simp [joinOk, clash] at hj)
        simp [tokStep, this]
      | fact =>
        refine one 33 rfl ?_
        have h61 : (formulaText lit ts).head? ≠ some 61 := by
          cases ts with
          | nil => simp [formulaText]
          | cons u us =>
            obtain ⟨c', h1, _, h3⟩ := head_needsLeft lit (hf'.1.trans rfl) (formulaText lit us)
            have : formulaText lit (u :: us) = tokText lit u ++ formulaText lit us := by simp [formulaText]
            rw [this, h1]
            intro h; simp at h
            have := h3 h
            subst this
            have := hc.1
            simp [clash] at this
        simp [tokStep, h61]
    | lparen =>
      refine one 40 rfl ?_
      have : pushParen res = .lparen :: res := by
        cases res with
        | nil => rfl
        | cons a r =>
          have : endsOperand a = false := hres.trans hn.symm
          cases a <;> simp_all [endsOperand, pushParen]
      simp [tokStep, this]
    | rparen => exact one 41 rfl (by simp [tokStep])
    | comma => exact one 44 rfl (by simp [tokStep])
    | number x =>
      obtain ⟨⟨c, r, h1, h2⟩, h3⟩ := hw (.number x) (by simp)
      have h4 := h3 (formulaText lit ts) (hnext rfl)
      simp only [tokText] at hfuel ⊢
      rw [h1, List.cons_append] at h4
      rw [h1] at hfuel ⊢
      obtain ⟨fuel, rfl⟩ : ∃ k, fuel = k + 1 := ⟨fuel - 1, by simp at hfuel; omega⟩
      rw [List.cons_append, tokLoop, tokStep_digit toF64 res h2 h4, Res.bind_ok,
        hrest fuel res (by simp at hfuel; omega)]
      simp
    | var s =>
      obtain ⟨c, r, h1, h2, h3⟩ := hw (.var s) (by simp)
      simp only [tokText] at hfuel ⊢
      subst h1
      obtain ⟨fuel, rfl⟩ : ∃ k, fuel = k + 1 := ⟨fuel - 1, by simp at hfuel; omega⟩
      rw [List.cons_append, tokLoop, tokStep_alpha toF64 res h2 h3 (fun c hc => stop_not_alnum (hnext rfl c hc)),
        Res.bind_ok, hrest fuel res (by simp at hfuel; omega)]
      simp
    | func s n =>
      obtain ⟨⟨c, r, h1, h2, h3⟩, rfl⟩ := hw (.func s n) (by simp)
      simp only [tokText] at hfuel ⊢
      subst h1
      obtain ⟨fuel, rfl⟩ : ∃ k, fuel = k + 2 := ⟨fuel - 2, by simp at hfuel; omega⟩
      rw [show (c :: r ++ [40]) ++ formulaText lit ts = c :: (r ++ 40 :: formulaText lit ts) by simp, tokLoop,
        tokStep_alpha toF64 res h2 h3 (by simp +decide), Res.bind_ok]
      simp only [tokLoop]
      rw [show tokStep toF64 (.var (c :: r) :: res) 40 (formulaText lit ts) =
        .ok (.func (c :: r) none :: res, formulaText lit ts) by simp [tokStep, pushParen], Res.bind_ok,
        hrest fuel res (by simp at hfuel; omega)]
      simp

theorem tokenize_text (toF64 : Bytes → F × Bytes) (lit : F → Bytes) {ts : List (Token F)} {p : Nat}
    {trees : List (Tree F)} (h : Writes p ts trees) (hw : ∀ t ∈ ts, Writable toF64 lit t) (hc : NoClash ts) :
    tokenize toF64 (formulaText lit ts) = .ok ts :=
  tokLoop_text toF64 lit ts hw hc (writes_flow h) [] rfl (by cases ts <;> trivial) _ (Nat.le_refl _)

end Cdx
