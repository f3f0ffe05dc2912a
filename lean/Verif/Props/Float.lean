import Verif.Lemmas.FloatRead

/-!
C185: decimal texts read as doubles. C186: the order of what is read. C187: no text is read as NaN. C188: texts of the same number.
-/

namespace Cdx

/-! ## Specification -/

/-- The powers of ten as nearest doubles: what `libm::exp10` should give. -/
def pow10F (e : Int) : F64 := if 0 ≤ e then F64.ofNat (10 ^ e.toNat) else F64.lit 1 (10 ^ (-e).toNat)

/-- The number of a decimal text, without its sign, is `decVal (ds ++ fs) / 10^(length of fs)`; the double is the nearest one. -/
def ReadsNearest (p : NumParts) (v : F64) : Prop :=
  v.isNeg = decide (p.sign = [45]) ∧ NearestEven (decVal (p.ds ++ p.fs) * 2 ^ 1074) (10 ^ p.fs.length) (v.toNat % 2 ^ 63)

/-- Digits with at most a point and a sign. -/
def NumParts.Plain (p : NumParts) : Prop := p.exp = none ∧ p.suf = none

theorem NumParts.Plain.fits {p : NumParts} (h : p.Plain) : p.Fits := by
  intro c s d hx
  rw [h.1] at hx
  exact absurd hx (by simp)

/-! ## Reading part by part -/

theorem read_whole (exp10 : Int → F64) (p : NumParts) (hp : p.WF) (hf : p.Fits) :
    readF64 exp10 p.text = some (p.double exp10, []) := by
  have := (readF64_parts exp10 p hp [] (p.ends_nil hp)).1 hf
  rwa [List.append_nil] at this

theorem double_plain (exp10 : Int → F64) (p : NumParts) (hp : p.WF) (h : p.Plain) :
    p.double exp10 = if p.sign = [45] then p.mant.negate else p.mant := by
  unfold NumParts.double expF
  rw [h.1, h.2]
  simp only [expInt, timesTenPow_zero, sufF]
  have hn := p.nn_mant hp
  split
  · exact neg_one_mul_nn hn
  · exact one_mul_nn hn

/-! ## C185 -/

/-- Full statement: a decimal text is read as the double nearest to its number. -/
def C185_statement : Prop :=
  ∀ (exp10 : Int → F64) (p : NumParts), p.WF → p.Plain → ∃ v, readF64 exp10 p.text = some (v, []) ∧ ReadsNearest p v

/-- `0.3` is read as the double above the nearest one. -/
theorem C185_refuted : ¬ C185_statement := by
  intro h
  obtain ⟨v, hv, _, hn⟩ := h (fun _ => 0) ⟨[], ascii "0", some (ascii "3"), none, none⟩
    ⟨.inl rfl, by decide, by decide, by simp, by simp⟩ ⟨rfl, rfl⟩
  have h1 : readF64 (fun _ => 0) (ascii "0.3") = some (0x3fd3333333333334, []) := by decide +kernel
  rw [show (⟨[], ascii "0", some (ascii "3"), none, none⟩ : NumParts).text = ascii "0.3" by decide +kernel, h1] at hv
  simp only [Option.some.injEq, Prod.mk.injEq, and_true] at hv
  subst hv
  have := hn.2 0x3fd3333333333333 (by decide +kernel) (by decide +kernel)
  revert this
  decide +kernel

theorem frac_zeros : ∀ (fs : Bytes) (x place : F64), (∀ c ∈ fs, c = 48) → NN x → NN place → place.toNat < infMag → fracF x place fs = x
  | [], _, _, _, _, _, _ => rfl
  | c :: cs, x, place, h, hx, hp, hf => by
    have hc := h c (by simp)
    subst hc
    obtain ⟨h1, h2⟩ := place_step hp hf
    rw [fracF, show ((48 : UInt8).toNat - 48) = 0 from rfl, mul_zero_nn hp hf, add_zero_nn hx]
    exact frac_zeros cs x _ (fun d hd => h d (by simp [hd])) hx h1 (Nat.lt_of_le_of_lt h2 hf)

theorem decVal_allZeros : ∀ fs : Bytes, (∀ c ∈ fs, c = 48) → decVal fs = 0
  | [], _ => rfl
  | c :: cs, h => by
    have hc := h c (by simp)
    subst hc
    simp only [decVal, decVal_allZeros cs (fun d hd => h d (by simp [hd]))]
    simp

/-- The factor of a suffix. -/
def sufNat : Option (UInt8 × Nat) → Nat
  | none => 1
  | some (_, m) => m

theorem sufNat_pos (p : NumParts) (hp : p.WF) : 0 < sufNat p.suf := by
  have hl : ∀ q ∈ allSuffixes, 0 < q.2 := by decide +kernel
  cases h : p.suf with
  | none => decide
  | some q =>
    obtain ⟨c, m⟩ := q
    exact hl (c, m) (hp.suf c m h)

theorem timesTenPow_is (exp10 : Int → F64) {x : F64} {n : Nat} (hx : x.Is n) (e : Nat) (he : e ≤ 3) (h : n * 10 ^ e ≤ 2 ^ 53) :
    (timesTenPow exp10 x e).Is ((n * 10 ^ e : Nat) : Int) := by
  have hstep : ∀ m : Nat, m ≤ 1000 → n * m ≤ 2 ^ 53 → (x.mul (F64.ofNat m)).Is ((n * m : Nat) : Int) := by
    intro m hm hnm
    rw [Int.natCast_mul]
    refine is_mul hx (is_ofNat (Nat.le_trans hm (by decide))) ?_
    rw [← Int.natCast_mul, Int.natAbs_natCast]
    exact hnm
  have hcases : e = 0 ∨ e = 1 ∨ e = 2 ∨ e = 3 := by omega
  rcases hcases with rfl | rfl | rfl | rfl
  · rw [show ((0 : Nat) : Int) = 0 from rfl, timesTenPow_zero, Nat.pow_zero, Nat.mul_one]
    exact hx
  · have e1 : timesTenPow exp10 x ((1 : Nat) : Int) = x.mul (F64.ofNat 10) := by
      unfold timesTenPow
      rw [if_neg (by decide), if_neg (by decide), if_neg (by decide), if_pos (by decide)]
    rw [e1]
    exact hstep 10 (by decide) h
  · have e1 : timesTenPow exp10 x ((2 : Nat) : Int) = x.mul (F64.ofNat 100) := by
      unfold timesTenPow
      rw [if_neg (by decide), if_neg (by decide), if_neg (by decide), if_neg (by decide), if_pos (by decide)]
    rw [e1]
    exact hstep 100 (by decide) h
  · have e1 : timesTenPow exp10 x ((3 : Nat) : Int) = x.mul (F64.ofNat 1000) := by
      unfold timesTenPow
      rw [if_neg (by decide), if_neg (by decide), if_neg (by decide), if_neg (by decide), if_neg (by decide), if_pos (by decide)]
    rw [e1]
    exact hstep 1000 (by decide) h

/-- What is missing: fractions that are not zero, exponents below 0 and above 3, and numbers above `2^53`. -/
theorem C185_whole_partial (exp10 : Int → F64) (p : NumParts) (hp : p.WF) (hz : ∀ c ∈ p.fs, c = 48) (e : Nat) (he : expInt p.exp = e)
    (he3 : e ≤ 3) (hm53 : sufNat p.suf ≤ 2 ^ 53) (h : decVal p.ds * 10 ^ e * sufNat p.suf ≤ 2 ^ 53) :
    ∃ (v : F64) (n : Int), readF64 exp10 p.text = some (v, []) ∧ v.Is n ∧ (n : Rat) = p.value ∧ n.natAbs ≤ 2 ^ 53 := by
  have hsp := sufNat_pos p hp
  have hfit : p.Fits := by
    intro c s d hx
    rw [hx] at he
    simp only [expInt] at he
    split at he
    · omega
    · omega
  have h1 : decVal p.ds * 10 ^ e ≤ 2 ^ 53 := by
    have := Nat.mul_le_mul_left (decVal p.ds * 10 ^ e) hsp
    omega
  have h2 : decVal p.ds ≤ 2 ^ 53 := by
    have := Nat.mul_le_mul_left (decVal p.ds) (show 1 ≤ 10 ^ e from Nat.pow_pos (by decide))
    omega
  have hm : p.mant.Is (decVal p.ds : Nat) := by
    unfold NumParts.mant
    rw [frac_zeros _ _ _ hz (nn_horner _ _ (nn_ofNat 0)) (nn_lit 1 10) lit_tenth.2.1]
    have := horner_is p.ds (F64.ofNat 0) 0 hp.ds (is_ofNat (n := 0) (by decide)) (by omega)
    rwa [Nat.zero_mul, Nat.zero_add] at this
  have hx : (expF exp10 p.mant p.exp).Is ((decVal p.ds * 10 ^ e : Nat) : Int) := by
    unfold expF
    rw [he]
    exact timesTenPow_is exp10 hm e he3 h1
  have hs : (sufF (expF exp10 p.mant p.exp) p.suf).Is ((decVal p.ds * 10 ^ e * sufNat p.suf : Nat) : Int) := by
    cases hsuf : p.suf with
    | none => simpa [sufF, sufNat] using hx
    | some q =>
      obtain ⟨c, m⟩ := q
      rw [hsuf] at h hsp hm53
      simp only [sufNat] at h hsp hm53
      simp only [sufF, sufNat]
      rw [Int.natCast_mul]
      refine is_mul hx ?_ (by omega)
      exact is_ofNat hm53
  have hexp : expVal p.exp = ((10 ^ e : Nat) : Rat) := by
    cases hx : p.exp with
    | none =>
      rw [hx] at he
      simp only [expInt] at he
      have : e = 0 := by omega
      subst this
      rfl
    | some q =>
      obtain ⟨c, sg, d⟩ := q
      rw [hx] at he
      simp only [expInt] at he
      simp only [expVal]
      by_cases hsg : sg = [45]
      · rw [if_pos hsg] at he ⊢
        have h1 : e = 0 := by omega
        have h2 : decVal d = 0 := by omega
        rw [h1, h2]
        decide +kernel
      · rw [if_neg hsg] at he ⊢
        have h1 : decVal d = e := by omega
        rw [h1, Rat.natCast_pow]
        rfl
  have hsuf : sufVal p.suf = ((sufNat p.suf : Nat) : Rat) := by
    cases p.suf with
    | none => rfl
    | some q => rfl
  have hval : p.value = (if p.sign = [45] then -1 else 1) * ((decVal p.ds * 10 ^ e * sufNat p.suf : Nat) : Rat) := by
    unfold NumParts.value
    rw [hexp, hsuf, decVal_append, decVal_allZeros p.fs hz, Nat.add_zero, Rat.natCast_mul, Rat.natCast_mul, Rat.natCast_mul, Rat.natCast_pow]
    have := ten_pow_ne p.fs.length
    split <;> grind
  generalize decVal p.ds * 10 ^ e * sufNat p.suf = N at *
  by_cases hsg : p.sign = [45]
  · refine ⟨_, -(N : Int), read_whole exp10 p hp hfit, ?_, ?_, ?_⟩
    · unfold NumParts.double
      rw [if_pos hsg]
      have := is_mul (is_negate (is_ofNat (n := 1) (by decide))) hs (by rw [Int.natAbs_mul, Int.natAbs_natCast]; simpa only [Int.natAbs_neg, Int.natAbs_natCast, Nat.one_mul] using h)
      simpa only [Int.natCast_one, Int.one_mul, Int.neg_mul] using this
    · rw [hval, if_pos hsg, Rat.intCast_neg, Rat.intCast_natCast]
      grind
    · rw [Int.natAbs_neg, Int.natAbs_natCast]
      exact h
  · refine ⟨_, (N : Int), read_whole exp10 p hp hfit, ?_, ?_, ?_⟩
    · unfold NumParts.double
      rw [if_neg hsg]
      have := is_mul (is_ofNat (n := 1) (by decide)) hs (by rw [Int.natAbs_mul, Int.natAbs_natCast]; simpa only [Int.natAbs_neg, Int.natAbs_natCast, Nat.one_mul] using h)
      simpa only [Int.natCast_one, Int.one_mul, Int.neg_mul] using this
    · rw [hval, if_neg hsg, Rat.intCast_natCast]
      grind
    · rw [Int.natAbs_natCast]
      exact h

/-- `-12.00e3` is read as the double -12000. -/
example : ∃ (v : F64) (n : Int), readF64 (fun _ => 0) (ascii "-12.00e3") = some (v, []) ∧ v.Is n ∧ (n : Rat) = -12000 := by
  have h := C185_whole_partial (fun _ => 0) ⟨ascii "-", ascii "12", some (ascii "00"), some (101, [], ascii "3"), none⟩
    ⟨.inr (.inr rfl), by decide, by decide, by intro c s d h; cases h; exact ⟨.inl rfl, .inl rfl, by decide, by decide⟩, by simp⟩
    (by decide) 3 (by decide) (by decide) (by decide) (by decide)
  obtain ⟨v, n, h1, h2, h3, _⟩ := h
  refine ⟨v, n, ?_, h2, ?_⟩
  · rw [← h1]
    congr 1
  · rw [h3]
    decide +kernel

/-! ## C186 -/

/-- Full statement: numbers are read in their order. -/
def C186_statement : Prop :=
  ∀ (exp10 : Int → F64) (p q : NumParts), p.WF → q.WF → p.Plain → q.Plain → p.value ≤ q.value →
    ∀ v w, readF64 exp10 p.text = some (v, []) → readF64 exp10 q.text = some (w, []) → fcmp v w ≠ .gt

/-- `90071992547409929` is read as a greater number than `90071992547409930`: every digit is a rounding. -/
theorem C186_refuted : ¬ C186_statement := by
  intro h
  have h1 : readF64 (fun _ => 0) (ascii "90071992547409929") = some (0x4374000000000001, []) := by decide +kernel
  have h2 : readF64 (fun _ => 0) (ascii "90071992547409930") = some (0x4374000000000000, []) := by decide +kernel
  have := h (fun _ => 0) ⟨[], ascii "90071992547409929", none, none, none⟩ ⟨[], ascii "90071992547409930", none, none, none⟩
    ⟨.inl rfl, by decide, by decide, by simp, by simp⟩ ⟨.inl rfl, by decide, by decide, by simp, by simp⟩ ⟨rfl, rfl⟩ ⟨rfl, rfl⟩
    (by decide +kernel) _ _ (by rw [← h1]; rfl) (by rw [← h2]; rfl)
  revert this
  decide +kernel

/-- A whole number of at most `2^53`, as `C185_whole_partial` has it. -/
structure NumParts.Whole (p : NumParts) : Prop where
  wf : p.WF
  zeros : ∀ c ∈ p.fs, c = 48
  exp : 0 ≤ expInt p.exp ∧ expInt p.exp ≤ 3
  suf : sufNat p.suf ≤ 2 ^ 53
  size : decVal p.ds * 10 ^ (expInt p.exp).toNat * sufNat p.suf ≤ 2 ^ 53

theorem NumParts.Whole.read {p : NumParts} (h : p.Whole) (exp10 : Int → F64) :
    ∃ (v : F64) (n : Int), readF64 exp10 p.text = some (v, []) ∧ v.Is n ∧ (n : Rat) = p.value ∧ n.natAbs ≤ 2 ^ 53 := by
  have := h.exp
  exact C185_whole_partial exp10 p h.wf h.zeros (expInt p.exp).toNat (by omega) (by omega) h.suf h.size

/-- What is missing: numbers that are not whole, or above `2^53`. -/
theorem C186_whole_partial (exp10 : Int → F64) (p q : NumParts) (hp : p.Whole) (hq : q.Whole) :
    ∃ v w, readF64 exp10 p.text = some (v, []) ∧ readF64 exp10 q.text = some (w, []) ∧
      (fcmp v w = .lt ↔ p.value < q.value) ∧ (fcmp v w = .eq ↔ p.value = q.value) ∧ (fcmp v w = .gt ↔ q.value < p.value) := by
  obtain ⟨v, m, hv, him, hm, _⟩ := hp.read exp10
  obtain ⟨w, n, hw, hin, hn, _⟩ := hq.read exp10
  refine ⟨v, w, hv, hw, ?_⟩
  rw [is_fcmp him hin, ← hm, ← hn, compare_int, Rat.intCast_lt_intCast, Rat.intCast_lt_intCast, Rat.intCast_inj]
  by_cases h1 : m = n
  · rw [if_pos h1]; simp; omega
  · rw [if_neg h1]
    by_cases h2 : n < m
    · rw [if_pos h2]; simp; omega
    · rw [if_neg h2]; simp; omega

example : (⟨[], ascii "9", none, none, none⟩ : NumParts).Whole ∧ (⟨[], ascii "10", some (ascii "0"), none, none⟩ : NumParts).Whole :=
  ⟨⟨⟨.inl rfl, by decide, by decide, by simp, by simp⟩, by decide, by decide, by decide, by decide⟩,
   ⟨⟨.inl rfl, by decide, by decide, by simp, by simp⟩, by decide, by decide, by decide, by decide⟩⟩

/-! ## C187 -/

/-- Full statement: no text is read as NaN, when the powers of ten are the nearest doubles. -/
def C187_statement : Prop := ∀ (t rest : Bytes) (v : F64), readF64 pow10F t = some (v, rest) → v.isNaN = false

/-- `0e400` is zero times infinity. -/
theorem C187_refuted : ¬ C187_statement := by
  intro h
  have h1 : readF64 pow10F (ascii "0e400") = some (F64.nan, []) := by decide +kernel
  exact absurd (h _ _ _ h1) (by decide)

/-- The order of NaN and a number depends on which comes first, so a sort of such texts is not determined. -/
theorem C187_refuted_order : ∃ v w, readF64 pow10F (ascii "0e400") = some (v, []) ∧ readF64 pow10F (ascii "1") = some (w, []) ∧
    fcmp v w = .lt ∧ fcmp w v = .lt ∧ fcmp v v = .lt := by
  exact ⟨F64.nan, F64.ofNat 1, by decide +kernel, by decide +kernel, by decide +kernel, by decide +kernel, by decide +kernel⟩

/-- The text without sign, exponent and suffix. -/
def NumParts.bare (p : NumParts) : NumParts := { p with sign := [], exp := none, suf := none }

theorem bare_read (exp10 : Int → F64) (p : NumParts) (hp : p.WF) : p.bare.WF ∧ p.bare.Plain ∧ readF64 exp10 p.bare.text = some (p.mant, []) := by
  have h1 : p.bare.WF := ⟨.inl rfl, hp.ds, hp.frac, by intro c s d h; simp [NumParts.bare] at h, by intro c s h; simp [NumParts.bare] at h⟩
  have h2 : p.bare.Plain := ⟨rfl, rfl⟩
  refine ⟨h1, h2, ?_⟩
  rw [read_whole exp10 _ h1 h2.fits, double_plain exp10 _ h1 h2, if_neg (by simp [NumParts.bare])]
  rfl

theorem nn_sign {x : F64} (h : NN x) (s : Bytes) :
    ((if s = [45] then (F64.ofNat 1).negate else F64.ofNat 1).mul x).isNaN = false := by
  split
  · rw [neg_one_mul_nn h, ← Bool.not_eq_true, isNaN_iff, negate_mod, ← isNaN_iff, Bool.not_eq_true]
    exact h.isNaN
  · rw [one_mul_nn h]
    exact h.isNaN

theorem suf_good (p : NumParts) (hp : p.WF) {x : F64} (h : NN x) : NN (sufF x p.suf) := by
  have hl : ∀ q ∈ allSuffixes, (F64.ofNat q.2).toNat ≠ 0 ∧ (F64.ofNat q.2).toNat ≠ infMag := by decide +kernel
  cases hs : p.suf with
  | none => exact h
  | some q =>
    obtain ⟨c, m⟩ := q
    obtain ⟨h1, h2⟩ := hl (c, m) (hp.suf c m hs)
    exact nn_mul h (nn_ofNat m) (fun _ => h1) (fun h => absurd h h2)

theorem nan_mul (x y : F64) (h : y.isNaN = true) : (x.mul y).isNaN = true := by
  unfold F64.mul
  rw [h, Bool.or_true]
  simp only [if_true]
  decide +kernel

theorem mul_nan (x y : F64) (h : x.isNaN = true) : (x.mul y).isNaN = true := by
  unfold F64.mul
  rw [h, Bool.true_or]
  simp only [if_true]
  decide +kernel

theorem suf_nan {x : F64} (h : x.isNaN = true) (s : Option (UInt8 × Nat)) : (sufF x s).isNaN = true := by
  cases s with
  | none => exact h
  | some q => exact mul_nan _ _ h

theorem mul_zero_inf {x y : F64} (hx : NN x) (hy : NN y) (h : (x.toNat = 0 ∧ y.toNat = infMag) ∨ (x.toNat = infMag ∧ y.toNat = 0)) :
    (x.mul y).isNaN = true := by
  unfold F64.mul
  rw [hx.isNaN, hy.isNaN, hx.isInf, hy.isInf]
  have h0 : (x.abs = 0 ∨ y.abs = 0) := by
    rw [hx.abs_zero, hy.abs_zero]
    rcases h with h | h
    · exact .inl h.1
    · exact .inr h.2
  have h1 : (decide (x.toNat = infMag) || decide (y.toNat = infMag)) = true := by
    rcases h with h | h
    · rw [h.2]; simp
    · rw [h.1]; simp
  rw [h1]
  simp only [Bool.or_false, Bool.false_eq_true, if_false, if_true]
  rw [if_pos h0]
  decide +kernel

/-- A text is read as NaN exactly when its exponent is outside -2 to 3 and its digits are zero and the power of ten infinite, or its
digits infinite and the power of ten zero. -/
theorem C187_iff_partial (exp10 : Int → F64) (hx : ∀ e, NN (exp10 e)) (p : NumParts) (hp : p.WF) (hf : p.Fits) :
    ∃ v m, readF64 exp10 p.text = some (v, []) ∧ readF64 exp10 p.bare.text = some (m, []) ∧
      (v.isNaN = true ↔ (expInt p.exp < -2 ∨ 3 < expInt p.exp) ∧
        ((m = F64.ofNat 0 ∧ (exp10 (expInt p.exp)).isInf = true) ∨ (m.isInf = true ∧ exp10 (expInt p.exp) = F64.ofNat 0))) := by
  refine ⟨_, _, read_whole exp10 p hp hf, (bare_read exp10 p hp).2.2, ?_⟩
  have hm := p.nn_mant hp
  have hz : ∀ {x : F64}, x = F64.ofNat 0 ↔ x.toNat = 0 := by
    intro x
    constructor
    · rintro rfl; exact ofNat_zero_toNat
    · intro h; exact nn_eq (h.trans ofNat_zero_toNat.symm)
  have hsm : ∀ y : F64, NN y → y.toNat ≠ 0 → y.toNat ≠ infMag → NN (p.mant.mul y) :=
    fun y hy h1 h2 => nn_mul hm hy (fun _ => h1) (fun h => absurd h h2)
  rw [hz, hz, (hx _).isInf, hm.isInf, decide_eq_true_eq, decide_eq_true_eq]
  unfold NumParts.double expF
  generalize hE : expInt p.exp = e
  by_cases hin : -2 ≤ e ∧ e ≤ 3
  · have hgood : NN (timesTenPow exp10 p.mant e) := by
      unfold timesTenPow
      have c1 : (F64.lit 1 100).toNat ≠ 0 ∧ (F64.lit 1 100).toNat ≠ infMag := by decide +kernel
      have c2 : (F64.lit 1 10).toNat ≠ 0 ∧ (F64.lit 1 10).toNat ≠ infMag := by decide +kernel
      have c3 : (F64.ofNat 10).toNat ≠ 0 ∧ (F64.ofNat 10).toNat ≠ infMag := by decide +kernel
      have c4 : (F64.ofNat 100).toNat ≠ 0 ∧ (F64.ofNat 100).toNat ≠ infMag := by decide +kernel
      have c5 : (F64.ofNat 1000).toNat ≠ 0 ∧ (F64.ofNat 1000).toNat ≠ infMag := by decide +kernel
      split
      · exact hsm _ (nn_lit 1 100) c1.1 c1.2
      split
      · exact hsm _ (nn_lit 1 10) c2.1 c2.2
      split
      · exact hm
      split
      · exact hsm _ (nn_ofNat 10) c3.1 c3.2
      split
      · exact hsm _ (nn_ofNat 100) c4.1 c4.2
      split
      · exact hsm _ (nn_ofNat 1000) c5.1 c5.2
      · omega
    rw [nn_sign (suf_good p hp hgood)]
    constructor
    · intro h; exact absurd h (by decide)
    · intro h; omega
  · have ht : timesTenPow exp10 p.mant e = p.mant.mul (exp10 e) := by
      unfold timesTenPow
      rw [if_neg (by omega), if_neg (by omega), if_neg (by omega), if_neg (by omega), if_neg (by omega), if_neg (by omega)]
    rw [ht]
    constructor
    · intro h
      refine ⟨by omega, ?_⟩
      by_cases hc : (p.mant.toNat = 0 ∧ (exp10 e).toNat = infMag) ∨ (p.mant.toNat = infMag ∧ (exp10 e).toNat = 0)
      · exact hc
      · exfalso
        have : NN (p.mant.mul (exp10 e)) := nn_mul hm (hx e) (fun h1 h2 => hc (.inr ⟨h1, h2⟩)) (fun h1 h2 => hc (.inl ⟨h2, h1⟩))
        rw [nn_sign (suf_good p hp this)] at h
        exact absurd h (by decide)
    · rintro ⟨_, h⟩
      exact nan_mul _ _ (suf_nan (mul_zero_inf hm (hx e) h) _)

theorem round_up_mono (c : Nat) {x y : Nat} (h : x ≤ y) : roundMag (x * c) 1 ≤ roundMag (y * c) 1 :=
  roundMag_mono (by decide) (by decide) (Nat.mul_le_mul_right _ (Nat.mul_le_mul_right _ h))

theorem round_down_mono (c : Nat) {x y : Nat} (hx : 0 < x) (h : x ≤ y) : roundMag (1 * c) y ≤ roundMag (1 * c) x :=
  roundMag_mono (Nat.lt_of_lt_of_le hx h) hx (Nat.mul_le_mul_left _ h)

theorem pow10F_big : (F64.ofNat (10 ^ 308)).toNat < infMag := by decide +kernel

theorem pow10F_one : 0 < (F64.ofNat 1).toNat ∧ (F64.lit 1 1).toNat < infMag := by decide +kernel

theorem pow10F_small : 0 < (F64.lit 1 (10 ^ 323)).toNat := by decide +kernel

theorem ofNat_toNat (n : Nat) : (F64.ofNat n).toNat = roundMag (n * 2 ^ 1074) 1 := make_false_toNat (roundMag_le_inf _ _)

theorem lit_toNat (n d : Nat) : (F64.lit n d).toNat = roundMag (n * 2 ^ 1074) d := make_false_toNat (roundMag_le_inf _ _)

theorem ofNat_le {x y : Nat} (h : x ≤ y) : (F64.ofNat x).toNat ≤ (F64.ofNat y).toNat := by
  rw [ofNat_toNat, ofNat_toNat]
  exact round_up_mono _ h

theorem lit_le {x y : Nat} (hx : 0 < x) (h : x ≤ y) : (F64.lit 1 y).toNat ≤ (F64.lit 1 x).toNat := by
  rw [lit_toNat, lit_toNat]
  exact round_down_mono _ hx h

theorem pow10F_good (e : Int) (h1 : -323 ≤ e) (h2 : e ≤ 308) : (pow10F e).toNat ≠ 0 ∧ (pow10F e).toNat ≠ infMag := by
  unfold pow10F
  split
  · have hle : 10 ^ e.toNat ≤ 10 ^ 308 := Nat.pow_le_pow_right (by decide) (by omega)
    have hge : 1 ≤ 10 ^ e.toNat := Nat.pow_pos (by decide)
    generalize 10 ^ e.toNat = x at *
    exact ⟨Nat.ne_of_gt (Nat.lt_of_lt_of_le pow10F_one.1 (ofNat_le hge)), Nat.ne_of_lt (Nat.lt_of_le_of_lt (ofNat_le hle) pow10F_big)⟩
  · have hle : 10 ^ (-e).toNat ≤ 10 ^ 323 := Nat.pow_le_pow_right (by decide) (by omega)
    have hge : 1 ≤ 10 ^ (-e).toNat := Nat.pow_pos (by decide)
    generalize 10 ^ (-e).toNat = x at *
    exact ⟨Nat.ne_of_gt (Nat.lt_of_lt_of_le pow10F_small (lit_le hge hle)), Nat.ne_of_lt (Nat.lt_of_le_of_lt (lit_le (by decide) hge) pow10F_one.2)⟩

theorem nn_pow10F (e : Int) : NN (pow10F e) := by
  unfold pow10F
  split
  · exact nn_ofNat _
  · exact nn_lit _ _

/-- What is missing: exponents below -323 or above 308. -/
theorem C187_range_partial (p : NumParts) (hp : p.WF) (h : -323 ≤ expInt p.exp ∧ expInt p.exp ≤ 308) :
    ∃ v, readF64 pow10F p.text = some (v, []) ∧ v.isNaN = false := by
  have hf : p.Fits := by
    intro c s d hx
    rw [hx] at h
    simp only [expInt] at h
    split at h <;> omega
  obtain ⟨v, m, h1, _, h3⟩ := C187_iff_partial pow10F nn_pow10F p hp hf
  refine ⟨v, h1, ?_⟩
  obtain ⟨g1, g2⟩ := pow10F_good _ h.1 h.2
  rw [← Bool.not_eq_true, h3]
  rintro ⟨_, ⟨_, hi⟩ | ⟨_, hz⟩⟩
  · rw [(nn_pow10F _).isInf, decide_eq_true_eq] at hi
    exact g2 hi
  · rw [hz] at g1
    exact g1 ofNat_zero_toNat

example : ∃ v, readF64 pow10F (ascii "-0.5e300") = some (v, []) ∧ v.isNaN = false := by
  obtain ⟨v, h1, h2⟩ := C187_range_partial ⟨ascii "-", ascii "0", some (ascii "5"), some (101, [], ascii "300"), none⟩
    ⟨.inr (.inr rfl), by decide, by decide, by intro c s d h; cases h; exact ⟨.inl rfl, .inl rfl, by decide, by decide⟩, by simp⟩
    (by decide)
  exact ⟨v, by rw [← h1]; rfl, h2⟩

/-! ## C188 -/

/-- Full statement: two texts of the same number, not zero, are read as the same double. -/
def C188_statement : Prop :=
  ∀ p q : NumParts, p.WF → q.WF → p.value = q.value → p.value ≠ 0 → readF64 pow10F p.text = readF64 pow10F q.text

/-- `0.3e1` is not read as 3. -/
theorem C188_refuted : ¬ C188_statement := by
  intro h
  have := h ⟨[], ascii "0", some (ascii "3"), some (101, [], ascii "1"), none⟩ ⟨[], ascii "3", none, none, none⟩
    ⟨.inl rfl, by decide, by decide, by intro c s d h; cases h; exact ⟨.inl rfl, .inl rfl, by decide, by decide⟩, by simp⟩
    ⟨.inl rfl, by decide, by decide, by simp, by simp⟩ (by decide +kernel) (by decide +kernel)
  revert this
  decide +kernel

/-- Nor is `3` equal to `0.3e1` as numbers are compared. -/
theorem C188_refuted_compare : ∃ v w, readF64 pow10F (ascii "0.3e1") = some (v, []) ∧ readF64 pow10F (ascii "3") = some (w, []) ∧
    fcmp v w = .gt :=
  ⟨0x4008000000000001, 0x4008000000000000, by decide +kernel, by decide +kernel, by decide +kernel⟩

theorem horner_zeros : ∀ (k : Nat) (ds : Bytes), hornerF (F64.ofNat 0) (List.replicate k 48 ++ ds) = hornerF (F64.ofNat 0) ds
  | 0, _ => rfl
  | k + 1, ds => by
    rw [List.replicate_succ, List.cons_append, hornerF]
    have : ((F64.ofNat 0).mul (F64.ofNat 10)).add (F64.ofNat ((48 : UInt8).toNat - 48)) = F64.ofNat 0 := by decide +kernel
    rw [this]
    exact horner_zeros k ds

theorem frac_append (z : Bytes) (hz : ∀ c ∈ z, c = 48) : ∀ (fs : Bytes) (x place : F64), (∀ c ∈ fs, isDigit c = true) → NN x → NN place →
    place.toNat < infMag → fracF x place (fs ++ z) = fracF x place fs
  | [], x, place, _, hx, hp, hf => frac_zeros z x place hz hx hp hf
  | c :: cs, x, place, hd, hx, hp, hf => by
    obtain ⟨h1, h2⟩ := place_step hp hf
    rw [List.cons_append, fracF, fracF]
    refine frac_append z hz cs _ _ (fun d h => hd d (by simp [h])) ?_ h1 (Nat.lt_of_le_of_lt h2 hf)
    have := nn_frac [c] x place (fun d h => hd d (by simp at h; simp [h])) hx hp hf
    exact this

/-- Zeros before the number, zeros after a point, and a plus sign make no difference. What is missing: texts of the same number with
different exponents or suffixes. -/
theorem C188_zeros_partial (exp10 : Int → F64) (p q : NumParts) (hp : p.WF) (hq : q.WF) (k j : Nat) (hs : p.sign = [45] ↔ q.sign = [45])
    (hd : q.ds = List.replicate k 48 ++ p.ds) (hfs : q.fs = p.fs ++ List.replicate j 48) (he : q.exp = p.exp) (hsf : q.suf = p.suf) :
    readF64 exp10 q.text = readF64 exp10 p.text := by
  have hm : q.mant = p.mant := by
    unfold NumParts.mant
    rw [hd, hfs, horner_zeros, frac_append _ (fun c h => (List.mem_replicate.1 h).2) _ _ _ hp.frac (nn_horner _ _ (nn_ofNat 0)) (nn_lit 1 10)
      lit_tenth.2.1]
  have hdb : q.double exp10 = p.double exp10 := by
    unfold NumParts.double
    rw [hm, he, hsf]
    by_cases h : p.sign = [45]
    · rw [if_pos h, if_pos (hs.1 h)]
    · rw [if_neg h, if_neg (fun g => h (hs.2 g))]
  have hpr := readF64_parts exp10 p hp [] (p.ends_nil hp)
  have hqr := readF64_parts exp10 q hq [] (q.ends_nil hq)
  rw [List.append_nil] at hpr hqr
  have hff : q.Fits ↔ p.Fits := by
    unfold NumParts.Fits
    rw [he]
  by_cases hf : p.Fits
  · rw [hpr.1 hf, hqr.1 (hff.2 hf), hdb]
  · rw [hpr.2 hf, hqr.2 (fun g => hf (hff.1 g))]

example : readF64 pow10F (ascii "+007.250e9") = readF64 pow10F (ascii "7.25e9") :=
  C188_zeros_partial pow10F ⟨[], ascii "7", some (ascii "25"), some (101, [], ascii "9"), none⟩
    ⟨ascii "+", ascii "007", some (ascii "250"), some (101, [], ascii "9"), none⟩
    ⟨.inl rfl, by decide, by decide, by intro c s d h; cases h; exact ⟨.inl rfl, .inl rfl, by decide, by decide⟩, by simp⟩
    ⟨.inr (.inl rfl), by decide, by decide, by intro c s d h; cases h; exact ⟨.inl rfl, .inl rfl, by decide, by decide⟩, by simp⟩
    2 1 (by decide) rfl rfl rfl rfl

theorem is_unique {x y : F64} {n : Int} (hx : x.Is n) (hy : y.Is n) (hn : n ≠ 0) : x = y := by
  have h : x.scaled = y.scaled := by rw [hx.2.2, hy.2.2]
  have hp : (0 : Int) < 2 ^ 1074 := by exact_mod_cast pow1074_pos
  have hnz : x.scaled ≠ 0 := by
    rw [hx.2.2]
    exact Int.mul_ne_zero hn (Int.ne_of_gt hp)
  rw [scaled_abs, scaled_abs y, abs_eq, abs_eq] at h
  rw [scaled_abs, abs_eq] at hnz
  have hx2 := x.toNat_lt
  have hy2 := y.toNat_lt
  have hinj := magVal_inj (Nat.mod_lt x.toNat (show 0 < 2 ^ 63 by decide)) (Nat.mod_lt y.toNat (show 0 < 2 ^ 63 by decide))
  unfold F64.isNeg at h hnz
  generalize magVal (x.toNat % 2 ^ 63) = u at *
  generalize magVal (y.toNat % 2 ^ 63) = w at *
  apply nn_eq
  by_cases h1 : 2 ^ 63 ≤ x.toNat <;> by_cases h2 : 2 ^ 63 ≤ y.toNat <;>
    simp only [h1, h2, decide_true, decide_false, if_true, Bool.false_eq_true, if_false] at h hnz
  all_goals
    have : u = w := by omega
    have := hinj.1 this
    omega

/-- What is missing: as `C188_zeros_partial`; here whole numbers, with any exponent from 0 to 3 and any suffix. -/
theorem C188_whole_partial (exp10 : Int → F64) (p q : NumParts) (hp : p.Whole) (hq : q.Whole) (h : p.value = q.value) (hz : p.value ≠ 0) :
    readF64 exp10 p.text = readF64 exp10 q.text := by
  obtain ⟨v, m, hv, him, hm, _⟩ := hp.read exp10
  obtain ⟨w, n, hw, hin, hn, _⟩ := hq.read exp10
  have hmn : m = n := by
    rw [← Rat.intCast_inj, hm, hn, h]
  subst hmn
  have hm0 : m ≠ 0 := by
    rintro rfl
    exact hz (by rw [← hm]; rfl)
  rw [hv, hw, is_unique him hin hm0]

example : readF64 pow10F (ascii "7e3") = readF64 pow10F (ascii "7000.0") :=
  C188_whole_partial pow10F ⟨[], ascii "7", none, some (101, [], ascii "3"), none⟩ ⟨[], ascii "7000", some (ascii "0"), none, none⟩
    ⟨⟨.inl rfl, by decide, by decide, by intro c s d h; cases h; exact ⟨.inl rfl, .inl rfl, by decide, by decide⟩, by simp⟩,
      by decide, by decide, by decide, by decide⟩
    ⟨⟨.inl rfl, by decide, by decide, by simp, by simp⟩, by decide, by decide, by decide, by decide⟩ (by decide +kernel) (by decide +kernel)

end Cdx
