import Verif.Lemmas.FloatNear
import Verif.Props.Float

/-!
C185, C186: how near a decimal text is read, and which texts keep their order.
-/

namespace Cdx

/-- Minus one for a minus sign. -/
def NumParts.sgn (p : NumParts) : Rat := if p.sign = [45] then -1 else 1

theorem bare_value (p : NumParts) : p.bare.value = (decVal (p.ds ++ p.fs) : Rat) / 10 ^ p.fs.length := by
  unfold NumParts.value NumParts.bare
  rw [if_neg (by simp)]
  simp only [expVal, sufVal]
  have e : NumParts.fs { p with sign := [], exp := none, suf := none } = p.fs := rfl
  rw [e]
  grind

theorem plain_value (p : NumParts) (h : p.Plain) : p.value = p.sgn * p.bare.value := by
  rw [bare_value]
  unfold NumParts.value NumParts.sgn
  rw [h.1, h.2]
  simp only [expVal, sufVal]
  grind

theorem negate_val (x : F64) : x.negate.val = -x.val := by
  unfold F64.val
  rw [negate_scaled, Rat.intCast_neg]
  grind

/-- What is missing: texts with an exponent or a suffix, and more than 300 digits on a side. The error is that of one rounding for each
digit and each power of ten. -/
theorem C185_near_partial (exp10 : Int → F64) (p : NumParts) (hp : p.WF) (h : p.Plain) (h1 : p.ds.length ≤ 300) (h2 : p.fs.length ≤ 300) :
    ∃ v, readF64 exp10 p.text = some (v, []) ∧ v.Fin ∧ v.isNeg = decide (p.sign = [45]) ∧ p.value = p.sgn * p.bare.value ∧
      p.bare.value * (1 - 1 / ((2 ^ 53 : Nat) : Rat)) ^ (2 * (p.ds.length + p.fs.length) + 1) ≤ p.sgn * v.val ∧
      p.sgn * v.val ≤ p.bare.value * (1 + 1 / ((2 ^ 53 : Nat) : Rat)) ^ (2 * (p.ds.length + p.fs.length) + 1) := by
  obtain ⟨g1, g2, g3⟩ := mant_appr p hp h1 h2
  refine ⟨_, read_whole exp10 p hp h.fits, ?_⟩
  rw [double_plain exp10 p hp h, bare_value, ← bare_value, ← plain_value p h, bare_value]
  obtain ⟨_, g4, g5⟩ := g3
  unfold NumParts.sgn
  by_cases hs : p.sign = [45]
  · rw [if_pos hs, if_pos hs, negate_val, show -1 * -p.mant.val = p.mant.val by grind]
    refine ⟨negate_fin.2 (g1.fin.2 g2), ?_, rfl, g4, g5⟩
    rw [negate_isNeg, g1.isNeg, decide_eq_true hs]
    rfl
  · rw [if_neg hs, if_neg hs, Rat.one_mul]
    refine ⟨g1.fin.2 g2, ?_, rfl, g4, g5⟩
    rw [g1.isNeg, decide_eq_false hs]

example (exp10 : Int → F64) : ∃ v, readF64 exp10 (ascii "-0.3") = some (v, []) ∧ v.Fin ∧ v.isNeg = true := by
  obtain ⟨v, h1, h2, h3, _⟩ := C185_near_partial exp10 ⟨ascii "-", ascii "0", some (ascii "3"), none, none⟩
    ⟨.inr (.inr rfl), by decide, by decide, by simp, by simp⟩ ⟨rfl, rfl⟩ (by decide) (by decide)
  exact ⟨v, by rw [← h1]; rfl, h2, h3⟩

theorem hi_41 : hiU ^ 1201 ≤ 1 + 1 / ((2 ^ 41 : Nat) : Rat) := by decide +kernel

theorem lo_41 : 1 - 1 / ((2 ^ 41 : Nat) : Rat) ≤ loU ^ 1201 := by decide +kernel

/-- The same, with a plain bound: the error is at most a `2^-41`th of the number. -/
theorem C185_error_partial (exp10 : Int → F64) (p : NumParts) (hp : p.WF) (h : p.Plain) (h1 : p.ds.length ≤ 300) (h2 : p.fs.length ≤ 300) :
    ∃ v, readF64 exp10 p.text = some (v, []) ∧ v.Fin ∧
      p.value - p.bare.value / ((2 ^ 41 : Nat) : Rat) ≤ v.val ∧ v.val ≤ p.value + p.bare.value / ((2 ^ 41 : Nat) : Rat) := by
  obtain ⟨v, r1, r2, r3, r4, r5, r6⟩ := C185_near_partial exp10 p hp h h1 h2
  refine ⟨v, r1, r2, ?_⟩
  have h0 : 0 ≤ p.bare.value := by
    rw [bare_value]
    exact (mant_appr p hp h1 h2).2.2.1
  have hl := Rat.mul_le_mul_of_nonneg_left (Rat.le_trans lo_41 (by
    have := rat_pow_anti loU_nonneg loU_le (2 * (p.ds.length + p.fs.length) + 1) (1201 - (2 * (p.ds.length + p.fs.length) + 1))
    rwa [show 2 * (p.ds.length + p.fs.length) + 1 + (1201 - (2 * (p.ds.length + p.fs.length) + 1)) = 1201 by omega] at this)) h0
  have hh := Rat.mul_le_mul_of_nonneg_left (Rat.le_trans (by
    have := rat_pow_mono hiU_ge (2 * (p.ds.length + p.fs.length) + 1) (1201 - (2 * (p.ds.length + p.fs.length) + 1))
    rwa [show 2 * (p.ds.length + p.fs.length) + 1 + (1201 - (2 * (p.ds.length + p.fs.length) + 1)) = 1201 by omega] at this) hi_41) h0
  unfold loU at hl
  unfold hiU at hh
  have l := Rat.le_trans hl r5
  have u := Rat.le_trans r6 hh
  clear hl hh r5 r6
  have hc : (0 : Rat) < ((2 ^ 41 : Nat) : Rat) := natCast_pos (by decide)
  generalize ((2 ^ 41 : Nat) : Rat) = c at *
  rw [r4]
  unfold NumParts.sgn at l u ⊢
  by_cases hs : p.sign = [45]
  · rw [if_pos hs] at l u ⊢
    constructor <;> grind
  · rw [if_neg hs] at l u ⊢
    constructor <;> grind

/-! ## C186 -/

theorem val_lt {x y : F64} (h : x.val < y.val) : x.scaled < y.scaled := by
  unfold F64.val at h
  have hp := natCast_pos pow1074_pos
  generalize ((2 ^ 1074 : Nat) : Rat) = u at *
  have e := Rat.mul_lt_mul_of_pos_right h hp
  rw [Rat.div_mul_cancel (by grind), Rat.div_mul_cancel (by grind), Rat.intCast_lt_intCast] at e
  exact e

theorem fcmp_lt_of_val {x y : F64} (hx : x.Fin) (hy : y.Fin) (h : x.val < y.val) : fcmp x y = .lt ∧ fcmp y x = .gt := by
  have hs := val_lt h
  have h1 := ((Fin_iff x).1 hx).1
  have h2 := ((Fin_iff y).1 hy).1
  unfold fcmp F64.eq F64.gt
  rw [h1, h2]
  simp only [Bool.not_false, Bool.true_and, beq_iff_eq, decide_eq_true_eq]
  constructor
  · rw [if_neg (by omega), if_neg (by omega)]
  · rw [if_neg (by omega), if_pos (by omega)]

/-- What is missing: numbers nearer to each other than a `2^-41`th of the sum of their sizes. -/
theorem C186_near_partial (exp10 : Int → F64) (p q : NumParts) (hp : p.WF) (hq : q.WF) (hpp : p.Plain) (hqp : q.Plain)
    (hp1 : p.ds.length ≤ 300) (hp2 : p.fs.length ≤ 300) (hq1 : q.ds.length ≤ 300) (hq2 : q.fs.length ≤ 300)
    (h : p.value + (p.bare.value + q.bare.value) / ((2 ^ 41 : Nat) : Rat) < q.value) :
    ∃ v w, readF64 exp10 p.text = some (v, []) ∧ readF64 exp10 q.text = some (w, []) ∧ fcmp v w = .lt ∧ fcmp w v = .gt := by
  obtain ⟨v, v1, v2, v3, v4⟩ := C185_error_partial exp10 p hp hpp hp1 hp2
  obtain ⟨w, w1, w2, w3, w4⟩ := C185_error_partial exp10 q hq hqp hq1 hq2
  have hc : (0 : Rat) < ((2 ^ 41 : Nat) : Rat) := natCast_pos (by decide)
  generalize ((2 ^ 41 : Nat) : Rat) = c at *
  exact ⟨v, w, v1, w1, fcmp_lt_of_val v2 w2 (by grind)⟩

/-- `0.30000000001` and `0.3`. -/
example (exp10 : Int → F64) : ∃ v w, readF64 exp10 (ascii "0.3") = some (v, []) ∧ readF64 exp10 (ascii "0.30000000001") = some (w, []) ∧
    fcmp v w = .lt ∧ fcmp w v = .gt :=
  C186_near_partial exp10 ⟨[], ascii "0", some (ascii "3"), none, none⟩ ⟨[], ascii "0", some (ascii "30000000001"), none, none⟩
    ⟨.inl rfl, by decide, by decide, by simp, by simp⟩ ⟨.inl rfl, by decide, by decide, by simp, by simp⟩ ⟨rfl, rfl⟩ ⟨rfl, rfl⟩
    (by decide) (by decide) (by decide) (by decide) (by decide +kernel)

end Cdx
