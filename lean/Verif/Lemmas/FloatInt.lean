import Verif.Lemmas.Float

/-!
Doubles that are integers: addition and multiplication are exact as long as the results are at most `2^53`.
-/

namespace Cdx

theorem infMag_lt : infMag < 2 ^ 63 := by rw [infMag_eq]; decide

theorem mul_fin {x y : F64} (hx : x.Fin) (hy : y.Fin) :
    x.mul y = F64.make (x.isNeg != y.isNeg) (roundMag (x.abs * y.abs) (2 ^ 1074)) := by
  obtain ⟨h1, h2⟩ := (Fin_iff x).1 hx
  obtain ⟨h3, h4⟩ := (Fin_iff y).1 hy
  simp only [F64.mul, h1, h2, h3, h4, Bool.or_false, Bool.false_eq_true, if_false]

theorem add_fin {x y : F64} (hx : x.Fin) (hy : y.Fin) :
    x.add y = F64.ofScaled (x.isNeg && y.isNeg) (x.scaled + y.scaled) 1 := by
  obtain ⟨h1, h2⟩ := (Fin_iff x).1 hx
  obtain ⟨h3, h4⟩ := (Fin_iff y).1 hy
  simp only [F64.add, h1, h2, h3, h4, Bool.or_false, Bool.false_eq_true, if_false]

theorem div_fin {x y : F64} (hx : x.Fin) (hy : y.Fin) (h0 : y.abs ≠ 0) :
    x.div y = F64.make (x.isNeg != y.isNeg) (roundMag (x.abs * 2 ^ 1074) y.abs) := by
  obtain ⟨h1, h2⟩ := (Fin_iff x).1 hx
  obtain ⟨h3, h4⟩ := (Fin_iff y).1 hy
  simp only [F64.div, h1, h2, h3, h4, h0, Bool.or_false, Bool.false_eq_true, if_false]

theorem mulAdd_fin {x y z : F64} (hx : x.Fin) (hy : y.Fin) (hz : z.Fin) :
    x.mulAdd y z = F64.ofScaled ((x.isNeg != y.isNeg) && z.isNeg) (x.scaled * y.scaled + z.scaled * 2 ^ 1074) (2 ^ 1074) := by
  obtain ⟨h1, h2⟩ := (Fin_iff x).1 hx
  obtain ⟨h3, h4⟩ := (Fin_iff y).1 hy
  obtain ⟨h5, h6⟩ := (Fin_iff z).1 hz
  simp only [F64.mulAdd, h1, h2, h3, h4, h5, h6, Bool.or_false, Bool.false_eq_true, if_false]

theorem Is_iff (x : F64) (n : Int) : x.Is n ↔ x.Fin ∧ x.scaled = n * 2 ^ 1074 := by
  rw [Fin_iff]
  unfold F64.Is
  exact ⟨fun h => ⟨⟨h.1, h.2.1⟩, h.2.2⟩, fun h => ⟨h.1.1, h.1.2, h.2⟩⟩

theorem F64.Is.fin {x : F64} {n : Int} (h : x.Is n) : x.Fin := ((Is_iff x n).1 h).1

theorem F64.Is.abs {x : F64} {n : Int} (h : x.Is n) : x.abs = n.natAbs * 2 ^ 1074 := by
  have := ((Is_iff x n).1 h).2
  unfold F64.abs
  rw [this, Int.natAbs_mul, Int.natAbs_pow]
  rfl

/-- A magnitude that is exactly `c` units of `2^j`, with its sign. -/
theorem make_exact (s : Bool) {a b v : Nat} (hb : 0 < b) (hv : Rep v) (ha : a = v * b) :
    (F64.make s (roundMag a b)).Fin ∧ (F64.make s (roundMag a b)).scaled = if s then -(v : Int) else v := by
  obtain ⟨h1, h2⟩ := hv.round hb ha
  refine ⟨make_fin s h1, ?_⟩
  rw [make_scaled s (Nat.lt_trans h1 infMag_lt), h2]

theorem pow1074_pos : 0 < 2 ^ 1074 := Nat.two_pow_pos _

theorem is_ofNat {n : Nat} (h : n ≤ 2 ^ 53) : (F64.ofNat n).Is n := by
  rw [Is_iff]
  have := make_exact false (a := n * 2 ^ 1074) (b := 1) (by decide) (rep_le 1074 n h (by decide)) (by rw [Nat.mul_one])
  unfold F64.ofNat
  refine ⟨this.1, ?_⟩
  rw [this.2, if_neg (by decide), Int.natCast_mul, Int.natCast_pow]
  rfl

theorem negate_toNat (x : F64) : x.negate.toNat = if x.toNat < 2 ^ 63 then x.toNat + 2 ^ 63 else x.toNat - 2 ^ 63 := by
  have hx := x.toNat_lt
  unfold F64.negate
  rw [UInt64.toNat_xor, show (0x8000000000000000 : UInt64).toNat = 2 ^ 63 from rfl]
  have e : x.toNat = 2 ^ 63 * (x.toNat / 2 ^ 63) + x.toNat % 2 ^ 63 := by omega
  have hlt : x.toNat % 2 ^ 63 < 2 ^ 63 := Nat.mod_lt _ (by decide)
  have key : ∀ q r : Nat, q < 2 → r < 2 ^ 63 → (2 ^ 63 * q + r) ^^^ 2 ^ 63 = 2 ^ 63 * (1 - q) + r := by
    intro q r hq hr
    have h1 : 2 ^ 63 * q + r = 2 ^ 63 * q ^^^ r := by
      apply Nat.eq_of_testBit_eq
      intro i
      rw [Nat.testBit_two_pow_mul_add _ hr, Nat.testBit_xor, Nat.testBit_two_pow_mul]
      by_cases hi : i < 63
      · simp [hi, show ¬ i ≥ 63 by omega]
      · have : r.testBit i = false := Nat.testBit_lt_two_pow (Nat.lt_of_lt_of_le hr (Nat.pow_le_pow_right (by decide) (by omega)))
        simp [hi, show i ≥ 63 by omega, this]
    have h2 : 2 ^ 63 * (1 - q) + r = 2 ^ 63 * (1 - q) ^^^ r := by
      apply Nat.eq_of_testBit_eq
      intro i
      rw [Nat.testBit_two_pow_mul_add _ hr, Nat.testBit_xor, Nat.testBit_two_pow_mul]
      by_cases hi : i < 63
      · simp [hi, show ¬ i ≥ 63 by omega]
      · have : r.testBit i = false := Nat.testBit_lt_two_pow (Nat.lt_of_lt_of_le hr (Nat.pow_le_pow_right (by decide) (by omega)))
        simp [hi, show i ≥ 63 by omega, this]
    rw [h1, h2, Nat.xor_assoc, Nat.xor_comm r, ← Nat.xor_assoc]
    congr 1
    have : q = 0 ∨ q = 1 := by omega
    rcases this with rfl | rfl <;> decide
  rw [e, key _ _ (by omega) hlt]
  split <;> omega

theorem negate_mod (x : F64) : x.negate.toNat % 2 ^ 63 = x.toNat % 2 ^ 63 := by
  have hx := x.toNat_lt
  rw [negate_toNat]
  split <;> omega

theorem negate_isNeg (x : F64) : x.negate.isNeg = !x.isNeg := by
  have hx := x.toNat_lt
  unfold F64.isNeg
  rw [negate_toNat]
  by_cases h : x.toNat < 2 ^ 63
  · rw [if_pos h]
    simp only [show 2 ^ 63 ≤ x.toNat + 2 ^ 63 by omega, show ¬ 2 ^ 63 ≤ x.toNat by omega, decide_true, decide_false, Bool.not_false]
  · rw [if_neg h]
    simp only [show ¬ 2 ^ 63 ≤ x.toNat - 2 ^ 63 by omega, show 2 ^ 63 ≤ x.toNat by omega, decide_true, decide_false, Bool.not_true]

theorem negate_fin {x : F64} : x.negate.Fin ↔ x.Fin := by
  unfold F64.Fin
  rw [negate_mod]

theorem negate_scaled (x : F64) : x.negate.scaled = -x.scaled := by
  rw [scaled_abs, scaled_abs x, negate_isNeg, abs_eq, abs_eq, negate_mod]
  cases x.isNeg <;> simp

theorem is_negate {x : F64} {n : Int} (h : x.Is n) : x.negate.Is (-n) := by
  rw [Is_iff] at h ⊢
  refine ⟨negate_fin.2 h.1, ?_⟩
  rw [negate_scaled, h.2, Int.neg_mul]

theorem ofScaled_exact (z : Bool) {s v : Int} {b : Nat} (hb : 0 < b) (hv : Rep v.natAbs) (hs : s = v * b) :
    (F64.ofScaled z s b).Fin ∧ (F64.ofScaled z s b).scaled = v := by
  unfold F64.ofScaled
  by_cases h0 : s = 0
  · rw [if_pos h0]
    refine ⟨make_fin z (by rw [infMag_eq]; decide), ?_⟩
    have : v = 0 := by
      rw [h0] at hs
      rcases Int.mul_eq_zero.1 hs.symm with h | h
      · exact h
      · omega
    rw [make_scaled z (by decide), this, magVal_zero]
    cases z <;> rfl
  · rw [if_neg h0]
    have ha : s.natAbs = v.natAbs * b := by rw [hs, Int.natAbs_mul, Int.natAbs_natCast]
    obtain ⟨h1, h2⟩ := make_exact (decide (s < 0)) hb hv ha
    refine ⟨h1, ?_⟩
    rw [h2]
    have hbi : (0 : Int) < b := by omega
    by_cases hneg : s < 0
    · have : v < 0 := by
        by_cases hc : v < 0
        · exact hc
        · have := Int.mul_nonneg (show 0 ≤ v by omega) (Int.le_of_lt hbi)
          omega
      rw [if_pos (by simpa using hneg)]
      omega
    · have : 0 ≤ v := by
        by_cases hc : v < 0
        · have := Int.mul_neg_of_neg_of_pos hc hbi
          omega
        · omega
      rw [if_neg (by simpa using hneg)]
      omega

theorem is_add {x y : F64} {m n : Int} (hx : x.Is m) (hy : y.Is n) (h : (m + n).natAbs ≤ 2 ^ 53) : (x.add y).Is (m + n) := by
  rw [Is_iff, add_fin hx.fin hy.fin]
  have e : x.scaled + y.scaled = (m + n) * 2 ^ 1074 * (1 : Nat) := by
    rw [((Is_iff _ _).1 hx).2, ((Is_iff _ _).1 hy).2, Int.add_mul]
    omega
  refine ofScaled_exact _ (by decide) ?_ e
  rw [Int.natAbs_mul, Int.natAbs_pow]
  exact rep_le 1074 _ h (by decide)

theorem is_mul {x y : F64} {m n : Int} (hx : x.Is m) (hy : y.Is n) (h : (m * n).natAbs ≤ 2 ^ 53) : (x.mul y).Is (m * n) := by
  rw [Is_iff, mul_fin hx.fin hy.fin]
  have hrep : Rep ((m * n).natAbs * 2 ^ 1074) := rep_le 1074 _ h (by decide)
  obtain ⟨h1, h2⟩ := make_exact (x.isNeg != y.isNeg) (a := x.abs * y.abs) (b := 2 ^ 1074) pow1074_pos hrep (by
    rw [hx.abs, hy.abs, Int.natAbs_mul, Nat.mul_assoc, Nat.mul_left_comm (2 ^ 1074), ← Nat.mul_assoc, ← Nat.mul_assoc])
  refine ⟨h1, ?_⟩
  rw [h2]
  have ex := scaled_abs x
  have ey := scaled_abs y
  rw [((Is_iff _ _).1 hx).2, hx.abs] at ex
  rw [((Is_iff _ _).1 hy).2, hy.abs] at ey
  rw [Int.natAbs_mul]
  have hp : (0 : Int) < 2 ^ 1074 := by exact_mod_cast pow1074_pos
  simp only [Int.natCast_mul, Int.natCast_pow] at ex ey ⊢
  have hne : (2 : Int) ^ 1074 ≠ 0 := by omega
  have hm : m = if x.isNeg then -(m.natAbs : Int) else m.natAbs := by
    cases hb : x.isNeg
    · rw [hb, if_neg (by decide)] at ex
      exact Int.eq_of_mul_eq_mul_right hne ex
    · rw [hb, if_pos rfl, ← Int.neg_mul] at ex
      exact Int.eq_of_mul_eq_mul_right hne ex
  have hn : n = if y.isNeg then -(n.natAbs : Int) else n.natAbs := by
    cases hb : y.isNeg
    · rw [hb, if_neg (by decide)] at ey
      exact Int.eq_of_mul_eq_mul_right hne ey
    · rw [hb, if_pos rfl, ← Int.neg_mul] at ey
      exact Int.eq_of_mul_eq_mul_right hne ey
  generalize (m.natAbs : Int) = M at *
  generalize (n.natAbs : Int) = N at *
  generalize (2 : Int) ^ 1074 = P at *
  clear ex ey h2 h1 hrep
  clear h hx hy
  generalize x.isNeg = bx at *
  generalize y.isNeg = bY at *
  cases bx <;> cases bY <;> simp at hm hn ⊢ <;> subst hm <;> subst hn <;> grind

theorem is_eq {x y : F64} {m n : Int} (hx : x.Is m) (hy : y.Is n) : F64.eq x y = decide (m = n) := by
  have hp : (2 : Int) ^ 1074 ≠ 0 := by
    have : (0 : Int) < 2 ^ 1074 := by exact_mod_cast pow1074_pos
    omega
  unfold F64.eq
  rw [hx.1, hy.1, hx.2.2, hy.2.2]
  simp only [Bool.not_false, Bool.true_and]
  by_cases h : m = n
  · subst h; simp
  · have : ¬ m * 2 ^ 1074 = n * 2 ^ 1074 := fun e => h (Int.eq_of_mul_eq_mul_right hp e)
    simp [h, this]

theorem is_gt {x y : F64} {m n : Int} (hx : x.Is m) (hy : y.Is n) : F64.gt x y = decide (m > n) := by
  have hp : (0 : Int) < 2 ^ 1074 := by exact_mod_cast pow1074_pos
  unfold F64.gt
  rw [hx.1, hy.1, hx.2.2, hy.2.2]
  simp only [Bool.not_false, Bool.true_and]
  congr 1
  exact propext (Int.mul_lt_mul_right hp)

theorem is_fcmp {x y : F64} {m n : Int} (hx : x.Is m) (hy : y.Is n) : fcmp x y = compare m n := by
  unfold fcmp
  rw [is_eq hx hy, is_gt hx hy, compare_int]
  simp only [decide_eq_true_eq, gt_iff_lt]

end Cdx
