import Verif.Model.FloatOps
import Verif.Spec.Exact
import Verif.Props.FloatThresh

/-!
The operations of doubles that are whole numbers.
-/

namespace Cdx

theorem is_sub {x y : F64} {m n : Int} (hx : x.Is m) (hy : y.Is n) (h : (m - n).natAbs ≤ 2 ^ 53) : (x.sub y).Is (m - n) := by
  rw [Int.sub_eq_add_neg] at h ⊢
  exact is_add hx (is_negate hy) h

theorem pow1074_int : (0 : Int) < 2 ^ 1074 := by exact_mod_cast pow1074_pos

/-- A whole number of units made from a whole number. -/
theorem is_ofScaled (z : Bool) {s n : Int} (h : n.natAbs ≤ 2 ^ 53) (hs : s = n * 2 ^ 1074) : (F64.ofScaled z s 1).Is n := by
  rw [Is_iff]
  refine ofScaled_exact z (by decide) ?_ (by rw [hs]; omega)
  rw [Int.natAbs_mul, Int.natAbs_pow]
  exact rep_le 1074 _ h (by decide)

theorem is_rem {x y : F64} {m n : Int} (hx : x.Is m) (hy : y.Is n) (hn : n ≠ 0) (h : m.natAbs ≤ 2 ^ 53) : (x.rem y).Is (m.tmod n) := by
  have hya : y.abs ≠ 0 := by
    rw [hy.abs]
    exact Nat.mul_ne_zero (by omega) (Nat.ne_of_gt pow1074_pos)
  unfold F64.rem
  rw [hx.1, hy.1, hx.2.1, hy.2.1, decide_eq_false hya]
  simp only [Bool.or_false, Bool.false_eq_true, if_false]
  refine is_ofScaled _ ?_ ?_
  · have := Int.natAbs_tmod m n
    rw [this]
    exact Nat.le_trans (Nat.mod_le _ _) h
  · rw [hx.2.2, hy.2.2, Int.mul_comm m, Int.mul_comm n, Int.mul_tmod_mul_of_pos _ _ pow1074_int, Int.mul_comm]

theorem is_lt {x y : F64} {m n : Int} (hx : x.Is m) (hy : y.Is n) : F64.lt x y = decide (m < n) := by
  unfold F64.lt
  rw [is_gt hy hx]

theorem is_ge {x y : F64} {m n : Int} (hx : x.Is m) (hy : y.Is n) : F64.ge x y = decide (m ≥ n) := by
  unfold F64.ge
  rw [is_gt hx hy, is_eq hx hy, ← Bool.decide_or]
  exact decide_eq_decide.2 (by omega)

theorem is_ofBool (b : Bool) : (F64.ofBool b).Is (truth b) := by
  cases b
  · exact is_ofNat (n := 0) (by decide)
  · exact is_ofNat (n := 1) (by decide)

theorem is_ofBool' {b : Bool} {p : Prop} [Decidable p] (h : b = decide p) : (F64.ofBool b).Is (truth p) := by
  rw [h]
  exact is_ofBool _

/-- A quotient without remainder is exact. -/
theorem is_div {x y : F64} {m n q : Int} (hx : x.Is m) (hy : y.Is n) (hn : n ≠ 0) (hq : n * q = m) (h : q.natAbs ≤ 2 ^ 53) :
    (x.div y).Is q := by
  have hya : y.abs = n.natAbs * 2 ^ 1074 := hy.abs
  have h0 : y.abs ≠ 0 := by
    rw [hya]
    exact Nat.mul_ne_zero (by omega) (Nat.ne_of_gt pow1074_pos)
  rw [div_fin hx.fin hy.fin h0, Is_iff]
  have hrep : Rep (q.natAbs * 2 ^ 1074) := rep_le 1074 _ h (by decide)
  have he : x.abs * 2 ^ 1074 = q.natAbs * 2 ^ 1074 * y.abs := by
    rw [hx.abs, hya, ← hq, Int.natAbs_mul]
    generalize 2 ^ 1074 = P
    rw [Nat.mul_comm n.natAbs, Nat.mul_assoc, Nat.mul_assoc, Nat.mul_assoc]
    congr 1
    rw [Nat.mul_left_comm]
  obtain ⟨h1, h2⟩ := make_exact (x.isNeg != y.isNeg) (Nat.pos_of_ne_zero h0) hrep he
  refine ⟨h1, ?_⟩
  rw [h2, Int.natCast_mul, Int.natCast_pow, show ((2 : Nat) : Int) = 2 from rfl]
  by_cases hq0 : q = 0
  · subst hq0
    simp
  · have hm0 : m ≠ 0 := by
      rw [← hq]
      exact Int.mul_ne_zero hn hq0
    rw [is_isNeg hx hm0, is_isNeg hy hn]
    have hs : (decide (m < 0) != decide (n < 0)) = decide (q < 0) := by
      rcases Int.lt_or_gt_of_ne hn with hn' | hn' <;> rcases Int.lt_or_gt_of_ne hq0 with hq' | hq'
      · have := Int.mul_pos_of_neg_of_neg hn' hq'
        simp [show ¬ m < 0 by omega, hn', hq']
      · have := Int.mul_neg_of_neg_of_pos hn' hq'
        simp [show m < 0 by omega, hn', show ¬ q < 0 by omega]
      · have := Int.mul_neg_of_pos_of_neg hn' hq'
        simp [show m < 0 by omega, hq', show ¬ n < 0 by omega]
      · have := Int.mul_pos hn' hq'
        simp [show ¬ m < 0 by omega, show ¬ q < 0 by omega, show ¬ n < 0 by omega]
    rw [hs]
    by_cases hq' : q < 0
    · rw [decide_eq_true hq', if_pos rfl, ← Int.neg_mul, show -(q.natAbs : Int) = q by omega]
    · rw [decide_eq_false hq', if_neg (by decide), show (q.natAbs : Int) = q by omega]

theorem is_absF {x : F64} {m : Int} (hx : x.Is m) : x.absF.Is m.natAbs := by
  unfold F64.absF
  by_cases h0 : m = 0
  · subst h0
    split
    · exact is_negate hx
    · exact hx
  · rw [is_isNeg hx h0]
    by_cases h : m < 0
    · rw [decide_eq_true h, if_pos rfl, show ((m.natAbs : Nat) : Int) = -m by omega]
      exact is_negate hx
    · rw [decide_eq_false h, if_neg (by decide), show ((m.natAbs : Nat) : Int) = m by omega]
      exact hx

theorem is_toWhole {x : F64} {m : Int} (f : Int → Int) (hx : x.Is m) (h : m.natAbs ≤ 2 ^ 53) (hf : f (m * 2 ^ 1074) = m * 2 ^ 1074) :
    (x.toWhole f).Is m := by
  unfold F64.toWhole
  rw [hx.1, hx.2.1]
  simp only [Bool.or_false, Bool.false_eq_true, if_false]
  exact is_ofScaled _ h (by rw [hx.2.2, hf])

theorem is_floor {x : F64} {m : Int} (hx : x.Is m) (h : m.natAbs ≤ 2 ^ 53) : x.floor.Is m :=
  is_toWhole _ hx h (by show (m * 2 ^ 1074).fdiv (2 ^ 1074) * 2 ^ 1074 = _; rw [Int.mul_fdiv_cancel _ (Int.ne_of_gt pow1074_int)])

theorem is_ceil {x : F64} {m : Int} (hx : x.Is m) (h : m.natAbs ≤ 2 ^ 53) : x.ceil.Is m :=
  is_toWhole _ hx h (by
    show -((-(m * 2 ^ 1074)).fdiv (2 ^ 1074) * 2 ^ 1074) = _
    rw [show -(m * 2 ^ 1074) = -m * 2 ^ 1074 from (Int.neg_mul ..).symm, Int.mul_fdiv_cancel _ (Int.ne_of_gt pow1074_int), Int.neg_mul, Int.neg_neg])

theorem is_trunc {x : F64} {m : Int} (hx : x.Is m) (h : m.natAbs ≤ 2 ^ 53) : x.trunc.Is m :=
  is_toWhole _ hx h (by show (m * 2 ^ 1074).tdiv (2 ^ 1074) * 2 ^ 1074 = _; rw [Int.mul_tdiv_cancel _ (Int.ne_of_gt pow1074_int)])

theorem half_up {P : Int} (hP : 0 < P) (n : Int) (hn : 0 ≤ n) : (2 * (n * P) + P).tdiv (2 * P) = n := by
  rw [show 2 * (n * P) + P = P + (2 * P) * n by grind, Int.tdiv_eq_ediv_of_nonneg (by
    have := Int.mul_nonneg (show 0 ≤ 2 * P by omega) hn
    omega), Int.add_mul_ediv_left _ _ (by omega), Int.ediv_eq_zero_of_lt (by omega) (by omega)]
  omega

theorem is_round {x : F64} {m : Int} (hx : x.Is m) (h : m.natAbs ≤ 2 ^ 53) : x.round.Is m :=
  is_toWhole _ hx h (by
    show (if m * 2 ^ 1074 < 0 then -((2 * -(m * 2 ^ 1074) + 2 ^ 1074).tdiv (2 * 2 ^ 1074)) else (2 * (m * 2 ^ 1074) + 2 ^ 1074).tdiv (2 * 2 ^ 1074)) * 2 ^ 1074 = _
    have hp := pow1074_int
    generalize (2 : Int) ^ 1074 = P at *
    by_cases hm : m < 0
    · rw [if_pos (Int.mul_neg_of_neg_of_pos hm hp), ← Int.neg_mul, half_up hp (-m) (by omega), Int.neg_neg]
    · have := Int.mul_nonneg (show 0 ≤ m by omega) (show 0 ≤ P by omega)
      rw [if_neg (by omega), half_up hp m (by omega)])

theorem is_fmax {x y : F64} {m n : Int} (hx : x.Is m) (hy : y.Is n) : (F64.fmax x y).Is (max m n) := by
  unfold F64.fmax
  rw [hx.1, hy.1, is_gt hx hy]
  simp only [Bool.false_eq_true, if_false, decide_eq_true_eq]
  split
  · rw [Int.max_eq_left (by omega)]; exact hx
  · rw [Int.max_eq_right (by omega)]; exact hy

theorem is_fmin {x y : F64} {m n : Int} (hx : x.Is m) (hy : y.Is n) : (F64.fmin x y).Is (min m n) := by
  unfold F64.fmin
  rw [hx.1, hy.1, is_gt hy hx]
  simp only [Bool.false_eq_true, if_false, decide_eq_true_eq]
  split
  · rw [Int.min_eq_left (by omega)]; exact hx
  · rw [Int.min_eq_right (by omega)]; exact hy

theorem is_fdim {x y : F64} {m n : Int} (hx : x.Is m) (hy : y.Is n) (h : (if m > n then m - n else 0).natAbs ≤ 2 ^ 53) :
    (F64.fdim x y).Is (if m > n then m - n else 0) := by
  unfold F64.fdim
  rw [hx.1, hy.1, is_gt hx hy]
  simp only [Bool.false_eq_true, if_false, decide_eq_true_eq]
  by_cases hmn : m > n
  · rw [if_pos hmn] at h ⊢
    rw [if_pos hmn]
    exact is_sub hx hy h
  · rw [if_neg hmn, if_neg hmn]
    exact is_ofNat (n := 0) (by decide)

theorem is_toUsize {x : F64} {n : Nat} (hx : x.Is n) (h : n ≤ 2 ^ 53) : x.toUsize = n := by
  unfold F64.toUsize
  rw [hx.1, hx.abs, Int.natAbs_natCast, Nat.mul_div_cancel _ pow1074_pos]
  by_cases h0 : n = 0
  · subst h0
    split
    · rfl
    · rfl
  · rw [is_isNeg hx (by omega), decide_eq_false (by omega)]
    simp only [Bool.or_false, Bool.false_eq_true, if_false]
    have : (2 : Nat) ^ 53 ≤ 2 ^ 64 - 1 := by decide
    omega

theorem factTable_small : ∀ n : Nat, 0 < n → n ≤ 18 →
    (factorialTable.getD n (0, 0)).1 * 10 ^ (factorialTable.getD n (0, 0)).2 = factorialNat n ∧ factorialNat n ≤ 2 ^ 53 := by
  have : ∀ n : Fin 19, 0 < n.val →
      (factorialTable.getD n.val (0, 0)).1 * 10 ^ (factorialTable.getD n.val (0, 0)).2 = factorialNat n.val ∧ factorialNat n.val ≤ 2 ^ 53 := by
    decide +kernel
  exact fun n h1 h2 => this ⟨n, by omega⟩ h1

theorem factorialNat_mono : ∀ m n : Nat, m ≤ n → factorialNat m ≤ factorialNat n := by
  intro m n h
  induction h with
  | refl => exact Nat.le_refl _
  | step _ ih =>
    rw [factorialNat]
    refine Nat.le_trans ih ?_
    exact Nat.le_mul_of_pos_left _ (by omega)

theorem fact_limit {n : Nat} (h : factorialNat n ≤ 2 ^ 53) : n ≤ 18 := by
  by_cases hn : n ≤ 18
  · exact hn
  · have h1 := factorialNat_mono 19 n (by omega)
    have h2 : ¬ factorialNat 19 ≤ 2 ^ 53 := by decide +kernel
    omega

theorem is_fact {x : F64} {n : Nat} (hx : x.Is n) (h0 : 0 < n) (h : factorialNat n ≤ 2 ^ 53) : (factF x).Is (factorialNat n) := by
  have hn := fact_limit h
  unfold factF
  rw [is_lt hx (is_ofNat (n := 0) (by decide)), decide_eq_false (by omega)]
  have hr := is_toUsize (is_round hx (by omega)) (show n ≤ 2 ^ 53 by omega)
  simp only [Bool.false_eq_true, if_false, hr]
  rw [if_neg (by omega), (factTable_small n h0 hn).1]
  exact is_ofNat h

end Cdx
