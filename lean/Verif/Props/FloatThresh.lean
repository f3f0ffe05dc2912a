import Verif.Props.FloatSampler

/-!
C43: thresholds with doubles. `Model/Ops` compares exact fractions; the doubles give the same answers except at the rounded limit itself.
-/

namespace Cdx

/-! ## The limits -/

theorem is_mulAdd {x y z : F64} {l m n : Int} (hx : x.Is l) (hy : y.Is m) (hz : z.Is n) (h : (l * m + n).natAbs ≤ 2 ^ 53) :
    (x.mulAdd y z).Is (l * m + n) := by
  rw [Is_iff, mulAdd_fin hx.fin hy.fin hz.fin]
  have e : x.scaled * y.scaled + z.scaled * 2 ^ 1074 = (l * m + n) * 2 ^ 1074 * ((2 ^ 1074 : Nat) : Int) := by
    rw [((Is_iff _ _).1 hx).2, ((Is_iff _ _).1 hy).2, ((Is_iff _ _).1 hz).2, Int.natCast_pow]
    rw [show ((2 : Nat) : Int) = 2 from rfl]
    generalize (2 : Int) ^ 1074 = P
    grind
  refine ofScaled_exact _ pow1074_pos ?_ e
  rw [Int.natAbs_mul, Int.natAbs_pow]
  exact rep_le 1074 _ h (by decide)

/-- The double nearest to `m / d`, for a whole `m` that may be negative. -/
def F64.quot (m : Int) (d : Nat) : F64 := F64.make (m < 0) (roundMag (m.natAbs * 2 ^ 1074) d)

theorem is_isNeg {x : F64} {m : Int} (hx : x.Is m) (h0 : m ≠ 0) : x.isNeg = decide (m < 0) := by
  have ex := scaled_abs x
  rw [((Is_iff _ _).1 hx).2, hx.abs] at ex
  have hp : (0 : Int) < 2 ^ 1074 := by exact_mod_cast pow1074_pos
  rw [Int.natCast_mul, Int.natCast_pow, show ((2 : Nat) : Int) = 2 from rfl] at ex
  generalize (2 : Int) ^ 1074 = P at *
  generalize x.isNeg = b at *
  cases b
  · rw [if_neg (by decide)] at ex
    have := Int.eq_of_mul_eq_mul_right (Int.ne_of_gt hp) ex
    exact (decide_eq_false (by omega)).symm
  · rw [if_pos rfl, ← Int.neg_mul] at ex
    have := Int.eq_of_mul_eq_mul_right (Int.ne_of_gt hp) ex
    exact (decide_eq_true (by omega)).symm

theorem div_quot {x y : F64} {m : Int} {d : Nat} (hx : x.Is m) (hy : y.Is d) (hm : m ≠ 0) (hd : 0 < d) : x.div y = F64.quot m d := by
  have hya : y.abs = d * 2 ^ 1074 := by rw [hy.abs, Int.natAbs_natCast]
  have h0 : y.abs ≠ 0 := by
    rw [hya]
    exact Nat.ne_of_gt (Nat.mul_pos hd pow1074_pos)
  rw [div_fin hx.fin hy.fin h0, is_isNeg hx hm, is_isNeg hy (by omega), hx.abs, hya, roundMag_scale _ _ _ hd pow1074_pos]
  unfold F64.quot
  rw [decide_eq_false (show ¬ ((d : Int) < 0) by omega)]
  simp

theorem upper_eq {n tot : Nat} (hn : n ≤ 2 ^ 51) (ht : tot ≤ 2 ^ 51) (h0 : 0 < tot) : f64Upper n tot = F64.quot (2 * n + 1) (2 * tot) := by
  unfold f64Upper
  have h1 := is_mulAdd (is_ofNat (n := 2) (by decide)) (is_ofNat (n := n) (by omega)) (is_ofNat (n := 1) (by decide)) (by omega)
  have h2 := is_mul (is_ofNat (n := 2) (by decide)) (is_ofNat (n := tot) (by omega)) (by omega)
  exact div_quot (d := 2 * tot) h1 (by rw [Int.natCast_mul]; exact h2) (by omega) (by omega)

theorem lower_eq {n tot : Nat} (hn : n ≤ 2 ^ 51) (ht : tot ≤ 2 ^ 51) (h0 : 0 < tot) : f64Lower n tot = F64.quot (2 * n - 1) (2 * tot) := by
  unfold f64Lower
  have h1 := is_mulAdd (is_ofNat (n := 2) (by decide)) (is_ofNat (n := n) (by omega)) (is_negate (is_ofNat (n := 1) (by decide))) (by omega)
  have h2 := is_mul (is_ofNat (n := 2) (by decide)) (is_ofNat (n := tot) (by omega)) (by omega)
  exact div_quot (d := 2 * tot) h1 (by rw [Int.natCast_mul]; exact h2) (by omega) (by omega)

/-! ## A double against a rounded quotient -/

theorem quot_isNaN (m : Int) (d : Nat) : (F64.quot m d).isNaN = false := by
  unfold F64.quot
  rw [← Bool.not_eq_true, isNaN_iff, make_mod _ (roundMag_lt_top _ _)]
  exact Nat.not_lt.2 (roundMag_le_inf _ _)

theorem quot_scaled (m : Int) (d : Nat) :
    (F64.quot m d).scaled = if m < 0 then -(magVal (roundMag (m.natAbs * 2 ^ 1074) d) : Int) else magVal (roundMag (m.natAbs * 2 ^ 1074) d) := by
  unfold F64.quot
  rw [make_scaled _ (roundMag_lt_top _ _)]
  by_cases h : m < 0 <;> simp [h]

theorem nonneg_natAbs {m : Int} (h : 0 ≤ m) (P : Nat) : ((m.natAbs * P : Nat) : Int) = m * P := by
  rw [Int.natCast_mul, Int.natAbs_of_nonneg h]

theorem quot_le {t : F64} (ht : NN t) (hf : t.toNat < infMag) {m : Int} {d : Nat} (hd : 0 < d)
    (h : m * ((2 ^ 1074 : Nat) : Int) ≤ ((t.abs * d : Nat) : Int)) : (F64.quot m d).scaled ≤ t.scaled := by
  rw [quot_scaled, ht.scaled]
  by_cases hm : m < 0
  · rw [if_pos hm]
    omega
  · rw [if_neg hm, ht.abs]
    have e : m.natAbs * 2 ^ 1074 ≤ magVal t.toNat * d := by
      rw [← ht.abs]
      have := nonneg_natAbs (show 0 ≤ m by omega) (2 ^ 1074)
      rw [← this] at h
      exact Int.ofNat_le.1 h
    have := magVal_le ht.lt (roundMag_le hd hf e)
    exact Int.ofNat_le.2 this

theorem le_quot {t : F64} (ht : NN t) (hf : t.toNat < infMag) {m : Int} {d : Nat} (hd : 0 < d)
    (h : ((t.abs * d : Nat) : Int) ≤ m * ((2 ^ 1074 : Nat) : Int)) : t.scaled ≤ (F64.quot m d).scaled := by
  have hm : ¬ m < 0 := by
    intro hm
    have hp : (0 : Int) < ((2 ^ 1074 : Nat) : Int) := Int.natCast_pos.2 pow1074_pos
    have := Int.mul_neg_of_neg_of_pos hm hp
    generalize m * ((2 ^ 1074 : Nat) : Int) = z at *
    omega
  rw [quot_scaled, ht.scaled, if_neg hm, ht.abs]
  have e : magVal t.toNat * d ≤ m.natAbs * 2 ^ 1074 := by
    rw [← ht.abs]
    have := nonneg_natAbs (show 0 ≤ m by omega) (2 ^ 1074)
    rw [← this] at h
    exact Int.ofNat_le.1 h
  have := magVal_le (roundMag_lt_top _ _) (le_roundMag hd hf e)
  exact Int.ofNat_le.2 this

/-- The fraction `p / q` is the value of the double. -/
theorem frac_cross {P A q p d : Nat} {m : Int} (hP : 0 < P) (hq : 0 < q) (h : A * q = p * P) :
    (m * (P : Int) ≤ ((A * d : Nat) : Int) ↔ m * q ≤ (p * d : Nat)) ∧ (((A * d : Nat) : Int) ≤ m * (P : Int) ↔ ((p * d : Nat) : Int) ≤ m * q) := by
  have hP' : (0 : Int) < P := Int.natCast_pos.2 hP
  have hq' : (0 : Int) < q := Int.natCast_pos.2 hq
  have e : ((A * d : Nat) : Int) * q = ((p * d : Nat) : Int) * P := by
    have : A * d * q = p * d * P := by rw [Nat.mul_right_comm, h, Nat.mul_right_comm]
    exact_mod_cast this
  generalize ((A * d : Nat) : Int) = X at *
  generalize ((p * d : Nat) : Int) = Y at *
  have e2 : m * P * q = m * q * P := by rw [Int.mul_right_comm]
  constructor
  · constructor
    · intro g
      have := Int.mul_le_mul_of_nonneg_right g (Int.le_of_lt hq')
      rw [e, e2] at this
      exact Int.le_of_mul_le_mul_right this hP'
    · intro g
      have := Int.mul_le_mul_of_nonneg_right g (Int.le_of_lt hP')
      rw [← e, ← e2] at this
      exact Int.le_of_mul_le_mul_right this hq'
  · constructor
    · intro g
      have := Int.mul_le_mul_of_nonneg_right g (Int.le_of_lt hq')
      rw [e, e2] at this
      exact Int.le_of_mul_le_mul_right this hP'
    · intro g
      have := Int.mul_le_mul_of_nonneg_right g (Int.le_of_lt hP')
      rw [← e, ← e2] at this
      exact Int.le_of_mul_le_mul_right this hq'

/-- A double compared with a rounded quotient: as with the quotient itself, unless it is the rounded quotient and not the quotient. -/
theorem against_quot {t : F64} (ht : NN t) (hf : t.toNat < infMag) {p q : Nat} (hq : 0 < q) (hv : t.abs * q = p * 2 ^ 1074) (m : Int) {d : Nat}
    (hd : 0 < d) (hne : F64.eq t (F64.quot m d) = true → ((p * d : Nat) : Int) = m * q) :
    (t.gt (F64.quot m d) = decide (((p * d : Nat) : Int) > m * q)) ∧ ((F64.quot m d).gt t = decide (((p * d : Nat) : Int) < m * q)) := by
  obtain ⟨c1, c2⟩ := frac_cross (d := d) (m := m) pow1074_pos hq hv
  have l1 := quot_le ht hf (m := m) hd
  have l2 := le_quot ht hf (m := m) hd
  unfold F64.eq at hne
  unfold F64.gt
  rw [ht.isNaN, quot_isNaN] at hne ⊢
  simp only [Bool.not_false, Bool.true_and, beq_iff_eq] at hne ⊢
  rw [c1] at l1
  rw [c2] at l2
  clear c1 c2
  generalize ((p * d : Nat) : Int) = X at *
  generalize m * (q : Int) = Y at *
  generalize (F64.quot m d).scaled = S at *
  generalize t.scaled = T at *
  constructor
  · exact decide_eq_decide.2 ⟨fun h => by rcases Int.lt_or_le Y X with g | g; exact g; have := l2 g; omega, fun h => by have := l1 (by omega); omega⟩
  · exact decide_eq_decide.2 ⟨fun h => by rcases Int.lt_or_le X Y with g | g; exact g; have := l1 g; omega, fun h => by have := l2 (by omega); omega⟩

/-- A double that is the quotient is the rounded quotient. -/
theorem eq_quot {t : F64} (ht : NN t) (hf : t.toNat < infMag) {p q : Nat} (hq : 0 < q) (hv : t.abs * q = p * 2 ^ 1074) (m : Int) {d : Nat}
    (hd : 0 < d) (he : m * q = ((p * d : Nat) : Int)) : F64.eq t (F64.quot m d) = true := by
  obtain ⟨c1, c2⟩ := frac_cross (d := d) (m := m) pow1074_pos hq hv
  have l1 := quot_le ht hf (m := m) hd (c1.2 (Int.le_of_eq he))
  have l2 := le_quot ht hf (m := m) hd (c2.2 (Int.le_of_eq he.symm))
  unfold F64.eq
  rw [ht.isNaN, quot_isNaN, Int.le_antisymm l2 l1]
  simp

/-! ## No columns -/

theorem div_zero_inf {x y : F64} {m : Int} (hx : x.Is m) (hm : m ≠ 0) (hy : y.Is 0) (hn : y.isNeg = false) :
    x.div y = F64.make (m < 0) infMag := by
  have hya : y.abs = 0 := by rw [hy.abs, Int.natAbs_zero, Nat.zero_mul]
  have hxa : x.abs ≠ 0 := by
    rw [hx.abs]
    exact Nat.ne_of_gt (Nat.mul_pos (by omega) pow1074_pos)
  unfold F64.div
  rw [hx.1, hy.1, hx.2.1, hy.2.1, hya, hn, is_isNeg hx hm]
  simp only [Bool.or_self, Bool.false_eq_true, if_false, if_true, hxa, Bool.bne_false]

theorem upper_zero {n : Nat} (hn : n ≤ 2 ^ 51) : f64Upper n 0 = F64.make false infMag := by
  unfold f64Upper
  have h1 := is_mulAdd (is_ofNat (n := 2) (by decide)) (is_ofNat (n := n) (by omega)) (is_ofNat (n := 1) (by decide)) (by omega)
  have h2 : ((F64.ofNat 2).mul (F64.ofNat 0)).Is 0 := is_mul (is_ofNat (n := 2) (by decide)) (is_ofNat (n := 0) (by decide)) (by decide)
  rw [div_zero_inf h1 (by omega) h2 (by decide +kernel), decide_eq_false (by omega)]

theorem lower_zero {n : Nat} (hn : n ≤ 2 ^ 51) : f64Lower n 0 = F64.make (decide (n = 0)) infMag := by
  unfold f64Lower
  have h1 := is_mulAdd (is_ofNat (n := 2) (by decide)) (is_ofNat (n := n) (by omega)) (is_negate (is_ofNat (n := 1) (by decide))) (by omega)
  have h2 : ((F64.ofNat 2).mul (F64.ofNat 0)).Is 0 := is_mul (is_ofNat (n := 2) (by decide)) (is_ofNat (n := 0) (by decide)) (by decide)
  rw [div_zero_inf h1 (by omega) h2 (by decide +kernel)]
  congr 1
  exact decide_eq_decide.2 (by omega)

theorem inf_above {t : F64} (ht : NN t) (hf : t.toNat < infMag) :
    (F64.make false infMag).gt t = true ∧ t.gt (F64.make false infMag) = false ∧ F64.eq t (F64.make false infMag) = false ∧
      t.gt (F64.make true infMag) = true ∧ (F64.make true infMag).gt t = false ∧ F64.eq t (F64.make true infMag) = false := by
  have e1 : (F64.make false infMag).scaled = magVal infMag := by rw [make_scaled _ infMag_lt]; rfl
  have e2 : (F64.make true infMag).scaled = -(magVal infMag : Int) := by rw [make_scaled _ infMag_lt]; rfl
  have n1 : (F64.make false infMag).isNaN = false := by decide +kernel
  have n2 : (F64.make true infMag).isNaN = false := by decide +kernel
  have h1 : magVal t.toNat < magVal infMag := magVal_lt infMag_lt hf
  unfold F64.gt F64.eq
  rw [ht.isNaN, n1, n2, e1, e2, ht.scaled, ht.abs]
  generalize magVal t.toNat = a at *
  generalize magVal infMag = b at *
  simp only [Bool.not_false, Bool.true_and, decide_eq_true_eq, decide_eq_false_iff_not, beq_eq_false_iff_ne]
  omega

/-! ## C43 -/

theorem tot_twice (p tot : Nat) : ((p * (2 * tot) : Nat) : Int) = 2 * p * tot := by
  rw [Int.natCast_mul, Int.natCast_mul, show ((2 : Nat) : Int) = 2 from rfl]
  grind

/-- The thresholds with doubles answer as the exact fractions of `Model/Ops` do. What is missing: a target that is the rounded limit
but not the limit, where the answer is that of the rounded limit (`C43_doubles_limit`). -/
theorem C43_doubles_partial (t : F64) (ht : NN t) (hf : t.toNat < infMag) (p q : Nat) (hq : 0 < q) (hv : t.abs * q = p * 2 ^ 1074) (n tot : Nat)
    (hn : n ≤ 2 ^ 51) (htot : tot ≤ 2 ^ 51) (hu : F64.eq t (f64Upper n tot) = true → (2 * p * tot : Int) = (2 * n + 1) * q)
    (hl : F64.eq t (f64Lower n tot) = true → (2 * p * tot : Int) = (2 * n - 1) * q) :
    f64LessF t n tot = fracLess p q n tot ∧ f64GreaterF t n tot = fracGreater p q n tot ∧ f64EqualF t n tot = fracEqual p q n tot := by
  have hq' : (0 : Int) < q := Int.natCast_pos.2 hq
  have A := fun m d hd hne => against_quot ht hf hq hv m (d := d) hd hne
  have K := fun m d hd he => eq_quot ht hf hq hv m (d := d) hd he
  clear hv
  have main : ((f64Upper n tot).gt t = decide ((2 * p * tot : Int) < (2 * n + 1) * q)) ∧
      (t.gt (f64Lower n tot) = decide ((2 * p * tot : Int) > (2 * n - 1) * q)) := by
    rcases Nat.eq_zero_or_pos tot with h0 | h0
    · subst h0
      obtain ⟨i1, i2, _, i4, _, _⟩ := inf_above ht hf
      rw [upper_zero hn, lower_zero hn, i1]
      constructor
      · have : (0 : Int) < (2 * n + 1) * q := Int.mul_pos (by omega) hq'
        exact (decide_eq_true (by omega)).symm
      · by_cases h1 : n = 0
        · subst h1
          rw [decide_eq_true rfl, i4]
          exact (decide_eq_true (by omega)).symm
        · have : (0 : Int) < (2 * n - 1) * q := Int.mul_pos (by omega) hq'
          rw [decide_eq_false h1, i2]
          exact (decide_eq_false (by omega)).symm
    · rw [upper_eq hn htot h0] at hu ⊢
      rw [lower_eq hn htot h0] at hl ⊢
      have a := (A (2 * n + 1) (2 * tot) (by omega) (by rw [tot_twice]; exact hu)).2
      have b := (A (2 * n - 1) (2 * tot) (by omega) (by rw [tot_twice]; exact hl)).1
      rw [tot_twice] at a b
      exact ⟨a, b⟩
  unfold f64LessF f64GreaterF f64EqualF fracLess fracGreater fracEqual
  refine ⟨main.1, main.2, ?_⟩
  rw [main.1]
  unfold F64.ge
  rw [main.2]
  congr 1
  have he : F64.eq t (f64Lower n tot) = decide ((2 * p * tot : Int) = (2 * n - 1) * q) := by
    rw [Bool.eq_iff_iff, decide_eq_true_eq]
    refine ⟨hl, fun he => ?_⟩
    rcases Nat.eq_zero_or_pos tot with h0 | h0
    · subst h0
      rcases Int.mul_eq_zero.1 (he.symm.trans (by omega)) with g | g <;> omega
    · rw [lower_eq hn htot h0]
      exact K (2 * n - 1) (2 * tot) (by omega) (by rw [tot_twice]; exact he.symm)
  rw [he, ← Bool.decide_or]
  exact decide_eq_decide.2 (by omega)

/-- A sixth, rounded: of no match among three columns, the exact sixth of the upper limit is above the double, the rounded one is not. -/
theorem C43_doubles_limit :
    (F64.lit 1 6).abs * 36028797018963968 = 6004799503160661 * 2 ^ 1074 ∧ f64LessF (F64.lit 1 6) 0 3 = false ∧
      fracLess 6004799503160661 36028797018963968 0 3 = true := by
  decide +kernel

/-- Three quarters, of two columns with two matches: the lower limit, which is a double. -/
example : NN (F64.lit 3 4) ∧ (F64.lit 3 4).toNat < infMag ∧ (F64.lit 3 4).abs * 4 = 3 * 2 ^ 1074 ∧
    (F64.eq (F64.lit 3 4) (f64Upper 2 2) = true → (2 * (3 : Nat) * (2 : Nat) : Int) = (2 * (2 : Nat) + 1) * (4 : Nat)) ∧
    F64.eq (F64.lit 3 4) (f64Lower 2 2) = true ∧ (2 * (3 : Nat) * (2 : Nat) : Int) = (2 * (2 : Nat) - 1) * (4 : Nat) :=
  ⟨show (F64.lit 3 4).toNat ≤ infMag by decide +kernel, by decide +kernel⟩

end Cdx
