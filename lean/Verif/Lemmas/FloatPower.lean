import Verif.Props.FloatPrec

/-!
Doubles rounded to whole numbers and printed with a letter for the power.
-/

namespace Cdx

/-! ## Rounding to a whole number -/

theorem magVal_big {m : Nat} (h : 2 ^ 53 * 2 ^ 1074 ≤ magVal m) : ∃ c, magVal m = c * 2 ^ 1074 := by
  unfold magVal at h ⊢
  split at h
  · exfalso
    have h1 := Nat.mod_lt m (show 0 < 2 ^ 52 by decide)
    have h2 := pow1074_pos
    generalize 2 ^ 1074 = P at *
    have h3 := Nat.le_mul_of_pos_right (2 ^ 53) h2
    omega
  · rename_i hc
    rw [if_neg hc]
    generalize m / 2 ^ 52 % 2048 - 1 = j at *
    have hf := Nat.mod_lt m (show 0 < 2 ^ 52 by decide)
    generalize m % 2 ^ 52 = f at *
    by_cases hj : j < 1074
    · exfalso
      have h1 : (2 : Nat) ^ j ≤ 2 ^ 1074 := Nat.pow_le_pow_right (by decide) (by omega)
      have h2 := Nat.mul_le_mul_left (2 ^ 52 + f) h1
      have h3 : (2 ^ 52 + f) * 2 ^ 1074 < 2 ^ 53 * 2 ^ 1074 := Nat.mul_lt_mul_of_pos_right (by omega) pow1074_pos
      exact absurd (Nat.lt_of_le_of_lt (Nat.le_trans h h2) h3) (Nat.lt_irrefl _)
    · refine ⟨(2 ^ 52 + f) * 2 ^ (j - 1074), ?_⟩
      rw [Nat.mul_assoc, ← Nat.pow_add, Nat.sub_add_cancel (by omega)]

/-- The whole number next to a number of `a` units, for greater ones the number itself, is a double. -/
theorem rep_round {P a n : Nat} (hP : P = 2 ^ 1074) (ha : Rep a) (hbig : 2 ^ 53 * P ≤ a → ∃ c, a = c * P) (h1 : 2 * a ≤ 2 * (n * P) + P) (h2 : 2 * (n * P) ≤ 2 * a + P) :
    Rep (n * P) := by
  by_cases hn : n ≤ 2 ^ 53
  · rw [hP]
    exact rep_le 1074 n hn (by decide)
  · have hpos : 0 < P := by rw [hP]; exact pow1074_pos
    have h3 : (2 ^ 53 + 1) * P ≤ n * P := Nat.mul_le_mul_right _ (by omega)
    obtain ⟨c, hc⟩ := hbig (by rw [Nat.add_mul] at h3; omega)
    have : n = c := by
      rw [hc] at h1 h2
      rcases Nat.lt_trichotomy n c with h | h | h
      · have := Nat.mul_le_mul_right P (Nat.succ_le_of_lt h)
        rw [Nat.succ_mul] at this
        omega
      · exact h
      · have := Nat.mul_le_mul_right P (Nat.succ_le_of_lt h)
        rw [Nat.succ_mul] at this
        omega
    rw [this, ← hc]
    exact ha

theorem half_near {P : Nat} (hP : 0 < P) (a : Nat) :
    2 * a ≤ 2 * ((2 * a + P) / (2 * P) * P) + P ∧ 2 * ((2 * a + P) / (2 * P) * P) ≤ 2 * a + P := by
  have e := Nat.div_add_mod (2 * a + P) (2 * P)
  have l := Nat.mod_lt (2 * a + P) (show 0 < 2 * P by omega)
  rw [show 2 * P * ((2 * a + P) / (2 * P)) = 2 * ((2 * a + P) / (2 * P) * P) by rw [Nat.mul_assoc, Nat.mul_comm P]] at e
  omega

/-- What `round` gives to `ofScaled`. -/
theorem round_arg {P : Nat} (hP : 0 < P) (a : Nat) (b : Bool) :
    (if (if b then -(a : Int) else a) < 0 then -((2 * -(if b then -(a : Int) else a) + (P : Int)).tdiv (2 * (P : Int)))
      else (2 * (if b then -(a : Int) else a) + (P : Int)).tdiv (2 * (P : Int))) * (P : Int) =
    if b then -(((2 * a + P) / (2 * P) * P : Nat) : Int) else (((2 * a + P) / (2 * P) * P : Nat) : Int) := by
  have key : (2 * (a : Int) + (P : Int)).tdiv (2 * (P : Int)) = (((2 * a + P) / (2 * P) : Nat) : Int) := by
    rw [Int.tdiv_eq_ediv_of_nonneg (by omega)]
    rw [Int.natCast_ediv]
    rfl
  cases b
  · simp only [Bool.false_eq_true, if_false]
    rw [if_neg (by omega), key, Int.natCast_mul]
  · simp only [if_true]
    by_cases h0 : a = 0
    · subst h0
      rw [if_neg (by simp)]
      have : (2 * 0 + P) / (2 * P) = 0 := Nat.div_eq_of_lt (by omega)
      rw [this]
      have hz : (2 * -((0 : Nat) : Int) + (P : Int)).tdiv (2 * (P : Int)) = 0 := by
        rw [Int.tdiv_eq_ediv_of_nonneg (by omega), Int.ediv_eq_zero_of_lt (by omega) (by omega)]
      rw [hz]
      simp
    · rw [if_pos (by omega), Int.neg_neg, key, Int.natCast_mul, Int.neg_mul]

/-- A finite double is rounded to a whole number at most a half away; the sign stays. -/
theorem round_is {x : F64} (hx : x.Fin) : ∃ n : Nat, x.round.Is (if x.isNeg then -(n : Int) else n) ∧ x.round.isNeg = x.isNeg ∧
    2 * x.abs ≤ 2 * (n * 2 ^ 1074) + 2 ^ 1074 ∧ 2 * (n * 2 ^ 1074) ≤ 2 * x.abs + 2 ^ 1074 := by
  obtain ⟨h1, h2⟩ := (Fin_iff x).1 hx
  obtain ⟨P, hP⟩ : ∃ P, P = 2 ^ 1074 := ⟨_, rfl⟩
  have hpos : 0 < P := by rw [hP]; exact pow1074_pos
  have hPi : ((2 : Int) ^ 1074) = (P : Int) := by rw [hP]; exact_mod_cast rfl
  have hr : x.round = F64.ofScaled x.isNeg
      (if x.isNeg then -(((2 * x.abs + P) / (2 * P) * P : Nat) : Int) else (((2 * x.abs + P) / (2 * P) * P : Nat) : Int)) 1 := by
    unfold F64.round F64.toWhole
    rw [h1, h2, hPi]
    simp only [Bool.or_false, Bool.false_eq_true, if_false]
    rw [scaled_abs, round_arg hpos]
  have ha : Rep x.abs := by
    rw [abs_eq]
    exact ⟨_, hx, rfl⟩
  have hbig : 2 ^ 53 * P ≤ x.abs → ∃ c, x.abs = c * P := by
    rw [hP, abs_eq]
    exact magVal_big
  obtain ⟨n1, n2⟩ := half_near hpos x.abs
  refine ⟨(2 * x.abs + P) / (2 * P), ?_, ?_, by rw [← hP]; exact n1, by rw [← hP]; exact n2⟩
  · rw [hr]
    generalize (2 * x.abs + P) / (2 * P) = n at *
    have hrep := rep_round hP ha hbig n1 n2
    obtain ⟨e1, e2⟩ := ofScaled_exact x.isNeg (s := if x.isNeg then -((n * P : Nat) : Int) else ((n * P : Nat) : Int))
      (v := if x.isNeg then -((n * P : Nat) : Int) else ((n * P : Nat) : Int)) (b := 1) (by decide) (by
        have : (if x.isNeg then -((n * P : Nat) : Int) else ((n * P : Nat) : Int)).natAbs = n * P := by
          cases x.isNeg <;> simp only [Bool.false_eq_true, if_true, if_false] <;> omega
        rw [this]
        exact hrep) (by omega)
    rw [Is_iff]
    refine ⟨e1, ?_⟩
    rw [e2, hPi]
    cases x.isNeg
    · simp only [Bool.false_eq_true, if_false]
      rw [Int.natCast_mul]
    · simp only [if_true]
      rw [Int.natCast_mul, Int.neg_mul]
  · rw [hr]
    generalize (2 * x.abs + P) / (2 * P) * P = w
    unfold F64.ofScaled
    have hm : ∀ a b, roundMag a b < 2 ^ 63 := fun a b => Nat.lt_of_le_of_lt (roundMag_le_inf a b) infMag_lt
    cases x.isNeg
    · simp only [Bool.false_eq_true, if_false]
      split
      · exact make_isNeg _ (by decide)
      · rw [make_isNeg _ (hm _ _)]
        exact decide_eq_false (by omega)
    · simp only [if_true]
      split
      · exact make_isNeg _ (by decide)
      · rw [make_isNeg _ (hm _ _)]
        exact decide_eq_true (by omega)

/-! ## The powers -/

theorem nn_lt {x y : F64} (hx : NN x) (hy : NN y) : x.lt y = decide (x.abs < y.abs) := by
  unfold F64.lt F64.gt
  rw [hx.isNaN, hy.isNaN, hx.scaled, hy.scaled]
  simp only [Bool.not_false, Bool.true_and]
  exact decide_eq_decide.2 (by omega)

theorem nn_ge {x y : F64} (hx : NN x) (hy : NN y) : x.ge y = decide (y.abs ≤ x.abs) := by
  unfold F64.ge F64.gt F64.eq
  rw [hx.isNaN, hy.isNaN, hx.scaled, hy.scaled]
  simp only [Bool.not_false, Bool.true_and]
  rw [← Bool.eq_iff_iff.2 (show decide ((x.abs : Int) = y.abs) = true ↔ ((x.abs : Int) == y.abs) = true by simp), ← Bool.decide_or]
  exact decide_eq_decide.2 (by omega)

/-- The powers of the base as the loop computes them. -/
def currF (base : Nat) : Nat → F64
  | 0 => F64.ofNat 1
  | e + 1 => (currF base e).mul (F64.ofNat base)

/-- A double that is at least `l / m` and at most `h / m` times a number of units. -/
def Around (x : F64) (m l h V : Nat) : Prop := x.toNat < infMag ∧ l * V ≤ m * x.abs ∧ m * x.abs ≤ h * V

instance (x : F64) (m l h V : Nat) : Decidable (Around x m l h V) := inferInstanceAs (Decidable (_ ∧ _ ∧ _))

/-- The limits of the loop. -/
def PowFacts (base e : Nat) : Prop :=
  Around (currF base e) 1000 999 1001 (base ^ e * 2 ^ 1074) ∧
  Around ((F64.ofNat 999).mul (currF base e)) 1 998 1000 (base ^ e * 2 ^ 1074) ∧
  Around ((F64.ofNat 10).mul (currF base e)) 100 999 1001 (base ^ e * 2 ^ 1074) ∧
  Around ((F64.lit 11 10).mul (currF base e)) 100 109 111 (base ^ e * 2 ^ 1074)

instance (base e : Nat) : Decidable (PowFacts base e) := inferInstanceAs (Decidable (_ ∧ _ ∧ _ ∧ _))

theorem pow_facts (base e : Nat) (hb : base = 1000 ∨ base = 1024) (he : e ≤ 8) : PowFacts base e := by
  have h : ∀ e : Fin 9, PowFacts 1000 e.val ∧ PowFacts 1024 e.val := by decide +kernel
  have := h ⟨e, by omega⟩
  rcases hb with rfl | rfl
  · exact this.1
  · exact this.2

theorem Around.nn {x : F64} {m l h V : Nat} (hx : Around x m l h V) : NN x := Nat.le_of_lt hx.1

/-- The quotient of a number and a power. -/
theorem quot_near {x c : F64} (hx : NN x) (hxf : x.toNat < infMag) {P V : Nat} (hP : P = 2 ^ 1074) (hc : Around c 1000 999 1001 V) (hV : 100 * P ≤ V) (hlow : V ≤ 2 * x.abs) :
    NN (x.div c) ∧ (x.div c).toNat < infMag ∧ 999 * ((x.div c).abs * V) ≤ 1002 * (x.abs * P) ∧ 998 * (x.abs * P) ≤ 1001 * ((x.div c).abs * V) := by
  obtain ⟨c1, c2, c3⟩ := hc
  have hcn : NN c := Nat.le_of_lt c1
  have hxF := (hx.fin).2 hxf
  have hpos : 0 < P := by rw [hP]; exact pow1074_pos
  have hc0 : 0 < c.abs := by omega
  have hlt := fin_abs_lt hxF
  have e : x.div c = F64.make false (roundMag (x.abs * P) c.abs) := by
    rw [div_fin hxF ((hcn.fin).2 c1) (by omega), hx.isNeg, hcn.isNeg, hP]
    rfl
  have hfin : roundMag (x.abs * P) c.abs < infMag := by
    refine round_finite _ _ hc0 ?_
    rw [← hP] at hlt
    have h1 : x.abs * P ≤ 2 ^ 1024 * P * P := Nat.mul_le_mul_right _ (Nat.le_of_lt hlt)
    have h2 : 2 * P ≤ c.abs := by omega
    have h3 : 2 ^ 2097 * (2 * P) ≤ 2 ^ 2097 * c.abs := Nat.mul_le_mul_left _ h2
    have h4 : 2 ^ 1024 * P * P = 2 ^ 2097 * (2 * P) := by
      rw [hP, ← Nat.pow_add, ← Nat.pow_add, ← Nat.mul_assoc, ← Nat.pow_succ, ← Nat.pow_add]
    omega
  have h52 : 2 ^ 52 * c.abs ≤ x.abs * P := by
    have h1 : 2 ^ 60 ≤ P := by rw [hP]; exact Nat.pow_le_pow_right (by decide) (by decide)
    have h2 : x.abs * 2 ^ 60 ≤ x.abs * P := Nat.mul_le_mul_left _ h1
    omega
  obtain ⟨r1, r2⟩ := round_bounds _ _ hc0 h52 hfin
  have hle := roundMag_le_inf (x.abs * P) c.abs
  rw [e]
  refine ⟨nn_make hle, by rw [make_false_toNat hle]; exact hfin, ?_⟩
  rw [(nn_make hle).abs, make_false_toNat hle]
  generalize magVal (roundMag (x.abs * P) c.abs) = Q at *
  have q1 : 999 * (Q * V) ≤ 1000 * (Q * c.abs) := by
    have := Nat.mul_le_mul_left Q c2
    rw [show 999 * (Q * V) = Q * (999 * V) by ac_rfl, show 1000 * (Q * c.abs) = Q * (1000 * c.abs) by ac_rfl]
    exact this
  have q2 : 1000 * (Q * c.abs) ≤ 1001 * (Q * V) := by
    have := Nat.mul_le_mul_left Q c3
    rw [show 1001 * (Q * V) = Q * (1001 * V) by ac_rfl, show 1000 * (Q * c.abs) = Q * (1000 * c.abs) by ac_rfl]
    exact this
  generalize Q * c.abs = z at *
  generalize x.abs * P = y at *
  generalize Q * V = w at *
  omega

theorem fixed_zero {x : F64} (hx : NN x) (hf : x.toNat < infMag) : x.fixed 0 = decText (roundHE x.abs (2 ^ 1074)) := by
  unfold F64.fixed
  simp only
  rw [signed_fin ((hx.fin).2 hf), hx.isNeg, if_pos trivial, Nat.pow_zero, Nat.mul_one, Nat.div_one, List.append_nil]
  rfl

theorem fixed_one {x : F64} (hx : NN x) (hf : x.toNat < infMag) : x.fixed 1 = tenthsText (roundHE (x.abs * 10) (2 ^ 1074)) := by
  unfold F64.fixed
  simp only
  rw [signed_fin ((hx.fin).2 hf), hx.isNeg, if_neg (by decide), Nat.pow_one]
  generalize roundHE (x.abs * 10) (2 ^ 1074) = q
  unfold tenthsText padText
  have h1 : ∀ r, r < 10 → (decText r).length = 1 := by decide
  rw [h1 _ (Nat.mod_lt q (by decide))]
  rfl

/-- A quotient as a whole number of tenths or of units. -/
theorem near_units {P V N Q q n v : Nat} (hP : 0 < P) (hV : V = v * P) (hN : N = n * P) (a1 : 999 * (Q * V) ≤ 1002 * (N * P)) (a2 : 998 * (N * P) ≤ 1001 * (Q * V))
    (h1 : 2 * (q * P) ≤ 2 * Q + P) (h2 : 2 * Q ≤ 2 * (q * P) + P) (h3 : 999 * V ≤ 100 * N) : 10 * q * v ≤ 10 * n + n ∧ 10 * n ≤ 10 * q * v + n := by
  subst hV
  subst hN
  have a1 : 999 * (Q * v) ≤ 1002 * (n * P) := by
    refine Nat.le_of_mul_le_mul_right (c := P) ?_ hP
    rw [show 999 * (Q * v) * P = 999 * (Q * (v * P)) by ac_rfl, Nat.mul_assoc]
    exact a1
  have a2 : 998 * (n * P) ≤ 1001 * (Q * v) := by
    refine Nat.le_of_mul_le_mul_right (c := P) ?_ hP
    rw [show 1001 * (Q * v) * P = 1001 * (Q * (v * P)) by ac_rfl, Nat.mul_assoc]
    exact a2
  have h1 := Nat.mul_le_mul_right v h1
  have h2 := Nat.mul_le_mul_right v h2
  rw [Nat.add_mul, show 2 * (q * P) * v = 2 * (q * v * P) by ac_rfl, show 2 * Q * v = 2 * (Q * v) by ac_rfl, Nat.mul_comm P v] at h1
  rw [Nat.add_mul, show 2 * (q * P) * v = 2 * (q * v * P) by ac_rfl, show 2 * Q * v = 2 * (Q * v) by ac_rfl, Nat.mul_comm P v] at h2
  have g1 : (10 * q * v) * P ≤ (10 * n + n) * P := by
    rw [Nat.add_mul, Nat.mul_assoc 10 q v, Nat.mul_assoc 10 (q * v), Nat.mul_assoc 10 n]
    generalize q * v * P = A at *
    generalize Q * v = B at *
    generalize n * P = C at *
    generalize v * P = D at *
    omega
  have g2 : (10 * n) * P ≤ (10 * q * v + n) * P := by
    rw [Nat.add_mul, Nat.mul_assoc 10 q v, Nat.mul_assoc 10 (q * v), Nat.mul_assoc 10 n]
    generalize q * v * P = A at *
    generalize Q * v = B at *
    generalize n * P = C at *
    generalize v * P = D at *
    omega
  exact ⟨Nat.le_of_mul_le_mul_right g1 hP, Nat.le_of_mul_le_mul_right g2 hP⟩

theorem near_tenths {P V N Q q n v : Nat} (hP : 0 < P) (hV : V = v * P) (hN : N = n * P) (a1 : 999 * (Q * V) ≤ 1002 * (N * P)) (a2 : 998 * (N * P) ≤ 1001 * (Q * V))
    (h1 : 2 * (q * P) ≤ 2 * (Q * 10) + P) (h2 : 2 * (Q * 10) ≤ 2 * (q * P) + P) (h3 : 974 * V ≤ 1000 * N) : q * v ≤ 10 * n + n ∧ 10 * n ≤ q * v + n := by
  subst hV
  subst hN
  have a1 : 999 * (Q * v) ≤ 1002 * (n * P) := by
    refine Nat.le_of_mul_le_mul_right (c := P) ?_ hP
    rw [show 999 * (Q * v) * P = 999 * (Q * (v * P)) by ac_rfl, Nat.mul_assoc]
    exact a1
  have a2 : 998 * (n * P) ≤ 1001 * (Q * v) := by
    refine Nat.le_of_mul_le_mul_right (c := P) ?_ hP
    rw [show 1001 * (Q * v) * P = 1001 * (Q * (v * P)) by ac_rfl, Nat.mul_assoc]
    exact a2
  have h1 := Nat.mul_le_mul_right v h1
  have h2 := Nat.mul_le_mul_right v h2
  rw [Nat.add_mul, show 2 * (q * P) * v = 2 * (q * v * P) by ac_rfl, show 2 * (Q * 10) * v = 20 * (Q * v) by ac_rfl, Nat.mul_comm P v] at h1
  rw [Nat.add_mul, show 2 * (q * P) * v = 2 * (q * v * P) by ac_rfl, show 2 * (Q * 10) * v = 20 * (Q * v) by ac_rfl, Nat.mul_comm P v] at h2
  have g1 : (q * v) * P ≤ (10 * n + n) * P := by
    rw [Nat.add_mul, Nat.mul_assoc 10 n]
    generalize q * v * P = A at *
    generalize Q * v = B at *
    generalize n * P = C at *
    generalize v * P = D at *
    omega
  have g2 : (10 * n) * P ≤ (q * v + n) * P := by
    rw [Nat.add_mul, Nat.mul_assoc 10 n]
    generalize q * v * P = A at *
    generalize Q * v = B at *
    generalize n * P = C at *
    generalize v * P = D at *
    omega
  exact ⟨Nat.le_of_mul_le_mul_right g1 hP, Nat.le_of_mul_le_mul_right g2 hP⟩

end Cdx
