import Verif.Lemmas.CompNum
import Verif.Lemmas.FloatRead

/-!
How far what is read is from the number of the text: every rounding changes a number by a factor between `1 - 2^-53` and `1 + 2^-53`.
-/

namespace Cdx

/-! ## Factors -/

/-- `v` is `t` times `n` factors between `lo` and `hi`. -/
def Within (lo hi : Rat) (n : Nat) (v t : Rat) : Prop := 0 ≤ t ∧ t * lo ^ n ≤ v ∧ v ≤ t * hi ^ n

variable {lo hi : Rat}

theorem rat_pow_nonneg {a : Rat} (h : 0 ≤ a) : ∀ n : Nat, 0 ≤ a ^ n
  | 0 => by rw [Rat.pow_zero]; decide
  | n + 1 => by rw [Rat.pow_succ]; exact Rat.mul_nonneg (rat_pow_nonneg h n) h

theorem rat_pow_add (a : Rat) (n : Nat) : ∀ m : Nat, a ^ (n + m) = a ^ n * a ^ m
  | 0 => by rw [Rat.pow_zero, Rat.mul_one]; rfl
  | m + 1 => by rw [← Nat.add_assoc, Rat.pow_succ, Rat.pow_succ, rat_pow_add a n m, Rat.mul_assoc]

theorem rat_pow_anti {a : Rat} (h0 : 0 ≤ a) (h1 : a ≤ 1) (n : Nat) : ∀ k : Nat, a ^ (n + k) ≤ a ^ n
  | 0 => Rat.le_refl
  | k + 1 => by
    have h := rat_pow_anti h0 h1 n k
    have h2 := Rat.mul_le_mul_of_nonneg_left h1 (rat_pow_nonneg h0 (n + k))
    rw [← Nat.add_assoc, Rat.pow_succ]
    grind

theorem rat_pow_mono {a : Rat} (h1 : 1 ≤ a) (n : Nat) : ∀ k : Nat, a ^ n ≤ a ^ (n + k)
  | 0 => Rat.le_refl
  | k + 1 => by
    have h := rat_pow_mono h1 n k
    have h2 := Rat.mul_le_mul_of_nonneg_left h1 (rat_pow_nonneg (show 0 ≤ a by grind) (n + k))
    rw [← Nat.add_assoc, Rat.pow_succ]
    grind

theorem Within.refl {t : Rat} (h : 0 ≤ t) : Within lo hi 0 t t := by
  refine ⟨h, ?_, ?_⟩ <;> rw [Rat.pow_zero, Rat.mul_one] <;> exact Rat.le_refl

theorem Within.nonneg (h0 : 0 ≤ lo) {n : Nat} {v t : Rat} (h : Within lo hi n v t) : 0 ≤ v := by
  have := Rat.mul_nonneg h.1 (rat_pow_nonneg h0 n)
  have := h.2.1
  grind

theorem Within.weaken (h0 : 0 ≤ lo) (h1 : lo ≤ 1) (h2 : 1 ≤ hi) {n m : Nat} {v t : Rat} (h : Within lo hi n v t) (hnm : n ≤ m) :
    Within lo hi m v t := by
  obtain ⟨k, rfl⟩ : ∃ k, m = n + k := ⟨m - n, by omega⟩
  have e1 := Rat.mul_le_mul_of_nonneg_left (rat_pow_anti h0 h1 n k) h.1
  have e2 := Rat.mul_le_mul_of_nonneg_left (rat_pow_mono h2 n k) h.1
  obtain ⟨g0, g1, g2⟩ := h
  exact ⟨g0, by grind, by grind⟩

theorem Within.add {n : Nat} {v t w s : Rat} (h : Within lo hi n v t) (g : Within lo hi n w s) : Within lo hi n (v + w) (t + s) := by
  obtain ⟨h0, h1, h2⟩ := h
  obtain ⟨g0, g1, g2⟩ := g
  refine ⟨by grind, ?_, ?_⟩
  · rw [Rat.add_mul]; grind
  · rw [Rat.add_mul]; grind

theorem Within.mul (h0 : 0 ≤ lo) (hh : 0 ≤ hi) {n m : Nat} {v t w s : Rat} (h : Within lo hi n v t) (g : Within lo hi m w s) :
    Within lo hi (n + m) (v * w) (t * s) := by
  have hv := h.nonneg h0
  have hw := g.nonneg h0
  obtain ⟨h1, h2, h3⟩ := h
  obtain ⟨g1, g2, g3⟩ := g
  refine ⟨Rat.mul_nonneg h1 g1, ?_, ?_⟩
  · have e1 := Rat.mul_le_mul_of_nonneg_left g2 (Rat.mul_nonneg h1 (rat_pow_nonneg h0 n))
    have e2 := Rat.mul_le_mul_of_nonneg_right h2 hw
    rw [rat_pow_add]
    grind
  · have e1 := Rat.mul_le_mul_of_nonneg_left g3 hv
    have e2 := Rat.mul_le_mul_of_nonneg_right h3 (Rat.mul_nonneg g1 (rat_pow_nonneg hh m))
    rw [rat_pow_add]
    grind

theorem Within.trans (h0 : 0 ≤ lo) (hh : 0 ≤ hi) {n m : Nat} {v t w : Rat} (h : Within lo hi n v t) (g : Within lo hi m w v) :
    Within lo hi (n + m) w t := by
  obtain ⟨h1, h2, h3⟩ := h
  obtain ⟨g1, g2, g3⟩ := g
  refine ⟨h1, ?_, ?_⟩
  · have e1 := Rat.mul_le_mul_of_nonneg_right h2 (rat_pow_nonneg h0 m)
    rw [rat_pow_add]
    grind
  · have e2 := Rat.mul_le_mul_of_nonneg_right h3 (rat_pow_nonneg hh m)
    rw [rat_pow_add]
    grind


/-! ## One rounding -/

theorem roundHE_half (n d : Nat) (hd : 0 < d) : 2 * (roundHE n d * d) ≤ 2 * n + d ∧ 2 * n ≤ 2 * (roundHE n d * d) + d := by
  have h := Nat.div_add_mod n d
  have hc : d * (n / d) = n / d * d := Nat.mul_comm _ _
  have e : (n / d + 1) * d = n / d * d + d := Nat.succ_mul _ _
  have hm := Nat.mod_lt n hd
  unfold roundHE
  split
  · omega
  split
  · rw [e]; omega
  split
  · omega
  · rw [e]; omega

/-- The relative error of one rounding, for numbers that are not too small. -/
theorem round_bounds (a b : Nat) (hb : 0 < b) (h : 2 ^ 52 * b ≤ a) (hf : roundMag a b < infMag) :
    a * (2 ^ 53 - 1) ≤ magVal (roundMag a b) * b * 2 ^ 53 ∧ magVal (roundMag a b) * b * 2 ^ 53 ≤ a * (2 ^ 53 + 1) := by
  have hab : 2 ^ 52 ≤ a / b := (Nat.le_div_iff_mul_le hb).2 h
  have hlog : 52 ≤ (a / b).log2 := (Nat.le_log2 (by omega)).2 hab
  obtain ⟨f1, f2⟩ := roundMag_frame a b _ rfl
  have f3 : 2 ^ 52 ≤ a / (b * 2 ^ ((a / b).log2 - 52)) := by
    rcases f2 with f2 | f2
    · rw [f2, Nat.pow_zero, Nat.mul_one]
      exact hab
    · exact f2
  have hrm : roundMag a b = ((a / b).log2 - 52) * 2 ^ 52 + roundHE a (b * 2 ^ ((a / b).log2 - 52)) := by
    unfold roundMag at hf ⊢
    simp only at hf ⊢
    rcases Nat.le_total (((a / b).log2 - 52) * 2 ^ 52 + roundHE a (b * 2 ^ ((a / b).log2 - 52))) infMag with h | h
    · exact Nat.min_eq_left h
    · rw [Nat.min_eq_right h] at hf
      exact absurd hf (Nat.lt_irrefl _)
  rw [hrm] at hf ⊢
  generalize (a / b).log2 - 52 = k at *
  have hd : 0 < b * 2 ^ k := Nat.mul_pos hb (Nat.two_pow_pos k)
  have h1 := roundHE_le a (b * 2 ^ k)
  have h2 := le_roundHE a (b * 2 ^ k)
  have h3 := roundHE_half a (b * 2 ^ k) hd
  have h4 : 2 ^ 52 * (b * 2 ^ k) ≤ a := by
    have := (Nat.le_div_iff_mul_le hd).1 f3
    exact this
  rw [magVal_parts k _ (.inr (Nat.le_trans f3 h2)) (by omega) (Nat.lt_trans hf infMag_lt)]
  rw [show roundHE a (b * 2 ^ k) * 2 ^ k * b = roundHE a (b * 2 ^ k) * (b * 2 ^ k) by
    rw [Nat.mul_assoc, Nat.mul_comm (2 ^ k)]]
  generalize roundHE a (b * 2 ^ k) * (b * 2 ^ k) = r at *
  generalize b * 2 ^ k = d at *
  omega

/-- Whole numbers of units are rounded within the same error also when they are small. -/
theorem round_bounds_one (a : Nat) (hf : roundMag a 1 < infMag) :
    a * (2 ^ 53 - 1) ≤ magVal (roundMag a 1) * 2 ^ 53 ∧ magVal (roundMag a 1) * 2 ^ 53 ≤ a * (2 ^ 53 + 1) := by
  by_cases h : 2 ^ 52 * 1 ≤ a
  · have := round_bounds a 1 (by decide) h hf
    rwa [Nat.mul_one] at this
  · have hr : Rep (a * 2 ^ 0) := rep_small 0 a (by omega) (by decide)
    obtain ⟨_, h2⟩ := hr.round (a := a) (b := 1) (by decide) (by omega)
    rw [h2]
    omega

/-- What is not above `2^1023` is not rounded to infinity. -/
theorem round_finite (a b : Nat) (hb : 0 < b) (h : a ≤ 2 ^ 2097 * b) : roundMag a b < infMag := by
  have hv : magVal (2046 * 2 ^ 52) = 2 ^ 2097 := by decide +kernel
  have hm : 2046 * 2 ^ 52 < infMag := by decide
  have := roundMag_le (a := a) hb hm (by rw [hv]; exact h)
  exact Nat.lt_of_le_of_lt this hm

/-! ## Values -/

/-- The factor of a rounding down. -/
def loU : Rat := 1 - 1 / ((2 ^ 53 : Nat) : Rat)

/-- The factor of a rounding up. -/
def hiU : Rat := 1 + 1 / ((2 ^ 53 : Nat) : Rat)

theorem loU_nonneg : 0 ≤ loU := by decide +kernel
theorem loU_le : loU ≤ 1 := by decide +kernel
theorem hiU_ge : 1 ≤ hiU := by decide +kernel
theorem hiU_nonneg : 0 ≤ hiU := by decide +kernel

theorem natCast_pos {n : Nat} (h : 0 < n) : (0 : Rat) < (n : Rat) := by
  have : ((0 : Nat) : Rat) < (n : Rat) := Rat.natCast_lt_natCast.2 h
  exact this

theorem within_round {a b r : Nat} (hb : 0 < b) (h1 : a * (2 ^ 53 - 1) ≤ r * b * 2 ^ 53) (h2 : r * b * 2 ^ 53 ≤ a * (2 ^ 53 + 1)) :
    Within loU hiU 1 (r : Rat) ((a : Rat) / (b : Rat)) := by
  have hb' := natCast_pos hb
  have hc : (0 : Rat) < ((2 ^ 53 : Nat) : Rat) := natCast_pos (by decide)
  have h0 : (0 : Rat) ≤ (a : Rat) := by
    have : ((0 : Nat) : Rat) ≤ (a : Rat) := Rat.natCast_le_natCast.2 (Nat.zero_le _)
    exact this
  have e1 : a * 2 ^ 53 ≤ r * b * 2 ^ 53 + a := by
    have := Nat.add_le_add_right h1 a
    rw [← Nat.mul_succ] at this
    exact this
  have e2 : r * b * 2 ^ 53 ≤ a * 2 ^ 53 + a := by
    rw [← Nat.mul_succ]
    exact h2
  clear h1 h2
  unfold Within loU hiU
  generalize 2 ^ 53 = c at *
  have e1' := Rat.natCast_le_natCast.2 e1
  have e2' := Rat.natCast_le_natCast.2 e2
  simp only [Rat.natCast_add, Rat.natCast_mul] at e1' e2'
  refine ⟨?_, ?_, ?_⟩
  · rw [Rat.div_def]
    exact Rat.mul_nonneg h0 (Rat.le_of_lt (Rat.inv_pos.2 hb'))
  · rw [Rat.pow_one]
    refine Rat.le_of_mul_le_mul_right (c := (b : Rat) * (c : Rat)) ?_ (Rat.mul_pos hb' hc)
    have : (a : Rat) / b * (1 - 1 / c) * (b * c) = a * c - a := by grind
    rw [this]
    grind
  · rw [Rat.pow_one]
    refine Rat.le_of_mul_le_mul_right (c := (b : Rat) * (c : Rat)) ?_ (Rat.mul_pos hb' hc)
    have : (a : Rat) / b * (1 + 1 / c) * (b * c) = a * c + a := by grind
    rw [this]
    grind

theorem Within.div {lo hi : Rat} {n : Nat} {v t c : Rat} (h : Within lo hi n v t) (hc : 0 < c) : Within lo hi n (v / c) (t / c) := by
  obtain ⟨h0, h1, h2⟩ := h
  have hi := Rat.le_of_lt (Rat.inv_pos.2 hc)
  have e1 := Rat.mul_le_mul_of_nonneg_right h1 hi
  have e2 := Rat.mul_le_mul_of_nonneg_right h2 hi
  refine ⟨?_, ?_, ?_⟩
  · rw [Rat.div_def]
    exact Rat.mul_nonneg h0 hi
  · rw [Rat.div_def, Rat.div_def]
    grind
  · rw [Rat.div_def, Rat.div_def]
    grind

theorem nn_val {x : F64} (h : NN x) : x.val = (x.abs : Rat) / ((2 ^ 1074 : Nat) : Rat) := by
  unfold F64.val
  rw [h.scaled]
  rfl

/-- Products in units. -/
theorem prod_le {u A B C : Nat} (hu : 0 < u) (h : (A : Rat) / (u : Rat) * ((B : Rat) / (u : Rat)) ≤ (C : Rat)) : A * B ≤ C * u * u := by
  have hu' := natCast_pos hu
  have e := Rat.mul_le_mul_of_nonneg_right h (Rat.le_of_lt (Rat.mul_pos hu' hu'))
  have e1 : (A : Rat) / u * ((B : Rat) / u) * (u * u) = A * B := by grind
  rw [e1, ← Rat.mul_assoc, ← Rat.natCast_mul, ← Rat.natCast_mul, ← Rat.natCast_mul, Rat.natCast_le_natCast] at e
  exact e

theorem prod_ge {u A B C : Nat} (hu : 0 < u) (hC : 0 < C) (h : 1 / (C : Rat) ≤ (A : Rat) / (u : Rat) * ((B : Rat) / (u : Rat))) : u * u ≤ A * B * C := by
  have hu' := natCast_pos hu
  have hC' := natCast_pos hC
  have e := Rat.mul_le_mul_of_nonneg_right h (Rat.le_of_lt (Rat.mul_pos (Rat.mul_pos hu' hu') hC'))
  have e1 : (A : Rat) / u * ((B : Rat) / u) * (u * u * C) = A * B * C := by grind
  have e2 : 1 / (C : Rat) * (u * u * C) = u * u := by grind
  rw [e1, e2, ← Rat.natCast_mul, ← Rat.natCast_mul, ← Rat.natCast_mul, Rat.natCast_le_natCast] at e
  exact e

theorem sum_le {u A B C : Nat} (hu : 0 < u) (h : (A : Rat) / (u : Rat) + (B : Rat) / (u : Rat) ≤ (C : Rat)) : A + B ≤ C * u := by
  have hu' := natCast_pos hu
  have e := Rat.mul_le_mul_of_nonneg_right h (Rat.le_of_lt hu')
  have e1 : ((A : Rat) / u + (B : Rat) / u) * u = A + B := by grind
  rw [e1, ← Rat.natCast_add, ← Rat.natCast_mul, Rat.natCast_le_natCast] at e
  exact e

theorem prod_zero {u A B : Nat} (hu : 0 < u) (h : (A : Rat) / (u : Rat) * ((B : Rat) / (u : Rat)) = 0) : A * B = 0 := by
  have := prod_le (C := 0) hu (by rw [h]; exact Rat.le_refl)
  omega

theorem unit_prod {u : Nat} (hu : 0 < u) (A B : Nat) : ((A * B : Nat) : Rat) / (u : Rat) / (u : Rat) = (A : Rat) / (u : Rat) * ((B : Rat) / (u : Rat)) := by
  have hn := natCast_pos hu
  rw [Rat.natCast_mul]
  grind

theorem unit_sum {u : Nat} (hu : 0 < u) (A B : Nat) : ((A + B : Nat) : Rat) / ((1 : Nat) : Rat) / (u : Rat) = (A : Rat) / (u : Rat) + (B : Rat) / (u : Rat) := by
  have hn := natCast_pos hu
  rw [Rat.natCast_add, show ((1 : Nat) : Rat) = 1 from rfl]
  grind

theorem round_zero {b : Nat} (hb : 0 < b) : Within loU hiU 1 ((0 : Nat) : Rat) (((0 : Nat) : Rat) / (b : Rat)) :=
  within_round hb (by rw [Nat.zero_mul]; exact Nat.zero_le _) (by rw [Nat.zero_mul, Nat.zero_mul]; exact Nat.zero_le _)

theorem mul_nn {x y : F64} (hx : NN x) (hy : NN y) (hxf : x.toNat < infMag) (hyf : y.toNat < infMag) :
    x.mul y = F64.make false (roundMag (x.abs * y.abs) (2 ^ 1074)) := by
  rw [mul_fin (hx.fin.2 hxf) (hy.fin.2 hyf), hx.isNeg, hy.isNeg]
  rfl

theorem add_nn {x y : F64} (hx : NN x) (hy : NN y) (hxf : x.toNat < infMag) (hyf : y.toNat < infMag) :
    x.add y = F64.make false (roundMag (x.abs + y.abs) 1) := by
  rw [add_fin (hx.fin.2 hxf) (hy.fin.2 hyf), hx.isNeg, hy.isNeg, hx.scaled, hy.scaled]
  unfold F64.ofScaled
  rw [← Int.natCast_add]
  generalize x.abs + y.abs = n
  split
  · next h =>
    have : n = 0 := by omega
    subst this
    have : roundMag 0 1 = 0 := by decide +kernel
    rw [this]
    rfl
  · rw [decide_eq_false (by omega), Int.natAbs_natCast]

theorem make_val {m : Nat} (h : m ≤ infMag) : (F64.make false m).val = (magVal m : Rat) / ((2 ^ 1074 : Nat) : Rat) := by
  rw [nn_val (nn_make h), (nn_make h).abs, make_false_toNat h]

theorem mul_within {x y : F64} (hx : NN x) (hy : NN y) (hxf : x.toNat < infMag) (hyf : y.toNat < infMag)
    (hbig : x.val * y.val ≤ ((2 ^ 1023 : Nat) : Rat)) (hsm : x.val * y.val = 0 ∨ 1 / ((2 ^ 1022 : Nat) : Rat) ≤ x.val * y.val) :
    NN (x.mul y) ∧ (x.mul y).toNat < infMag ∧ Within loU hiU 1 (x.mul y).val (x.val * y.val) := by
  rw [mul_nn hx hy hxf hyf]
  rw [nn_val hx, nn_val hy] at hbig hsm ⊢
  have hU := pow1074_pos
  have hle := prod_le hU hbig
  have hfin : roundMag (x.abs * y.abs) (2 ^ 1074) < infMag := by
    refine round_finite _ _ hU ?_
    have : 2 ^ 1023 * 2 ^ 1074 * 2 ^ 1074 = 2 ^ 2097 * 2 ^ 1074 := by rw [← Nat.pow_add 2 1023 1074]
    rw [← this]
    exact hle
  refine ⟨nn_make (roundMag_le_inf _ _), by rw [make_false_toNat (roundMag_le_inf _ _)]; exact hfin, ?_⟩
  rw [make_val (roundMag_le_inf _ _)]
  have hw : Within loU hiU 1 (magVal (roundMag (x.abs * y.abs) (2 ^ 1074)) : Rat) (((x.abs * y.abs : Nat) : Rat) / ((2 ^ 1074 : Nat) : Rat)) := by
    rcases hsm with h | h
    · have h0 := prod_zero hU h
      rw [h0]
      have : roundMag 0 (2 ^ 1074) = 0 := by decide +kernel
      rw [this, magVal_zero]
      exact round_zero hU
    · have hge := prod_ge hU (Nat.two_pow_pos _) h
      have h52 : 2 ^ 52 * 2 ^ 1074 ≤ x.abs * y.abs := by
        have e : 2 ^ 1074 * 2 ^ 1074 = 2 ^ 52 * 2 ^ 1074 * 2 ^ 1022 := by
          rw [Nat.mul_right_comm, ← Nat.pow_add 2 52 1022]
        rw [e] at hge
        exact Nat.le_of_mul_le_mul_right hge (Nat.two_pow_pos _)
      obtain ⟨r1, r2⟩ := round_bounds _ _ hU h52 hfin
      exact within_round hU r1 r2
  have := hw.div (c := ((2 ^ 1074 : Nat) : Rat)) (natCast_pos hU)
  rw [unit_prod hU] at this
  exact this

theorem add_within {x y : F64} (hx : NN x) (hy : NN y) (hxf : x.toNat < infMag) (hyf : y.toNat < infMag)
    (hbig : x.val + y.val ≤ ((2 ^ 1023 : Nat) : Rat)) :
    NN (x.add y) ∧ (x.add y).toNat < infMag ∧ Within loU hiU 1 (x.add y).val (x.val + y.val) := by
  rw [add_nn hx hy hxf hyf]
  rw [nn_val hx, nn_val hy] at hbig ⊢
  have hU := pow1074_pos
  have hle := sum_le hU hbig
  have hfin : roundMag (x.abs + y.abs) 1 < infMag := by
    refine round_finite _ _ (by decide) ?_
    rw [Nat.mul_one]
    have : 2 ^ 1023 * 2 ^ 1074 = 2 ^ 2097 := by rw [← Nat.pow_add 2 1023 1074]
    rw [← this]
    exact hle
  refine ⟨nn_make (roundMag_le_inf _ _), by rw [make_false_toNat (roundMag_le_inf _ _)]; exact hfin, ?_⟩
  rw [make_val (roundMag_le_inf _ _)]
  obtain ⟨r1, r2⟩ := round_bounds_one _ hfin
  have hw := (within_round (b := 1) (by decide) (by rw [Nat.mul_one]; exact r1) (by rw [Nat.mul_one]; exact r2)).div (natCast_pos hU)
  rw [unit_sum hU] at hw
  exact hw

/-! ## Chains of roundings -/

/-- A finite double that is not negative, `n` roundings from `t`. -/
def Appr (n : Nat) (x : F64) (t : Rat) : Prop := NN x ∧ x.toNat < infMag ∧ Within loU hiU n x.val t

theorem hiU_bound {n : Nat} (h : n ≤ 1210) : hiU ^ n ≤ 2 := by
  have h1 : hiU ^ 1210 ≤ 2 := by decide +kernel
  have h2 := rat_pow_mono hiU_ge n (1210 - n)
  rw [show n + (1210 - n) = 1210 by omega] at h2
  exact Rat.le_trans h2 h1

theorem loU_bound {n : Nat} (h : n ≤ 1210) : 1 / 2 ≤ loU ^ n := by
  have h1 : 1 / 2 ≤ loU ^ 1210 := by decide +kernel
  have h2 := rat_pow_anti loU_nonneg loU_le n (1210 - n)
  rw [show n + (1210 - n) = 1210 by omega] at h2
  exact Rat.le_trans h1 h2

theorem within_le {n : Nat} (h : n ≤ 1210) {v t c : Rat} (hw : Within loU hiU n v t) (ht : t ≤ c) : v ≤ c * 2 := by
  have h1 := Rat.mul_le_mul_of_nonneg_left (hiU_bound h) hw.1
  have h2 := hw.2.2
  grind

theorem within_ge {n : Nat} (h : n ≤ 1210) {v t c : Rat} (hw : Within loU hiU n v t) (ht : c ≤ t) : c / 2 ≤ v := by
  have h1 := Rat.mul_le_mul_of_nonneg_left (loU_bound h) hw.1
  have h2 := hw.2.1
  grind

theorem within_zero {n : Nat} {v : Rat} (hw : Within loU hiU n v 0) : v = 0 := by
  have h1 := hw.2.1
  have h2 := hw.2.2
  rw [Rat.zero_mul] at h1 h2
  exact Rat.le_antisymm h2 h1

theorem big_half : ((2 ^ 1022 : Nat) : Rat) * 2 = ((2 ^ 1023 : Nat) : Rat) := by decide +kernel

theorem small_half : 1 / ((2 ^ 1021 : Nat) : Rat) / 2 = 1 / ((2 ^ 1022 : Nat) : Rat) := by decide +kernel

theorem Appr.mul {n m : Nat} {x y : F64} {t s : Rat} (hx : Appr n x t) (hy : Appr m y s) (hnm : n + m ≤ 1210)
    (hbig : t * s ≤ ((2 ^ 1022 : Nat) : Rat)) (hsm : t * s = 0 ∨ 1 / ((2 ^ 1021 : Nat) : Rat) ≤ t * s) : Appr (n + m + 1) (x.mul y) (t * s) := by
  obtain ⟨hx1, hx2, hx3⟩ := hx
  obtain ⟨hy1, hy2, hy3⟩ := hy
  have hw := hx3.mul loU_nonneg hiU_nonneg hy3
  obtain ⟨h1, h2, h3⟩ := mul_within hx1 hy1 hx2 hy2 (by rw [← big_half]; exact within_le hnm hw hbig) (by
    rcases hsm with h | h
    · rw [h] at hw
      exact .inl (within_zero hw)
    · rw [← small_half]
      exact .inr (within_ge hnm hw h))
  exact ⟨h1, h2, hw.trans loU_nonneg hiU_nonneg h3⟩

theorem Appr.add {n : Nat} {x y : F64} {t s : Rat} (hx : Appr n x t) (hy : Appr n y s) (hn : n ≤ 1210)
    (hbig : t + s ≤ ((2 ^ 1022 : Nat) : Rat)) : Appr (n + 1) (x.add y) (t + s) := by
  obtain ⟨hx1, hx2, hx3⟩ := hx
  obtain ⟨hy1, hy2, hy3⟩ := hy
  have hw := hx3.add hy3
  obtain ⟨h1, h2, h3⟩ := add_within hx1 hy1 hx2 hy2 (by rw [← big_half]; exact within_le hn hw hbig)
  exact ⟨h1, h2, hw.trans loU_nonneg hiU_nonneg h3⟩

theorem Appr.weaken {n m : Nat} {x : F64} {t : Rat} (h : Appr n x t) (hnm : n ≤ m) : Appr m x t :=
  ⟨h.1, h.2.1, h.2.2.weaken loU_nonneg loU_le hiU_ge hnm⟩

theorem is_val {x : F64} {n : Int} (h : x.Is n) : x.val = (n : Rat) := by
  unfold F64.val
  rw [h.2.2]
  have hp := natCast_pos pow1074_pos
  rw [show (n * 2 ^ 1074 : Int) = n * ((2 ^ 1074 : Nat) : Int) by rw [Int.natCast_pow]; rfl]
  generalize 2 ^ 1074 = u at *
  rw [Rat.intCast_mul, Rat.intCast_natCast]
  grind

theorem natCast_nonneg (n : Nat) : (0 : Rat) ≤ (n : Rat) := by
  have : ((0 : Nat) : Rat) ≤ (n : Rat) := Rat.natCast_le_natCast.2 (Nat.zero_le _)
  exact this

theorem appr_ofNat {d : Nat} (h : d ≤ 2 ^ 53) : Appr 0 (F64.ofNat d) d := by
  have hi := is_ofNat h
  refine ⟨nn_ofNat d, ((nn_ofNat d).fin).1 hi.fin, ?_⟩
  rw [is_val hi, Rat.intCast_natCast]
  exact Within.refl (natCast_nonneg d)

theorem appr_tenth : Appr 1 (F64.lit 1 10) (1 / 10) := by
  refine ⟨nn_lit 1 10, lit_tenth.2.1, ?_, ?_, ?_⟩
  all_goals decide +kernel

theorem horner_appr : ∀ (ds : Bytes) (x : F64) (k D : Nat), (∀ c ∈ ds, isDigit c = true) → Appr (2 * k) x D → D < 10 ^ k → k + ds.length ≤ 300 →
    Appr (2 * (k + ds.length)) (hornerF x ds) ((D * 10 ^ ds.length + decVal ds : Nat) : Rat)
  | [], x, k, D, _, h, _, _ => by
    simpa [hornerF, decVal] using h
  | c :: cs, x, k, D, hd, h, hD, hk => by
    have h9 := digit_le c (hd c (by simp))
    rw [List.length_cons] at hk ⊢
    rw [hornerF]
    have hpow : 10 ^ (k + 1) ≤ 10 ^ 300 := Nat.pow_le_pow_right (by decide) (by omega)
    have hs : 10 ^ (k + 1) = 10 ^ k * 10 := Nat.pow_succ 10 k
    have hbig : (10 : Nat) ^ 300 ≤ 2 ^ 1022 := by decide +kernel
    generalize hB : 10 ^ 300 = B at *
    have m1 : Appr (2 * k + 0 + 1) (x.mul (F64.ofNat 10)) ((D : Rat) * ((10 : Nat) : Rat)) := by
      refine h.mul (appr_ofNat (d := 10) (by decide)) (by omega) ?_ ?_
      · rw [← Rat.natCast_mul, Rat.natCast_le_natCast]
        exact Nat.le_trans (by omega) hbig
      · by_cases h0 : D = 0
        · left
          subst h0
          exact Rat.zero_mul _
        · right
          have e1 : 1 / ((2 ^ 1021 : Nat) : Rat) ≤ ((1 : Nat) : Rat) := by decide +kernel
          rw [← Rat.natCast_mul]
          exact Rat.le_trans e1 (Rat.natCast_le_natCast.2 (by omega))
    have m2 := m1.add ((appr_ofNat (d := c.toNat - 48) (by omega)).weaken (Nat.zero_le _)) (by omega) (by
      rw [← Rat.natCast_mul, ← Rat.natCast_add, Rat.natCast_le_natCast]
      exact Nat.le_trans (by omega) hbig)
    rw [← Rat.natCast_mul, ← Rat.natCast_add] at m2
    have ih := horner_appr cs _ (k + 1) (D * 10 + (c.toNat - 48)) (fun d h => hd d (by simp [h]))
      (by rw [show 2 * (k + 1) = 2 * k + 0 + 1 + 1 by omega]; exact m2) (by omega) (by omega)
    rw [show k + (cs.length + 1) = k + 1 + cs.length by omega]
    have e : D * 10 ^ (cs.length + 1) + decVal (c :: cs) = (D * 10 + (c.toNat - 48)) * 10 ^ cs.length + decVal cs := by
      rw [decVal, Nat.pow_succ 10 cs.length, Nat.add_mul, Nat.mul_assoc, Nat.mul_comm (10 ^ cs.length)]
      omega
    rw [e]
    exact ih

/-- The place of a digit. -/
theorem place_bounds {i d : Nat} (hd : 1 ≤ d) (hi : i ≤ 303) : 1 / ((2 ^ 1021 : Nat) : Rat) ≤ 1 / ((10 ^ i : Nat) : Rat) * (d : Rat) := by
  have h1 : 10 ^ i ≤ 10 ^ 303 := Nat.pow_le_pow_right (by decide) hi
  have h2 : (10 : Nat) ^ 303 ≤ 2 ^ 1021 := by decide +kernel
  have h3 : 10 ^ i ≤ 2 ^ 1021 := Nat.le_trans h1 h2
  have hp : 0 < 10 ^ i := Nat.pow_pos (by decide)
  have hq : 0 < 2 ^ 1021 := Nat.two_pow_pos _
  clear h1 h2
  generalize 10 ^ i = a at *
  generalize 2 ^ 1021 = b at *
  have hp' := natCast_pos hp
  have hq' := natCast_pos hq
  have h3' := Rat.natCast_le_natCast.2 h3
  have hd' : (1 : Rat) ≤ (d : Rat) := by
    have : ((1 : Nat) : Rat) ≤ (d : Rat) := Rat.natCast_le_natCast.2 hd
    exact this
  refine Rat.le_of_mul_le_mul_right (c := (a : Rat) * (b : Rat)) ?_ (Rat.mul_pos hp' hq')
  have e1 : 1 / (b : Rat) * (a * b) = a := by grind
  have e2 : 1 / (a : Rat) * d * (a * b) = d * b := by grind
  rw [e1, e2]
  have := Rat.mul_le_mul_of_nonneg_right hd' (Rat.le_of_lt hq')
  grind

theorem place_le_one {i : Nat} : 1 / ((10 ^ (i + 1) : Nat) : Rat) ≤ 1 / 10 := by
  have h1 : 10 ≤ 10 ^ (i + 1) := by
    rw [Nat.pow_succ]
    exact Nat.le_mul_of_pos_left _ (Nat.pow_pos (by decide))
  generalize 10 ^ (i + 1) = a at *
  have hp' := natCast_pos (show 0 < a by omega)
  have h1' : (10 : Rat) ≤ (a : Rat) := by
    have : ((10 : Nat) : Rat) ≤ (a : Rat) := Rat.natCast_le_natCast.2 h1
    exact this
  refine Rat.le_of_mul_le_mul_right (c := (a : Rat)) ?_ hp'
  have e1 : 1 / (a : Rat) * a = 1 := by grind
  rw [e1]
  grind

theorem place_next (i : Nat) : 1 / ((10 ^ (i + 1) : Nat) : Rat) * (1 / 10) = 1 / ((10 ^ (i + 2) : Nat) : Rat) := by
  rw [Nat.pow_succ 10 (i + 1), Rat.natCast_mul]
  have hp := natCast_pos (show 0 < 10 ^ (i + 1) from Nat.pow_pos (by decide))
  generalize 10 ^ (i + 1) = a at *
  rw [show ((10 : Nat) : Rat) = 10 from rfl]
  grind

theorem frac_sum (T : Rat) (i d l v : Nat) :
    T + 1 / ((10 ^ (i + 1) : Nat) : Rat) * (d : Rat) + (v : Rat) / ((10 ^ (i + 1 + l) : Nat) : Rat) =
      T + ((d * 10 ^ l + v : Nat) : Rat) / ((10 ^ (i + (l + 1)) : Nat) : Rat) := by
  rw [show i + (l + 1) = i + 1 + l by omega, Nat.pow_add 10 (i + 1) l, Rat.natCast_add, Rat.natCast_mul, Rat.natCast_mul]
  have hp := natCast_pos (show 0 < 10 ^ (i + 1) from Nat.pow_pos (by decide))
  have hq := natCast_pos (show 0 < 10 ^ l from Nat.pow_pos (by decide))
  generalize 10 ^ (i + 1) = a at *
  generalize 10 ^ l = b at *
  grind

theorem big_sum : ((10 ^ 300 + 301 : Nat) : Rat) ≤ ((2 ^ 1022 : Nat) : Rat) := by decide +kernel

theorem one_big : (1 : Rat) ≤ ((2 ^ 1022 : Nat) : Rat) := by decide +kernel

theorem frac_appr (n : Nat) (hn : n ≤ 300) : ∀ (fs : Bytes) (x place : F64) (i : Nat) (T : Rat), (∀ c ∈ fs, isDigit c = true) →
    Appr (2 * n + 2 * i + 1) x T → Appr (2 * i + 1) place (1 / ((10 ^ (i + 1) : Nat) : Rat)) → T ≤ ((10 ^ 300 + i : Nat) : Rat) →
    i + fs.length ≤ 300 →
    Appr (2 * n + 2 * (i + fs.length) + 1) (fracF x place fs) (T + (decVal fs : Rat) / ((10 ^ (i + fs.length) : Nat) : Rat))
  | [], x, place, i, T, _, h, _, _, _ => by
    rw [fracF, decVal, List.length_nil, show i + 0 = i from rfl]
    have e : T + ((0 : Nat) : Rat) / ((10 ^ i : Nat) : Rat) = T := by
      rw [Rat.div_def, show ((0 : Nat) : Rat) = 0 from rfl, Rat.zero_mul, Rat.add_zero]
    rw [e]
    exact h
  | c :: cs, x, place, i, T, hd, h, hp, hT, hi => by
    have h9 := digit_le c (hd c (by simp))
    rw [List.length_cons] at hi ⊢
    rw [fracF]
    have hple := place_le_one (i := i)
    have hdig : ((c.toNat - 48 : Nat) : Rat) ≤ 9 := by
      have : ((c.toNat - 48 : Nat) : Rat) ≤ ((9 : Nat) : Rat) := Rat.natCast_le_natCast.2 h9
      exact this
    have hterm : 1 / ((10 ^ (i + 1) : Nat) : Rat) * ((c.toNat - 48 : Nat) : Rat) ≤ 1 := by
      have e1 := Rat.mul_le_mul_of_nonneg_right hple (natCast_nonneg (c.toNat - 48))
      grind
    have t1 : Appr (2 * i + 1 + 0 + 1) (place.mul (F64.ofNat (c.toNat - 48))) (1 / ((10 ^ (i + 1) : Nat) : Rat) * ((c.toNat - 48 : Nat) : Rat)) := by
      refine hp.mul (appr_ofNat (d := c.toNat - 48) (by omega)) (by omega) (Rat.le_trans hterm one_big) ?_
      by_cases h0 : c.toNat - 48 = 0
      · left
        rw [h0]
        exact Rat.mul_zero _
      · right
        exact place_bounds (by omega) (by omega)
    have hTs : T + 1 / ((10 ^ (i + 1) : Nat) : Rat) * ((c.toNat - 48 : Nat) : Rat) ≤ ((10 ^ 300 + (i + 1) : Nat) : Rat) := by
      rw [← Nat.add_assoc, Rat.natCast_add, show ((1 : Nat) : Rat) = 1 from rfl]
      generalize ((10 ^ 300 + i : Nat) : Rat) = B at *
      grind
    have t2 := (h.weaken (show 2 * n + 2 * i + 1 ≤ 2 * n + 2 * i + 2 by omega)).add (t1.weaken (show 2 * i + 1 + 0 + 1 ≤ 2 * n + 2 * i + 2 by omega)) (by omega)
      (Rat.le_trans hTs (Rat.le_trans (Rat.natCast_le_natCast.2 (by omega)) big_sum))
    have t3 : Appr (2 * i + 1 + 1 + 1) (place.mul (F64.lit 1 10)) (1 / ((10 ^ (i + 1) : Nat) : Rat) * (1 / 10)) := by
      refine hp.mul appr_tenth (by omega) ?_ (.inr ?_)
      · have : 1 / ((10 ^ (i + 1) : Nat) : Rat) * (1 / 10) ≤ 1 := by grind
        exact Rat.le_trans this one_big
      · rw [place_next]
        have := place_bounds (i := i + 2) (d := 1) (by decide) (by omega)
        rw [show ((1 : Nat) : Rat) = 1 from rfl, Rat.mul_one] at this
        exact this
    rw [place_next] at t3
    have ih := frac_appr n hn cs _ _ (i + 1) _ (fun d h => hd d (by simp [h]))
      (by rw [show 2 * n + 2 * (i + 1) + 1 = 2 * n + 2 * i + 2 + 1 by omega]; exact t2)
      (by rw [show 2 * (i + 1) + 1 = 2 * i + 1 + 1 + 1 by omega]; exact t3) hTs (by omega)
    rw [frac_sum] at ih
    rw [decVal, show i + (cs.length + 1) = i + 1 + cs.length by omega]
    rw [show i + (cs.length + 1) = i + 1 + cs.length by omega] at ih
    exact ih

/-- What is read for digits and a point, without sign. -/
theorem mant_appr (p : NumParts) (hp : p.WF) (h1 : p.ds.length ≤ 300) (h2 : p.fs.length ≤ 300) :
    Appr (2 * (p.ds.length + p.fs.length) + 1) p.mant ((decVal (p.ds ++ p.fs) : Rat) / 10 ^ p.fs.length) := by
  have i1 := horner_appr p.ds (F64.ofNat 0) 0 0 hp.ds (appr_ofNat (d := 0) (by decide)) (by decide) (by omega)
  rw [Nat.zero_mul, Nat.zero_add, Nat.zero_add] at i1
  have hlt : decVal p.ds < 10 ^ p.ds.length := decVal_lt p.ds hp.ds
  have hle : decVal p.ds ≤ 10 ^ 300 + 0 :=
    Nat.le_trans (Nat.le_of_lt hlt) (Nat.pow_le_pow_right (by decide) h1)
  have i2 := frac_appr p.ds.length h1 p.fs _ (F64.lit 1 10) 0 _ hp.frac (i1.weaken (by omega))
    (by exact appr_tenth) (Rat.natCast_le_natCast.2 hle) (by omega)
  rw [Nat.zero_add] at i2
  have e : ((decVal p.ds : Nat) : Rat) + (decVal p.fs : Rat) / ((10 ^ p.fs.length : Nat) : Rat) =
      (decVal (p.ds ++ p.fs) : Rat) / 10 ^ p.fs.length := by
    rw [decVal_append, Rat.natCast_add, Rat.natCast_mul, Rat.natCast_pow]
    have := ten_pow_ne p.fs.length
    rw [show ((10 : Nat) : Rat) = 10 from rfl]
    grind
  rw [e] at i2
  unfold NumParts.mant
  rw [Nat.mul_add]
  exact i2

end Cdx
