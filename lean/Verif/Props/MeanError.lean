import Verif.Props.SumError

/-!
C235: how far the mean of a column of doubles is from the exact mean.
-/

namespace Cdx

/-! ## Proof -/

theorem half_off {a b r : Nat} (h1 : 2 * r ≤ 2 * a + b) (h2 : 2 * a ≤ 2 * r + b) :
    a * 2 ^ 53 ≤ r * 2 ^ 53 + (a + b * 2 ^ 52) ∧ r * 2 ^ 53 ≤ a * 2 ^ 53 + (a + b * 2 ^ 52) := by omega

theorem dist_off {R X D c : Nat} (c1 : X * D ≤ R * D + (X + c)) (c2 : R * D ≤ X * D + (X + c)) : (R - X + (X - R)) * D ≤ X + c := by
  rw [Nat.add_mul, Nat.sub_mul, Nat.sub_mul]
  omega

/-- The error of one rounding, also of small numbers, where it can be half a unit. -/
theorem round_off (a b : Nat) (hb : 0 < b) (hf : roundMag a b < infMag) :
    a * 2 ^ 53 ≤ magVal (roundMag a b) * b * 2 ^ 53 + (a + b * 2 ^ 52) ∧
    magVal (roundMag a b) * b * 2 ^ 53 ≤ a * 2 ^ 53 + (a + b * 2 ^ 52) := by
  by_cases h : 2 ^ 52 * b ≤ a
  · obtain ⟨h1, h2⟩ := round_bounds a b hb h hf
    generalize magVal (roundMag a b) * b = r at *
    omega
  · have hq : a / b < 2 ^ 52 := (Nat.div_lt_iff_lt_mul hb).2 (by omega)
    have hk : (a / b).log2 - 52 = 0 := by
      by_cases h0 : a / b = 0
      · rw [h0]; decide
      · have := (Nat.log2_lt h0).2 hq
        omega
    have e : roundMag a b = min (0 * 2 ^ 52 + roundHE a b) infMag := by
      unfold roundMag
      simp only [hk, Nat.pow_zero, Nat.mul_one]
    have h1 := roundHE_le a b
    have h3 := roundHE_half a b hb
    have hr : roundHE a b ≤ 2 ^ 52 := by omega
    have hi : 2 ^ 52 < infMag := by rw [infMag_eq]; decide
    rw [Nat.min_eq_left (by omega)] at e
    rw [e, magVal_parts 0 _ (.inl rfl) (by omega) (by omega), Nat.pow_zero, Nat.mul_one]
    exact half_off h3.1 h3.2

/-- The error of one division by a whole number. -/
theorem div_near {x y : F64} {n : Nat} (hx : x.Fin) (hy : y.Is n) (hn : 0 < n) (h : x.abs ≤ 2 ^ 2097) :
    (x.div y).Fin ∧ ((x.div y).scaled * n - x.scaled).natAbs * 2 ^ 53 ≤ x.abs + n * 2 ^ 52 := by
  have hya : y.abs = n * 2 ^ 1074 := by rw [hy.abs, Int.natAbs_natCast]
  have hpos : 0 < y.abs := by rw [hya]; exact Nat.mul_pos hn pow1074_pos
  have hneg : y.isNeg = false := by
    rw [is_isNeg hy (by omega)]
    exact decide_eq_false (by omega)
  rw [div_fin hx hy.fin (by omega), hneg, Bool.bne_false]
  have hf : roundMag (x.abs * 2 ^ 1074) y.abs < infMag := by
    refine round_finite _ _ hpos ?_
    rw [hya]
    refine Nat.mul_le_mul h ?_
    exact Nat.le_mul_of_pos_left _ hn
  obtain ⟨b1, b2⟩ := round_off (x.abs * 2 ^ 1074) y.abs hpos hf
  refine ⟨make_fin _ hf, ?_⟩
  rw [make_scaled _ (Nat.lt_trans hf infMag_lt), scaled_abs x]
  generalize magVal (roundMag (x.abs * 2 ^ 1074) y.abs) = r at *
  rw [hya] at b1 b2
  have hu := pow1074_pos
  clear hf h hya hpos hneg
  generalize x.abs = X at *
  generalize 2 ^ 1074 = u at *
  have c1 : X * 2 ^ 53 ≤ r * n * 2 ^ 53 + (X + n * 2 ^ 52) := by
    refine Nat.le_of_mul_le_mul_right ?_ hu
    calc X * 2 ^ 53 * u = X * u * 2 ^ 53 := Nat.mul_right_comm ..
      _ ≤ _ := b1
      _ = (r * n * 2 ^ 53 + (X + n * 2 ^ 52)) * u := by
        rw [Nat.add_mul, Nat.add_mul, ← Nat.mul_assoc r, Nat.mul_right_comm _ u, Nat.mul_right_comm n u]
  have c2 : r * n * 2 ^ 53 ≤ X * 2 ^ 53 + (X + n * 2 ^ 52) := by
    refine Nat.le_of_mul_le_mul_right ?_ hu
    calc r * n * 2 ^ 53 * u = r * (n * u) * 2 ^ 53 := by rw [← Nat.mul_assoc r, Nat.mul_right_comm _ u]
      _ ≤ _ := b2
      _ = (X * 2 ^ 53 + (X + n * 2 ^ 52)) * u := by
        rw [Nat.add_mul, Nat.add_mul, Nat.mul_right_comm X u, Nat.mul_right_comm n u]
  clear b1 b2 hu hx hy
  have e : ((if x.isNeg then -(r : Int) else r) * n - if x.isNeg then -(X : Int) else X).natAbs = (r * n - X) + (X - r * n) := by
    cases x.isNeg
    · simp only [Bool.false_eq_true, if_false]
      rw [← Int.natCast_mul]
      omega
    · simp only [if_true]
      rw [Int.neg_mul, ← Int.natCast_mul]
      omega
  rw [e]
  exact dist_off c1 c2

/-- From units to numbers. -/
theorem mean_units {s t : Int} {n m D u : Nat} (hD : 0 < D) (hu : 0 < u) (hn : 0 < n) (h : (s * n - t).natAbs * D ≤ (n + 1) * m + n * D) :
    (s : Rat) / (u : Rat) - (t : Rat) / (u : Rat) / (n : Rat) ≤ ((n + 1 : Nat) : Rat) / (D : Rat) * ((m : Rat) / (u : Rat) / (n : Rat)) + 1 / (u : Rat) ∧
    (t : Rat) / (u : Rat) / (n : Rat) - (s : Rat) / (u : Rat) ≤ ((n + 1 : Nat) : Rat) / (D : Rat) * ((m : Rat) / (u : Rat) / (n : Rat)) + 1 / (u : Rat) := by
  have hp := natCast_pos hu
  have hq := natCast_pos hD
  have hr := natCast_pos hn
  have key : ∀ c : Int, c ≤ (s * n - t).natAbs →
      (c : Rat) / (u : Rat) / (n : Rat) ≤ ((n + 1 : Nat) : Rat) / (D : Rat) * ((m : Rat) / (u : Rat) / (n : Rat)) + 1 / (u : Rat) := by
    intro c hc
    have h1 : (c : Int) * D ≤ ((n + 1) * m + n * D : Nat) := by
      refine Int.le_trans (Int.mul_le_mul_of_nonneg_right hc (by omega)) ?_
      exact_mod_cast h
    have h2 : (c : Rat) * (D : Rat) ≤ ((n + 1 : Nat) : Rat) * (m : Rat) + (n : Rat) * (D : Rat) := by exact_mod_cast h1
    refine Rat.le_of_mul_le_mul_right (c := (u : Rat) * (D : Rat) * (n : Rat)) ?_ (Rat.mul_pos (Rat.mul_pos hp hq) hr)
    generalize ((n + 1 : Nat) : Rat) = N at *
    have e1 : (c : Rat) / u / n * (u * D * n) = c * D := by grind
    have e2 : (N / D * ((m : Rat) / u / n) + 1 / u) * (u * D * n) = N * m + n * D := by grind
    rw [e1, e2]
    exact h2
  have d1 := key (s * n - t) (by omega)
  have d2 := key (t - s * n) (by omega)
  have e1 : ((s * n - t : Int) : Rat) / (u : Rat) / (n : Rat) = (s : Rat) / (u : Rat) - (t : Rat) / (u : Rat) / (n : Rat) := by
    rw [Rat.intCast_sub, Rat.intCast_mul, Rat.intCast_natCast]
    grind
  have e2 : ((t - s * n : Int) : Rat) / (u : Rat) / (n : Rat) = (t : Rat) / (u : Rat) / (n : Rat) - (s : Rat) / (u : Rat) := by
    rw [Rat.intCast_sub, Rat.intCast_mul, Rat.intCast_natCast]
    grind
  rw [e1] at d1
  rw [e2] at d2
  exact ⟨d1, d2⟩

theorem two_big : 2 * 2 ^ 2096 = 2 ^ 2097 := (Nat.pow_succ' (n := 2096)).symm

/-- The sum is at most twice as big as the sizes. -/
theorem sum_big {x : F64} {t : Int} {n m : Nat} (hn : n ≤ 2 ^ 52) (ht : t.natAbs ≤ m) (h1 : (x.scaled - t).natAbs * 2 ^ 52 ≤ n * m) :
    x.abs ≤ 2 * m := by
  have h3 : (x.scaled - t).natAbs ≤ m := by
    have : (x.scaled - t).natAbs * 2 ^ 52 ≤ 2 ^ 52 * m := Nat.le_trans h1 (Nat.mul_le_mul_right _ hn)
    rw [Nat.mul_comm] at this
    exact Nat.le_of_mul_le_mul_left this (by decide)
  unfold F64.abs
  clear h1
  omega

/-- The errors of the sum and of the division together. -/
theorem mean_off {s t x : Int} {n m X : Nat} (hX : x.natAbs = X) (hn : n ≤ 2 ^ 52) (ht : t.natAbs ≤ m)
    (h1 : (x - t).natAbs * 2 ^ 52 ≤ n * m) (h2 : (s * n - x).natAbs * 2 ^ 53 ≤ X + n * 2 ^ 52) :
    X ≤ 2 * m ∧ (s * n - t).natAbs * 2 ^ 52 ≤ (n + 1) * m + n * 2 ^ 52 := by
  have h3 : (x - t).natAbs ≤ m := by
    have : (x - t).natAbs * 2 ^ 52 ≤ 2 ^ 52 * m := Nat.le_trans h1 (Nat.mul_le_mul_right _ hn)
    rw [Nat.mul_comm] at this
    exact Nat.le_of_mul_le_mul_left this (by decide)
  rw [Nat.add_mul, Nat.one_mul]
  generalize n * m = nm at *
  generalize s * n = sn at *
  omega

/-- C235: the mean is off by at most `2^-52` of the mean of the sizes, for each text and once more, and by one smallest double. -/
theorem C235_mean (rest : FloatOps F64) (exp10 : Int → F64) (env : AggEnv F64) (vs : List Bytes) (hf : ∀ v ∈ vs, (lossyF64 exp10 v).Fin)
    (h0 : vs ≠ []) (hn : vs.length ≤ 2 ^ 52) (hs : (vs.map fun v => (lossyF64 exp10 v).size).sum ≤ ((2 ^ 1022 : Nat) : Rat)) :
    ∃ x : F64, ((Agg.mean (f64Ops rest).zero (f64Ops rest).zero).addAll (env.doubles rest exp10) vs).result (env.doubles rest exp10) = .num x ∧
      x.Fin ∧
      x.val - (vs.map fun v => (lossyF64 exp10 v).val).sum / (vs.length : Rat) ≤
        ((vs.length + 1 : Nat) : Rat) / ((2 ^ 52 : Nat) : Rat) * ((vs.map fun v => (lossyF64 exp10 v).size).sum / (vs.length : Rat)) +
          1 / ((2 ^ 1074 : Nat) : Rat) ∧
      (vs.map fun v => (lossyF64 exp10 v).val).sum / (vs.length : Rat) - x.val ≤
        ((vs.length + 1 : Nat) : Rat) / ((2 ^ 52 : Nat) : Rat) * ((vs.map fun v => (lossyF64 exp10 v).size).sum / (vs.length : Rat)) +
          1 / ((2 ^ 1074 : Nat) : Rat) := by
  have hpos : 0 < vs.length := List.length_pos_iff.2 h0
  have hc := count_ones vs.length (Nat.le_trans hn (by decide))
  have hz : (F64.ofNat 0).Is 0 := is_ofNat (n := 0) (by decide)
  have hC := (C86_sum (env := env.doubles rest exp10) vs).2
  have hC' : ((Agg.mean (f64Ops rest).zero (f64Ops rest).zero).addAll (env.doubles rest exp10) vs).result (env.doubles rest exp10) =
      AggOut.num (if F64.gt ((List.replicate vs.length (F64.ofNat 1)).foldl F64.add (F64.ofNat 0)) (F64.ofNat 0) = true then
        F64.div ((vs.map (lossyF64 exp10)).foldl F64.add (F64.ofNat 0))
          ((List.replicate vs.length (F64.ofNat 1)).foldl F64.add (F64.ofNat 0)) else F64.ofNat 0) := hC
  rw [is_gt hc hz, decide_eq_true (by omega), if_pos rfl] at hC'
  refine ⟨_, hC', ?_⟩
  have e1 : (vs.map fun v => (lossyF64 exp10 v).val) = (vs.map (lossyF64 exp10)).map (·.val) := by rw [List.map_map]; rfl
  have e2 : (vs.map fun v => (lossyF64 exp10 v).size) = (vs.map (lossyF64 exp10)).map (·.size) := by rw [List.map_map]; rfl
  rw [e2, sum_size] at hs
  have hs' := units_le pow1074_pos hs
  rw [big_units] at hs'
  have hl : (vs.map (lossyF64 exp10)).length = vs.length := List.length_map ..
  obtain ⟨h1, h2⟩ := sum_off (ys := vs.map (lossyF64 exp10)) (by
    intro y hy
    obtain ⟨v, hv, rfl⟩ := List.mem_map.1 hy
    exact hf v hv) (by rw [hl]; exact hn) hs'
  rw [hl] at h2
  have ht : ((vs.map (lossyF64 exp10)).map (fun y : F64 => y.scaled)).sum.natAbs ≤ ((vs.map (lossyF64 exp10)).map (fun y : F64 => y.abs)).sum := by
    have := sum_natAbs_le ((vs.map (lossyF64 exp10)).map (fun y : F64 => y.scaled))
    rw [List.map_map (f := fun y : F64 => y.scaled) (g := Int.natAbs)] at this
    exact this
  rw [e1, e2, sum_val, sum_size]
  clear hs e1 e2 hC hC' hl hf
  generalize (vs.map (lossyF64 exp10)).foldl F64.add (F64.ofNat 0) = x at *
  generalize ((vs.map (lossyF64 exp10)).map (fun y : F64 => y.scaled)).sum = t at *
  generalize ((vs.map (lossyF64 exp10)).map (fun y : F64 => y.abs)).sum = m at *
  have hb := sum_big hn ht h2
  have h97 : x.abs ≤ 2 ^ 2097 := Nat.le_trans hb (Nat.le_trans (Nat.mul_le_mul_left 2 hs') (Nat.le_of_eq two_big))
  obtain ⟨g1, g2⟩ := div_near h1 hc hpos h97
  exact ⟨g1, mean_units (Nat.two_pow_pos 52) pow1074_pos hpos (mean_off rfl hn ht h2 g2).2⟩

/-- The mean of `1`, `2` and `0.5`. -/
example : ∃ x : F64, ((Agg.mean (f64Ops noOps).zero (f64Ops noOps).zero).addAll (noAggEnv.doubles noOps fun _ => 0)
    [ascii "1", ascii "2", ascii "0.5"]).result (noAggEnv.doubles noOps fun _ => 0) = .num x ∧ x.Fin := by
  obtain ⟨x, h, hf, _⟩ := C235_mean noOps (fun _ => 0) noAggEnv [ascii "1", ascii "2", ascii "0.5"]
    (by unfold F64.Fin; decide +kernel) (by decide) (by decide) (by decide +kernel)
  exact ⟨x, h, hf⟩

end Cdx
