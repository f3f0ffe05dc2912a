import Verif.Lemmas.FloatPower

/-!
C101 with doubles: the formats with a letter for the power.
-/

namespace Cdx

attribute [local irreducible] F64.mul F64.ofNat F64.lit F64.div F64.abs F64.fixed roundHE currF

theorem powerLoopF_near (letters : Bytes) (base : Nat) (hb : base = 1000 ∨ base = 1024)
    (hl : ∀ k, 1 ≤ k → k ≤ 8 → ∃ c, letters[k]? = some c ∧ SuffixOf c (base ^ k)) {P : Nat} (hP : P = 2 ^ 1074)
    {x : F64} (hx : NN x) (hxf : x.toNat < infMag) {n : Nat} (hn : x.abs = n * P) :
    ∀ left expNum, left + expNum = 8 → 1 ≤ left → (expNum = 0 → 1000 ≤ n) → (1 ≤ expNum → 998 * base ^ expNum ≤ n * base) →
      ∃ t, powerLoopF letters (F64.ofNat base) x left expNum (currF base expNum) = some t ∧ PowerNear n t := by
  have hpos : 0 < P := by rw [hP]; exact pow1074_pos
  intro left
  induction left with
  | zero => intro e h1 h2; omega
  | succ left ih =>
    intro e h1 _ h3 h4
    obtain ⟨f1, f2, f3, f4⟩ := pow_facts base e hb (by omega)
    rw [← hP] at f1 f2 f3 f4
    rw [powerLoopF, nn_lt hx f2.nn, nn_ge hx f3.nn, nn_ge hx f4.nn]
    have hpos' : 0 < base ^ e := Nat.pow_pos (by omega)
    obtain ⟨_, b1, b2⟩ := f2
    obtain ⟨_, b3, b4⟩ := f3
    obtain ⟨_, b5, b6⟩ := f4
    rw [Nat.one_mul] at b1 b2
    by_cases hlt : x.abs < ((F64.ofNat 999).mul (currF base e)).abs
    · rw [if_pos (decide_eq_true hlt)]
      have he : 1 ≤ e := by
        rcases Nat.eq_zero_or_pos e with rfl | h
        · have h3 := h3 rfl
          have := Nat.mul_le_mul_right P h3
          rw [Nat.pow_zero, Nat.one_mul] at b2
          omega
        · exact h
      have h4 := h4 he
      obtain ⟨c, hc, hv⟩ := hl e he (by omega)
      rw [hc]
      simp only [Option.map_some]
      refine ⟨_, rfl, ?_⟩
      have h4' : 974 * (base ^ e * P) ≤ 1000 * x.abs := by
        rw [hn, ← Nat.mul_assoc, ← Nat.mul_assoc]
        refine Nat.mul_le_mul_right P ?_
        rcases hb with rfl | rfl <;> omega
      have hV : 100 * P ≤ base ^ e * P := by
        refine Nat.mul_le_mul_right P ?_
        have : base ^ 1 ≤ base ^ e := Nat.pow_le_pow_right (by omega) he
        rw [Nat.pow_one] at this
        omega
      obtain ⟨q1, q2, q3, q4⟩ := quot_near hx hxf hP f1 hV (by omega)
      by_cases g1 : ((F64.ofNat 10).mul (currF base e)).abs ≤ x.abs
      · rw [if_pos (decide_eq_true g1), fixed_zero q1 q2]
        obtain ⟨r1, r2⟩ := roundHE_half (x.div (currF base e)).abs (2 ^ 1074) pow1074_pos
        rw [← hP] at r1 r2 ⊢
        generalize roundHE (x.div (currF base e)).abs P = q at *
        obtain ⟨m1, m2⟩ := near_units hpos rfl hn q3 q4 r1 r2 (by omega)
        exact ⟨10 * q, _, .whole hv, m1, m2⟩
      · rw [if_neg (by rw [decide_eq_true_eq]; exact g1)]
        by_cases g2 : ((F64.lit 11 10).mul (currF base e)).abs ≤ x.abs
        · rw [if_pos (decide_eq_true g2), fixed_one q1 q2]
          obtain ⟨r1, r2⟩ := roundHE_half ((x.div (currF base e)).abs * 10) (2 ^ 1074) pow1074_pos
          rw [← hP] at r1 r2 ⊢
          generalize roundHE ((x.div (currF base e)).abs * 10) P = q at *
          obtain ⟨m1, m2⟩ := near_tenths hpos rfl hn q3 q4 r1 r2 h4'
          exact ⟨q, _, tenthsText_means hv, m1, m2⟩
        · rw [if_neg (by rw [decide_eq_true_eq]; exact g2)]
          refine ⟨10 * 1, base ^ e, PowerText.whole (a := 1) hv, ?_, ?_⟩
          · rw [hn, ← Nat.mul_assoc, ← Nat.mul_assoc] at h4'
            have := Nat.le_of_mul_le_mul_right h4' hpos
            omega
          · have h5 : 100 * (n * P) ≤ 111 * (base ^ e * P) := by omega
            rw [← Nat.mul_assoc, ← Nat.mul_assoc] at h5
            have := Nat.le_of_mul_le_mul_right h5 hpos
            omega
    · rw [if_neg (by rw [decide_eq_true_eq]; exact hlt)]
      have hge : 998 * base ^ e ≤ n := by
        have h5 : 998 * (base ^ e * P) ≤ n * P := by omega
        rw [← Nat.mul_assoc] at h5
        exact Nat.le_of_mul_le_mul_right h5 hpos
      have hcurr : (currF base e).mul (F64.ofNat base) = currF base (e + 1) := by rw [currF]
      rw [hcurr]
      by_cases he : e + 1 ≥ 8
      · rw [if_pos he]
        have he : e = 7 := by omega
        subst he
        obtain ⟨c, hc, hv⟩ := hl 8 (by omega) (by omega)
        rw [hc]
        simp only [Option.map_some]
        refine ⟨_, rfl, ?_⟩
        obtain ⟨f1', _⟩ := pow_facts base 8 hb (by omega)
        rw [← hP] at f1'
        have h4' : 974 * (base ^ 8 * P) ≤ 1000 * x.abs := by
          rw [hn, ← Nat.mul_assoc, ← Nat.mul_assoc]
          refine Nat.mul_le_mul_right P ?_
          rw [Nat.pow_succ]
          generalize base ^ 7 = y at *
          rcases hb with rfl | rfl <;> omega
        have hV : 100 * P ≤ base ^ 8 * P := by
          refine Nat.mul_le_mul_right P ?_
          have : base ^ 1 ≤ base ^ 8 := Nat.pow_le_pow_right (by omega) (by omega)
          rw [Nat.pow_one] at this
          omega
        obtain ⟨q1, q2, q3, q4⟩ := quot_near hx hxf hP f1' hV (by omega)
        show PowerNear n ((x.div (currF base 8)).fixed 1 ++ [c])
        rw [fixed_one q1 q2]
        obtain ⟨r1, r2⟩ := roundHE_half ((x.div (currF base 8)).abs * 10) (2 ^ 1074) pow1074_pos
        rw [← hP] at r1 r2 ⊢
        generalize roundHE ((x.div (currF base 8)).abs * 10) P = q at *
        obtain ⟨m1, m2⟩ := near_tenths hpos rfl hn q3 q4 r1 r2 h4'
        exact ⟨q, _, tenthsText_means hv, m1, m2⟩
      · rw [if_neg he]
        refine ih (e + 1) (by omega) (by omega) (by omega) fun _ => ?_
        rw [Nat.pow_succ, ← Nat.mul_assoc]
        exact Nat.mul_le_mul_right _ hge

theorem nn_of_sign {x : F64} (h : x.Fin) (hs : x.isNeg = false) : NN x := by
  have h1 : x.toNat % 2 ^ 63 < infMag := h
  unfold F64.isNeg at hs
  have hs := of_decide_eq_false hs
  rw [Nat.mod_eq_of_lt (by omega)] at h1
  exact Nat.le_of_lt h1

theorem powerText_near (letters : Bytes) (base : Nat) (hb : base = 1000 ∨ base = 1024)
    (hl : ∀ k, 1 ≤ k → k ≤ 8 → ∃ c, letters[k]? = some c ∧ SuffixOf c (base ^ k)) (x : F64) (hx : x.Fin) :
    ∃ (n : Nat) (t : Bytes), powerText letters base x = some ((if x.isNeg then [45] else []) ++ t) ∧
      2 * x.abs ≤ 2 * (n * 2 ^ 1074) + 2 ^ 1074 ∧ 2 * (n * 2 ^ 1074) ≤ 2 * x.abs + 2 ^ 1074 ∧
      (n < 1000 → t = decText n) ∧ (1000 ≤ n → PowerNear n t) := by
  obtain ⟨n, r1, r2, r3, r4⟩ := round_is hx
  have hna : (if x.isNeg then -(n : Int) else n).natAbs = n := by cases x.isNeg <;> simp
  have hab := is_absF r1
  rw [hna] at hab
  unfold powerText
  simp only
  rw [is_lt hab (is_ofNat (n := 1000) (by decide)), r1.1, r1.2.1, Bool.or_false, Bool.or_false]
  by_cases h : n < 1000
  · rw [if_pos (decide_eq_true (by omega))]
    refine ⟨n, decText n, ?_, r3, r4, fun _ => rfl, by omega⟩
    rw [display_whole r1 (by omega), hna, r2]
  · rw [if_neg (by rw [decide_eq_true_eq]; omega)]
    rw [is_lt r1 (is_ofNat (n := 0) (by decide))]
    have hneg : decide ((if x.isNeg then -(n : Int) else n) < ((0 : Nat) : Int)) = x.isNeg := by
      cases x.isNeg
      · exact decide_eq_false (by simp only [Bool.false_eq_true, if_false]; omega)
      · exact decide_eq_true (by simp only [if_true]; omega)
    rw [hneg]
    obtain ⟨y, hy⟩ : ∃ y, y = if x.isNeg then x.round.negate else x.round := ⟨_, rfl⟩
    have hyI : y.Is n ∧ y.isNeg = false := by
      rw [hy]
      cases hxn : x.isNeg
      · rw [hxn] at r1 r2
        exact ⟨by simpa using r1, by simpa using r2⟩
      · rw [hxn] at r1 r2
        have := is_negate r1
        simp only [if_true, Int.neg_neg] at this
        exact ⟨by simpa using this, by rw [if_pos rfl, negate_isNeg, r2]; rfl⟩
    rw [← hy]
    have hnn := nn_of_sign hyI.1.fin hyI.2
    have hya := hyI.1.abs
    rw [Int.natAbs_natCast] at hya
    obtain ⟨t, t1, t2⟩ := powerLoopF_near letters base hb hl rfl hnn ((hnn.fin).1 hyI.1.fin) hya 8 0 rfl (by omega) (by omega) (by omega)
    rw [show F64.ofNat 1 = currF base 0 by rw [currF], t1]
    exact ⟨n, t, rfl, r3, r4, by omega, fun _ => t2⟩

/-- C101 with doubles: every number is rounded to the nearest whole number, and this is printed as it is below 1000, and otherwise such that its text means a
number within a tenth of it. -/
theorem C101_doubles (f : NumFormat) (hf : f = .power2 ∨ f = .power10) (x : F64) (hx : x.Fin) :
    ∃ (n : Nat) (t : Bytes), f.printF x = some ((if x.isNeg then [45] else []) ++ t) ∧ x.size ≤ n + 1 / 2 ∧ (n : Rat) ≤ x.size + 1 / 2 ∧
      (n < 1000 → t = decText n) ∧ (1000 ≤ n → PowerNear n t) := by
  have key : ∀ n : Nat, 2 * x.abs ≤ 2 * (n * 2 ^ 1074) + 2 ^ 1074 → 2 * (n * 2 ^ 1074) ≤ 2 * x.abs + 2 ^ 1074 →
      x.size ≤ n + 1 / 2 ∧ (n : Rat) ≤ x.size + 1 / 2 := by
    intro n h1 h2
    rw [size_abs]
    have hp := natCast_pos pow1074_pos
    have h1' := Rat.natCast_le_natCast.2 h1
    have h2' := Rat.natCast_le_natCast.2 h2
    simp only [Rat.natCast_add, Rat.natCast_mul] at h1' h2'
    generalize ((2 ^ 1074 : Nat) : Rat) = u at *
    have e : (x.abs : Rat) = x.abs / u * u := by
      rw [Rat.div_mul_cancel]
      grind
    constructor
    · refine Rat.le_of_mul_le_mul_right (c := u) ?_ hp
      rw [← e]
      grind
    · refine Rat.le_of_mul_le_mul_right (c := u) ?_ hp
      rw [Rat.add_mul, ← e]
      grind
  rcases hf with rfl | rfl
  · obtain ⟨n, t, h1, h2, h3, h4, h5⟩ := powerText_near p2Letters 1024 (by omega) p2_letters x hx
    obtain ⟨k1, k2⟩ := key n h2 h3
    exact ⟨n, t, h1, k1, k2, h4, h5⟩
  · obtain ⟨n, t, h1, h2, h3, h4, h5⟩ := powerText_near p10Letters 1000 (by omega) p10_letters x hx
    obtain ⟨k1, k2⟩ := key n h2 h3
    exact ⟨n, t, h1, k1, k2, h4, h5⟩

/-- Where a tie would be rounded, the text depends on the double: 1150 is written 1.1k, though 1.15 would be 1.2. -/
example : NumFormat.power10.printF (F64.ofNat 1150) = some (ascii "1.1k") ∧ NumFormat.power10.print 1150 = some (ascii "1.2k") := by decide +kernel

example : NumFormat.power2.printF (F64.lit 10239995 10).negate = some (ascii "-1M") ∧ NumFormat.power10.printF (F64.lit 3 10).negate = some (ascii "-0") ∧
    NumFormat.power10.printF (F64.ofNat (10 ^ 26)) = some (ascii "100.0y") ∧ (F64.lit 10239995 10).negate.Fin := by
  refine ⟨by decide +kernel, by decide +kernel, by decide +kernel, ?_⟩
  unfold F64.Fin
  decide +kernel

end Cdx
