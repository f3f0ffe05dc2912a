import Verif.Props.FloatDigits

/-!
C197: what is printed for a double is read back nearly.
-/

namespace Cdx

/-- Full statement: a double printed without a precision and without an exponent is read back as the same double. -/
def C197_statement : Prop := ∀ (x : F64), x.Fin → ∃ t, (NumFormat.plain none).printF x = some t ∧ readF64 pow10F t = some (x, [])

/-- 0.3 is read as 0.30000000000000004. -/
theorem C197_refuted : ¬ C197_statement := by
  intro h
  obtain ⟨t, h1, h2⟩ := h (F64.lit 3 10) (by unfold F64.Fin; decide +kernel)
  rw [show (NumFormat.plain none).printF (F64.lit 3 10) = some (ascii "0.3") by decide +kernel] at h1
  rw [← Option.some.inj h1] at h2
  exact absurd h2 (by decide +kernel)

example : readF64 pow10F (ascii "0.3") = some ((F64.lit 1 10).add (F64.lit 2 10), []) ∧ ((F64.lit 1 10).add (F64.lit 2 10)).display = ascii "0.30000000000000004" := by
  decide +kernel

/-! ## Sizes -/

theorem pointText_length (t : Bytes) (k : Int) :
    (pointText t k).length ≤ (-k).toNat + (if 0 ≤ k then t.length + k.toNat else t.length + 2) := by
  unfold pointText
  simp only
  split
  · simp only [List.length_append, List.length_replicate]
    omega
  · split
    · simp only [List.length_append, List.length_take, List.length_cons, List.length_drop]
      omega
    · simp only [List.length_append, List.length_replicate, List.length_cons, List.length_nil]
      omega

theorem parts_length (p : NumParts) : p.sign.length + p.ds.length + p.fs.length ≤ p.text.length := by
  have : p.fs.length ≤ (fracText p.frac).length := by
    unfold NumParts.fs
    cases p.frac <;> simp [fracText]
  simp only [NumParts.text, List.length_append]
  omega

/-- The digits found for a number of medium size, in units. -/
theorem near_nat {x : F64} (hx : x.Fin) (P A B d : Nat) (k : Int) (hP : P = 2 ^ 1074) (hA : A = 10 ^ k.toNat) (hB : B = 10 ^ (-k).toNat)
    (hr : roundDec d k = x.toNat % 2 ^ 63) (hlo : P ≤ x.abs * 10 ^ 270) :
    d * A * P * (2 ^ 53 - 1) ≤ x.abs * B * 2 ^ 53 ∧ x.abs * B * 2 ^ 53 ≤ d * A * P * (2 ^ 53 + 1) := by
  have hm : x.toNat % 2 ^ 63 < infMag := hx
  have hBp : 0 < B := by rw [hB]; exact ten_pos _
  rw [← hr] at hm
  unfold roundDec at hm hr
  rw [← hP, ← hA, ← hB] at hm hr
  have habs : x.abs = magVal (roundMag (d * A * P) B) := by rw [abs_eq, hr]
  have hn : 2 ^ 52 * B ≤ d * A * P := by
    rcases Nat.lt_or_ge (d * A * P) (2 ^ 52 * B) with hlt | hge
    · exfalso
      have hv : magVal (2 ^ 52) = 2 ^ 52 := by decide +kernel
      have h1 := roundMag_le hBp (m := 2 ^ 52) (a := d * A * P) (by rw [infMag_eq]; decide) (by rw [hv]; omega)
      have h2 := magVal_le (b := 2 ^ 52) (by decide) h1
      rw [← habs, hv] at h2
      have h3 := Nat.mul_le_mul_right (10 ^ 270) h2
      have h4 : 2 ^ 52 * 10 ^ 270 < 2 ^ 1074 := by decide +kernel
      rw [← hP] at h4
      generalize x.abs * 10 ^ 270 = u at *
      generalize 2 ^ 52 * 10 ^ 270 = w at *
      omega
    · exact hge
  have := round_bounds _ _ hBp hn hm
  rwa [← habs] at this

/-- Powers of ten below a bound. -/
theorem ten_lt {e n c : Nat} (h1 : 10 ^ e ≤ n) (h2 : n < 10 ^ c) : e < c := by
  have := Nat.lt_of_le_of_lt h1 h2
  rwa [Nat.pow_lt_pow_iff_right (by decide)] at this

/-- There are few digits. -/
theorem near_lengths {P A B d a e : Nat} {k : Int} (hP : 0 < P) (hA : A = 10 ^ k.toNat) (hB : B = 10 ^ (-k).toNat)
    (h1 : d * A * P * (2 ^ 53 - 1) ≤ a * B * 2 ^ 53) (h2 : a * B * 2 ^ 53 ≤ d * A * P * (2 ^ 53 + 1)) (hlo : P ≤ a * 10 ^ 270) (hhi : a ≤ 10 ^ 299 * P)
    (hd : d < 10 ^ 17) (he : d = 0 ∨ 10 ^ e ≤ d) :
    d ≠ 0 ∧ (0 ≤ k → e + k.toNat < 300) ∧ (-k).toNat < 290 := by
  have g1 : d * A * P ≤ 2 * (a * B) := by omega
  have g2 : a * B ≤ 2 * (d * A * P) := by omega
  clear h1 h2
  have ha : 0 < a := by
    rcases Nat.eq_zero_or_pos a with rfl | h
    · rw [Nat.zero_mul] at hlo
      omega
    · exact h
  have hB' : 0 < B := by rw [hB]; exact ten_pos _
  have hab := Nat.mul_pos ha hB'
  have hd0 : d ≠ 0 := by
    rintro rfl
    rw [Nat.zero_mul, Nat.zero_mul] at g2
    omega
  refine ⟨hd0, fun hk => ?_, ?_⟩
  · have hB1 : B = 1 := by rw [hB, show (-k).toNat = 0 by omega, Nat.pow_zero]
    rw [hB1, Nat.mul_one] at g1
    have h3 : d * A * P ≤ 2 * 10 ^ 299 * P := by
      rw [Nat.mul_assoc 2]
      omega
    have h4 := Nat.le_of_mul_le_mul_right h3 hP
    have h5 : 10 ^ (e + k.toNat) ≤ d * A := by
      rw [Nat.pow_add, hA]
      exact Nat.mul_le_mul_right _ (by omega)
    exact ten_lt h5 (Nat.lt_of_le_of_lt h4 (by decide +kernel))
  · by_cases hk : 0 ≤ k
    · omega
    · have hA1 : A = 1 := by rw [hA, show k.toNat = 0 by omega, Nat.pow_zero]
      rw [hA1, Nat.mul_one] at g2
      have h3 : B * P ≤ 2 * d * 10 ^ 270 * P := by
        calc B * P ≤ B * (a * 10 ^ 270) := Nat.mul_le_mul_left _ hlo
          _ = a * B * 10 ^ 270 := by ac_rfl
          _ ≤ 2 * (d * P) * 10 ^ 270 := Nat.mul_le_mul_right _ g2
          _ = _ := by ac_rfl
      have h4 := Nat.le_of_mul_le_mul_right h3 hP
      have h5 : 2 * d * 10 ^ 270 ≤ 2 * 10 ^ 17 * 10 ^ 270 := Nat.mul_le_mul_right _ (by omega)
      rw [hB] at h4
      exact ten_lt (Nat.le_trans h4 h5) (by decide +kernel)

theorem val_sign (x : F64) : x.val = (if x.isNeg = true then -1 else 1) * x.size := by
  rw [size_abs]
  unfold F64.val
  rw [scaled_abs]
  generalize ((2 ^ 1074 : Nat) : Rat) = u
  cases x.isNeg
  · simp only [Bool.false_eq_true, if_false, Rat.intCast_natCast, Rat.one_mul]
  · simp only [if_true, Rat.intCast_neg, Rat.intCast_natCast]
    rw [Rat.div_def, Rat.div_def]
    grind

theorem err_sum {b : Bool} {t s w : Rat} (w0 : 0 ≤ t) (w1 : t * (1 - 1 / 2 ^ 53) ≤ s) (w2 : s ≤ t * (1 + 1 / 2 ^ 53))
    (r5 : (if b = true then -1 else 1) * t - t / 2 ^ 41 ≤ w) (r6 : w ≤ (if b = true then -1 else 1) * t + t / 2 ^ 41) :
    (if b = true then -1 else 1) * s - s / 2 ^ 40 ≤ w ∧ w ≤ (if b = true then -1 else 1) * s + s / 2 ^ 40 := by
  cases b
  · simp only [Bool.false_eq_true, if_false, Rat.one_mul] at r5 r6 ⊢
    constructor <;> grind
  · simp only [if_true] at r5 r6 ⊢
    constructor <;> grind

/-- What is missing: the same double, and very great and very small numbers. -/
theorem C197_near_partial (exp10 : Int → F64) (x : F64) (hx : x.Fin) (hlo : 1 / 10 ^ 270 ≤ x.size) (hhi : x.size ≤ 10 ^ 299) :
    ∃ t v, (NumFormat.plain none).printF x = some t ∧ readF64 exp10 t = some (v, []) ∧ v.Fin ∧ v.isNeg = x.isNeg ∧
      x.val - x.size / 2 ^ 40 ≤ v.val ∧ v.val ≤ x.val + x.size / 2 ^ 40 := by
  obtain ⟨so1, so2⟩ := sign_ok x.isNeg
  obtain ⟨p, wf, pl, sg, tx, dg, fl, _⟩ := pointText_parts _ (decText x.shortest.1) x.shortest.2 so1 (decText_isDigit _)
  obtain ⟨s1, _, _⟩ := shortest_spec x hx
  have h17 := shortest_seventeen hx
  obtain ⟨P, hPe⟩ : ∃ P, P = 2 ^ 1074 := ⟨_, rfl⟩
  have hP : 0 < P := by rw [hPe]; exact pow1074_pos
  have hPr := natCast_pos hP
  have hsz := size_abs x
  rw [← hPe] at hsz
  obtain ⟨e, l1, l2, l3⟩ := decText_length x.shortest.1
  have hc270 : ((10 ^ 270 : Nat) : Rat) = 10 ^ 270 := by exact_mod_cast rfl
  have hc299 : ((10 ^ 299 : Nat) : Rat) = 10 ^ 299 := by exact_mod_cast rfl
  have hlo' : P ≤ x.abs * 10 ^ 270 := by
    rw [hsz, ← hc270] at hlo
    have hz := natCast_pos (ten_pos 270)
    have : (P : Rat) ≤ (x.abs : Rat) * ((10 ^ 270 : Nat) : Rat) := by
      have e := Rat.mul_le_mul_of_nonneg_right hlo (Rat.le_of_lt (Rat.mul_pos hz hPr))
      generalize ((10 ^ 270 : Nat) : Rat) = z at *
      have e1 : 1 / z * (z * P) = P := by grind
      have e2 : (x.abs : Rat) / P * (z * P) = x.abs * z := by grind
      rw [e1, e2] at e
      exact e
    rw [← Rat.natCast_mul, Rat.natCast_le_natCast] at this
    exact this
  have hhi' : x.abs ≤ 10 ^ 299 * P := by
    rw [hsz, ← hc299] at hhi
    have e := Rat.mul_le_mul_of_nonneg_right hhi (Rat.le_of_lt hPr)
    rw [Rat.div_mul_cancel (by grind), ← Rat.natCast_mul, Rat.natCast_le_natCast] at e
    exact e
  generalize hdd : x.shortest.1 = d at *
  generalize hkk : x.shortest.2 = k at *
  obtain ⟨A, hA⟩ : ∃ A, A = 10 ^ k.toNat := ⟨_, rfl⟩
  obtain ⟨B, hB⟩ : ∃ B, B = 10 ^ (-k).toNat := ⟨_, rfl⟩
  obtain ⟨n1, n2⟩ := near_nat hx P A B d k hPe hA hB s1 hlo'
  have hd : d < 10 ^ 17 := Nat.lt_of_lt_of_le l3 (Nat.pow_le_pow_right (by decide) (by omega))
  obtain ⟨m0, m1, m2⟩ := near_lengths hP hA hB n1 n2 hlo' hhi' hd l2
  have hlen := pointText_length (decText d) k
  have hpl := parts_length p
  rw [tx, List.length_append, sg] at hpl
  have f1 : p.fs.length ≤ 300 := by omega
  have f2 : p.ds.length ≤ 300 := by
    split at hlen
    · have := m1 (by assumption)
      omega
    · omega
  obtain ⟨v, r1, r2, r3, r4, _, _⟩ := C185_near_partial exp10 p wf pl f2 f1
  obtain ⟨v', r1', _, r5, r6⟩ := C185_error_partial exp10 p wf pl f2 f1
  rw [r1] at r1'
  obtain rfl : v = v' := by simpa using r1'
  refine ⟨p.text, v, ?_, r1, r2, ?_, ?_⟩
  · show some x.display = _
    unfold F64.display
    rw [signed_fin hx, hdd, hkk, tx]
  · rw [r3, sg]
    cases x.isNeg <;> rfl
  · have hw : Within loU hiU 1 (x.abs : Rat) ((d * A * P : Nat) / (B : Nat)) := within_round (by rw [hB]; exact ten_pos _) n1 n2
    have hw := hw.div hPr
    rw [← hsz] at hw
    have hval : p.bare.value = ((d * A * P : Nat) : Rat) / (B : Rat) / (P : Rat) := by
      rw [bare_value]
      unfold NumParts.digits at dg
      rw [dg, decVal_decText, fl, ← hA, Rat.natCast_mul (d * A) P, hB]
      have : ((10 ^ (-k).toNat : Nat) : Rat) = 10 ^ (-k).toNat := by exact_mod_cast rfl
      rw [this]
      have := ten_pow_ne (-k).toNat
      grind
    rw [← hval] at hw
    have hsgn : p.sgn = if x.isNeg = true then -1 else 1 := by
      unfold NumParts.sgn
      rw [sg]
      cases x.isNeg <;> simp
    rw [r4, hsgn] at r5 r6
    rw [val_sign x]
    obtain ⟨w0, w1, w2⟩ := hw
    rw [Rat.pow_one] at w1 w2
    unfold loU at w1
    unfold hiU at w2
    have c53 : (1 : Rat) / ((2 ^ 53 : Nat) : Rat) = 1 / 2 ^ 53 := by decide +kernel
    rw [c53] at w1 w2
    have c41 : ((2 ^ 41 : Nat) : Rat) = 2 ^ 41 := by decide +kernel
    rw [c41] at r5 r6
    generalize p.bare.value = t at *
    generalize x.size = s at *
    generalize v.val = w at *
    exact err_sum w0 w1 w2 r5 r6

/-- A third. -/
example (exp10 : Int → F64) : ∃ t v, (NumFormat.plain none).printF (F64.lit 1 3) = some t ∧ readF64 exp10 t = some (v, []) ∧ v.Fin ∧ v.isNeg = false ∧
    (F64.lit 1 3).val - (F64.lit 1 3).size / 2 ^ 40 ≤ v.val ∧ v.val ≤ (F64.lit 1 3).val + (F64.lit 1 3).size / 2 ^ 40 := by
  have := C197_near_partial exp10 (F64.lit 1 3) (by unfold F64.Fin; decide +kernel) (by decide +kernel) (by decide +kernel)
  rwa [show (F64.lit 1 3).isNeg = false by decide +kernel] at this

end Cdx
