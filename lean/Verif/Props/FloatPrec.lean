import Verif.Props.FloatPrint

/-!
C198: with a precision a double is printed as the decimal with so many digits after the point that is nearest to it.
-/

namespace Cdx

/-! ## Specification -/

/-- A number without its sign. -/
def F64.size (x : F64) : Rat := if x.val < 0 then -x.val else x.val

/-- The whole number nearest to `r`, of two the even one. -/
def NearestInt (r : Rat) (q : Nat) : Prop :=
  (q : Rat) ≤ r + 1 / 2 ∧ r ≤ (q : Rat) + 1 / 2 ∧ ((q : Rat) = r + 1 / 2 ∨ r = (q : Rat) + 1 / 2 → q % 2 = 0)

/-! ## Proof -/

theorem size_abs (x : F64) : x.size = (x.abs : Rat) / ((2 ^ 1074 : Nat) : Rat) := by
  unfold F64.size F64.val
  rw [scaled_abs]
  have hp := natCast_pos pow1074_pos
  have ha := natCast_nonneg x.abs
  generalize ((2 ^ 1074 : Nat) : Rat) = u at *
  have hi := Rat.inv_pos.2 hp
  have h0 : 0 ≤ (x.abs : Rat) / u := by
    rw [Rat.div_def]
    exact Rat.mul_nonneg ha (Rat.le_of_lt hi)
  cases x.isNeg
  · simp only [Bool.false_eq_true, if_false, Rat.intCast_natCast]
    rw [if_neg (by grind)]
  · simp only [if_true, Rat.intCast_neg, Rat.intCast_natCast]
    have e : -(x.abs : Rat) / u = -((x.abs : Rat) / u) := by rw [Rat.div_def, Rat.div_def, Rat.neg_mul]
    rw [e]
    by_cases h : -((x.abs : Rat) / u) < 0
    · rw [if_pos h, Rat.neg_neg]
    · rw [if_neg h]
      grind

theorem roundHE_even (n d : Nat) (hd : 0 < d) (h : 2 * (roundHE n d * d) = 2 * n + d ∨ 2 * n = 2 * (roundHE n d * d) + d) : roundHE n d % 2 = 0 := by
  have e := Nat.div_add_mod n d
  have l := Nat.mod_lt n hd
  rw [Nat.mul_comm] at e
  unfold roundHE at h ⊢
  generalize n % d = r at *
  split at h
  · omega
  split at h
  · rw [Nat.add_mul] at h
    generalize n / d * d = z at *
    omega
  split at h
  · rename_i h3
    rw [if_neg (by omega), if_neg (by omega), if_pos (by assumption)]
    omega
  · rename_i h3
    rw [if_neg (by omega), if_neg (by omega), if_neg (by assumption)]
    omega

theorem nearest_roundHE (n d : Nat) (hd : 0 < d) : NearestInt ((n : Rat) / (d : Rat)) (roundHE n d) := by
  obtain ⟨h1, h2⟩ := roundHE_half n d hd
  have h3 := roundHE_even n d hd
  generalize roundHE n d = q at *
  have hd' := natCast_pos hd
  have h1' : 2 * ((q : Rat) * d) ≤ 2 * n + d := by exact_mod_cast h1
  have h2' : 2 * (n : Rat) ≤ 2 * (q * d) + d := by exact_mod_cast h2
  have e : (n : Rat) = n / d * d := by
    rw [Rat.div_mul_cancel]
    grind
  refine ⟨?_, ?_, ?_⟩
  · refine Rat.le_of_mul_le_mul_right (c := (d : Rat)) ?_ hd'
    grind
  · refine Rat.le_of_mul_le_mul_right (c := (d : Rat)) ?_ hd'
    grind
  · rintro (h | h)
    · apply h3
      left
      have : 2 * ((q : Rat) * d) = 2 * n + d := by rw [h]; grind
      exact_mod_cast this
    · apply h3
      right
      have : 2 * (n : Rat) = 2 * (q * d) + d := by rw [e, h]; grind
      exact_mod_cast this

theorem padText_spec {p n : Nat} (h : n < 10 ^ p) (hp : p ≠ 0) :
    (padText p n).length = p ∧ decVal (padText p n) = n ∧ ∀ c ∈ padText p n, isDigit c = true := by
  obtain ⟨e, h1, h2, h3⟩ := decText_length n
  have he : e + 1 ≤ p := by
    rcases h2 with rfl | h2
    · have : e = 0 := by
        rw [show decText 0 = [48] from by decide] at h1
        simpa using h1.symm
      omega
    · have := Nat.lt_of_le_of_lt h2 h
      rw [Nat.pow_lt_pow_iff_right (by decide)] at this
      omega
  unfold padText
  refine ⟨?_, ?_, ?_⟩
  · rw [List.length_append, List.length_replicate]
    omega
  · rw [decVal_append, decVal_nulls, decVal_decText, Nat.zero_mul, Nat.zero_add]
  · exact digits_of_Digit (digits_append (digits_zeros _) (decText_digits n))

theorem mag_scale (x : F64) (N : Nat) : x.size * 10 ^ N = ((x.abs * 10 ^ N : Nat) : Rat) / ((2 ^ 1074 : Nat) : Rat) := by
  rw [size_abs]
  have hc : ((x.abs * 10 ^ N : Nat) : Rat) = (x.abs : Rat) * 10 ^ N := by exact_mod_cast rfl
  rw [hc]
  generalize ((2 ^ 1074 : Nat) : Rat) = u
  rw [Rat.div_def, Rat.div_def]
  grind

/-- C198: with a precision `N`, the number is written with `N` digits after the point, as the nearest such decimal, of two the one with an even
last digit. -/
theorem C198_fixed (x : F64) (hx : x.Fin) (N : Nat) :
    ∃ (p : NumParts) (q : Nat), p.WF ∧ p.Plain ∧ p.ds ≠ [] ∧ p.fs.length = N ∧ x.fixed N = p.text ∧ (p.sign = [45] ↔ x.isNeg = true) ∧
      p.size = (q : Rat) / 10 ^ N ∧ NearestInt (x.size * 10 ^ N) q := by
  obtain ⟨so1, so2⟩ := sign_ok x.isNeg
  have hpos := ten_pos N
  have hd := nearest_roundHE (x.abs * 10 ^ N) (2 ^ 1074) pow1074_pos
  unfold F64.fixed
  simp only
  rw [signed_fin hx, mag_scale]
  generalize roundHE (x.abs * 10 ^ N) (2 ^ 1074) = q at *
  have key : ∀ fr : Option Bytes, fr = (if N = 0 then none else some (padText N (q % 10 ^ N))) →
      (fr.getD []).length = N ∧ decVal (fr.getD []) = q % 10 ^ N ∧ (∀ c ∈ fr.getD [], isDigit c = true) ∧
        fracText fr = if N = 0 then [] else 46 :: padText N (q % 10 ^ N) := by
    rintro fr rfl
    by_cases hN : N = 0
    · rw [if_pos hN, if_pos hN, hN]
      refine ⟨rfl, ?_, by simp, rfl⟩
      rw [Nat.pow_zero, Nat.mod_one]
      rfl
    · rw [if_neg hN, if_neg hN]
      obtain ⟨a, b, c⟩ := padText_spec (Nat.mod_lt q hpos) hN
      exact ⟨a, b, c, rfl⟩
  generalize hfr : (if N = 0 then none else some (padText N (q % 10 ^ N))) = fr at key
  obtain ⟨k1, k2, k3, k4⟩ := key fr rfl
  refine ⟨⟨if x.isNeg then [45] else [], decText (q / 10 ^ N), fr, none, none⟩, q, ⟨so1, decText_isDigit _, k3, by simp, by simp⟩, ⟨rfl, rfl⟩,
    decText_ne_nil _, k1, ?_, so2, ?_, hd⟩
  · rw [← k4]
    simp [NumParts.text, expText, sufText]
  · unfold NumParts.size NumParts.fs
    simp only [expVal, sufVal]
    rw [decVal_append, decVal_decText, k2, k1, Nat.div_add_mod', Rat.mul_one, Rat.mul_one]

theorem decRat_pos (k : Int) : 0 < decRat 1 k := by
  unfold decRat
  rw [Rat.div_def]
  exact Rat.mul_pos (natCast_pos (Nat.mul_pos (by decide) (ten_pos _))) (Rat.inv_pos.2 (natCast_pos (ten_pos _)))

theorem lead_rat (x : F64) (k : Int) : decRat 1 k ≤ x.size ↔ Lead x.abs k := by
  rw [size_abs]
  unfold decRat Lead
  rw [Nat.one_mul]
  have h1 := natCast_pos pow1074_pos
  have h2 := natCast_pos (ten_pos (-k).toNat)
  have e : 2 ^ 1074 * 10 ^ k.toNat ≤ x.abs * 10 ^ (-k).toNat ↔
      ((2 ^ 1074 : Nat) : Rat) * ((10 ^ k.toNat : Nat) : Rat) ≤ (x.abs : Rat) * ((10 ^ (-k).toNat : Nat) : Rat) := by
    rw [← Rat.natCast_mul, ← Rat.natCast_mul, Rat.natCast_le_natCast]
  rw [e]
  generalize ((2 ^ 1074 : Nat) : Rat) = u at *
  generalize ((10 ^ (-k).toNat : Nat) : Rat) = v at *
  generalize ((10 ^ k.toNat : Nat) : Rat) = w at *
  have e1 : w / v * (u * v) = u * w := by grind
  have e2 : (x.abs : Rat) / u * (u * v) = x.abs * v := by grind
  constructor
  · intro h
    have := Rat.mul_le_mul_of_nonneg_right h (Rat.le_of_lt (Rat.mul_pos h1 h2))
    rwa [e1, e2] at this
  · intro h
    rw [← e1, ← e2] at h
    exact Rat.le_of_mul_le_mul_right h (Rat.mul_pos h1 h2)

theorem mag_div (x : F64) (k : Int) :
    x.size / decRat 1 k = ((x.abs * 10 ^ (-k).toNat : Nat) : Rat) / ((2 ^ 1074 * 10 ^ k.toNat : Nat) : Rat) := by
  rw [size_abs]
  unfold decRat
  rw [Nat.one_mul, Rat.natCast_mul, Rat.natCast_mul]
  have h1 := natCast_pos pow1074_pos
  have h2 := natCast_pos (ten_pos (-k).toNat)
  have h3 := natCast_pos (ten_pos k.toNat)
  generalize ((2 ^ 1074 : Nat) : Rat) = u at *
  generalize ((10 ^ (-k).toNat : Nat) : Rat) = v at *
  generalize ((10 ^ k.toNat : Nat) : Rat) = w at *
  grind

theorem decRat_carry (p : Nat) (k : Int) : decRat (10 ^ (p + 1)) k = decRat (10 ^ p) (k + 1) := by
  unfold decRat
  have e : 10 ^ (p + 1) * 10 ^ k.toNat * 10 ^ (-(k + 1)).toNat = 10 ^ p * 10 ^ (k + 1).toNat * 10 ^ (-k).toNat := by
    rw [← Nat.pow_add, ← Nat.pow_add, ← Nat.pow_add, ← Nat.pow_add]
    congr 1
    omega
  have h2 := natCast_pos (ten_pos (-k).toNat)
  have h3 := natCast_pos (ten_pos (-(k + 1)).toNat)
  have e' := congrArg (fun n : Nat => (n : Rat)) e
  rw [Rat.natCast_mul (10 ^ (p + 1) * 10 ^ k.toNat), Rat.natCast_mul (10 ^ p * 10 ^ (k + 1).toNat)] at e'
  generalize ((10 ^ (-(k + 1)).toNat : Nat) : Rat) = a at *
  generalize ((10 ^ (-k).toNat : Nat) : Rat) = b at *
  generalize ((10 ^ (p + 1) * 10 ^ k.toNat : Nat) : Rat) = c at *
  generalize ((10 ^ p * 10 ^ (k + 1).toNat : Nat) : Rat) = d at *
  grind

theorem scale_le {P a : Nat} (e : Int) (N : Nat) (h : P * 10 ^ e.toNat ≤ a * 10 ^ (-e).toNat) :
    10 ^ N * (P * 10 ^ (e - (N : Int)).toNat) ≤ a * 10 ^ (-(e - (N : Int))).toNat := by
  refine Nat.le_of_mul_le_mul_right (c := 10 ^ (-e).toNat) ?_ (ten_pos _)
  have := Nat.mul_le_mul_right (10 ^ (-(e - (N : Int))).toNat) h
  refine Nat.le_trans (Nat.le_of_eq ?_) (Nat.le_trans this (Nat.le_of_eq ?_))
  · rw [Nat.mul_left_comm, Nat.mul_assoc, Nat.mul_assoc, ← Nat.pow_add, ← Nat.pow_add, Nat.mul_assoc, ← Nat.pow_add]
    congr 2
    omega
  · rw [Nat.mul_right_comm]

theorem scale_lt {P a : Nat} (e : Int) (N : Nat) (h : a * 10 ^ (-(e + 1)).toNat < P * 10 ^ (e + 1).toNat) :
    a * 10 ^ (-(e - (N : Int))).toNat < 10 ^ (N + 1) * (P * 10 ^ (e - (N : Int)).toNat) := by
  refine Nat.lt_of_mul_lt_mul_right (a := 10 ^ (-(e + 1)).toNat) ?_
  have := Nat.mul_lt_mul_of_pos_right h (ten_pos (-(e - (N : Int))).toNat)
  refine Nat.lt_of_le_of_lt (Nat.le_of_eq ?_) (Nat.lt_of_lt_of_le this (Nat.le_of_eq ?_))
  · rw [Nat.mul_right_comm]
  · rw [Nat.mul_left_comm, Nat.mul_assoc, Nat.mul_assoc, ← Nat.pow_add, ← Nat.pow_add, ← Nat.pow_add]
    congr 2
    omega

theorem lead_scale_le {a : Nat} {e : Int} (N : Nat) (h : Lead a e) :
    10 ^ N * (2 ^ 1074 * 10 ^ (e - (N : Int)).toNat) ≤ a * 10 ^ (-(e - (N : Int))).toNat := by
  unfold Lead at h
  exact scale_le e N h

theorem lead_scale_lt {a : Nat} {e : Int} (N : Nat) (h : ¬ Lead a (e + 1)) :
    a * 10 ^ (-(e - (N : Int))).toNat < 10 ^ (N + 1) * (2 ^ 1074 * 10 ^ (e - (N : Int)).toNat) := by
  unfold Lead at h
  exact scale_lt e N (Nat.not_le.1 h)

/-- C198: with an exponent and a precision `N`, a number other than zero between `10^e` and `10^(e+1)` is written with one digit before the point and `N`
after it, as the nearest multiple of `10^(e-N)`. -/
theorem C198_exponent (x : F64) (hx : x.Fin) (h0 : x.size ≠ 0) (N : Nat) :
    ∃ (p : NumParts) (q : Nat) (e : Int), p.WF ∧ p.suf = none ∧ p.ds.length = 1 ∧ p.ds ≠ [48] ∧ p.fs.length = N ∧ x.fixedExp N = p.text ∧
      (p.sign = [45] ↔ x.isNeg = true) ∧ decRat 1 e ≤ x.size ∧ x.size < decRat 1 (e + 1) ∧
      p.size = decRat q (e - N) ∧ NearestInt (x.size / decRat 1 (e - N)) q := by
  obtain ⟨so1, so2⟩ := sign_ok x.isNeg
  have ha : x.abs ≠ 0 := by
    intro h
    rw [size_abs, h] at h0
    apply h0
    rw [Rat.div_def]
    exact Rat.zero_mul _
  obtain ⟨l1, l2⟩ := lead_spec hx ha
  unfold F64.fixedExp
  rw [signed_fin hx, if_neg ha]
  unfold F64.rounded
  simp only
  generalize leadLoop x.abs 632 308 = e at *
  have hq := nearest_roundHE (x.abs * 10 ^ (-(e - (N : Int))).toNat) (2 ^ 1074 * 10 ^ (e - (N : Int)).toNat) (Nat.mul_pos pow1074_pos (ten_pos _))
  rw [← mag_div] at hq
  have b1 : 10 ^ N ≤ roundHE (x.abs * 10 ^ (-(e - (N : Int))).toNat) (2 ^ 1074 * 10 ^ (e - (N : Int)).toNat) := by
    refine Nat.le_trans ?_ (le_roundHE _ _)
    rw [Nat.le_div_iff_mul_le (Nat.mul_pos pow1074_pos (ten_pos _))]
    exact lead_scale_le N l1
  have b2 : roundHE (x.abs * 10 ^ (-(e - (N : Int))).toNat) (2 ^ 1074 * 10 ^ (e - (N : Int)).toNat) ≤ 10 ^ (N + 1) := by
    refine Nat.le_trans (roundHE_le _ _) ?_
    refine Nat.succ_le_of_lt ((Nat.div_lt_iff_lt_mul (Nat.mul_pos pow1074_pos (ten_pos _))).2 ?_)
    exact lead_scale_lt N l2
  generalize roundHE (x.abs * 10 ^ (-(e - (N : Int))).toNat) (2 ^ 1074 * 10 ^ (e - (N : Int)).toNat) = q at *
  have hlow := (lead_rat x e).2 l1
  have hhigh : x.size < decRat 1 (e + 1) := by
    rw [← Rat.not_le, lead_rat]
    exact l2
  -- one text for both cases
  have key : ∀ (d : Nat) (k : Int), 10 ^ N ≤ d → d < 10 ^ (N + 1) → decRat d k = decRat q (e - N) →
      ∃ p : NumParts, p.WF ∧ p.suf = none ∧ p.ds.length = 1 ∧ p.ds ≠ [48] ∧ p.fs.length = N ∧
        (if x.isNeg then [45] else []) ++ powText (decText d) k = p.text ∧ (p.sign = [45] ↔ x.isNeg = true) ∧ p.size = decRat q (e - N) := by
    intro d k h1 h2 h3
    obtain ⟨p, wf, suf, sg, tx, dg, ds, fs, ex⟩ := powText_parts _ (decText d) k so1 (decText_isDigit _) (decText_ne_nil _)
    have hlen := decText_length_eq h1 h2
    refine ⟨p, wf, suf, ds, ?_, by rw [fs, hlen]; rfl, tx.symm, by rw [sg]; exact so2, ?_⟩
    · intro h48
      have hv : decVal p.digits = d := by rw [dg, decVal_decText]
      unfold NumParts.digits at hv
      have hl : p.fs.length = N := by rw [fs, hlen]; rfl
      rw [h48, decVal_append] at hv
      have hlt := decVal_lt_pow p.fs (fun c hc => (isDigit_iff c).1 (wf.frac c hc))
      rw [hl] at hlt
      have : decVal [48] = 0 := by decide
      rw [this, Nat.zero_mul, Nat.zero_add] at hv
      omega
    · rw [size_eq p suf, ex, dg, decVal_decText, h3]
  by_cases hc : q = 10 ^ (N + 1)
  · rw [if_pos hc]
    obtain ⟨p, k1, k2, k3, k4, k5, k6, k7, k8⟩ := key (10 ^ N) (e - N + 1) (Nat.le_refl _) (Nat.pow_lt_pow_right (by decide) (by omega)) (by
      rw [hc, decRat_carry])
    exact ⟨p, q, e, k1, k2, k3, k4, k5, k6, k7, hlow, hhigh, k8, hq⟩
  · rw [if_neg hc]
    obtain ⟨p, k1, k2, k3, k4, k5, k6, k7, k8⟩ := key q (e - N) b1 (by omega) rfl
    exact ⟨p, q, e, k1, k2, k3, k4, k5, k6, k7, hlow, hhigh, k8, hq⟩

/-- C198: zero. -/
theorem C198_zero (x : F64) (hx : x.Fin) (h0 : x.size = 0) (N : Nat) :
    x.fixedExp N = (if x.isNeg then [45] else []) ++ (if N = 0 then [48] else [48, 46] ++ List.replicate N 48) ++ [101, 48] := by
  have hi : x.Is 0 := by
    apply is_zero_of_val hx
    unfold F64.size at h0
    split at h0 <;> grind
  rw [fixedExp_whole hi]
  unfold floatText
  simp only
  rw [Int.natAbs_zero, show decText 0 = [48] from by decide, List.length_singleton, Nat.sub_self, if_pos (Nat.zero_le _), Nat.sub_zero]
  unfold sciText
  simp only [List.cons_append, List.nil_append, List.append_assoc]
  by_cases hN : N = 0
  · subst hN
    rfl
  · rw [if_neg hN, if_neg (show ¬ List.replicate N (48 : UInt8) = [] by simp [hN])]
    rfl

example : (F64.lit 25 10).fixed 0 = ascii "2" ∧ (F64.lit 35 10).fixed 0 = ascii "4" ∧ (F64.lit 9996 1000).fixed 2 = ascii "10.00" ∧
    (F64.lit 9996 1000).fixedExp 2 = ascii "1.00e1" ∧ (F64.lit 1 8).negate.fixed 2 = ascii "-0.12" := by decide +kernel

end Cdx
