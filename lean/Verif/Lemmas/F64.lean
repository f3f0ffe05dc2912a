import Verif.Lemmas.Comp

/-!
Lemmas on float bit patterns.
-/

namespace Cdx

/-- The scaled magnitude of a bit pattern below the sign bit. -/
def magVal (n : Nat) : Nat :=
  if n / 2 ^ 52 % 2048 = 0 then n % 2 ^ 52 else (2 ^ 52 + n % 2 ^ 52) * 2 ^ (n / 2 ^ 52 % 2048 - 1)

theorem magVal_step (e m m' p : Nat) (hm : m < 2 ^ 52) (hp : e + 1 ≤ p) :
    (2 ^ 52 + m) * 2 ^ e < (2 ^ 52 + m') * 2 ^ p := by
  have h1 : 2 ^ (e + 1) ≤ 2 ^ p := Nat.pow_le_pow_right (by decide) hp
  have h2 : (2 ^ 52 + m) * 2 ^ e < (2 ^ 52 + 2 ^ 52) * 2 ^ e :=
    Nat.mul_lt_mul_of_pos_right (by omega) (Nat.two_pow_pos e)
  have h3 : (2 ^ 52 + 2 ^ 52) * 2 ^ e = 2 ^ 52 * 2 ^ (e + 1) := by rw [Nat.pow_succ]; omega
  have h4 : 2 ^ 52 * 2 ^ (e + 1) ≤ 2 ^ 52 * 2 ^ p := Nat.mul_le_mul_left _ h1
  have h5 : 2 ^ 52 * 2 ^ p ≤ (2 ^ 52 + m') * 2 ^ p := Nat.mul_le_mul_right _ (by omega)
  omega

theorem magVal_lt {a b : Nat} (hb : b < 2 ^ 63) (h : a < b) : magVal a < magVal b := by
  unfold magVal
  have ha' : a / 2 ^ 52 % 2048 = a / 2 ^ 52 := by omega
  have hb' : b / 2 ^ 52 % 2048 = b / 2 ^ 52 := by omega
  rw [ha', hb']
  have hma : a % 2 ^ 52 < 2 ^ 52 := Nat.mod_lt _ (by decide)
  by_cases he : a / 2 ^ 52 = b / 2 ^ 52
  · have hm : a % 2 ^ 52 < b % 2 ^ 52 := by omega
    rw [he]
    split
    · exact hm
    · exact Nat.mul_lt_mul_of_pos_right (by omega) (Nat.two_pow_pos _)
  · have hlt : a / 2 ^ 52 < b / 2 ^ 52 := by omega
    generalize a / 2 ^ 52 = ea at *
    generalize b / 2 ^ 52 = eb at *
    generalize a % 2 ^ 52 = ma at *
    generalize b % 2 ^ 52 = mb at *
    rw [if_neg (by omega : ¬ eb = 0)]
    split
    · have : 2 ^ 52 * 1 ≤ (2 ^ 52 + mb) * 2 ^ (eb - 1) := Nat.mul_le_mul (by omega) (Nat.two_pow_pos _)
      omega
    · exact magVal_step (ea - 1) ma mb (eb - 1) hma (by omega)

theorem magVal_zero : magVal 0 = 0 := by decide

theorem magVal_mono {a b : Nat} (ha : a < 2 ^ 63) (hb : b < 2 ^ 63) : magVal a < magVal b ↔ a < b := by
  constructor
  · intro h
    rcases Nat.lt_trichotomy a b with h1 | h1 | h1
    · exact h1
    · subst h1; omega
    · have := magVal_lt ha h1; omega
  · exact magVal_lt hb

theorem magVal_inj {a b : Nat} (ha : a < 2 ^ 63) (hb : b < 2 ^ 63) : magVal a = magVal b ↔ a = b := by
  constructor
  · intro h
    rcases Nat.lt_trichotomy a b with h1 | h1 | h1
    · have := magVal_lt hb h1; omega
    · exact h1
    · have := magVal_lt ha h1; omega
  · rintro rfl; rfl

theorem F64.scaled_pos {x : F64} (h : x.toNat < 2 ^ 63) : x.scaled = magVal x.toNat := by
  have : x.toNat / 2 ^ 63 = 0 := by omega
  simp only [F64.scaled, this, if_true, magVal]

theorem F64.scaled_neg {x : F64} (h : 2 ^ 63 ≤ x.toNat) : x.scaled = -(magVal (x.toNat - 2 ^ 63) : Int) := by
  have hx := x.toNat_lt
  have h1 : x.toNat / 2 ^ 63 = 1 := by omega
  have h2 : (x.toNat - 2 ^ 63) / 2 ^ 52 % 2048 = x.toNat / 2 ^ 52 % 2048 := by omega
  have h3 : (x.toNat - 2 ^ 63) % 2 ^ 52 = x.toNat % 2 ^ 52 := by omega
  simp only [F64.scaled, h1, magVal, h2, h3]
  simp

theorem nat_and_two_pow (n i : Nat) : n &&& 2 ^ i = (n.testBit i).toNat * 2 ^ i := by
  apply Nat.eq_of_testBit_eq
  intro j
  rw [Nat.testBit_and, Nat.testBit_two_pow]
  by_cases h : i = j
  · subst h
    cases hb : n.testBit i <;> simp [Nat.testBit_two_pow_self]
  · simp only [h, decide_false, Bool.and_false]
    cases hb : n.testBit i
    · simp
    · simp [Nat.testBit_two_pow_of_ne h]

theorem and_top (x : UInt64) : (x &&& 0x8000000000000000 ≠ 0) ↔ 2 ^ 63 ≤ x.toNat := by
  have hx := x.toNat_lt
  have e : (x &&& 0x8000000000000000).toNat = (x.toNat.testBit 63).toNat * 2 ^ 63 := by
    rw [UInt64.toNat_and, ← nat_and_two_pow]; rfl
  rw [ne_eq, ← UInt64.toNat_inj, e]
  have hb : x.toNat.testBit 63 = decide (2 ^ 63 ≤ x.toNat) := by
    rw [Nat.testBit_eq_decide_div_mod_eq]
    congr 1
    apply propext
    omega
  rw [hb]
  by_cases h : 2 ^ 63 ≤ x.toNat <;> simp [h]

theorem ulpToUlong_toNat (x : F64) :
    (ulpToUlong x).toNat = if 2 ^ 63 ≤ x.toNat then 2 ^ 64 - 1 - x.toNat else x.toNat + 2 ^ 63 := by
  have hx := x.toNat_lt
  unfold ulpToUlong
  simp only [and_top]
  split
  · have e : x ^^^ 0xffffffffffffffff = ~~~x := by
      rw [← UInt64.toBitVec_inj]
      simp only [UInt64.toBitVec_xor, UInt64.toBitVec_not]
      exact BitVec.xor_allOnes
    rw [e, UInt64.toNat_not]
  · rename_i h
    have h : x.toNat < 2 ^ 63 := by omega
    rw [UInt64.toNat_or]
    have := Nat.two_pow_add_eq_or_of_lt h 1
    rw [Nat.mul_one] at this
    rw [Nat.or_comm, show (9223372036854775808 : UInt64).toNat = 2 ^ 63 from rfl, ← this]
    omega

/-- Rank of a pattern by value: equal ranks only for the two zeros. -/
def rank (x : F64) : Int := if 2 ^ 63 ≤ x.toNat then -((x.toNat - 2 ^ 63 : Nat) : Int) else x.toNat

theorem scaled_lt_iff (x y : F64) : x.scaled < y.scaled ↔ rank x < rank y := by
  have hx := x.toNat_lt
  have hy := y.toNat_lt
  unfold rank
  have z : ∀ n : Nat, n < 2 ^ 63 → (0 < magVal n ↔ 0 < n) := fun n hn => by
    have := magVal_mono (a := 0) (by decide) hn
    rwa [magVal_zero] at this
  by_cases h1 : 2 ^ 63 ≤ x.toNat <;> by_cases h2 : 2 ^ 63 ≤ y.toNat
  · rw [F64.scaled_neg h1, F64.scaled_neg h2, if_pos h1, if_pos h2]
    have := magVal_mono (a := y.toNat - 2 ^ 63) (b := x.toNat - 2 ^ 63) (by omega) (by omega)
    omega
  · rw [F64.scaled_neg h1, F64.scaled_pos (by omega), if_pos h1, if_neg h2]
    have a := z (x.toNat - 2 ^ 63) (by omega)
    have b := z y.toNat (by omega)
    omega
  · rw [F64.scaled_neg h2, F64.scaled_pos (by omega), if_neg h1, if_pos h2]
    have a := z (y.toNat - 2 ^ 63) (by omega)
    have b := z x.toNat (by omega)
    omega
  · rw [F64.scaled_pos (by omega), F64.scaled_pos (by omega), if_neg h1, if_neg h2]
    have := magVal_mono (a := x.toNat) (b := y.toNat) (by omega) (by omega)
    omega

theorem scaled_eq_iff (x y : F64) : x.scaled = y.scaled ↔ rank x = rank y := by
  have h1 := scaled_lt_iff x y
  have h2 := scaled_lt_iff y x
  omega

theorem F64.eq_false_gt_false (x y : F64) : fcmp x y = .eq ↔ F64.eq x y = true := by
  unfold fcmp
  cases h : F64.eq x y
  · cases h' : F64.gt x y <;> simp
  · simp

theorem compare_int (a b : Int) : compare a b = if a = b then .eq else if b < a then .gt else .lt := by
  simp only [compare, compareOfLessAndEq]
  split
  · split
    · omega
    · split
      · omega
      · rfl
  · split
    · rfl
    · split
      · rfl
      · omega

theorem fcmp_eq {x y : F64} (hx : x.isNaN = false) (hy : y.isNaN = false) :
    fcmp x y = compare x.scaled y.scaled := by
  rw [compare_int]
  simp [fcmp, F64.eq, F64.gt, hx, hy]

theorem preorder_int : TotalPreorder (fun a b : Int => compare a b) := by
  refine ⟨fun a => ?_, fun a b => ?_, fun a b c => ?_⟩
  · simp
  · simp only [compare_int]
    by_cases h : a = b
    · simp [h]
    · have h' : ¬ b = a := fun e => h e.symm
      rw [if_neg h, if_neg h']
      by_cases h2 : a < b
      · rw [if_pos h2, if_neg (by omega)]; rfl
      · rw [if_neg h2, if_pos (by omega)]; rfl
  · simp only [compare_int]
    grind

end Cdx
