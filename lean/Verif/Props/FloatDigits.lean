import Verif.Props.FloatPower

/-!
C196, C197: a double needs at most 17 digits, and what is printed is read back nearly.
-/

namespace Cdx

/-! ## Seventeen digits -/

/-- A magnitude as a number below `2^53` times a power of two. -/
theorem magVal_split {m : Nat} (h : m < infMag) : ∃ k r, m = k * 2 ^ 52 + r ∧ magVal m = r * 2 ^ k ∧ r < 2 ^ 53 ∧ (k = 0 ∨ 2 ^ 52 ≤ r) := by
  have h63 := Nat.lt_trans h infMag_lt
  by_cases hs : m < 2 ^ 52
  · exact ⟨0, m, by omega, by have := magVal_parts 0 m (.inl rfl) (by omega) (by omega); rwa [Nat.zero_mul, Nat.zero_add] at this, by omega, .inl rfl⟩
  · have e : m = (m / 2 ^ 52 - 1) * 2 ^ 52 + (2 ^ 52 + m % 2 ^ 52) := by omega
    refine ⟨m / 2 ^ 52 - 1, 2 ^ 52 + m % 2 ^ 52, e, ?_, by omega, .inr (by omega)⟩
    have := magVal_parts (m / 2 ^ 52 - 1) (2 ^ 52 + m % 2 ^ 52) (.inr (by omega)) (by omega) (by omega)
    rwa [← e] at this

/-- Other doubles are at least so far away; the number is a multiple of it. -/
theorem magVal_gap {m : Nat} (h : m < infMag) (h0 : m ≠ 0) :
    ∃ s c : Nat, 0 < s ∧ magVal m = c * s ∧ c ≤ 2 ^ 53 ∧ s ≤ magVal m ∧ ∀ m', m' ≤ infMag → m' ≠ m → magVal m' + s ≤ magVal m ∨ magVal m + s ≤ magVal m' := by
  obtain ⟨k, r, e1, e2, e3, e4⟩ := magVal_split h
  have hinf := infMag_lt
  have h63 : m + 1 < 2 ^ 63 := by omega
  have hr : 0 < r := by omega
  have hup : magVal (m + 1) = (r + 1) * 2 ^ k := by
    rw [e1, Nat.add_assoc]
    exact magVal_parts k (r + 1) (by omega) (by omega) (by omega)
  have hgreater : ∀ m', m' ≤ infMag → m < m' → magVal m + 2 ^ k ≤ magVal m' := by
    intro m' h1 h2
    have := magVal_le (a := m + 1) (b := m') (by omega) (by omega)
    rw [hup, Nat.add_mul, Nat.one_mul] at this
    omega
  have hkp := Nat.two_pow_pos k
  by_cases hc : r = 2 ^ 52 ∧ 1 ≤ k
  · -- a power of two: the numbers below are nearer
    obtain ⟨j, rfl⟩ : ∃ j, k = j + 1 := ⟨k - 1, by omega⟩
    have hjp := Nat.two_pow_pos j
    have hdown : magVal (m - 1) = (2 ^ 53 - 1) * 2 ^ j := by
      rw [show m - 1 = j * 2 ^ 52 + (2 ^ 53 - 1) by omega]
      exact magVal_parts j (2 ^ 53 - 1) (.inr (by omega)) (by omega) (by omega)
    have hm : magVal m = 2 ^ 53 * 2 ^ j := by
      rw [e2, hc.1, Nat.pow_succ 2 j]
      omega
    refine ⟨2 ^ j, 2 ^ 53, hjp, hm, Nat.le_refl _, by rw [hm]; exact Nat.le_mul_of_pos_left _ (by decide), fun m' h1 h2 => ?_⟩
    by_cases hlt : m' < m
    · left
      have := magVal_le (a := m') (b := m - 1) (by omega) (by omega)
      rw [hdown] at this
      rw [hm]
      have : (2 ^ 53 - 1) * 2 ^ j + 2 ^ j = 2 ^ 53 * 2 ^ j := by rw [← Nat.succ_mul]
      omega
    · right
      have := hgreater m' h1 (by omega)
      rw [Nat.pow_succ] at this
      omega
  · have hdown : magVal (m - 1) = (r - 1) * 2 ^ k := by
      rw [show m - 1 = k * 2 ^ 52 + (r - 1) by omega]
      exact magVal_parts k (r - 1) (by omega) (by omega) (by omega)
    refine ⟨2 ^ k, r, hkp, e2, by omega, by rw [e2]; exact Nat.le_mul_of_pos_left _ hr, fun m' h1 h2 => ?_⟩
    by_cases hlt : m' < m
    · left
      have := magVal_le (a := m') (b := m - 1) (by omega) (by omega)
      rw [hdown] at this
      have h3 : (r - 1) * 2 ^ k + 2 ^ k = r * 2 ^ k := by
        rw [← Nat.succ_mul]
        congr 1
        omega
      omega
    · right
      exact hgreater m' h1 (by omega)

/-- A number nearer than half the gap is rounded to the double. -/
theorem round_gap {m n b s : Nat} (hm : m < infMag) (hb : 0 < b)
    (hs : ∀ m', m' ≤ infMag → m' ≠ m → magVal m' + s ≤ magVal m ∨ magVal m + s ≤ magVal m')
    (h1 : 2 * n < 2 * (magVal m * b) + s * b) (h2 : 2 * (magVal m * b) < 2 * n + s * b) : roundMag n b = m := by
  refine nearest_unique hb (roundMag_nearest n b hb) ⟨Nat.le_of_lt hm, fun m' h3 h4 => .inl ?_⟩
  unfold distMag
  rcases hs m' h3 h4 with h | h
  · have := Nat.mul_le_mul_right b h
    rw [Nat.add_mul] at this
    generalize magVal m' * b = u at *
    generalize magVal m * b = v at *
    generalize s * b = w at *
    split <;> split <;> omega
  · have := Nat.mul_le_mul_right b h
    rw [Nat.add_mul] at this
    generalize magVal m' * b = u at *
    generalize magVal m * b = v at *
    generalize s * b = w at *
    split <;> split <;> omega

/-- The power of ten just below a gap, and the multiple of it nearest to the number. -/
theorem gap_digits {P A B a s c : Nat} (hA : 0 < A) (hB : 0 < B) (hP : 0 < P) (ha : a = c * s) (hc : c ≤ 2 ^ 53)
    (l1 : P * A ≤ s * B) (l2 : s * B < 10 * (P * A)) :
    ∃ d, d < 10 ^ 17 ∧ 2 * (d * A * P) < 2 * (a * B) + s * B ∧ 2 * (a * B) < 2 * (d * A * P) + s * B := by
  have hPA : 0 < P * A := Nat.mul_pos hP hA
  obtain ⟨r1, r2⟩ := roundHE_half (a * B) (P * A) hPA
  have e : ∀ d, d * A * P = d * (P * A) := fun d => by ac_rfl
  have hsB : a * B = c * (s * B) := by rw [ha, Nat.mul_assoc]
  by_cases heq : P * A = s * B
  · refine ⟨c, by omega, ?_, ?_⟩
    · rw [e, heq, hsB]
      omega
    · rw [e, heq, hsB]
      omega
  · refine ⟨roundHE (a * B) (P * A), ?_, ?_, ?_⟩
    · have h1 : a * B < 2 ^ 53 * (10 * (P * A)) := by
        rw [hsB]
        have := Nat.mul_le_mul_right (s * B) hc
        have : 2 ^ 53 * (s * B) < 2 ^ 53 * (10 * (P * A)) := Nat.mul_lt_mul_of_pos_left l2 (by decide)
        omega
      have h2 : a * B / (P * A) < 2 ^ 53 * 10 := by
        rw [Nat.div_lt_iff_lt_mul hPA, Nat.mul_assoc]
        exact h1
      have h3 := roundHE_le (a * B) (P * A)
      omega
    · rw [e]
      generalize roundHE (a * B) (P * A) * (P * A) = q at *
      omega
    · rw [e]
      generalize roundHE (a * B) (P * A) * (P * A) = q at *
      omega

theorem ten_succ (k : Int) : 10 ^ (k + 1).toNat * 10 ^ (-k).toNat = 10 * (10 ^ k.toNat * 10 ^ (-(k + 1)).toNat) := by
  rw [← Nat.pow_add, ← Nat.pow_add, Nat.mul_comm, ← Nat.pow_succ]
  congr 1
  omega

/-- Some number of at most 17 digits is rounded to the double. -/
theorem seventeen {x : F64} (hx : x.Fin) : ∃ d k, d < 10 ^ 17 ∧ roundDec d k = x.toNat % 2 ^ 63 := by
  have hm : x.toNat % 2 ^ 63 < infMag := hx
  generalize x.toNat % 2 ^ 63 = m at *
  by_cases h0 : m = 0
  · exact ⟨0, 0, by decide, by rw [roundDec_zero, h0]⟩
  · obtain ⟨s, c, g1, g2, g3, g4, g5⟩ := magVal_gap hm h0
    have hs309 : ¬ Lead s 309 := by
      intro hl
      have h1 := magVal_lt infMag_lt hm
      have h2 : magVal infMag = 2 ^ 1024 * 2 ^ 1074 := by decide +kernel
      rw [h2] at h1
      unfold Lead at hl
      rw [show (309 : Int).toNat = 309 from rfl, show (-309 : Int).toNat = 0 from rfl, Nat.pow_zero, Nat.mul_one] at hl
      have h3 : 2 ^ 1024 ≤ 10 ^ 309 := by decide +kernel
      have h4 := Nat.mul_le_mul_left (2 ^ 1074) h3
      rw [Nat.mul_comm (2 ^ 1074) (2 ^ 1024)] at h4
      omega
    obtain ⟨l1, l2⟩ := leadLoop_spec s (lead_low g1) 632 308 (by omega) hs309
    generalize leadLoop s 632 308 = k at *
    unfold Lead at l1 l2
    have l2 := Nat.not_le.1 l2
    have hP := pow1074_pos
    obtain ⟨P, hPe⟩ : ∃ P, P = 2 ^ 1074 := ⟨_, rfl⟩
    rw [← hPe] at l1 l2 hP
    have l2' : s * 10 ^ (-k).toNat < 10 * (P * 10 ^ k.toNat) := by
      refine Nat.lt_of_mul_lt_mul_right (a := 10 ^ (-(k + 1)).toNat) ?_
      have h1 := Nat.mul_lt_mul_of_pos_right l2 (ten_pos (-k).toNat)
      rw [Nat.mul_assoc P, ten_succ] at h1
      calc s * 10 ^ (-k).toNat * 10 ^ (-(k + 1)).toNat = s * 10 ^ (-(k + 1)).toNat * 10 ^ (-k).toNat := by ac_rfl
        _ < _ := h1
        _ = _ := by ac_rfl
    obtain ⟨d, d1, d2, d3⟩ := gap_digits (ten_pos k.toNat) (ten_pos (-k).toNat) hP g2 g3 l1 l2'
    refine ⟨d, k, d1, ?_⟩
    unfold roundDec
    rw [← hPe]
    exact round_gap hm (ten_pos _) g5 d2 d3

theorem shortest_seventeen {x : F64} (hx : x.Fin) : (decText x.shortest.1).length ≤ 17 := by
  obtain ⟨d, k, h1, h2⟩ := seventeen hx
  have := fewest hx h2 (decText_isDigit d) (decText_ne_nil d) (decVal_decText d)
  obtain ⟨e, l1, l2, l3⟩ := decText_length d
  have : e ≤ 16 := by
    rcases l2 with rfl | l2
    · have : (decText 0).length = 1 := by decide
      omega
    · have := Nat.lt_of_le_of_lt l2 h1
      rw [Nat.pow_lt_pow_iff_right (by decide)] at this
      omega
  omega

/-- C196: no double needs more than 17 digits. -/
theorem C196_seventeen (x : F64) (hx : x.Fin) :
    ∃ p : NumParts, p.WF ∧ p.suf = none ∧ x.lowerExp = p.text ∧ p.Names x ∧ p.digits.length ≤ 17 := by
  obtain ⟨so1, so2⟩ := sign_ok x.isNeg
  obtain ⟨p, wf, suf, sg, tx, dg, ds, _, ex⟩ := powText_parts _ (decText x.shortest.1) x.shortest.2 so1 (decText_isDigit _) (decText_ne_nil _)
  obtain ⟨s1, _, _⟩ := shortest_spec x hx
  refine ⟨p, wf, suf, ?_, ?_, ?_⟩
  · unfold F64.lowerExp
    rw [signed_fin hx, tx]
  · rw [names_iff p suf, sg, ex, dg, decVal_decText]
    exact ⟨so2, s1⟩
  · rw [dg]
    exact shortest_seventeen hx

example : (F64.lit 1 3).lowerExp = ascii "3.333333333333333e-1" ∧ (F64.ofScaled false 5 1).lowerExp = ascii "2.5e-323" ∧
    ((F64.lit 1 10).add (F64.lit 2 10)).lowerExp = ascii "3.0000000000000004e-1" := by decide +kernel

end Cdx
