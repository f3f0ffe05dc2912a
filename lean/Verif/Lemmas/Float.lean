import Verif.Spec.Float
import Verif.Lemmas.Sampler

/-!
Lemmas on the arithmetic of doubles.
-/

namespace Cdx

theorem infMag_eq : infMag = 9218868437227405312 := by decide

/-! ## Rounding to an integer -/

theorem roundHE_le (n d : Nat) : roundHE n d ≤ n / d + 1 := by
  unfold roundHE
  split
  · omega
  · split
    · omega
    · split <;> omega

theorem le_roundHE (n d : Nat) : n / d ≤ roundHE n d := by
  unfold roundHE
  split
  · omega
  · split
    · omega
    · split <;> omega

theorem roundHE_mono {n d n' d' : Nat} (hd : 0 < d) (hd' : 0 < d') (h : n * d' ≤ n' * d) : roundHE n d ≤ roundHE n' d' := by
  have e1 := Nat.div_add_mod n d
  have e2 := Nat.div_add_mod n' d'
  have l1 := Nat.mod_lt n hd
  have l2 := Nat.mod_lt n' hd'
  have hq : n / d ≤ n' / d' := by
    rw [Nat.le_div_iff_mul_le hd']
    have h1 : n / d * d ≤ n := Nat.div_mul_le_self n d
    have h2 : n / d * d * d' ≤ n' * d := Nat.le_trans (Nat.mul_le_mul_right _ h1) h
    rw [Nat.mul_right_comm] at h2
    exact Nat.le_of_mul_le_mul_right h2 hd
  by_cases hlt : n / d < n' / d'
  · have := roundHE_le n d
    have := le_roundHE n' d'
    omega
  · have heq : n / d = n' / d' := by omega
    have hm : n % d * d' ≤ n' % d' * d := by
      have h1 : n * d' = d * (n / d) * d' + n % d * d' := by
        conv => lhs; rw [← e1]
        rw [Nat.add_mul]
      have h2 : n' * d = d' * (n' / d') * d + n' % d' * d := by
        conv => lhs; rw [← e2]
        rw [Nat.add_mul]
      have h3 : d * (n / d) * d' = d' * (n' / d') * d := by
        rw [heq, Nat.mul_right_comm, Nat.mul_comm d d', Nat.mul_right_comm]
      omega
    unfold roundHE
    rw [heq]
    have key : ∀ c : Nat, c * d ≤ 2 * (n % d) → c * d' ≤ 2 * (n' % d') := by
      intro c hc
      have h1 : c * d * d' ≤ 2 * (n % d) * d' := Nat.mul_le_mul_right _ hc
      have h2 : 2 * (n % d) * d' ≤ 2 * (n' % d') * d := by
        rw [Nat.mul_assoc, Nat.mul_assoc]
        omega
      have h3 : c * d' * d ≤ 2 * (n' % d') * d := by
        rw [Nat.mul_right_comm]
        omega
      exact Nat.le_of_mul_le_mul_right h3 hd
    have key' : d < 2 * (n % d) → d' < 2 * (n' % d') := by
      intro hc
      have h1 : d * d' < 2 * (n % d) * d' := Nat.mul_lt_mul_of_pos_right hc hd'
      have h2 : 2 * (n % d) * d' ≤ 2 * (n' % d') * d := by
        rw [Nat.mul_assoc, Nat.mul_assoc]
        omega
      have h3 : d' * d < 2 * (n' % d') * d := by
        rw [Nat.mul_comm d' d]
        omega
      exact Nat.lt_of_mul_lt_mul_right h3
    have k1 := key 1
    simp only [Nat.one_mul] at k1
    split
    · split
      · omega
      · split
        · omega
        · split <;> omega
    · split
      · have := key' (by omega)
        rw [if_neg (by omega), if_pos (by omega)]
        omega
      · have := k1 (by omega)
        rw [if_neg (by omega : ¬ 2 * (n' % d') < d')]
        split
        · split
          · omega
          · omega
        · split <;> omega

theorem roundHE_scale (n d c : Nat) (hc : 0 < c) : roundHE (n * c) (d * c) = roundHE n d := by
  unfold roundHE
  rw [Nat.mul_div_mul_right _ _ hc, Nat.mul_mod_mul_right, ← Nat.mul_assoc]
  have h1 : 2 * (n % d) * c < d * c ↔ 2 * (n % d) < d := Nat.mul_lt_mul_right hc
  have h2 : 2 * (n % d) * c > d * c ↔ 2 * (n % d) > d := Nat.mul_lt_mul_right hc
  simp only [h1, h2]

/-! ## Magnitudes -/

theorem magVal_parts (k r : Nat) (hr : k = 0 ∨ 2 ^ 52 ≤ r) (hr2 : r ≤ 2 ^ 53) (h : k * 2 ^ 52 + r < 2 ^ 63) :
    magVal (k * 2 ^ 52 + r) = r * 2 ^ k := by
  unfold magVal
  by_cases h1 : r < 2 ^ 52
  · have hk : k = 0 := by omega
    subst hk
    have : (0 * 2 ^ 52 + r) / 2 ^ 52 % 2048 = 0 := by omega
    rw [if_pos this]
    omega
  · by_cases h2 : r < 2 ^ 53
    · have e1 : (k * 2 ^ 52 + r) / 2 ^ 52 % 2048 = k + 1 := by omega
      have e2 : (k * 2 ^ 52 + r) % 2 ^ 52 = r - 2 ^ 52 := by omega
      have e3 : 2 ^ 52 + (r - 2 ^ 52) = r := by omega
      rw [e1, e2, if_neg (by omega), Nat.add_sub_cancel, e3]
    · have e0 : r = 2 ^ 53 := by omega
      subst e0
      have e1 : (k * 2 ^ 52 + 2 ^ 53) / 2 ^ 52 % 2048 = k + 2 := by omega
      have e2 : (k * 2 ^ 52 + 2 ^ 53) % 2 ^ 52 = 0 := by omega
      have e3 : 2 ^ (k + 1) = 2 ^ k * 2 := Nat.pow_succ 2 k
      rw [e1, e2, if_neg (by omega), show k + 2 - 1 = k + 1 by omega, e3]
      omega

theorem magVal_inf : magVal infMag = 2 ^ 52 * 2 ^ 2046 := by decide +kernel

theorem magVal_le {a b : Nat} (hb : b < 2 ^ 63) (h : a ≤ b) : magVal a ≤ magVal b := by
  rcases Nat.lt_or_eq_of_le h with h | h
  · exact Nat.le_of_lt (magVal_lt hb h)
  · rw [h]; exact Nat.le_refl _

/-- What `roundMag` computes with: the exponent and the number of 53 bits above and below. -/
theorem roundMag_frame (a b k : Nat) (hk : k = (a / b).log2 - 52) :
    a / (b * 2 ^ k) < 2 ^ 53 ∧ (k = 0 ∨ 2 ^ 52 ≤ a / (b * 2 ^ k)) := by
  rw [← Nat.div_div_eq_div_mul]
  have hlt : a / b < 2 ^ (k + 53) := by
    have h1 : a / b < 2 ^ ((a / b).log2 + 1) := Nat.lt_log2_self
    have h2 : 2 ^ ((a / b).log2 + 1) ≤ 2 ^ (k + 53) := Nat.pow_le_pow_right (by decide) (by omega)
    omega
  refine ⟨?_, ?_⟩
  · rw [Nat.div_lt_iff_lt_mul (Nat.two_pow_pos k), ← Nat.pow_add, Nat.add_comm]
    exact hlt
  · by_cases h0 : k = 0
    · exact .inl h0
    · right
      have hne : a / b ≠ 0 := by
        intro h
        rw [h] at hk
        simp at hk
        omega
      have h1 : 2 ^ (a / b).log2 ≤ a / b := Nat.log2_self_le hne
      rw [Nat.le_div_iff_mul_le (Nat.two_pow_pos k), ← Nat.pow_add, show 52 + k = (a / b).log2 by omega]
      exact h1

theorem roundMag_le_inf (a b : Nat) : roundMag a b ≤ infMag := by
  unfold roundMag
  exact Nat.min_le_right _ _

theorem roundMag_lt_top (a b : Nat) : roundMag a b < 2 ^ 63 := by
  have := roundMag_le_inf a b
  rw [infMag_eq] at this
  omega

theorem roundMag_mono {a b a' b' : Nat} (hb : 0 < b) (hb' : 0 < b') (h : a * b' ≤ a' * b) : roundMag a b ≤ roundMag a' b' := by
  unfold roundMag
  simp only
  have hq : a / b ≤ a' / b' := by
    rw [Nat.le_div_iff_mul_le hb']
    have h1 : a / b * b ≤ a := Nat.div_mul_le_self a b
    have h2 : a / b * b * b' ≤ a' * b := Nat.le_trans (Nat.mul_le_mul_right _ h1) h
    rw [Nat.mul_right_comm] at h2
    exact Nat.le_of_mul_le_mul_right h2 hb
  have hk : (a / b).log2 - 52 ≤ (a' / b').log2 - 52 := by
    by_cases h0 : a / b = 0
    · rw [h0]
      simp
    · have h1 : (a / b).log2 ≤ (a' / b').log2 := by
        rw [Nat.le_log2 (Nat.ne_of_gt (Nat.lt_of_lt_of_le (Nat.pos_of_ne_zero h0) hq))]
        exact Nat.le_trans (Nat.log2_self_le h0) hq
      omega
  obtain ⟨f1, f2⟩ := roundMag_frame a b _ rfl
  obtain ⟨g1, g2⟩ := roundMag_frame a' b' _ rfl
  generalize (a / b).log2 - 52 = k at *
  generalize (a' / b').log2 - 52 = k' at *
  have hbk : 0 < b * 2 ^ k := Nat.mul_pos hb (Nat.two_pow_pos k)
  have hbk' : 0 < b' * 2 ^ k' := Nat.mul_pos hb' (Nat.two_pow_pos k')
  have hmain : k * 2 ^ 52 + roundHE a (b * 2 ^ k) ≤ k' * 2 ^ 52 + roundHE a' (b' * 2 ^ k') := by
    by_cases e : k = k'
    · subst e
      have := roundHE_mono hbk hbk' (n := a) (n' := a') (by
        rw [← Nat.mul_assoc, ← Nat.mul_assoc]
        exact Nat.mul_le_mul_right _ h)
      omega
    · have h1 := roundHE_le a (b * 2 ^ k)
      have h2 := le_roundHE a' (b' * 2 ^ k')
      omega
  exact Nat.le_min.2 ⟨Nat.le_trans (Nat.min_le_left _ _) hmain, Nat.min_le_right _ _⟩

theorem magVal_rep (m : Nat) (h : m < infMag) (b : Nat) (hb : 0 < b) : roundMag (magVal m * b) b = m := by
  rw [infMag_eq] at h
  unfold roundMag
  simp only [Nat.mul_div_cancel _ hb]
  have hm52 : m % 2 ^ 52 < 2 ^ 52 := Nat.mod_lt _ (by decide)
  by_cases he : m / 2 ^ 52 = 0
  · have hv : magVal m = m := by
      unfold magVal
      rw [if_pos (by omega)]
      omega
    have hk : m.log2 - 52 = 0 := by
      by_cases h0 : m = 0
      · subst h0; decide
      · have : m.log2 < 52 := (Nat.log2_lt h0).2 (by omega)
        omega
    rw [hv, hk, Nat.pow_zero, Nat.mul_one, roundHE_exact _ _ hb, infMag_eq]
    omega
  · obtain ⟨e, hee⟩ : ∃ e, m / 2 ^ 52 = e + 1 := ⟨m / 2 ^ 52 - 1, by omega⟩
    have hv : magVal m = (2 ^ 52 + m % 2 ^ 52) * 2 ^ e := by
      unfold magVal
      have e1 : m / 2 ^ 52 % 2048 = e + 1 := by omega
      rw [e1, if_neg (by omega), Nat.add_sub_cancel]
    have hlog : (magVal m).log2 = 52 + e := by
      have hne : magVal m ≠ 0 := by
        rw [hv]
        exact Nat.mul_ne_zero (by omega) (Nat.ne_of_gt (Nat.two_pow_pos e))
      have hlo : 2 ^ (52 + e) ≤ magVal m := by
        rw [hv, Nat.pow_add]
        exact Nat.mul_le_mul_right _ (by omega)
      have hhi : magVal m < 2 ^ (52 + e + 1) := by
        rw [hv, show 52 + e + 1 = 53 + e by omega, Nat.pow_add]
        exact Nat.mul_lt_mul_of_pos_right (by omega) (Nat.two_pow_pos e)
      have h1 : 52 + e ≤ (magVal m).log2 := (Nat.le_log2 hne).2 hlo
      have h2 : (magVal m).log2 < 52 + e + 1 := (Nat.log2_lt hne).2 hhi
      omega
    rw [hlog, show 52 + e - 52 = e by omega, hv]
    rw [show (2 ^ 52 + m % 2 ^ 52) * 2 ^ e * b = (2 ^ 52 + m % 2 ^ 52) * (b * 2 ^ e) by
      rw [Nat.mul_assoc, Nat.mul_comm b]]
    rw [roundHE_exact _ _ (Nat.mul_pos hb (Nat.two_pow_pos e)), infMag_eq]
    omega

theorem roundMag_exact {a b m : Nat} (hb : 0 < b) (hm : m < infMag) (h : a = magVal m * b) : roundMag a b = m := by
  rw [h]
  exact magVal_rep m hm b hb

/-- What is not above the value of a magnitude is not rounded above it. -/
theorem roundMag_le {a b m : Nat} (hb : 0 < b) (hm : m < infMag) (h : a ≤ magVal m * b) : roundMag a b ≤ m := by
  have := roundMag_mono hb hb (a := a) (a' := magVal m * b) (Nat.mul_le_mul_right _ h)
  rwa [magVal_rep m hm b hb] at this

theorem le_roundMag {a b m : Nat} (hb : 0 < b) (hm : m < infMag) (h : magVal m * b ≤ a) : m ≤ roundMag a b := by
  have := roundMag_mono hb hb (a := magVal m * b) (a' := a) (Nat.mul_le_mul_right _ h)
  rwa [magVal_rep m hm b hb] at this

theorem dist_below {a b l m : Nat} (hb : 0 < b) (hl : l < 2 ^ 63) (h : magVal l * b ≤ a) (hm : m < l) :
    distMag a b l < distMag a b m := by
  have h1 : magVal m * b < magVal l * b := Nat.mul_lt_mul_of_pos_right (magVal_lt hl hm) hb
  unfold distMag
  rw [if_pos h, if_pos (by omega)]
  omega

theorem dist_above {a b l m : Nat} (hb : 0 < b) (hm2 : m < 2 ^ 63) (h : a ≤ magVal l * b) (hm : l < m) :
    distMag a b l < distMag a b m := by
  have h1 : magVal l * b < magVal m * b := Nat.mul_lt_mul_of_pos_right (magVal_lt hm2 hm) hb
  unfold distMag
  rw [if_neg (by omega : ¬ magVal m * b ≤ a)]
  split <;> omega

/-- `roundMag` rounds to the nearest double, ties to even. -/
theorem roundMag_nearest (a b : Nat) (hb : 0 < b) : NearestEven a b (roundMag a b) := by
  refine ⟨roundMag_le_inf a b, ?_⟩
  intro m hm hne
  have hinf : infMag < 2 ^ 63 := by rw [infMag_eq]; decide
  have hm63 : m < 2 ^ 63 := Nat.lt_of_le_of_lt hm hinf
  obtain ⟨f1, f2⟩ := roundMag_frame a b _ rfl
  have hdef : roundMag a b = min (((a / b).log2 - 52) * 2 ^ 52 + roundHE a (b * 2 ^ ((a / b).log2 - 52))) infMag := rfl
  generalize (a / b).log2 - 52 = k at *
  have hD : 0 < b * 2 ^ k := Nat.mul_pos hb (Nat.two_pow_pos k)
  have ha := Nat.div_add_mod a (b * 2 ^ k)
  have hrem := Nat.mod_lt a hD
  have hle1 := roundHE_le a (b * 2 ^ k)
  have hle2 := le_roundHE a (b * 2 ^ k)
  have hq : a / (b * 2 ^ k) * 2 ^ k * b = b * 2 ^ k * (a / (b * 2 ^ k)) := by
    rw [Nat.mul_assoc, Nat.mul_comm (2 ^ k) b, Nat.mul_comm]
  have hq1 : (a / (b * 2 ^ k) + 1) * 2 ^ k * b = b * 2 ^ k * (a / (b * 2 ^ k)) + b * 2 ^ k := by
    rw [Nat.mul_assoc, Nat.mul_comm (2 ^ k) b, Nat.add_mul, Nat.one_mul, Nat.mul_comm]
  by_cases hl : infMag ≤ k * 2 ^ 52 + a / (b * 2 ^ k)
  · have hr : roundMag a b = infMag := by rw [hdef]; exact Nat.min_eq_right (by omega)
    rw [hr] at hne ⊢
    left
    apply dist_below hb hinf _ (by omega)
    have hk : 2046 ≤ k := by
      rw [infMag_eq] at hl
      omega
    have h1 : magVal infMag ≤ a / (b * 2 ^ k) * 2 ^ k := by
      rw [magVal_inf]
      apply Nat.mul_le_mul
      · omega
      · exact Nat.pow_le_pow_right (by decide) hk
    have h2 := Nat.mul_le_mul_right b h1
    omega
  · have hr : roundMag a b = k * 2 ^ 52 + roundHE a (b * 2 ^ k) := by rw [hdef]; exact Nat.min_eq_left (by omega)
    have hv : magVal (k * 2 ^ 52 + a / (b * 2 ^ k)) = a / (b * 2 ^ k) * 2 ^ k :=
      magVal_parts k _ f2 (by omega) (by omega)
    have hv1 : magVal (k * 2 ^ 52 + (a / (b * 2 ^ k) + 1)) = (a / (b * 2 ^ k) + 1) * 2 ^ k :=
      magVal_parts k _ (by omega) (by omega) (by omega)
    have hlo : magVal (k * 2 ^ 52 + a / (b * 2 ^ k)) * b ≤ a := by rw [hv, hq]; omega
    have hhi : a ≤ magVal (k * 2 ^ 52 + (a / (b * 2 ^ k) + 1)) * b := by rw [hv1, hq1]; omega
    have hdl : distMag a b (k * 2 ^ 52 + a / (b * 2 ^ k)) = a % (b * 2 ^ k) := by
      unfold distMag
      rw [if_pos hlo, hv, hq]
      omega
    have hdh : distMag a b (k * 2 ^ 52 + (a / (b * 2 ^ k) + 1)) = b * 2 ^ k - a % (b * 2 ^ k) := by
      unfold distMag
      rw [hv1, hq1]
      split <;> omega
    rw [hr] at hne ⊢
    have below : m < k * 2 ^ 52 + a / (b * 2 ^ k) → a % (b * 2 ^ k) < distMag a b m := by
      intro h
      rw [← hdl]
      exact dist_below hb (by omega) hlo h
    have above : k * 2 ^ 52 + (a / (b * 2 ^ k) + 1) < m → b * 2 ^ k - a % (b * 2 ^ k) < distMag a b m := by
      intro h
      rw [← hdh]
      exact dist_above hb hm63 hhi h
    have below' : m ≤ k * 2 ^ 52 + a / (b * 2 ^ k) → a % (b * 2 ^ k) ≤ distMag a b m := by
      intro h
      rcases Nat.lt_or_eq_of_le h with h | h
      · exact Nat.le_of_lt (below h)
      · rw [h, hdl]; exact Nat.le_refl _
    have above' : k * 2 ^ 52 + (a / (b * 2 ^ k) + 1) ≤ m → b * 2 ^ k - a % (b * 2 ^ k) ≤ distMag a b m := by
      intro h
      rcases Nat.lt_or_eq_of_le h with h | h
      · exact Nat.le_of_lt (above h)
      · rw [← h, hdh]; exact Nat.le_refl _
    have hre : roundHE a (b * 2 ^ k) = if 2 * (a % (b * 2 ^ k)) < b * 2 ^ k then a / (b * 2 ^ k)
      else if 2 * (a % (b * 2 ^ k)) > b * 2 ^ k then a / (b * 2 ^ k) + 1
      else if a / (b * 2 ^ k) % 2 = 0 then a / (b * 2 ^ k) else a / (b * 2 ^ k) + 1 := rfl
    clear ha hq hq1 hv hv1 hlo hhi hdef hr hle1 hle2 f1 f2 hl hm hm63
    generalize a % (b * 2 ^ k) = rem at *
    generalize a / (b * 2 ^ k) = q at *
    generalize b * 2 ^ k = D at *
    generalize roundHE a D = r at *
    by_cases c1 : 2 * rem < D
    · rw [if_pos c1] at hre
      subst hre
      rw [hdl]
      left
      by_cases hmr : m < k * 2 ^ 52 + r
      · exact below hmr
      · have := above' (by omega)
        omega
    · rw [if_neg c1] at hre
      by_cases c2 : 2 * rem > D
      · rw [if_pos c2] at hre
        subst hre
        rw [hdh]
        left
        by_cases hmr : k * 2 ^ 52 + (q + 1) < m
        · exact above hmr
        · have := below' (by omega)
          omega
      · rw [if_neg c2] at hre
        by_cases c3 : q % 2 = 0
        · rw [if_pos c3] at hre
          subst hre
          rw [hdl]
          by_cases hmr : m < k * 2 ^ 52 + r
          · exact .inl (below hmr)
          · have := above' (by omega)
            omega
        · rw [if_neg c3] at hre
          subst hre
          rw [hdh]
          by_cases hmr : k * 2 ^ 52 + (q + 1) < m
          · exact .inl (above hmr)
          · have := below' (by omega)
            omega

/-! ## Numbers that are doubles -/

theorem rep_small : ∀ (j c : Nat), c < 2 ^ 53 → j ≤ 2045 → Rep (c * 2 ^ j)
  | j, c, hc, hj => by
    by_cases h : 2 ^ 52 ≤ c
    · refine ⟨j * 2 ^ 52 + c, ?_, ?_⟩
      · rw [infMag_eq]
        omega
      · exact magVal_parts j c (.inr h) (by omega) (by omega)
    · match j with
      | 0 =>
        refine ⟨0 * 2 ^ 52 + c, ?_, ?_⟩
        · rw [infMag_eq]
          omega
        · exact magVal_parts 0 c (.inl rfl) (by omega) (by omega)
      | j + 1 =>
        obtain ⟨m, hm, hv⟩ := rep_small j (2 * c) (by omega) (by omega)
        refine ⟨m, hm, ?_⟩
        rw [hv, Nat.pow_succ, Nat.mul_comm 2 c, Nat.mul_assoc, Nat.mul_comm 2]

theorem rep_le (j c : Nat) (hc : c ≤ 2 ^ 53) (hj : j ≤ 2044) : Rep (c * 2 ^ j) := by
  by_cases h : c < 2 ^ 53
  · exact rep_small j c h (by omega)
  · have : c = 2 ^ 52 * 2 := by omega
    subst this
    rw [Nat.mul_assoc, Nat.mul_comm 2, ← Nat.pow_succ]
    exact rep_small (j + 1) (2 ^ 52) (by decide) (by omega)

theorem Rep.round {v a b : Nat} (hb : 0 < b) (h : Rep v) (ha : a = v * b) :
    roundMag a b < infMag ∧ magVal (roundMag a b) = v := by
  obtain ⟨m, hm, hv⟩ := h
  rw [roundMag_exact hb hm (by rw [hv, ha])]
  exact ⟨hm, hv⟩

/-! ## Signs and magnitudes -/

theorem make_toNat (s : Bool) {m : Nat} (h : m < 2 ^ 63) :
    (F64.make s m).toNat = m + if s then 2 ^ 63 else 0 := by
  unfold F64.make
  rw [UInt64.toNat_ofNat']
  cases s
  · simp only [Bool.false_eq_true, if_false]
    omega
  · simp only [if_true]
    omega

theorem make_scaled (s : Bool) {m : Nat} (h : m < 2 ^ 63) :
    (F64.make s m).scaled = if s then -(magVal m : Int) else magVal m := by
  have ht := make_toNat s h
  cases s
  · simp only [Bool.false_eq_true, if_false, Nat.add_zero] at ht ⊢
    rw [F64.scaled_pos (by omega), ht]
  · simp only [if_true] at ht ⊢
    rw [F64.scaled_neg (by omega), ht, Nat.add_sub_cancel]

theorem make_mod (s : Bool) {m : Nat} (h : m < 2 ^ 63) : (F64.make s m).toNat % 2 ^ 63 = m := by
  rw [make_toNat s h]
  cases s
  · simp only [Bool.false_eq_true, if_false]; omega
  · simp only [if_true]; omega

theorem make_isNeg (s : Bool) {m : Nat} (h : m < 2 ^ 63) : (F64.make s m).isNeg = s := by
  unfold F64.isNeg
  rw [make_toNat s h]
  cases s
  · simp only [Bool.false_eq_true, if_false, decide_eq_false_iff_not]; omega
  · simp only [if_true, decide_eq_true_eq]; omega

theorem isNaN_iff (x : F64) : x.isNaN = true ↔ infMag < x.toNat % 2 ^ 63 := by
  unfold F64.isNaN
  rw [decide_eq_true_eq, infMag_eq]

theorem isInf_iff (x : F64) : x.isInf = true ↔ x.toNat % 2 ^ 63 = infMag := by
  unfold F64.isInf
  rw [decide_eq_true_eq]

theorem Fin_iff (x : F64) : x.Fin ↔ x.isNaN = false ∧ x.isInf = false := by
  rw [← Bool.not_eq_true, ← Bool.not_eq_true, isNaN_iff, isInf_iff]
  unfold F64.Fin
  omega

theorem abs_eq (x : F64) : x.abs = magVal (x.toNat % 2 ^ 63) := by
  unfold F64.abs
  by_cases h : x.toNat < 2 ^ 63
  · rw [F64.scaled_pos h, Int.natAbs_natCast, Nat.mod_eq_of_lt h]
  · have hx := x.toNat_lt
    have e : x.toNat % 2 ^ 63 = x.toNat - 2 ^ 63 := by omega
    rw [F64.scaled_neg (by omega), Int.natAbs_neg, Int.natAbs_natCast, e]

theorem scaled_abs (x : F64) : x.scaled = if x.isNeg then -(x.abs : Int) else x.abs := by
  unfold F64.isNeg
  by_cases h : x.toNat < 2 ^ 63
  · rw [if_neg (by simp only [decide_eq_true_eq]; omega), abs_eq, F64.scaled_pos h, Nat.mod_eq_of_lt h]
  · have hx := x.toNat_lt
    have e : x.toNat % 2 ^ 63 = x.toNat - 2 ^ 63 := by omega
    rw [if_pos (by simp only [decide_eq_true_eq]; omega), abs_eq, F64.scaled_neg (by omega), e]

theorem make_fin (s : Bool) {m : Nat} (h : m < infMag) : (F64.make s m).Fin := by
  unfold F64.Fin
  have : infMag < 2 ^ 63 := by rw [infMag_eq]; decide
  rw [make_mod s (by omega)]
  exact h

end Cdx
