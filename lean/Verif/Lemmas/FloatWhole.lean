import Verif.Props.FloatText
import Verif.Props.Exact

/-!
Texts of whole doubles.
-/

namespace Cdx

/-! ## Texts of digits -/

theorem decVal_lt_pow : ∀ t : Bytes, (∀ c ∈ t, Digit c) → decVal t < 10 ^ t.length := by
  intro t
  induction t with
  | nil => intro _; decide
  | cons c t ih =>
    intro h
    have hc := h c (by simp)
    have := ih fun x hx => h x (by simp [hx])
    unfold Digit at hc
    rw [decVal, List.length_cons, Nat.pow_succ]
    have h9 : c.toNat - 48 ≤ 9 := by
      have h1 := UInt8.le_iff_toNat_le.1 hc.2
      have : (57 : UInt8).toNat = 57 := rfl
      omega
    have := Nat.mul_le_mul_right (10 ^ t.length) h9
    omega

/-- Digits of the same number and length are the same. -/
theorem digits_unique : ∀ t u : Bytes, (∀ c ∈ t, Digit c) → (∀ c ∈ u, Digit c) → t.length = u.length → decVal t = decVal u → t = u := by
  intro t
  induction t with
  | nil =>
    intro u _ _ h _
    exact (List.length_eq_zero_iff.1 h.symm).symm
  | cons c t ih =>
    intro u h1 h2 h3 h4
    cases u with
    | nil => simp at h3
    | cons d u =>
      rw [List.length_cons, List.length_cons, Nat.add_right_cancel_iff] at h3
      have e1 := decVal_lt_pow t fun x hx => h1 x (by simp [hx])
      have e2 := decVal_lt_pow u fun x hx => h2 x (by simp [hx])
      rw [decVal, decVal, ← h3] at h4
      rw [← h3] at e2
      have hc := h1 c (by simp)
      have hd := h2 d (by simp)
      unfold Digit at hc hd
      have key : c.toNat - 48 = d.toNat - 48 := by
        rcases Nat.lt_trichotomy (c.toNat - 48) (d.toNat - 48) with h | h | h
        · have := Nat.mul_le_mul_right (10 ^ t.length) h
          rw [Nat.succ_mul] at this
          omega
        · exact h
        · have := Nat.mul_le_mul_right (10 ^ t.length) h
          rw [Nat.succ_mul] at this
          omega
      rw [key] at h4
      have hv : decVal t = decVal u := by omega
      rw [ih u (fun x hx => h1 x (by simp [hx])) (fun x hx => h2 x (by simp [hx])) h3 hv]
      have g1 := UInt8.le_iff_toNat_le.1 hc.1
      have g2 := UInt8.le_iff_toNat_le.1 hd.1
      have g3 : (48 : UInt8).toNat = 48 := rfl
      rw [UInt8.toNat_inj.1 (show c.toNat = d.toNat by omega)]

theorem digits_append {t u : Bytes} (h1 : ∀ c ∈ t, Digit c) (h2 : ∀ c ∈ u, Digit c) : ∀ c ∈ t ++ u, Digit c := by
  intro c hc
  rcases List.mem_append.1 hc with h | h
  · exact h1 c h
  · exact h2 c h

theorem decText_zeros {d : Nat} (hd : 0 < d) (k : Nat) : decText (d * 10 ^ k) = decText d ++ List.replicate k 48 := by
  obtain ⟨e, h1, h2, h3⟩ := decText_length d
  have h2 : 10 ^ e ≤ d := by
    rcases h2 with h2 | h2
    · omega
    · exact h2
  refine digits_unique _ _ (decText_digits _) (digits_append (decText_digits d) (digits_zeros k)) ?_ ?_
  · rw [List.length_append, List.length_replicate, h1, decText_length_eq (e := e + k)]
    · omega
    · rw [Nat.pow_add]
      exact Nat.mul_le_mul_right _ h2
    · rw [show e + k + 1 = e + 1 + k by omega, Nat.pow_add]
      exact Nat.mul_lt_mul_of_pos_right h3 (ten_pos k)
  · rw [decVal_decText, decVal_append, decVal_nulls, decVal_decText, List.length_replicate, Nat.add_zero]

theorem noTrailing_decText {d : Nat} (hd : d % 10 ≠ 0) (k : Nat) : noTrailing (decText (d * 10 ^ k)) = decText d := by
  rw [decText_zeros (by omega)]
  unfold noTrailing
  rw [List.reverse_append, List.reverse_replicate]
  have hdrop : ∀ r : Bytes, (List.replicate k 48 ++ r).dropWhile (· == 48) = r.dropWhile (· == 48) := by
    intro r
    induction k with
    | zero => rfl
    | succ k ih => rw [List.replicate_succ, List.cons_append, List.dropWhile_cons, if_pos (by decide), ih]
  rw [hdrop]
  have : (decText d).reverse = UInt8.ofNat (48 + d % 10) :: if d / 10 = 0 then [] else decRev d (d / 10) := by
    unfold decText
    rw [List.reverse_reverse, decRev]
  have hne : (UInt8.ofNat (48 + d % 10) == 48) = false := by
    have h9 : ∀ r, r < 10 → r ≠ 0 → (UInt8.ofNat (48 + r) == 48) = false := by decide
    exact h9 _ (Nat.mod_lt _ (by decide)) hd
  rw [this, List.dropWhile_cons, hne, if_neg (by decide), ← this, List.reverse_reverse]

/-! ## The shortest digits of a whole number -/

attribute [local irreducible] roundDec decDist shortLoop

theorem roundDec_nat (d k : Nat) : roundDec d k = roundDec (d * 10 ^ k) 0 := by
  unfold roundDec
  rw [show ((k : Nat) : Int).toNat = k by omega, show (-((k : Nat) : Int)).toNat = 0 by omega, show (0 : Int).toNat = 0 from rfl, show (-(0 : Int)).toNat = 0 from rfl,
    Nat.pow_zero, Nat.mul_one]

theorem roundDec_whole {n : Nat} (h : n ≤ 2 ^ 53) : roundDec n 0 < infMag ∧ magVal (roundDec n 0) = n * 2 ^ 1074 := by
  unfold roundDec
  rw [show (0 : Int).toNat = 0 from rfl, show (-(0 : Int)).toNat = 0 from rfl, Nat.pow_zero, Nat.mul_one]
  exact (rep_le 1074 n h (by decide)).round (by decide) (by rw [Nat.mul_one])

theorem is_mag {x : F64} {n : Int} (h : x.Is n) (hn : n.natAbs ≤ 2 ^ 53) : roundDec n.natAbs 0 = x.toNat % 2 ^ 63 := by
  obtain ⟨h1, h2⟩ := roundDec_whole hn
  have h3 := h.abs
  rw [abs_eq] at h3
  rw [← h3] at h2
  exact (magVal_inj (Nat.lt_trans h1 infMag_lt) (Nat.mod_lt _ (by decide))).1 h2

theorem two53_next : ¬ roundDec (2 ^ 53 + 2) 0 ≤ roundDec (2 ^ 53) 0 := by
  unfold roundDec
  decide +kernel

theorem decDist_whole (a d : Nat) : decDist a d 0 = (a - d * 2 ^ 1074) + (d * 2 ^ 1074 - a) := by
  unfold decDist
  rw [show (0 : Int).toNat = 0 from rfl, show (-(0 : Int)).toNat = 0 from rfl, Nat.pow_zero, Nat.mul_one, Nat.mul_one]

/-- The shortest digits of a whole number are its digits without the zeros at the end. -/
theorem shortest_whole {x : F64} {n : Int} (h : x.Is n) (hn : n.natAbs ≤ 2 ^ 53) (h0 : n ≠ 0) :
    ∃ k : Nat, x.shortest.2 = k ∧ x.shortest.1 * 10 ^ k = n.natAbs ∧ x.shortest.1 % 10 ≠ 0 := by
  have hm := is_mag h hn
  have ha : x.abs ≠ 0 := by
    rw [h.abs]
    exact Nat.mul_ne_zero (by omega) (Nat.ne_of_gt pow1074_pos)
  obtain ⟨s1, s2, s3⟩ := shortest_spec x h.fin
  have s2 := s2 ha
  have s3 := s3 ha
  have hk : 0 ≤ x.shortest.2 := by
    by_cases hk : 0 ≤ x.shortest.2
    · exact hk
    · exact absurd hm (s2 0 (by omega) _)
  obtain ⟨k, hk⟩ : ∃ k : Nat, x.shortest.2 = k := ⟨x.shortest.2.toNat, by omega⟩
  refine ⟨k, hk, ?_, ?_⟩
  · rw [hk] at s1 s3
    generalize x.shortest.1 = d at *
    rw [roundDec_nat, ← hm] at s1
    by_cases hd : d * 10 ^ k ≤ 2 ^ 53
    · have e1 := (roundDec_whole hd).2
      rw [s1, (roundDec_whole hn).2] at e1
      exact (Nat.eq_of_mul_eq_mul_right pow1074_pos e1).symm
    · exfalso
      have e1 := roundDec_mono (decLe_same 0 (show 2 ^ 53 ≤ d * 10 ^ k by omega))
      rw [s1] at e1
      have e2 := magVal_le (Nat.lt_trans (roundDec_whole hn).1 infMag_lt) e1
      rw [(roundDec_whole hn).2, (roundDec_whole (Nat.le_refl _)).2] at e2
      have hb : n.natAbs = 2 ^ 53 := Nat.le_antisymm hn (Nat.le_of_mul_le_mul_right e2 pow1074_pos)
      by_cases hd2 : 2 ^ 53 + 2 ≤ d * 10 ^ k
      · have e3 := roundDec_mono (decLe_same 0 hd2)
        rw [s1, hb] at e3
        exact absurd e3 two53_next
      · -- the next number has the same double, but it is not the nearer one
        have hd3 : d * 10 ^ k = 2 ^ 53 + 1 := by omega
        cases k with
        | zero =>
          rw [Nat.pow_zero, Nat.mul_one] at hd3
          have e3 := s3 n.natAbs (by rw [← hm]; rfl)
          rw [show ((0 : Nat) : Int) = 0 from rfl, decDist_whole, decDist_whole, h.abs, hd3, hb, Nat.sub_self, ← Nat.mul_sub_right_distrib, ← Nat.mul_sub_right_distrib] at e3
          have := pow1074_pos
          generalize 2 ^ 1074 = P at *
          omega
        | succ k =>
          rw [Nat.pow_succ, ← Nat.mul_assoc] at hd3
          omega
  · intro h10
    refine s2 (x.shortest.2 + 1) (by omega) (x.shortest.1 / 10) ?_
    rw [← s1, hk, show (k : Int) + 1 = ((k + 1 : Nat) : Int) by omega, roundDec_nat, roundDec_nat]
    congr 1
    rw [Nat.pow_succ, Nat.mul_comm (10 ^ k), ← Nat.mul_assoc]
    congr 1
    omega

theorem is_sign {x : F64} {n : Int} (h : x.Is n) (h0 : n = 0 → x.isNeg = false) : x.isNeg = decide (n < 0) := by
  by_cases hz : n = 0
  · rw [h0 hz, hz]; rfl
  · have hs := h.2.2
    rw [scaled_abs] at hs
    have hp := pow1074_int
    cases hx : x.isNeg
    · rw [hx] at hs
      simp only [Bool.false_eq_true, if_false] at hs
      refine (decide_eq_false ?_).symm
      intro hn
      have := Int.mul_neg_of_neg_of_pos hn hp
      omega
    · rw [hx] at hs
      simp only [if_true] at hs
      refine (decide_eq_true ?_).symm
      have : n * 2 ^ 1074 ≤ 0 := by omega
      by_cases hn : n < 0
      · exact hn
      · have := Int.mul_pos (show 0 < n by omega) hp
        omega

theorem shortest_zero {x : F64} (h : x.Is 0) : x.shortest = (0, 0) := by
  unfold F64.shortest
  rw [if_pos (by rw [h.abs, Int.natAbs_zero, Nat.zero_mul])]

theorem display_whole {x : F64} {n : Int} (h : x.Is n) (hn : n.natAbs ≤ 2 ^ 53) :
    x.display = (if x.isNeg then [45] else []) ++ decText n.natAbs := by
  unfold F64.display
  rw [signed_fin h.fin]
  congr 1
  by_cases h0 : n = 0
  · subst h0
    rw [shortest_zero h]
    rfl
  · obtain ⟨k, h1, h2, h3⟩ := shortest_whole h hn h0
    rw [h1, ← h2, decText_zeros (by omega)]
    unfold pointText
    rw [if_pos (by omega), Int.toNat_natCast]

theorem powText_sci (t : Bytes) (e : Nat) (k : Int) (h : k + (t.length - 1 : Nat) = e) : powText t k = sciText t e := by
  cases t with
  | nil => rfl
  | cons c cs =>
    unfold powText sciText
    simp only
    rw [List.length_cons, Nat.add_sub_cancel] at h
    rw [h]
    rfl

theorem lowerExp_whole {x : F64} {n : Int} (h : x.Is n) (hn : n.natAbs ≤ 2 ^ 53) :
    x.lowerExp = (if x.isNeg then [45] else []) ++ floatText n.natAbs none := by
  unfold F64.lowerExp
  rw [signed_fin h.fin]
  congr 1
  by_cases h0 : n = 0
  · subst h0
    rw [shortest_zero h]
    rfl
  · obtain ⟨k, h1, h2, h3⟩ := shortest_whole h hn h0
    have hd : 0 < x.shortest.1 := by omega
    unfold floatText
    simp only
    rw [if_neg (by omega), h1, ← h2, noTrailing_decText h3]
    apply powText_sci
    rw [decText_zeros hd, List.length_append, List.length_replicate]
    have := List.length_pos_iff.2 (decText_ne_nil x.shortest.1)
    omega

/-! ## Texts with a precision -/

theorem divRound_eq (a b : Nat) : divRound a b = roundHE a b := by
  unfold divRound roundHE
  repeat' split
  all_goals first | rfl | omega

theorem roundHE_whole (a b : Nat) (hb : 0 < b) : roundHE (a * b) b = a := by
  unfold roundHE
  rw [Nat.mul_div_cancel _ hb, Nat.mul_mod_left, if_pos (by omega)]

theorem zeros_dec {p : Nat} (hp : p ≠ 0) : List.replicate (p - (decText 0).length) (48 : UInt8) ++ decText 0 = List.replicate p 48 := by
  obtain ⟨q, rfl⟩ : ∃ q, p = q + 1 := ⟨p - 1, by omega⟩
  rw [show decText 0 = [48] from by decide, List.length_singleton, Nat.add_sub_cancel, List.replicate_succ']

theorem fixed_whole {x : F64} {n : Int} (h : x.Is n) (p : Nat) :
    x.fixed p = (if x.isNeg then [45] else []) ++ plainText n.natAbs (some p) := by
  unfold F64.fixed
  simp only
  rw [signed_fin h.fin, h.abs, Nat.mul_right_comm, roundHE_whole _ _ pow1074_pos, Nat.mul_div_cancel _ (ten_pos p), Nat.mul_mod_left]
  unfold plainText padText
  simp only
  congr 2
  by_cases hp : p = 0
  · rw [if_pos hp, if_pos hp]
  · rw [if_neg hp, if_neg hp, zeros_dec hp]

/-- `10^k` is not above the number of `a` units. -/
def Lead (a : Nat) (k : Int) : Prop := 2 ^ 1074 * 10 ^ k.toNat ≤ a * 10 ^ (-k).toNat

instance (a : Nat) (k : Int) : Decidable (Lead a k) := inferInstanceAs (Decidable (_ ≤ _))

theorem leadLoop_zero (a : Nat) (k : Int) : leadLoop a 0 k = k := rfl

theorem leadLoop_succ (a left : Nat) (k : Int) : leadLoop a (left + 1) k = if Lead a k then k else leadLoop a left (k - 1) := by
  rw [leadLoop]
  rfl

attribute [local irreducible] Lead leadLoop

theorem leadLoop_spec (a : Nat) (ha : Lead a (-324)) : ∀ (left : Nat) (k : Int), k = left - 324 → ¬ Lead a (k + 1) →
    Lead a (leadLoop a left k) ∧ ¬ Lead a (leadLoop a left k + 1) := by
  intro left
  induction left with
  | zero =>
    intro k hk h
    have : k = -324 := by omega
    subst this
    rw [leadLoop_zero]
    exact ⟨ha, h⟩
  | succ left ih =>
    intro k hk h
    rw [leadLoop_succ]
    by_cases hl : Lead a k
    · rw [if_pos hl]
      exact ⟨hl, h⟩
    · rw [if_neg hl]
      refine ih (k - 1) (by omega) ?_
      rw [Int.sub_add_cancel]
      exact hl

theorem lead_low {a : Nat} (ha : 0 < a) : Lead a (-324) := by
  unfold Lead
  rw [show (-324 : Int).toNat = 0 from rfl, show (-(-324) : Int).toNat = 324 from rfl, Nat.pow_zero, Nat.mul_one]
  have h : 2 ^ 1074 ≤ 10 ^ 324 := by decide +kernel
  exact Nat.le_trans h (Nat.le_mul_of_pos_left _ ha)

theorem fin_abs_lt {x : F64} (h : x.Fin) : x.abs < 2 ^ 1024 * 2 ^ 1074 := by
  rw [abs_eq]
  have h1 : x.toNat % 2 ^ 63 < infMag := h
  have h2 := magVal_lt infMag_lt h1
  have h3 : magVal infMag = 2 ^ 1024 * 2 ^ 1074 := by decide +kernel
  rw [h3] at h2
  exact h2

theorem lead_high {x : F64} (h : x.Fin) : ¬ Lead x.abs 309 := by
  unfold Lead
  rw [show (309 : Int).toNat = 309 from rfl, show (-309 : Int).toNat = 0 from rfl, Nat.pow_zero, Nat.mul_one]
  have h1 := fin_abs_lt h
  have h2 : 2 ^ 1024 ≤ 10 ^ 309 := by decide +kernel
  have h3 := Nat.mul_le_mul_left (2 ^ 1074) h2
  rw [Nat.mul_comm (2 ^ 1074) (2 ^ 1024)] at h3
  omega

/-- The exponent of the first digit. -/
theorem lead_spec {x : F64} (h : x.Fin) (h0 : x.abs ≠ 0) : Lead x.abs (leadLoop x.abs 632 308) ∧ ¬ Lead x.abs (leadLoop x.abs 632 308 + 1) :=
  leadLoop_spec x.abs (lead_low (by omega)) 632 308 (by omega) (lead_high h)

theorem lead_whole (N e : Nat) : Lead (N * 2 ^ 1074) e ↔ 10 ^ e ≤ N := by
  unfold Lead
  rw [show ((e : Nat) : Int).toNat = e by omega, show (-((e : Nat) : Int)).toNat = 0 by omega, Nat.pow_zero, Nat.mul_one, Nat.mul_comm]
  exact ⟨fun h => Nat.le_of_mul_le_mul_right h pow1074_pos, fun h => Nat.mul_le_mul_right _ h⟩

theorem lead_neg {N : Nat} (h : 0 < N) {k : Int} (hk : k ≤ 0) : Lead (N * 2 ^ 1074) k := by
  unfold Lead
  rw [show k.toNat = 0 by omega, Nat.pow_zero, Nat.mul_one]
  have h1 := Nat.le_mul_of_pos_left (2 ^ 1074) h
  have h2 := Nat.le_mul_of_pos_right (N * 2 ^ 1074) (ten_pos (-k).toNat)
  omega

theorem lead_eq {x : F64} {n : Int} (h : x.Is n) (h0 : n ≠ 0) :
    ∃ e : Nat, leadLoop x.abs 632 308 = e ∧ (decText n.natAbs).length = e + 1 ∧ 10 ^ e ≤ n.natAbs ∧ n.natAbs < 10 ^ (e + 1) := by
  have ha : x.abs ≠ 0 := by
    rw [h.abs]
    exact Nat.mul_ne_zero (by omega) (Nat.ne_of_gt pow1074_pos)
  obtain ⟨l1, l2⟩ := lead_spec h.fin ha
  generalize leadLoop x.abs 632 308 = k at *
  rw [h.abs] at l1 l2
  have hk : 0 ≤ k := by
    by_cases hk : 0 ≤ k
    · exact hk
    · exact absurd (lead_neg (by omega) (by omega)) l2
  obtain ⟨e, rfl⟩ : ∃ e : Nat, k = e := ⟨k.toNat, by omega⟩
  rw [lead_whole] at l1
  rw [show (e : Int) + 1 = ((e + 1 : Nat) : Int) by omega, lead_whole] at l2
  have l2 : n.natAbs < 10 ^ (e + 1) := by omega
  exact ⟨e, rfl, decText_length_eq l1 l2, l1, l2⟩

theorem fixedExp_whole {x : F64} {n : Int} (h : x.Is n) (p : Nat) :
    x.fixedExp p = (if x.isNeg then [45] else []) ++ floatText n.natAbs (some p) := by
  unfold F64.fixedExp
  rw [signed_fin h.fin]
  congr 1
  by_cases h0 : n = 0
  · subst h0
    rw [if_pos (by rw [h.abs, Int.natAbs_zero, Nat.zero_mul])]
    unfold floatText
    simp only
    rw [Int.natAbs_zero, show decText 0 = [48] from by decide, List.length_singleton, if_pos (by omega), Nat.sub_self, Nat.sub_zero]
    rw [show [48] ++ List.replicate p (48 : UInt8) = List.replicate (p + 1) 48 from (List.replicate_succ ..).symm]
    apply powText_sci
    rw [List.length_replicate]
    omega
  · rw [if_neg (by rw [h.abs]; exact Nat.mul_ne_zero (by omega) (Nat.ne_of_gt pow1074_pos))]
    obtain ⟨e, e1, e2, e3, e4⟩ := lead_eq h h0
    unfold F64.rounded
    simp only
    rw [e1]
    unfold floatText
    simp only
    rw [e2, Nat.add_sub_cancel, h.abs]
    generalize n.natAbs = N at *
    have hN : 0 < N := Nat.lt_of_lt_of_le (ten_pos e) e3
    by_cases hp : e ≤ p
    · rw [if_pos hp, show (-((e : Int) - p)).toNat = p - e by omega, show ((e : Int) - p).toNat = 0 by omega, Nat.pow_zero, Nat.mul_one,
        Nat.mul_right_comm, roundHE_whole _ _ pow1074_pos]
      have hlt : N * 10 ^ (p - e) < 10 ^ (p + 1) := by
        rw [show p + 1 = e + 1 + (p - e) by omega, Nat.pow_add]
        exact Nat.mul_lt_mul_of_pos_right e4 (ten_pos _)
      rw [if_neg (Nat.ne_of_lt hlt), decText_zeros hN]
      apply powText_sci
      rw [List.length_append, List.length_replicate, e2]
      omega
    · rw [if_neg hp, show (-((e : Int) - p)).toNat = 0 by omega, show ((e : Int) - p).toNat = e - p by omega, Nat.pow_zero, Nat.mul_one,
        Nat.mul_comm (2 ^ 1074), roundHE_scale _ _ _ pow1074_pos, divRound_eq]
      by_cases hq : roundHE N (10 ^ (e - p)) = 10 ^ (p + 1)
      · rw [if_pos hq, if_pos hq]
        apply powText_sci
        simp only
        rw [decText_length_eq (e := p) (Nat.le_refl _) (Nat.pow_lt_pow_right (by decide) (by omega))]
        omega
      · rw [if_neg hq, if_neg hq]
        have l1 : 10 ^ p ≤ N / 10 ^ (e - p) := by
          rw [Nat.le_div_iff_mul_le (ten_pos _), ← Nat.pow_add, show p + (e - p) = e by omega]
          exact e3
        have l2 : N / 10 ^ (e - p) < 10 ^ (p + 1) := by
          rw [Nat.div_lt_iff_lt_mul (ten_pos _), ← Nat.pow_add, show p + 1 + (e - p) = e + 1 by omega]
          exact e4
        have l3 := le_roundHE N (10 ^ (e - p))
        have l4 := roundHE_le N (10 ^ (e - p))
        apply powText_sci
        simp only
        rw [decText_length_eq (e := p) (by omega) (by omega)]
        omega

end Cdx
