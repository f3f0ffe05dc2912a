import Verif.Props.Exact
import Verif.Props.FloatPrec
import Verif.Lemmas.FloatNear

/-!
C235: how far the sum of a column of doubles is from the exact sum.
-/

namespace Cdx

/-! ## Proof -/

/-- A rounded size, with its sign. -/
theorem off_signed {s : Int} {m D : Nat} (hD : 0 < D) (b1 : s.natAbs * (D - 1) ≤ m * D) (b2 : m * D ≤ s.natAbs * (D + 1)) :
    ((if s < 0 then -(m : Int) else m) - s).natAbs * D ≤ s.natAbs := by
  have e : ((if s < 0 then -(m : Int) else m) - s).natAbs = (m - s.natAbs) + (s.natAbs - m) := by
    split <;> omega
  rw [e]
  generalize s.natAbs = a at *
  obtain ⟨k, rfl⟩ : ∃ k, D = k + 1 := ⟨D - 1, by omega⟩
  rw [Nat.add_sub_cancel] at b1
  rw [Nat.mul_add a] at b2
  rw [Nat.mul_add m, Nat.mul_one] at b1
  rw [Nat.add_mul, Nat.sub_mul, Nat.sub_mul, Nat.mul_add m, Nat.mul_add a]
  rw [Nat.mul_add m, Nat.mul_add a] at b2
  omega

/-- One addition is off by at most `2^-53` of the exact sum. -/
theorem add_near {x y : F64} (hx : x.Fin) (hy : y.Fin) (h : (x.scaled + y.scaled).natAbs ≤ 2 ^ 2097) :
    (x.add y).Fin ∧ ((x.add y).scaled - (x.scaled + y.scaled)).natAbs * 2 ^ 53 ≤ (x.scaled + y.scaled).natAbs := by
  rw [add_fin hx hy]
  generalize x.scaled + y.scaled = s at *
  unfold F64.ofScaled
  split
  · next h0 =>
    subst h0
    refine ⟨make_fin _ (by rw [infMag_eq]; decide), ?_⟩
    rw [make_scaled _ (by decide)]
    have : magVal 0 = 0 := by decide
    rw [this]
    split <;> decide
  · have hf := round_finite s.natAbs 1 (by decide) (by omega)
    obtain ⟨b1, b2⟩ := round_bounds_one s.natAbs hf
    refine ⟨make_fin _ hf, ?_⟩
    rw [make_scaled _ (Nat.lt_trans hf infMag_lt)]
    have := off_signed (s := s) (by decide) b1 b2
    by_cases hs : s < 0
    · simpa only [hs, decide_true, if_true] using this
    · simpa only [hs, decide_false, Bool.false_eq_true, if_false] using this

/-- `(1 + 1/d)^n (1 - n/d) ≤ 1`. -/
theorem pow_near (d : Nat) : ∀ n, n ≤ d → (d + 1) ^ n * (d - n) ≤ d ^ (n + 1)
  | 0, _ => by simp
  | n + 1, h => by
    have ih := pow_near d n (by omega)
    obtain ⟨k, rfl⟩ : ∃ k, d = n + 1 + k := ⟨d - (n + 1), by omega⟩
    have e1 : n + 1 + k - (n + 1) = k := by omega
    have e2 : n + 1 + k - n = k + 1 := by omega
    rw [e1]
    rw [e2] at ih
    have h2 : (n + 1 + k + 1) * k ≤ (n + 1 + k) * (k + 1) := by
      rw [Nat.add_mul (n + 1 + k), Nat.mul_add (n + 1 + k)]
      omega
    calc (n + 1 + k + 1) ^ (n + 1) * k = (n + 1 + k + 1) ^ n * ((n + 1 + k + 1) * k) := by rw [Nat.pow_succ, Nat.mul_assoc]
      _ ≤ (n + 1 + k + 1) ^ n * ((n + 1 + k) * (k + 1)) := Nat.mul_le_mul_left _ h2
      _ = ((n + 1 + k + 1) ^ n * (k + 1)) * (n + 1 + k) := by rw [Nat.mul_comm (n + 1 + k) (k + 1), Nat.mul_assoc]
      _ ≤ (n + 1 + k) ^ (n + 1) * (n + 1 + k) := Nat.mul_le_mul_right _ ih
      _ = (n + 1 + k) ^ (n + 1 + 1) := (Nat.pow_succ ..).symm

/-- The error of `n` roundings, for up to half as many as there are units. -/
theorem err_linear {a m n d : Nat} (hd : 0 < d) (hn : n ≤ d) (h : (a + m) * (2 * d) ^ n ≤ m * (2 * d + 1) ^ n) : a * d ≤ n * m := by
  have hp := pow_near (2 * d) n (by omega)
  have h1 : (a + m) * (2 * d) ^ n * (2 * d - n) ≤ m * (2 * d) ^ (n + 1) :=
    Nat.le_trans (Nat.mul_le_mul_right _ h) (by rw [Nat.mul_assoc]; exact Nat.mul_le_mul_left _ hp)
  have h2 : (a + m) * (2 * d - n) ≤ m * (2 * d) := by
    refine Nat.le_of_mul_le_mul_left ?_ (Nat.pow_pos (n := n) (show 0 < 2 * d by omega))
    calc (2 * d) ^ n * ((a + m) * (2 * d - n)) = (a + m) * (2 * d) ^ n * (2 * d - n) := by
          rw [← Nat.mul_assoc, Nat.mul_comm ((2 * d) ^ n)]
      _ ≤ m * (2 * d) ^ (n + 1) := h1
      _ = (2 * d) ^ n * (m * (2 * d)) := by rw [Nat.pow_succ, Nat.mul_left_comm]
  obtain ⟨k, hk⟩ : ∃ k, d = n + k := ⟨d - n, by omega⟩
  have e : 2 * d - n = d + k := by omega
  rw [e, Nat.add_mul, Nat.mul_add, Nat.mul_add] at h2
  have e2 : m * (2 * d) = m * d + m * k + n * m := by
    rw [show 2 * d = d + k + n by omega, Nat.mul_add, Nat.mul_add, Nat.mul_comm m n]
  rw [e2] at h2
  omega

/-- One more rounding. -/
theorem err_step {a m b e D P Q : Nat} (h : (a + m) * P ≤ m * Q) (he : e * D ≤ a + m + b) (hPQ : P ≤ Q) :
    (e + a + (m + b)) * (P * D) ≤ (m + b) * (Q * (D + 1)) := by
  have h1 : e * D * P ≤ (a + m + b) * P := Nat.mul_le_mul_right _ he
  calc (e + a + (m + b)) * (P * D) = e * D * P + ((a + m) * P * D + b * P * D) := by
        rw [show e + a + (m + b) = e + ((a + m) + b) by omega, Nat.add_mul, Nat.add_mul]
        simp only [Nat.mul_assoc, Nat.mul_comm D P]
    _ ≤ (a + m + b) * P + ((a + m) * P * D + b * P * D) := Nat.add_le_add_right h1 _
    _ = (a + m) * P * (D + 1) + b * P * (D + 1) := by
        rw [Nat.add_mul (a + m) b, Nat.mul_add, Nat.mul_add]
        omega
    _ ≤ m * Q * (D + 1) + b * Q * (D + 1) :=
        Nat.add_le_add (Nat.mul_le_mul_right _ h) (Nat.mul_le_mul_right _ (Nat.mul_le_mul_left _ hPQ))
    _ = (m + b) * (Q * (D + 1)) := by rw [Nat.add_mul, Nat.mul_assoc, Nat.mul_assoc]

theorem two_half : 2 * 2 ^ 52 = 2 ^ 53 := by decide

/-- The running sum. -/
theorem sum_near : ∀ (ys : List F64) (x : F64) (t : Int) (m k : Nat), x.Fin → (∀ y ∈ ys, y.Fin) → t.natAbs ≤ m →
    ((x.scaled - t).natAbs + m) * (2 * 2 ^ 52) ^ k ≤ m * (2 * 2 ^ 52 + 1) ^ k → k + ys.length ≤ 2 ^ 52 →
    m + (ys.map (·.abs)).sum ≤ 2 ^ 2096 →
    (ys.foldl F64.add x).Fin ∧
    (((ys.foldl F64.add x).scaled - (t + (ys.map (·.scaled)).sum)).natAbs + (m + (ys.map (·.abs)).sum)) * (2 * 2 ^ 52) ^ (k + ys.length) ≤
      (m + (ys.map (·.abs)).sum) * (2 * 2 ^ 52 + 1) ^ (k + ys.length)
  | [], x, t, m, k, hx, _, _, h, _, _ => by simpa using ⟨hx, h⟩
  | y :: ys, x, t, m, k, hx, hy, ht, h, hk, hm => by
    simp only [List.map_cons, List.sum_cons, List.length_cons, List.foldl_cons] at *
    have hl := err_linear (d := 2 ^ 52) (by decide) (by omega) h
    have hs1 : (x.scaled - t).natAbs ≤ m := by
      have : (x.scaled - t).natAbs * 2 ^ 52 ≤ 2 ^ 52 * m := Nat.le_trans hl (Nat.mul_le_mul_right _ (by omega))
      rw [Nat.mul_comm] at this
      exact Nat.le_of_mul_le_mul_left this (by decide)
    have hyy : y.abs = y.scaled.natAbs := rfl
    have ht2 : (t + y.scaled).natAbs ≤ m + y.abs := by
      clear hm
      omega
    have h97 : 2 ^ 2097 = 2 * 2 ^ 2096 := by rw [Nat.pow_succ, Nat.mul_comm]
    have hb : (x.scaled + y.scaled).natAbs ≤ (x.scaled - t).natAbs + m + y.abs := by
      clear hm h97
      omega
    have ha : ∀ z : Int, (z - (t + y.scaled)).natAbs ≤ (z - (x.scaled + y.scaled)).natAbs + (x.scaled - t).natAbs := by
      clear hm h97
      omega
    have hk1 : k + 1 + ys.length ≤ 2 ^ 52 := by
      clear hm h97
      omega
    have hPQ : 2 * 2 ^ 52 ≤ 2 * 2 ^ 52 + 1 := by decide
    have hbig : (x.scaled + y.scaled).natAbs ≤ 2 ^ 2097 := by
      rw [h97]
      generalize 2 ^ 2096 = B at *
      omega
    obtain ⟨f1, f2⟩ := add_near hx (hy y (List.mem_cons_self ..)) hbig
    have hst := err_step (D := 2 * 2 ^ 52) h (Nat.le_trans (by rw [two_half]; exact f2) hb)
      (Nat.pow_le_pow_left hPQ k)
    rw [← Nat.pow_succ, ← Nat.pow_succ] at hst
    have := sum_near ys (x.add y) (t + y.scaled) (m + y.abs) (k + 1) f1 (fun z hz => hy z (List.mem_cons_of_mem _ hz)) ht2
      (Nat.le_trans (Nat.mul_le_mul_right _ (Nat.add_le_add_right (ha _) _)) hst) hk1 (by rw [Nat.add_assoc]; exact hm)
    rwa [Int.add_assoc, Nat.add_assoc, Nat.add_assoc k, Nat.add_comm 1] at this

/-- In units of `2^-1074`. -/
theorem sum_off {ys : List F64} (hf : ∀ y ∈ ys, y.Fin) (hn : ys.length ≤ 2 ^ 52) (hs : (ys.map (·.abs)).sum ≤ 2 ^ 2096) :
    (ys.foldl F64.add (F64.ofNat 0)).Fin ∧
    ((ys.foldl F64.add (F64.ofNat 0)).scaled - (ys.map (·.scaled)).sum).natAbs * 2 ^ 52 ≤ ys.length * (ys.map (·.abs)).sum := by
  have h0 := (Is_iff _ _).1 (is_ofNat (n := 0) (by decide))
  have hz : (F64.ofNat 0).scaled = 0 := by rw [h0.2]; exact Int.zero_mul _
  obtain ⟨h1, h2⟩ := sum_near ys (F64.ofNat 0) 0 0 0 h0.1 hf (by decide) (by rw [hz]; simp) (by omega) (by rw [Nat.zero_add]; exact hs)
  rw [Int.zero_add, Nat.zero_add, Nat.zero_add] at h2
  exact ⟨h1, err_linear (by decide) hn h2⟩

theorem sum_units (u : Rat) : ∀ ys : List Int, (ys.map fun y : Int => (y : Rat) / u).sum = ((ys.sum : Int) : Rat) / u
  | [] => by simp [Rat.div_def, Rat.zero_mul]
  | y :: ys => by
    rw [List.map_cons, List.sum_cons, List.sum_cons, sum_units u ys, Rat.intCast_add, Rat.div_def, Rat.div_def, Rat.div_def, Rat.add_mul]

theorem sum_units_nat (u : Rat) : ∀ ys : List Nat, (ys.map fun y : Nat => (y : Rat) / u).sum = ((ys.sum : Nat) : Rat) / u
  | [] => by simp [Rat.div_def, Rat.zero_mul]
  | y :: ys => by
    rw [List.map_cons, List.sum_cons, List.sum_cons, sum_units_nat u ys, Rat.natCast_add, Rat.div_def, Rat.div_def, Rat.div_def, Rat.add_mul]

theorem sum_val (ys : List F64) : (ys.map (·.val)).sum = (((ys.map (·.scaled)).sum : Int) : Rat) / ((2 ^ 1074 : Nat) : Rat) := by
  rw [← sum_units, List.map_map]
  rfl

theorem sum_size (ys : List F64) : (ys.map (·.size)).sum = (((ys.map (·.abs)).sum : Nat) : Rat) / ((2 ^ 1074 : Nat) : Rat) := by
  rw [← sum_units_nat, List.map_map]
  congr 1
  exact List.map_congr_left fun y _ => size_abs y

theorem units_le {n k : Nat} {u : Nat} (hu : 0 < u) (h : (n : Rat) / (u : Rat) ≤ (k : Rat)) : n ≤ k * u := by
  have hp := natCast_pos hu
  have e := Rat.mul_le_mul_of_nonneg_right h (Rat.le_of_lt hp)
  have e1 : (n : Rat) / u * u = n := by grind
  rw [e1, ← Rat.natCast_mul, Rat.natCast_le_natCast] at e
  exact e

/-- From units to numbers. -/
theorem off_units {a b : Int} {n m D u : Nat} (hD : 0 < D) (hu : 0 < u) (h : (a - b).natAbs * D ≤ n * m) :
    (a : Rat) / (u : Rat) - (b : Rat) / (u : Rat) ≤ (n : Rat) / (D : Rat) * ((m : Rat) / (u : Rat)) ∧
    (b : Rat) / (u : Rat) - (a : Rat) / (u : Rat) ≤ (n : Rat) / (D : Rat) * ((m : Rat) / (u : Rat)) := by
  have hp := natCast_pos hu
  have hq := natCast_pos hD
  have key : ∀ c : Int, c ≤ (a - b).natAbs → (c : Rat) / (u : Rat) ≤ (n : Rat) / (D : Rat) * ((m : Rat) / (u : Rat)) := by
    intro c hc
    have h1 : (c : Int) * D ≤ (n * m : Nat) := by
      refine Int.le_trans (Int.mul_le_mul_of_nonneg_right hc (by omega)) ?_
      exact_mod_cast h
    have h2 : (c : Rat) * (D : Rat) ≤ (n : Rat) * (m : Rat) := by exact_mod_cast h1
    refine Rat.le_of_mul_le_mul_right (c := (u : Rat) * (D : Rat)) ?_ (Rat.mul_pos hp hq)
    have e1 : (c : Rat) / u * (u * D) = c * D := by grind
    have e2 : (n : Rat) / D * ((m : Rat) / u) * (u * D) = n * m := by grind
    rw [e1, e2]
    exact h2
  have d1 := key (a - b) (by omega)
  have d2 := key (b - a) (by omega)
  have e : ∀ c d : Int, ((c - d : Int) : Rat) / (u : Rat) = (c : Rat) / (u : Rat) - (d : Rat) / (u : Rat) := by
    intro c d
    rw [Rat.intCast_sub]
    grind
  rw [e] at d1 d2
  exact ⟨d1, d2⟩

theorem big_units : 2 ^ 1022 * 2 ^ 1074 = 2 ^ 2096 := (Nat.pow_add 2 1022 1074).symm

/-- C235: the sum of up to `2^52` texts whose numbers are not too big is finite and off by at most `2^-52` of the sum of the sizes, for each
text. -/
theorem C235_sum (rest : FloatOps F64) (exp10 : Int → F64) (env : AggEnv F64) (vs : List Bytes) (hf : ∀ v ∈ vs, (lossyF64 exp10 v).Fin)
    (hn : vs.length ≤ 2 ^ 52) (hs : (vs.map fun v => (lossyF64 exp10 v).size).sum ≤ ((2 ^ 1022 : Nat) : Rat)) :
    ∃ x : F64, ((Agg.sum (f64Ops rest).zero).addAll (env.doubles rest exp10) vs).result (env.doubles rest exp10) = .num x ∧ x.Fin ∧
      x.val - (vs.map fun v => (lossyF64 exp10 v).val).sum ≤
        (vs.length : Rat) / ((2 ^ 52 : Nat) : Rat) * (vs.map fun v => (lossyF64 exp10 v).size).sum ∧
      (vs.map fun v => (lossyF64 exp10 v).val).sum - x.val ≤
        (vs.length : Rat) / ((2 ^ 52 : Nat) : Rat) * (vs.map fun v => (lossyF64 exp10 v).size).sum := by
  have hC := (C86_sum (env := env.doubles rest exp10) vs).1
  refine ⟨_, hC, ?_⟩
  have e1 : (vs.map fun v => (lossyF64 exp10 v).val) = (vs.map (lossyF64 exp10)).map (·.val) := by rw [List.map_map]; rfl
  have e2 : (vs.map fun v => (lossyF64 exp10 v).size) = (vs.map (lossyF64 exp10)).map (·.size) := by rw [List.map_map]; rfl
  rw [e2, sum_size] at hs
  have hs' := units_le pow1074_pos hs
  rw [big_units] at hs'
  have hl : (vs.map (lossyF64 exp10)).length = vs.length := List.length_map ..
  obtain ⟨h1, h2⟩ := sum_off (ys := vs.map (lossyF64 exp10)) (by
    intro y hy
    obtain ⟨v, hv, rfl⟩ := List.mem_map.1 hy
    exact hf v hv) (by rw [hl]; exact hn) hs'
  refine ⟨h1, ?_⟩
  rw [e1, e2, sum_val, sum_size]
  rw [hl] at h2
  exact off_units (Nat.two_pow_pos 52) pow1074_pos h2

theorem sum_perm_rat : ∀ {ns ms : List Rat}, ns.Perm ms → ns.sum = ms.sum := by
  intro ns ms h
  induction h with
  | nil => rfl
  | cons _ _ ih => simp [ih]
  | swap => simp only [List.sum_cons]; grind
  | trans _ _ ih1 ih2 => exact ih1.trans ih2

/-- C235: so the sums of two orders of the same texts are not further from each other than twice that. -/
theorem C235_order (rest : FloatOps F64) (exp10 : Int → F64) (env : AggEnv F64) (vs ws : List Bytes) (hp : vs.Perm ws)
    (hf : ∀ v ∈ vs, (lossyF64 exp10 v).Fin) (hn : vs.length ≤ 2 ^ 52)
    (hs : (vs.map fun v => (lossyF64 exp10 v).size).sum ≤ ((2 ^ 1022 : Nat) : Rat)) (x y : F64)
    (hx : ((Agg.sum (f64Ops rest).zero).addAll (env.doubles rest exp10) vs).result (env.doubles rest exp10) = .num x)
    (hy : ((Agg.sum (f64Ops rest).zero).addAll (env.doubles rest exp10) ws).result (env.doubles rest exp10) = .num y) :
    x.val - y.val ≤ 2 * ((vs.length : Rat) / ((2 ^ 52 : Nat) : Rat) * (vs.map fun v => (lossyF64 exp10 v).size).sum) := by
  obtain ⟨x', hx', _, h1, _⟩ := C235_sum rest exp10 env vs hf hn hs
  have e1 := sum_perm_rat (hp.map fun v => (lossyF64 exp10 v).size)
  have e2 := sum_perm_rat (hp.map fun v => (lossyF64 exp10 v).val)
  obtain ⟨y', hy', _, _, h2⟩ := C235_sum rest exp10 env ws (fun v hv => hf v (hp.mem_iff.2 hv)) (by rw [← hp.length_eq]; exact hn)
    (by rw [← e1]; exact hs)
  rw [← e1, ← e2, ← hp.length_eq] at h2
  rw [hx] at hx'
  rw [hy] at hy'
  cases hx'
  cases hy'
  generalize (vs.length : Rat) / ((2 ^ 52 : Nat) : Rat) * (vs.map fun v => (lossyF64 exp10 v).size).sum = E at *
  generalize (vs.map fun v => (lossyF64 exp10 v).val).sum = T at *
  grind

/-- `9007199254740992`, `1` and `0.5`: the texts of the sum that is not exact, and a fraction. -/
example : ∃ x : F64, ((Agg.sum (f64Ops noOps).zero).addAll (noAggEnv.doubles noOps fun _ => 0)
      [ascii "9007199254740992", ascii "1", ascii "0.5"]).result (noAggEnv.doubles noOps fun _ => 0) = .num x ∧ x.Fin ∧
    x.val ≠ ([ascii "9007199254740992", ascii "1", ascii "0.5"].map fun v => (lossyF64 (fun _ => 0) v).val).sum := by
  obtain ⟨x, h, hf, _⟩ := C235_sum noOps (fun _ => 0) noAggEnv [ascii "9007199254740992", ascii "1", ascii "0.5"]
    (by unfold F64.Fin; decide +kernel) (by decide) (by decide +kernel)
  refine ⟨x, h, hf, ?_⟩
  have : ((Agg.sum (f64Ops noOps).zero).addAll (noAggEnv.doubles noOps fun _ => 0)
      [ascii "9007199254740992", ascii "1", ascii "0.5"]).result (noAggEnv.doubles noOps fun _ => 0) = .num (F64.ofNat 9007199254740992) := by
    decide +kernel
  have hx := AggOut.num.inj (this.symm.trans h)
  rw [← hx]
  decide +kernel

end Cdx
