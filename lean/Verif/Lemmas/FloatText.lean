import Verif.Lemmas.FloatNear
import Verif.Lemmas.FloatOps
import Verif.Model.FloatText
import Verif.Props.Num

/-!
The search for the shortest digits of a double.
-/

namespace Cdx

theorem ten_pos (k : Nat) : 0 < 10 ^ k := Nat.pow_pos (by decide)

/-- Two numbers `d * 10^k` compared. -/
def decLe (d : Nat) (k : Int) (d' : Nat) (k' : Int) : Prop :=
  d * 10 ^ k.toNat * 10 ^ (-k').toNat ≤ d' * 10 ^ k'.toNat * 10 ^ (-k).toNat

theorem roundDec_mono {d d' : Nat} {k k' : Int} (h : decLe d k d' k') : roundDec d k ≤ roundDec d' k' := by
  unfold roundDec
  generalize 2 ^ 1074 = P
  refine roundMag_mono (ten_pos _) (ten_pos _) ?_
  have := Nat.mul_le_mul_right P h
  calc _ = d * 10 ^ k.toNat * 10 ^ (-k').toNat * P := by ac_rfl
    _ ≤ _ := this
    _ = _ := by ac_rfl

theorem decLe_same {d d' : Nat} (k : Int) (h : d ≤ d') : decLe d k d' k :=
  Nat.mul_le_mul_right _ (Nat.mul_le_mul_right _ h)

/-- The power of ten in the middle of two numbers. -/
theorem toNat_parts (k : Int) : (k.toNat : Int) - (-k).toNat = k := by omega

/-- Enough to compare with a common factor. -/
theorem decLe_of {d d' : Nat} {k k' j : Int} (hj : j ≤ k) (hj' : j ≤ k')
    (h : d * 10 ^ (k - j).toNat ≤ d' * 10 ^ (k' - j).toNat) : decLe d k d' k' := by
  unfold decLe
  -- both sides times `10^s` for a common `s`
  obtain ⟨s, u, hs, hs'⟩ : ∃ s u, k.toNat + (-k').toNat + s = (k - j).toNat + u ∧ k'.toNat + (-k).toNat + s = (k' - j).toNat + u := by
    by_cases hjn : 0 ≤ j
    · exact ⟨0, j.toNat + (-k).toNat + (-k').toNat, by omega, by omega⟩
    · exact ⟨(-j).toNat, (-k).toNat + (-k').toNat, by omega, by omega⟩
  have hp : 0 < 10 ^ s := ten_pos s
  refine Nat.le_of_mul_le_mul_right (c := 10 ^ s) ?_ hp
  calc d * 10 ^ k.toNat * 10 ^ (-k').toNat * 10 ^ s = d * 10 ^ (k.toNat + (-k').toNat + s) := by
        rw [Nat.pow_add, Nat.pow_add]; ac_rfl
    _ = d * 10 ^ (k - j).toNat * 10 ^ u := by rw [hs, Nat.pow_add]; ac_rfl
    _ ≤ d' * 10 ^ (k' - j).toNat * 10 ^ u := Nat.mul_le_mul_right _ h
    _ = d' * 10 ^ (k'.toNat + (-k).toNat + s) := by rw [hs', Nat.pow_add]; ac_rfl
    _ = d' * 10 ^ k'.toNat * 10 ^ (-k).toNat * 10 ^ s := by rw [Nat.pow_add, Nat.pow_add]; ac_rfl

theorem roundDec_zero (k : Int) : roundDec 0 k = 0 := by
  unfold roundDec
  have := roundMag_exact (a := 0) (b := 10 ^ (-k).toNat) (m := 0) (ten_pos _) (by decide) (by rw [show magVal 0 = 0 by decide +kernel, Nat.zero_mul])
  rwa [Nat.zero_mul, Nat.zero_mul]

theorem roundDec_big {d : Nat} {k : Int} (hd : 0 < d) (hk : 309 ≤ k) : roundDec d k = infMag := by
  have h1 : roundDec 1 309 = infMag := by decide +kernel
  have h2 : roundDec 1 309 ≤ roundDec d k := by
    apply roundDec_mono
    refine decLe_of (j := 309) (by omega) hk ?_
    have : 0 < 10 ^ (k - 309).toNat := ten_pos _
    have := Nat.mul_le_mul hd this
    simpa using this
  have h3 : roundDec d k ≤ infMag := roundMag_le_inf _ _
  omega

section
variable {a mag : Nat} (hm : mag < infMag) (ha : a = magVal mag)

theorem low_le (k : Int) (hm : mag < infMag) (ha : a = magVal mag) :
    roundDec (a * 10 ^ (-k).toNat / (2 ^ 1074 * 10 ^ k.toNat)) k ≤ mag := by
  unfold roundDec
  generalize 2 ^ 1074 = P
  refine roundMag_le (ten_pos _) hm ?_
  rw [← ha]
  have := Nat.div_mul_le_self (a * 10 ^ (-k).toNat) (P * 10 ^ k.toNat)
  calc _ = a * 10 ^ (-k).toNat / (P * 10 ^ k.toNat) * (P * 10 ^ k.toNat) := by ac_rfl
    _ ≤ _ := this

theorem le_high (k : Int) (hm : mag < infMag) (ha : a = magVal mag) :
    mag ≤ roundDec (a * 10 ^ (-k).toNat / (2 ^ 1074 * 10 ^ k.toNat) + 1) k := by
  unfold roundDec
  have hP : 0 < 2 ^ 1074 := pow1074_pos
  generalize 2 ^ 1074 = P at *
  refine le_roundMag (ten_pos _) hm ?_
  rw [← ha]
  have := Nat.lt_mul_div_succ (a * 10 ^ (-k).toNat) (Nat.mul_pos hP (ten_pos k.toNat))
  calc _ ≤ P * 10 ^ k.toNat * (a * 10 ^ (-k).toNat / (P * 10 ^ k.toNat) + 1) := Nat.le_of_lt this
    _ = _ := by ac_rfl

theorem pick_none (k : Int) (hm : mag < infMag) (ha : a = magVal mag) (h : pickDigits a mag k = none) (d : Nat) :
    roundDec d k ≠ mag := by
  intro hd
  have hl := low_le k hm ha
  have hh := le_high k hm ha
  unfold pickDigits at h
  simp only at h
  generalize a * 10 ^ (-k).toNat / (2 ^ 1074 * 10 ^ k.toNat) = q at *
  split at h
  · split at h <;> simp at h
  · rename_i h1
    split at h
    · simp at h
    · rename_i h2
      rcases Nat.lt_or_ge q d with hq | hq
      · have := roundDec_mono (decLe_same k (by omega : q + 1 ≤ d))
        omega
      · have := roundDec_mono (decLe_same k hq)
        omega

theorem pick_some (k : Int) {d : Nat} (h : pickDigits a mag k = some d) : roundDec d k = mag := by
  unfold pickDigits at h
  simp only at h
  generalize 2 ^ 1074 * 10 ^ k.toNat = D at h
  generalize a * 10 ^ (-k).toNat = n at h
  split at h
  · split at h
    · simp only [Option.some.injEq] at h
      rename_i h1 h2
      split at h
      · rw [← h]; exact h1
      · rw [← h]; exact h2
    · rename_i h1 h2
      simp only [Option.some.injEq] at h
      rw [← h]; exact h1
  · split at h
    · rename_i h1 h2
      simp only [Option.some.injEq] at h
      rw [← h]; exact h2
    · simp at h

/-- How far `d * 10^k` is from `a` units, with both multiplied by the denominators. -/
def decDist (a d : Nat) (k : Int) : Nat :=
  let n := a * 10 ^ (-k).toNat
  let m := d * (2 ^ 1074 * 10 ^ k.toNat)
  (n - m) + (m - n)

/-- No other multiple that is rounded to the number is nearer. -/
theorem pick_near (k : Int) {d : Nat} (h : pickDigits a mag k = some d) (d' : Nat) (hd' : roundDec d' k = mag) (hm : mag < infMag) (ha : a = magVal mag) :
    decDist a d k ≤ decDist a d' k := by
  have hl := low_le k hm ha
  have hh := le_high k hm ha
  unfold pickDigits at h
  unfold decDist
  simp only at h ⊢
  have hden : 0 < 2 ^ 1074 * 10 ^ k.toNat := Nat.mul_pos pow1074_pos (ten_pos _)
  generalize hD : 2 ^ 1074 * 10 ^ k.toNat = D at *
  generalize a * 10 ^ (-k).toNat = n at *
  have e1 := Nat.div_add_mod n D
  have e2 := Nat.mod_lt n hden
  generalize hq : n / D = q at *
  generalize n % D = r at *
  -- positions of the other multiple
  have hcase : d' ≤ q ∧ roundDec q k = mag ∨ q + 1 ≤ d' ∧ roundDec (q + 1) k = mag := by
    rcases Nat.lt_or_ge q d' with hq | hq
    · right
      have := roundDec_mono (decLe_same k (by omega : q + 1 ≤ d'))
      exact ⟨by omega, by omega⟩
    · left
      have := roundDec_mono (decLe_same k hq)
      exact ⟨hq, by omega⟩
  have m1 : d' ≤ q → d' * D ≤ q * D := fun h => Nat.mul_le_mul_right D h
  have m2 : q + 1 ≤ d' → (q + 1) * D ≤ d' * D := fun h => Nat.mul_le_mul_right D h
  have e3 : q * D = D * q := Nat.mul_comm _ _
  have e4 : (q + 1) * D = D * q + D := by rw [Nat.add_mul, Nat.one_mul, e3]
  split at h
  · rename_i h1
    split at h
    · simp only [Option.some.injEq] at h
      split at h
      · subst h
        rcases hcase with ⟨c1, _⟩ | ⟨c1, _⟩
        · have := m1 c1; omega
        · have := m2 c1; omega
      · subst h
        rcases hcase with ⟨c1, _⟩ | ⟨c1, _⟩
        · have := m1 c1; omega
        · have := m2 c1; omega
    · rename_i h2
      simp only [Option.some.injEq] at h
      subst h
      rcases hcase with ⟨c1, _⟩ | ⟨c1, c2⟩
      · have := m1 c1; omega
      · exact absurd c2 h2
  · rename_i h1
    split at h
    · simp only [Option.some.injEq] at h
      subst h
      rcases hcase with ⟨c1, c2⟩ | ⟨c1, c2⟩
      · exact absurd c2 h1
      · have := m2 c1; omega
    · simp at h

theorem ten_split : (10 : Nat) ^ 1074 = 5 ^ 1074 * 2 ^ 1074 := by
  rw [show (10 : Nat) = 5 * 2 from rfl, Nat.mul_pow]

theorem exact_round (hm : mag < infMag) (ha : a = magVal mag) : roundDec (a * 5 ^ 1074) (-1074) = mag := by
  unfold roundDec
  rw [show (-1074 : Int).toNat = 0 from rfl, show (-(-1074) : Int).toNat = 1074 from rfl, Nat.pow_zero, Nat.mul_one, Nat.mul_assoc, ← ten_split]
  have h10 : 0 < 10 ^ 1074 := ten_pos _
  generalize 10 ^ 1074 = T at *
  exact roundMag_exact h10 hm (by rw [ha])

theorem exact_dist : decDist a (a * 5 ^ 1074) (-1074) = 0 := by
  unfold decDist
  rw [show (-1074 : Int).toNat = 0 from rfl, show (-(-1074) : Int).toNat = 1074 from rfl, Nat.pow_zero, Nat.mul_one, Nat.mul_assoc, ← ten_split]
  generalize 10 ^ 1074 = T
  simp

theorem shortLoop_zero (pick : Int → Option Nat) (last : Nat × Int) (k : Int) : shortLoop pick last 0 k = last := rfl

theorem shortLoop_succ (pick : Int → Option Nat) (last : Nat × Int) (left : Nat) (k : Int) : shortLoop pick last (left + 1) k = match pick k with
    | some d => (d, k)
    | none => shortLoop pick last left (k - 1) := rfl

attribute [local irreducible] roundDec decDist shortLoop

/-- What is shown of the digits. -/
def ShortOk (a mag : Nat) (top : Int) (r : Nat × Int) : Prop :=
  roundDec r.1 r.2 = mag ∧ (∀ k', r.2 < k' → k' ≤ top → ∀ d', roundDec d' k' ≠ mag) ∧
    ∀ d', roundDec d' r.2 = mag → decDist a r.1 r.2 ≤ decDist a d' r.2

theorem shortLoop_spec (hm : mag < infMag) (ha : a = magVal mag) : ∀ (left : Nat) (k : Int), k = left - 1074 →
    ShortOk a mag k (shortLoop (pickDigits a mag) (exactDigits a) left k) := by
  intro left
  induction left with
  | zero =>
    intro k hk
    rw [shortLoop_zero, exactDigits]
    have hk' : k = -1074 := by omega
    refine ⟨exact_round hm ha, fun k' h1 h2 => ?_, fun d' _ => ?_⟩
    · simp only at h1
      omega
    · show decDist a (a * 5 ^ 1074) (-1074) ≤ _
      rw [exact_dist]
      exact Nat.zero_le _
  | succ left ih =>
    intro k hk
    rw [shortLoop_succ]
    cases hp : pickDigits a mag k with
    | some d =>
      exact ⟨pick_some k hp, fun k' h1 h2 => by simp only at h1; omega, fun d' hd' => pick_near k hp d' hd' hm ha⟩
    | none =>
      obtain ⟨i1, i2, i3⟩ := ih (k - 1) (by omega)
      refine ⟨i1, ?_, i3⟩
      intro k' h1 h2
      by_cases hkk : k' = k
      · rw [hkk]
        exact pick_none k hm ha hp
      · exact i2 k' h1 (by omega)

end

/-- The digits found are those of a number rounded to `x`; no multiple of a greater power of ten is; no other multiple is nearer. -/
theorem shortest_spec (x : F64) (hx : x.Fin) :
    roundDec x.shortest.1 x.shortest.2 = x.toNat % 2 ^ 63 ∧
      (x.abs ≠ 0 → ∀ k', x.shortest.2 < k' → ∀ d', roundDec d' k' ≠ x.toNat % 2 ^ 63) ∧
      (x.abs ≠ 0 → ∀ d', roundDec d' x.shortest.2 = x.toNat % 2 ^ 63 → decDist x.abs x.shortest.1 x.shortest.2 ≤ decDist x.abs d' x.shortest.2) := by
  have hm : x.toNat % 2 ^ 63 < infMag := hx
  have ha : x.abs = magVal (x.toNat % 2 ^ 63) := abs_eq x
  by_cases h0 : x.abs = 0
  · have e : x.shortest = (0, 0) := by unfold F64.shortest; rw [if_pos h0]
    refine ⟨?_, fun h => absurd h0 h, fun h => absurd h0 h⟩
    rw [e, roundDec_zero]
    have := roundMag_exact (a := 0) (b := 1) (by decide) hm (by rw [← ha, h0])
    rw [← this]
    have h2 := roundMag_exact (a := 0) (b := 1) (m := 0) (by decide) (by decide) (by decide +kernel : 0 = magVal 0 * 1)
    exact h2.symm
  · have e : x.shortest = shortLoop (pickDigits x.abs (x.toNat % 2 ^ 63)) (exactDigits x.abs) 1382 308 := by unfold F64.shortest; rw [if_neg h0]
    rw [e]
    obtain ⟨i1, i2, i3⟩ := shortLoop_spec hm ha 1382 308 (by decide)
    refine ⟨i1, fun _ k' h1 d' hd => ?_, fun _ => i3⟩
    by_cases hk : k' ≤ 308
    · exact i2 k' h1 hk d' hd
    · rcases Nat.eq_zero_or_pos d' with h | h
      · subst h
        rw [roundDec_zero] at hd
        rw [ha, ← hd] at h0
        exact h0 (by decide +kernel)
      · have := roundDec_big h (by omega : (309 : Int) ≤ k')
        omega

end Cdx
