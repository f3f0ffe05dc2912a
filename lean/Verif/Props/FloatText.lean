import Verif.Lemmas.FloatText
import Verif.Props.FloatNear
import Verif.Props.Options

/-!
C196: without a precision a double is written with the fewest digits that stand for it.
-/

namespace Cdx

/-! ## Specification -/

/-- The double with the magnitude `mag` is the one nearest to `r`, ties to even. -/
def NearestMag (r : Rat) (mag : Nat) : Prop := ∃ a b : Nat, 0 < b ∧ r = (a : Rat) / (b : Rat) ∧ NearestEven (a * 2 ^ 1074) b mag

/-- The number of a text without its sign. -/
def NumParts.size (p : NumParts) : Rat := (decVal (p.ds ++ p.fs) : Rat) / 10 ^ p.fs.length * expVal p.exp * sufVal p.suf

/-- The double is the one nearest to the number of the text, with its sign. -/
def NumParts.Names (p : NumParts) (x : F64) : Prop := (p.sign = [45] ↔ x.isNeg = true) ∧ NearestMag p.size (x.toNat % 2 ^ 63)

/-- The digits of a number before its exponent. -/
def NumParts.digits (p : NumParts) : Bytes := p.ds ++ p.fs

/-! ## Nearest doubles -/

theorem nearest_lt {a b r m : Nat} (hb : 0 < b) (hr : NearestEven a b r) (hm : NearestEven a b m) (h : r < m) : False := by
  have hinf : infMag < 2 ^ 63 := by rw [infMag_eq]; decide
  obtain ⟨r1, r2⟩ := hr
  obtain ⟨m1, m2⟩ := hm
  have hm63 : m < 2 ^ 63 := by omega
  have e1 := r2 m m1 (by omega)
  have e2 := m2 r r1 (by omega)
  have heq : distMag a b r = distMag a b m ∧ r % 2 = 0 ∧ m % 2 = 0 := by omega
  have e3 := r2 (r + 1) (by omega) (by omega)
  have v1 : magVal r * b < magVal (r + 1) * b := Nat.mul_lt_mul_of_pos_right (magVal_lt (by omega) (by omega)) hb
  have v2 : magVal (r + 1) * b < magVal m * b := Nat.mul_lt_mul_of_pos_right (magVal_lt hm63 (by omega)) hb
  unfold distMag at heq e3
  generalize magVal r * b = x at *
  generalize magVal (r + 1) * b = y at *
  generalize magVal m * b = z at *
  obtain ⟨q1, q2, q3⟩ := heq
  split at q1 <;> split at q1 <;> split at e3 <;> split at e3 <;> omega

/-- There is only one nearest double. -/
theorem nearest_unique {a b r m : Nat} (hb : 0 < b) (hr : NearestEven a b r) (hm : NearestEven a b m) : r = m := by
  rcases Nat.lt_trichotomy r m with h | h | h
  · exact (nearest_lt hb hr hm h).elim
  · exact h
  · exact (nearest_lt hb hm hr h).elim

/-- `d * 10^k`. -/
def decRat (d : Nat) (k : Int) : Rat := ((d * 10 ^ k.toNat : Nat) : Rat) / ((10 ^ (-k).toNat : Nat) : Rat)

theorem ratDiv_eq {a b a' b' : Nat} (hb : 0 < b) (hb' : 0 < b') (h : (a : Rat) / (b : Rat) = (a' : Rat) / (b' : Rat)) : a * b' = a' * b := by
  have h1 : (b : Rat) ≠ 0 := by
    have : (0 : Rat) < (b : Rat) := by exact_mod_cast hb
    grind
  have h2 : (b' : Rat) ≠ 0 := by
    have : (0 : Rat) < (b' : Rat) := by exact_mod_cast hb'
    grind
  have : (a : Rat) * b' = a' * b := by grind
  exact_mod_cast this

theorem nearestMag_iff (d : Nat) (k : Int) (mag : Nat) : NearestMag (decRat d k) mag ↔ roundDec d k = mag := by
  constructor
  · rintro ⟨a, b, hb, hr, hn⟩
    have e := ratDiv_eq (ten_pos _) hb hr
    rw [nearest_unique hb hn (roundMag_nearest _ _ hb)]
    unfold roundDec
    generalize 2 ^ 1074 = P
    have e' : d * 10 ^ k.toNat * P * b = a * P * 10 ^ (-k).toNat := by
      calc _ = d * 10 ^ k.toNat * b * P := by ac_rfl
        _ = a * 10 ^ (-k).toNat * P := by rw [e]
        _ = _ := by ac_rfl
    exact Nat.le_antisymm (roundMag_mono (ten_pos _) hb (Nat.le_of_eq e')) (roundMag_mono hb (ten_pos _) (Nat.le_of_eq e'.symm))
  · intro h
    refine ⟨d * 10 ^ k.toNat, 10 ^ (-k).toNat, ten_pos _, rfl, ?_⟩
    rw [← h]
    exact roundMag_nearest _ _ (ten_pos _)

theorem ratPow_add (m n : Nat) : (10 : Rat) ^ (m + n) = 10 ^ m * 10 ^ n := by
  exact_mod_cast congrArg (fun z : Nat => (z : Rat)) (Nat.pow_add 10 m n)

theorem size_eq (p : NumParts) (h : p.suf = none) : p.size = decRat (decVal p.digits) (expInt p.exp - p.fs.length) := by
  unfold NumParts.size decRat NumParts.digits
  rw [h]
  generalize decVal (p.ds ++ p.fs) = D
  generalize p.fs.length = f
  have hne : ∀ n : Nat, ((10 : Rat) ^ n) ≠ 0 := ten_pow_ne
  have hc : ∀ n : Nat, ((10 ^ n : Nat) : Rat) = (10 : Rat) ^ n := fun n => by exact_mod_cast rfl
  have hm : ∀ n : Nat, ((D * 10 ^ n : Nat) : Rat) = (D : Rat) * (10 : Rat) ^ n := fun n => by exact_mod_cast rfl
  rw [hc, hm]
  have main : ∀ (e u v : Nat), u + f = v + e → (D : Rat) / 10 ^ f * 10 ^ e = (D : Rat) * 10 ^ u / 10 ^ v := by
    intro e u v huv
    have h1 : (10 : Rat) ^ u * 10 ^ f = 10 ^ v * 10 ^ e := by rw [← ratPow_add, ← ratPow_add, huv]
    have := hne f
    have := hne v
    grind
  cases hx : p.exp with
  | none =>
    simp only [expVal, sufVal, expInt]
    have := main 0 (0 - (f : Int)).toNat (-(0 - (f : Int))).toNat (by omega)
    rw [Rat.pow_zero] at this
    rw [← this]
    grind
  | some q =>
    obtain ⟨c, s, d⟩ := q
    simp only [expVal, sufVal, expInt]
    generalize decVal d = e
    split
    · have h1 := main 0 (-(e : Int) - f).toNat ((-(-(e : Int) - f)).toNat - e) (by omega)
      have h2 : (10 : Rat) ^ (-(-(e : Int) - f)).toNat = 10 ^ ((-(-(e : Int) - f)).toNat - e) * 10 ^ e := by
        rw [← ratPow_add]
        congr 1
        omega
      rw [Rat.pow_zero] at h1
      rw [h2]
      have := hne e
      have := hne ((-(-(e : Int) - f)).toNat - e)
      grind
    · have := main e ((e : Int) - f).toNat (-((e : Int) - f)).toNat (by omega)
      rw [← this]
      grind

/-- A text without a suffix names a double if its digits with its exponent are rounded to it. -/
theorem names_iff (p : NumParts) (h : p.suf = none) (x : F64) :
    p.Names x ↔ (p.sign = [45] ↔ x.isNeg = true) ∧ roundDec (decVal p.digits) (expInt p.exp - p.fs.length) = x.toNat % 2 ^ 63 := by
  unfold NumParts.Names
  rw [size_eq p h, nearestMag_iff]

/-! ## The texts -/

/-- The parts of `pointText`. -/
theorem pointText_parts (s t : Bytes) (k : Int) (hs : IsSign s) (ht : ∀ c ∈ t, isDigit c = true) :
    ∃ p : NumParts, p.WF ∧ p.Plain ∧ p.sign = s ∧ p.text = s ++ pointText t k ∧ decVal p.digits = decVal t * 10 ^ k.toNat ∧
      p.fs.length = (-k).toNat ∧ (t ≠ [] → p.ds ≠ []) := by
  have hz : ∀ n, ∀ c ∈ List.replicate n (48 : UInt8), isDigit c = true := by
    intro n c hc
    rw [(List.mem_replicate.1 hc).2]
    decide
  unfold pointText
  simp only
  by_cases h1 : 0 ≤ k
  · rw [if_pos h1]
    refine ⟨⟨s, t ++ List.replicate k.toNat 48, none, none, none⟩, ⟨hs, ?_, by simp [NumParts.fs], by simp, by simp⟩, ⟨rfl, rfl⟩, rfl, ?_, ?_, ?_, ?_⟩
    · intro c hc
      rcases List.mem_append.1 hc with h | h
      · exact ht c h
      · exact hz _ c h
    · simp [NumParts.text, fracText, expText, sufText]
    · simp [NumParts.digits, NumParts.fs, decVal_append, decVal_nulls]
    · simp only [NumParts.fs, Option.getD_none, List.length_nil]
      omega
    · intro h
      simp [h]
  · rw [if_neg h1]
    have hk0 : k.toNat = 0 := by omega
    by_cases h2 : (-k).toNat < t.length
    · rw [if_pos h2]
      refine ⟨⟨s, t.take (t.length - (-k).toNat), some (t.drop (t.length - (-k).toNat)), none, none⟩,
        ⟨hs, fun c hc => ht c (List.mem_of_mem_take hc), fun c hc => ht c (List.mem_of_mem_drop hc), by simp, by simp⟩, ⟨rfl, rfl⟩, rfl, ?_, ?_, ?_, ?_⟩
      · simp [NumParts.text, fracText, expText, sufText]
      · simp [NumParts.digits, NumParts.fs, hk0]
      · simp only [NumParts.fs, Option.getD_some, List.length_drop]
        omega
      · intro _ h
        have := congrArg List.length h
        simp only [List.length_take, List.length_nil] at this
        omega
    · rw [if_neg h2]
      refine ⟨⟨s, [48], some (List.replicate ((-k).toNat - t.length) 48 ++ t), none, none⟩,
        ⟨hs, by simp +decide, ?_, by simp, by simp⟩, ⟨rfl, rfl⟩, rfl, ?_, ?_, ?_, by simp⟩
      · intro c hc
        simp only [NumParts.fs, Option.getD_some] at hc
        rcases List.mem_append.1 hc with h | h
        · exact hz _ c h
        · exact ht c h
      · simp [NumParts.text, fracText, expText, sufText]
      · simp [NumParts.digits, NumParts.fs, hk0, decVal_append, decVal_nulls, decVal]
      · simp only [NumParts.fs, Option.getD_some, List.length_append, List.length_replicate]
        omega

theorem decText_isDigit (n : Nat) : ∀ c ∈ decText n, isDigit c = true := digits_of_Digit (decText_digits n)

/-- The parts of `powText`. -/
theorem powText_parts (s t : Bytes) (k : Int) (hs : IsSign s) (ht : ∀ c ∈ t, isDigit c = true) (hne : t ≠ []) :
    ∃ p : NumParts, p.WF ∧ p.suf = none ∧ p.sign = s ∧ p.text = s ++ powText t k ∧ p.digits = t ∧ p.ds.length = 1 ∧ p.fs.length = t.length - 1 ∧
      expInt p.exp - p.fs.length = k := by
  obtain ⟨c, cs, rfl⟩ := List.exists_cons_of_ne_nil hne
  have hfs : ∀ (e : Option (UInt8 × Bytes × Bytes)), (⟨s, [c], if cs = [] then none else some cs, e, none⟩ : NumParts).fs = cs := by
    intro e
    unfold NumParts.fs
    simp only
    split
    · rename_i h; simp [h]
    · rfl
  have hft : [c] ++ fracText (if cs = [] then none else some cs) = if cs = [] then [c] else c :: 46 :: cs := by
    split <;> rfl
  have wf : ∀ e : Option (UInt8 × Bytes × Bytes), (∀ c s d, e = some (c, s, d) → (c = 101 ∨ c = 69) ∧ IsSign s ∧ d ≠ [] ∧ (∀ x ∈ d, isDigit x = true)) →
      (⟨s, [c], if cs = [] then none else some cs, e, none⟩ : NumParts).WF := by
    intro e he
    refine ⟨hs, fun x hx => ht x ?_, fun x hx => ht x ?_, he, by simp⟩
    · simp only [List.mem_singleton] at hx
      simp [hx]
    · rw [hfs] at hx
      exact List.mem_cons_of_mem _ hx
  cases hk : k + (cs.length : Int) with
  | ofNat n =>
    refine ⟨⟨s, [c], if cs = [] then none else some cs, some (101, [], decText n), none⟩, wf _ ?_, rfl, rfl, ?_, ?_, rfl, ?_, ?_⟩
    · rintro c' s' d' h
      simp only [Option.some.injEq, Prod.mk.injEq] at h
      obtain ⟨rfl, rfl, rfl⟩ := h
      exact ⟨.inl rfl, .inl rfl, decText_ne_nil n, decText_isDigit n⟩
    · unfold NumParts.text powText
      simp only [hk, expText, sufText, intText, List.append_assoc, List.append_nil, List.nil_append]
      rw [← hft]
      simp
    · unfold NumParts.digits
      rw [hfs]
      rfl
    · rw [hfs]; simp
    · rw [hfs]
      simp only [expInt, decVal_decText]
      rw [if_neg (by simp)]
      have : Int.ofNat n = (n : Int) := rfl
      omega
  | negSucc n =>
    refine ⟨⟨s, [c], if cs = [] then none else some cs, some (101, [45], decText (n + 1)), none⟩, wf _ ?_, rfl, rfl, ?_, ?_, rfl, ?_, ?_⟩
    · rintro c' s' d' h
      simp only [Option.some.injEq, Prod.mk.injEq] at h
      obtain ⟨rfl, rfl, rfl⟩ := h
      exact ⟨.inl rfl, .inr (.inr rfl), decText_ne_nil _, decText_isDigit _⟩
    · unfold NumParts.text powText
      simp only [hk, expText, sufText, intText, List.append_assoc, List.append_nil]
      rw [← hft]
      simp
    · unfold NumParts.digits
      rw [hfs]
      rfl
    · rw [hfs]; simp
    · rw [hfs]
      simp only [expInt, decVal_decText]
      rw [if_pos trivial]
      have : Int.negSucc n = -((n : Int) + 1) := by omega
      omega

/-! ## C196 -/

theorem signed_fin {x : F64} (hx : x.Fin) (t : Bytes) : x.signed t = (if x.isNeg then [45] else []) ++ t := by
  obtain ⟨h1, h2⟩ := (Fin_iff x).1 hx
  unfold F64.signed
  simp [h1, h2]

theorem sign_ok (b : Bool) : IsSign (if b then [45] else []) ∧ ((if b then [45] else [] : Bytes) = [45] ↔ b = true) := by
  cases b <;> simp [IsSign]

/-- The digits of two numbers rounded to the same double, the first of them found by the search: not more than the second. -/
theorem fewest {x : F64} (hx : x.Fin) {d : Nat} {k : Int} (hd : roundDec d k = x.toNat % 2 ^ 63) {t : Bytes} (ht : AllDigits t) (hne : t ≠ [])
    (hv : decVal t = d) : (decText x.shortest.1).length ≤ t.length := by
  obtain ⟨s1, s2, _⟩ := shortest_spec x hx
  obtain ⟨e, l1, l2, l3⟩ := decText_length x.shortest.1
  rcases Nat.lt_or_ge t.length (decText x.shortest.1).length with hlt | hge
  · exfalso
    have hpos : 0 < t.length := List.length_pos_iff.2 hne
    have he : 1 ≤ e := by omega
    have hd1 : d < 10 ^ e := by
      have h1 := decVal_lt t ht
      rw [hv] at h1
      have h2 : 10 ^ t.length ≤ 10 ^ e := Nat.pow_le_pow_right (by decide) (by omega)
      omega
    have hs1 : 10 ^ e ≤ x.shortest.1 := by
      rcases l2 with h | h
      · rw [h] at l1
        have : (decText 0).length = 1 := by decide
        omega
      · exact h
    by_cases h0 : x.abs = 0
    · have : x.shortest = (0, 0) := by unfold F64.shortest; rw [if_pos h0]
      rw [this] at hs1
      have := ten_pos e
      simp at hs1
    · have s2' := s2 h0
      rcases Int.lt_or_le x.shortest.2 k with hk | hk
      · exact s2' k hk d hd
      · -- a power of ten lies between the two
        refine s2' (x.shortest.2 + e) (by omega) 1 ?_
        have a1 : roundDec 1 (x.shortest.2 + e) ≤ roundDec x.shortest.1 x.shortest.2 := by
          apply roundDec_mono
          refine decLe_of (j := x.shortest.2) (by omega) (by omega) ?_
          rw [show (x.shortest.2 + e - x.shortest.2).toNat = e by omega, show (x.shortest.2 - x.shortest.2).toNat = 0 by omega]
          omega
        have a2 : roundDec d k ≤ roundDec 1 (x.shortest.2 + e) := by
          apply roundDec_mono
          refine decLe_of (j := k) (by omega) (by omega) ?_
          rw [show (k - k).toNat = 0 by omega, Nat.pow_zero, Nat.mul_one, Nat.one_mul]
          have : 10 ^ e ≤ 10 ^ (x.shortest.2 + e - k).toNat := Nat.pow_le_pow_right (by decide) (by omega)
          omega
        omega
  · exact hge

/-- C196: the text of a finite double with an exponent has one digit before the point, names the double, and no text that does has fewer
digits. -/
theorem C196_exponent (x : F64) (hx : x.Fin) :
    ∃ p : NumParts, p.WF ∧ p.suf = none ∧ p.ds.length = 1 ∧ x.lowerExp = p.text ∧ p.Names x ∧
      ∀ q : NumParts, q.WF → q.suf = none → q.digits ≠ [] → q.Names x → p.digits.length ≤ q.digits.length := by
  obtain ⟨so1, so2⟩ := sign_ok x.isNeg
  obtain ⟨p, wf, suf, sg, tx, dg, ds, _, ex⟩ := powText_parts _ (decText x.shortest.1) x.shortest.2 so1 (decText_isDigit _) (decText_ne_nil _)
  obtain ⟨s1, _, _⟩ := shortest_spec x hx
  refine ⟨p, wf, suf, ds, ?_, ?_, ?_⟩
  · unfold F64.lowerExp
    rw [signed_fin hx, tx]
  · rw [names_iff p suf, sg, ex, dg, decVal_decText]
    exact ⟨so2, s1⟩
  · intro q qwf qsuf qne qn
    rw [names_iff q qsuf] at qn
    rw [dg]
    refine fewest hx qn.2 (t := q.digits) ?_ qne rfl
    intro c hc
    rcases List.mem_append.1 hc with h | h
    · exact qwf.ds c h
    · exact qwf.frac c h

/-- C196: the text without an exponent stands for the same number. -/
theorem C196_plain (x : F64) (hx : x.Fin) :
    ∃ p q : NumParts, p.WF ∧ p.Plain ∧ p.ds ≠ [] ∧ x.display = p.text ∧ ReadsNearest p x ∧
      q.WF ∧ q.suf = none ∧ x.lowerExp = q.text ∧ p.size = q.size := by
  obtain ⟨so1, so2⟩ := sign_ok x.isNeg
  obtain ⟨q, qwf, qsuf, qsg, qtx, qdg, qds, _, qex⟩ := powText_parts _ (decText x.shortest.1) x.shortest.2 so1 (decText_isDigit _) (decText_ne_nil _)
  obtain ⟨p, wf, pl, sg, tx, dg, fl, ds⟩ := pointText_parts _ (decText x.shortest.1) x.shortest.2 so1 (decText_isDigit _)
  obtain ⟨s1, _, _⟩ := shortest_spec x hx
  refine ⟨p, q, wf, pl, ds (decText_ne_nil _), ?_, ⟨?_, ?_⟩, qwf, qsuf, ?_, ?_⟩
  · unfold F64.display
    rw [signed_fin hx, tx]
  · rw [sg]
    cases h : x.isNeg <;> simp
  · rw [← s1]
    unfold NumParts.digits at dg
    rw [dg, fl, decVal_decText]
    exact roundMag_nearest _ _ (ten_pos _)
  · unfold F64.lowerExp
    rw [signed_fin hx, qtx]
  · rw [size_eq p pl.2, size_eq q qsuf, qex, qdg, dg, pl.1, fl, decVal_decText]
    unfold decRat
    simp only [expInt]
    rw [show (0 - ((-x.shortest.2).toNat : Int)).toNat = 0 by omega, show (-(0 - ((-x.shortest.2).toNat : Int))).toNat = (-x.shortest.2).toNat by omega,
      Nat.pow_zero, Nat.mul_one]

/-- C196: infinities and NaN have texts of their own. -/
theorem C196_others (x : F64) (h : ¬ x.Fin) :
    x.display = x.lowerExp ∧ x.display = (if x.isNaN then ascii "NaN" else if x.isNeg then ascii "-inf" else ascii "inf") := by
  have hor : x.isNaN = true ∨ x.isInf = true := by
    rw [Fin_iff] at h
    cases h1 : x.isNaN <;> cases h2 : x.isInf <;> simp_all
  unfold F64.display F64.lowerExp F64.signed
  rcases hor with h1 | h1
  · rw [if_pos h1, if_pos h1, if_pos h1]
    exact ⟨rfl, rfl⟩
  · cases h2 : x.isNaN <;> cases h3 : x.isNeg <;> simp [h1] <;> decide

example : (F64.lit 3 10).display = ascii "0.3" ∧ (F64.lit 3 10).lowerExp = ascii "3e-1" ∧ (F64.lit 3 10).Fin := by
  refine ⟨by decide +kernel, by decide +kernel, ?_⟩
  unfold F64.Fin
  decide +kernel

end Cdx
