import Verif.Lemmas.FloatInt
import Verif.Props.TextNum

/-!
The steps of reading a number as a double.
-/

namespace Cdx

/-- The digits before the point, one after the other. -/
def hornerF : F64 → Bytes → F64
  | x, [] => x
  | x, c :: cs => hornerF ((x.mul (F64.ofNat 10)).add (F64.ofNat (c.toNat - 48))) cs

/-- The digits after the point, one after the other. -/
def fracF : F64 → F64 → Bytes → F64
  | x, _, [] => x
  | x, place, c :: cs => fracF (x.add (place.mul (F64.ofNat (c.toNat - 48)))) (place.mul (F64.lit 1 10)) cs

/-- The exponent as an integer. -/
def expInt : Option (UInt8 × Bytes × Bytes) → Int
  | none => 0
  | some (_, s, d) => if s = [45] then -(decVal d : Int) else decVal d

/-- The exponent applied. -/
def expF (exp10 : Int → F64) (x : F64) (e : Option (UInt8 × Bytes × Bytes)) : F64 := timesTenPow exp10 x (expInt e)

/-- The suffix applied. -/
def sufF (x : F64) : Option (UInt8 × Nat) → F64
  | none => x
  | some (_, m) => x.mul (F64.ofNat m)

/-- Digits and point. -/
def NumParts.mant (p : NumParts) : F64 := fracF (hornerF (F64.ofNat 0) p.ds) (F64.lit 1 10) p.fs

/-- The double that the parts of a number are read as. -/
def NumParts.double (exp10 : Int → F64) (p : NumParts) : F64 :=
  (if p.sign = [45] then (F64.ofNat 1).negate else F64.ofNat 1).mul (sufF (expF exp10 p.mant p.exp) p.suf)

theorem intLoopF_spec (rest : Bytes) (hrest : ∀ c, rest.head? = some c → isDigit c = false) (ds : Bytes) :
    ∀ x : F64, (∀ c ∈ ds, isDigit c = true) → intLoopF x (ds ++ rest) = (hornerF x ds, rest) := by
  induction ds with
  | nil =>
    intro x _
    cases rest with
    | nil => rfl
    | cons c cs => simp [intLoopF, hrest c rfl, hornerF]
  | cons d ds ih =>
    intro x h
    rw [List.cons_append, intLoopF, if_pos (h d (by simp)), ih _ (fun c hc => h c (by simp [hc]))]
    rfl

theorem fracLoopF_spec (rest : Bytes) (hrest : ∀ c, rest.head? = some c → isDigit c = false) (ds : Bytes) :
    ∀ x p : F64, (∀ c ∈ ds, isDigit c = true) → fracLoopF x p (ds ++ rest) = (fracF x p ds, rest) := by
  induction ds with
  | nil =>
    intro x p _
    cases rest with
    | nil => rfl
    | cons c cs => simp [fracLoopF, hrest c rfl, fracF]
  | cons d ds ih =>
    intro x p h
    rw [List.cons_append, fracLoopF, if_pos (h d (by simp)), ih _ _ (fun c hc => h c (by simp [hc]))]
    rfl

theorem suffixPartF_spec (r : F64) (p : NumParts) (hp : p.WF) (rest : Bytes) (he : p.Ends rest) :
    suffixPartF r (sufText p.suf ++ rest) = (sufF r p.suf, rest) := by
  cases hs : p.suf with
  | none =>
    have hd := he.digit
    have h := he.suf hs
    rw [hs] at hd
    simp only [sufText, List.nil_append, sufF] at hd ⊢
    cases rest with
    | nil => rfl
    | cons c cs =>
      cases hv : suffixValF c with
      | none => simp only [suffixPartF, hv]
      | some m => exact absurd rfl (h c m ((suffixValF_iff c m (hd c rfl)).1 hv))
  | some q =>
    obtain ⟨c, m⟩ := q
    have hd := he.digit
    rw [hs] at hd
    have := (suffixValF_iff c m (hd c rfl)).2 (hp.suf c m hs)
    simp [sufText, suffixPartF, this, sufF]

theorem timesTenPow_zero (exp10 : Int → F64) (x : F64) : timesTenPow exp10 x 0 = x := by
  simp [timesTenPow]

theorem expPartF_spec (exp10 : Int → F64) (r : F64) (p : NumParts) (hp : p.WF) (rest : Bytes) (he : p.Ends rest) :
    (p.Fits → expPartF exp10 r (expText p.exp ++ (sufText p.suf ++ rest)) = some (expF exp10 r p.exp, sufText p.suf ++ rest)) ∧
      (¬ p.Fits → expPartF exp10 r (expText p.exp ++ (sufText p.suf ++ rest)) = none) := by
  cases hx : p.exp with
  | none =>
    refine ⟨fun _ => ?_, fun h => absurd (fun c s d h' => by rw [hx] at h'; simp at h') h⟩
    simp only [expText, List.nil_append, expF, expInt, expPartF, he.exp hx, Bool.false_eq_true, if_false, timesTenPow_zero]
  | some q =>
    obtain ⟨c, s, d⟩ := q
    obtain ⟨hc, hs, hd, hdig⟩ := hp.exp c s d hx
    have hfit : p.Fits ↔ decVal d < 2 ^ 31 := by
      constructor
      · intro h; exact h c s d hx
      · intro h c' s' d' h'
        rw [hx] at h'
        simp only [Option.some.injEq, Prod.mk.injEq] at h'
        exact h'.2.2 ▸ h
    rw [hfit]
    simp only [expText]
    unfold expPartF
    rw [isExp_true c s d _ hc hs hd hdig, if_pos rfl]
    have e1 : (c :: (s ++ d) ++ (sufText p.suf ++ rest)).drop 1 = s ++ (d ++ (sufText p.suf ++ rest)) := by simp
    have hsg : signPart (s ++ (d ++ (sufText p.suf ++ rest))) = (decide (s = [45]), d ++ (sufText p.suf ++ rest)) := by
      apply signPart_spec s hs
      intro _
      obtain ⟨x, xs, rfl⟩ : ∃ x xs, d = x :: xs := by cases d with | nil => exact absurd rfl hd | cons x xs => exact ⟨x, xs, rfl⟩
      have hxd := hdig x (by simp)
      simp only [List.cons_append, List.head?_cons, ne_eq, Option.some.injEq]
      exact ⟨isDigit_ne x 43 hxd (by decide), isDigit_ne x 45 hxd (by decide)⟩
    rw [e1, hsg]
    simp only
    rw [digitLoop_spec (2 ^ 31 - 1) 0 (Nat.zero_le _) d _ hdig he.digit]
    simp only [Nat.zero_mul, Nat.zero_add]
    refine ⟨fun h => ?_, fun h => ?_⟩
    · rw [if_pos (by omega)]
      simp only [Option.map_some, expF, expInt, decide_eq_true_eq]
    · rw [if_neg (by omega)]
      rfl

theorem pointPartF_spec (r : F64) (p : NumParts) (hp : p.WF) (rest : Bytes) (he : p.Ends rest) :
    pointPartF r (fracText p.frac ++ (expText p.exp ++ (sufText p.suf ++ rest))) =
      (fracF r (F64.lit 1 10) p.fs, expText p.exp ++ (sufText p.suf ++ rest)) := by
  have hexp : p.exp ≠ none → ∃ c cs, expText p.exp ++ (sufText p.suf ++ rest) = c :: cs ∧ isDigit c = false ∧ c ≠ 46 := by
    intro h
    cases hx : p.exp with
    | none => exact absurd hx h
    | some q =>
      obtain ⟨c, s, d⟩ := q
      obtain ⟨hc, _⟩ := hp.exp c s d hx
      refine ⟨c, _, rfl, ?_⟩
      rcases hc with rfl | rfl <;> decide
  have hdig : ∀ c, (expText p.exp ++ (sufText p.suf ++ rest)).head? = some c → isDigit c = false := by
    intro c hc
    cases hx : p.exp with
    | none => rw [hx] at hc; exact he.digit c hc
    | some q =>
      obtain ⟨c', cs, e, h, _⟩ := hexp (by simp [hx])
      rw [e] at hc
      simp only [List.head?_cons, Option.some.injEq] at hc
      exact hc ▸ h
  cases hf : p.frac with
  | some f =>
    have hff : p.fs = f := by simp [NumParts.fs, hf]
    have := hp.frac
    rw [hff] at this ⊢
    simp only [fracText, List.cons_append, pointPartF, if_true]
    rw [fracLoopF_spec _ hdig f r (F64.lit 1 10) this]
  | none =>
    have hff : p.fs = [] := by simp [NumParts.fs, hf]
    rw [hff]
    simp only [fracText, List.nil_append, fracF]
    have h46 : (expText p.exp ++ (sufText p.suf ++ rest)).head? ≠ some 46 := by
      cases hx : p.exp with
      | none => exact he.point hf hx
      | some q =>
        obtain ⟨c', cs, e, _, h⟩ := hexp (by simp [hx])
        rw [hx] at e
        rw [e]
        simpa using h
    generalize expText p.exp ++ (sufText p.suf ++ rest) = u at h46
    cases u with
    | nil => rfl
    | cons c cs =>
      have : c ≠ 46 := by simpa using h46
      simp only [pointPartF, this, if_false]

theorem one_mul_zero : (F64.ofNat 1).mul (F64.ofNat 0) = F64.ofNat 0 := by decide +kernel

/-- A text is read part by part. -/
theorem readF64_parts (exp10 : Int → F64) (p : NumParts) (hp : p.WF) (rest : Bytes) (he : p.Ends rest) :
    (p.Fits → readF64 exp10 (p.text ++ rest) = some (p.double exp10, rest)) ∧ (¬ p.Fits → readF64 exp10 (p.text ++ rest) = none) := by
  unfold readF64
  have e0 : p.text ++ rest = p.sign ++ (p.ds ++ (fracText p.frac ++ (expText p.exp ++ (sufText p.suf ++ rest)))) := by
    simp [NumParts.text]
  rw [e0]
  by_cases hnil : p.sign ++ (p.ds ++ (fracText p.frac ++ (expText p.exp ++ (sufText p.suf ++ rest)))) = []
  · rw [if_pos hnil]
    simp only [List.append_eq_nil_iff] at hnil
    obtain ⟨h1, h2, h3, h4, h5, h6⟩ := hnil
    have hfit : p.Fits := by
      intro c s d h
      rw [h] at h4
      simp [expText] at h4
    have hf : p.fs = [] := by
      unfold NumParts.fs
      cases hf : p.frac with
      | none => rfl
      | some f => rw [hf] at h3; simp [fracText] at h3
    have hx : p.exp = none := by
      cases hx : p.exp with
      | none => rfl
      | some q => rw [hx] at h4; simp [expText] at h4
    have hsf : p.suf = none := by
      cases hx : p.suf with
      | none => rfl
      | some q => rw [hx] at h5; simp [sufText] at h5
    have : p.double exp10 = F64.ofNat 0 := by
      unfold NumParts.double NumParts.mant expF
      rw [h1, h2, hf, hx, hsf]
      simp only [hornerF, fracF, expInt, timesTenPow_zero, sufF]
      exact one_mul_zero
    rw [this, h6]
    exact ⟨fun _ => rfl, fun h => absurd hfit h⟩
  · rw [if_neg hnil]
    have hdig : ∀ c, (fracText p.frac ++ (expText p.exp ++ (sufText p.suf ++ rest))).head? = some c → isDigit c = false := by
      intro c hc
      cases hf : p.frac with
      | some f => rw [hf] at hc; simp only [fracText, List.cons_append, List.head?_cons, Option.some.injEq] at hc; rw [← hc]; decide
      | none =>
        rw [hf] at hc
        cases hx : p.exp with
        | none => rw [hx] at hc; exact he.digit c hc
        | some q =>
          obtain ⟨c', s, d⟩ := q
          obtain ⟨hc', _⟩ := hp.exp c' s d hx
          rw [hx] at hc
          simp only [fracText, expText, List.nil_append, List.cons_append, List.head?_cons, Option.some.injEq] at hc
          rw [← hc]
          rcases hc' with rfl | rfl <;> decide
    have hsg : signPart (p.sign ++ (p.ds ++ (fracText p.frac ++ (expText p.exp ++ (sufText p.suf ++ rest))))) =
        (decide (p.sign = [45]), p.ds ++ (fracText p.frac ++ (expText p.exp ++ (sufText p.suf ++ rest)))) := by
      apply signPart_spec _ hp.sign
      intro hs
      cases hd : p.ds with
      | cons x xs =>
        have hxd := hp.ds x (by simp [hd])
        simp only [List.cons_append, List.head?_cons, ne_eq, Option.some.injEq]
        exact ⟨isDigit_ne x 43 hxd (by decide), isDigit_ne x 45 hxd (by decide)⟩
      | nil =>
        cases hf : p.frac with
        | some f => simp [fracText]
        | none =>
          cases hx : p.exp with
          | some q =>
            obtain ⟨c', s, d⟩ := q
            obtain ⟨hc', _⟩ := hp.exp c' s d hx
            rcases hc' with rfl | rfl <;> simp [fracText, expText]
          | none => exact he.sign (by rw [hs, hd, hf, hx]; rfl)
    rw [hsg]
    simp only
    rw [intLoopF_spec _ hdig p.ds _ hp.ds]
    simp only
    rw [pointPartF_spec _ p hp rest he]
    simp only
    refine ⟨fun hfit => ?_, fun hfit => (by rw [(expPartF_spec _ _ p hp rest he).2 hfit]; rfl)⟩
    rw [(expPartF_spec _ _ p hp rest he).1 hfit]
    simp only [Option.map_some]
    rw [suffixPartF_spec _ p hp rest he]
    simp only [Option.some.injEq, Prod.mk.injEq, and_true, decide_eq_true_eq]
    rfl

/-! ## Whole numbers -/

theorem digit_le (c : UInt8) (h : isDigit c = true) : c.toNat - 48 ≤ 9 := by
  revert c
  exact byte_forall (by decide +kernel)

theorem horner_is : ∀ (ds : Bytes) (x : F64) (n : Nat), (∀ c ∈ ds, isDigit c = true) → x.Is n →
    n * 10 ^ ds.length + decVal ds ≤ 2 ^ 53 → (hornerF x ds).Is ((n * 10 ^ ds.length + decVal ds : Nat) : Int)
  | [], x, n, _, hx, _ => by simpa [hornerF, decVal] using hx
  | c :: cs, x, n, hd, hx, h => by
    have e : n * 10 ^ (c :: cs).length + decVal (c :: cs) = (n * 10 + (c.toNat - 48)) * 10 ^ cs.length + decVal cs := by
      simp only [List.length_cons, decVal, Nat.pow_succ]
      grind
    rw [e] at h ⊢
    have hpos : 1 ≤ 10 ^ cs.length := Nat.pow_pos (by decide)
    have hle : n * 10 + (c.toNat - 48) ≤ 2 ^ 53 := by
      have := Nat.mul_le_mul_left (n * 10 + (c.toNat - 48)) hpos
      omega
    have h9 := digit_le c (hd c (by simp))
    have h1 : (x.mul (F64.ofNat 10)).Is ((n : Int) * (10 : Nat)) := is_mul hx (is_ofNat (by decide)) (by omega)
    have h2 := is_add h1 (is_ofNat (n := c.toNat - 48) (by omega)) (by omega)
    rw [hornerF]
    apply horner_is cs _ _ (fun d hdd => hd d (by simp [hdd])) _ h
    rw [Int.natCast_add, Int.natCast_mul]
    exact h2

/-! ## Numbers that are not negative -/

/-- Not negative, and not NaN; may be infinite. -/
def NN (x : F64) : Prop := x.toNat ≤ infMag

theorem NN.lt {x : F64} (h : NN x) : x.toNat < 2 ^ 63 := Nat.lt_of_le_of_lt h infMag_lt

theorem NN.isNaN {x : F64} (h : NN x) : x.isNaN = false := by
  rw [← Bool.not_eq_true, isNaN_iff, Nat.mod_eq_of_lt h.lt]
  exact Nat.not_lt.2 h

theorem NN.isNeg {x : F64} (h : NN x) : x.isNeg = false := by
  have := h.lt
  unfold F64.isNeg
  rw [decide_eq_false_iff_not]
  omega

theorem NN.abs {x : F64} (h : NN x) : x.abs = magVal x.toNat := by rw [abs_eq, Nat.mod_eq_of_lt h.lt]

theorem NN.scaled {x : F64} (h : NN x) : x.scaled = x.abs := by
  rw [scaled_abs, h.isNeg]
  rfl

theorem NN.isInf {x : F64} (h : NN x) : x.isInf = decide (x.toNat = infMag) := by
  unfold F64.isInf
  rw [Nat.mod_eq_of_lt h.lt]

theorem NN.fin {x : F64} (h : NN x) : x.Fin ↔ x.toNat < infMag := by
  unfold F64.Fin
  rw [Nat.mod_eq_of_lt h.lt]

theorem nn_make {m : Nat} (h : m ≤ infMag) : NN (F64.make false m) := by
  unfold NN
  rw [make_toNat false (Nat.lt_of_le_of_lt h infMag_lt)]
  simpa using h

theorem make_false_toNat {m : Nat} (h : m ≤ infMag) : (F64.make false m).toNat = m := by
  rw [make_toNat false (Nat.lt_of_le_of_lt h infMag_lt)]
  simp

theorem nn_eq {x y : F64} (h : x.toNat = y.toNat) : x = y := UInt64.toNat_inj.1 h

theorem nn_ofNat (n : Nat) : NN (F64.ofNat n) := nn_make (roundMag_le_inf _ _)

theorem nn_lit (n d : Nat) : NN (F64.lit n d) := nn_make (roundMag_le_inf _ _)

theorem NN.abs_zero {x : F64} (h : NN x) : x.abs = 0 ↔ x.toNat = 0 := by
  rw [h.abs]
  have := magVal_inj h.lt (show 0 < 2 ^ 63 by decide)
  rw [magVal_zero] at this
  exact this

theorem nn_add {x y : F64} (hx : NN x) (hy : NN y) : NN (x.add y) := by
  unfold F64.add
  rw [hx.isNaN, hy.isNaN, hx.isNeg, hy.isNeg]
  simp only [Bool.or_false, Bool.false_eq_true, if_false, bne_self_eq_false, Bool.and_false]
  split
  · exact hx
  · split
    · exact hy
    · unfold F64.ofScaled
      split
      · exact nn_make (Nat.zero_le _)
      · rw [hx.scaled, hy.scaled, decide_eq_false (by omega)]
        exact nn_make (roundMag_le_inf _ _)

theorem nn_mul {x y : F64} (hx : NN x) (hy : NN y) (h1 : x.toNat = infMag → y.toNat ≠ 0) (h2 : y.toNat = infMag → x.toNat ≠ 0) :
    NN (x.mul y) := by
  unfold F64.mul
  rw [hx.isNaN, hy.isNaN, hx.isNeg, hy.isNeg]
  simp only [Bool.or_false, Bool.false_eq_true, if_false, bne_self_eq_false]
  split
  · next h =>
    rw [hx.isInf, hy.isInf, Bool.or_eq_true, decide_eq_true_eq, decide_eq_true_eq] at h
    rw [if_neg]
    · exact nn_make (Nat.le_refl _)
    · rw [hx.abs_zero, hy.abs_zero]
      rcases h with h | h
      · have := h1 h
        rintro (h0 | h0)
        · rw [h, infMag_eq] at h0
          omega
        · exact this h0
      · have := h2 h
        rintro (h0 | h0)
        · exact this h0
        · rw [h, infMag_eq] at h0
          omega
  · exact nn_make (roundMag_le_inf _ _)

theorem ofNat_zero_toNat : (F64.ofNat 0).toNat = 0 := by decide +kernel

theorem ofNat_ten : (F64.ofNat 10).toNat ≠ 0 ∧ (F64.ofNat 10).toNat ≠ infMag := by decide +kernel

theorem lit_tenth : (F64.lit 1 10).toNat ≠ 0 ∧ (F64.lit 1 10).toNat < infMag ∧ (F64.lit 1 10).abs ≤ 2 ^ 1074 := by decide +kernel

theorem digit_fin (d : Nat) (h : d ≤ 9) : (F64.ofNat d).toNat < infMag := by
  have hi := is_ofNat (n := d) (by omega)
  exact ((nn_ofNat d).fin).1 hi.fin

theorem nn_horner : ∀ (ds : Bytes) (x : F64), NN x → NN (hornerF x ds)
  | [], _, h => h
  | c :: cs, x, h => by
    rw [hornerF]
    exact nn_horner cs _ (nn_add (nn_mul h (nn_ofNat 10) (fun _ => ofNat_ten.1) (fun h => absurd h ofNat_ten.2)) (nn_ofNat _))

/-- The next place: not negative, not infinite. -/
theorem place_step {x : F64} (h : NN x) (hf : x.toNat < infMag) :
    NN (x.mul (F64.lit 1 10)) ∧ (x.mul (F64.lit 1 10)).toNat ≤ x.toNat := by
  have hl : NN (F64.lit 1 10) := nn_lit 1 10
  obtain ⟨_, h2, h3⟩ := lit_tenth
  rw [mul_fin ((NN.fin h).2 hf) (hl.fin.2 h2), h.isNeg, hl.isNeg]
  simp only [bne_self_eq_false]
  have hle := roundMag_le (a := x.abs * (F64.lit 1 10).abs) pow1074_pos hf (by
    rw [← h.abs]
    exact Nat.mul_le_mul_left _ h3)
  exact ⟨nn_make (roundMag_le_inf _ _), by rw [make_false_toNat (roundMag_le_inf _ _)]; exact hle⟩

theorem nn_frac : ∀ (ds : Bytes) (x place : F64), (∀ c ∈ ds, isDigit c = true) → NN x → NN place → place.toNat < infMag →
    NN (fracF x place ds)
  | [], _, _, _, h, _, _ => h
  | c :: cs, x, place, hd, h, hp, hf => by
    rw [fracF]
    obtain ⟨h1, h2⟩ := place_step hp hf
    have h9 := digit_fin _ (digit_le c (hd c (by simp)))
    refine nn_frac cs _ _ (fun d hdd => hd d (by simp [hdd])) (nn_add h (nn_mul hp (nn_ofNat _) ?_ ?_)) h1 (Nat.lt_of_le_of_lt h2 hf)
    · intro e; omega
    · intro e; omega

theorem NumParts.nn_mant (p : NumParts) (hp : p.WF) : NN p.mant :=
  nn_frac _ _ _ hp.frac (nn_horner _ _ (nn_ofNat 0)) (nn_lit 1 10) lit_tenth.2.1

theorem one_mul_nn {x : F64} (h : NN x) : (F64.ofNat 1).mul x = x := by
  have h1 : NN (F64.ofNat 1) := nn_ofNat 1
  have hi : (F64.ofNat 1).Is (1 : Nat) := is_ofNat (by decide)
  have habs : (F64.ofNat 1).abs = 2 ^ 1074 := by rw [hi.abs]; omega
  have h0 := Nat.ne_of_gt pow1074_pos
  by_cases hf : x.toNat = infMag
  · have hxi : x.isInf = true := by rw [h.isInf, hf]; simp
    have hx0 : x.abs ≠ 0 := by
      rw [ne_eq, h.abs_zero, hf, infMag_eq]
      decide
    unfold F64.mul
    rw [h1.isNaN, h.isNaN, h1.isNeg, h.isNeg, hxi, habs]
    simp only [Bool.or_false, Bool.false_eq_true, if_false, bne_self_eq_false, Bool.or_true, if_true, hx0, h0, or_self]
    apply nn_eq
    rw [make_false_toNat (Nat.le_refl _), hf]
  · have hlt : x.toNat < infMag := Nat.lt_of_le_of_ne h hf
    rw [mul_fin hi.fin (h.fin.2 hlt), h1.isNeg, h.isNeg, habs, Nat.mul_comm, h.abs, magVal_rep _ hlt _ pow1074_pos]
    apply nn_eq
    exact make_false_toNat h

theorem neg_one_mul_nn {x : F64} (h : NN x) : (F64.ofNat 1).negate.mul x = x.negate := by
  have h1 : NN (F64.ofNat 1) := nn_ofNat 1
  have hi : (F64.ofNat 1).Is (1 : Nat) := is_ofNat (by decide)
  have hneg := is_negate hi
  have habs : (F64.ofNat 1).negate.abs = 2 ^ 1074 := by rw [hneg.abs]; omega
  have h0 := Nat.ne_of_gt pow1074_pos
  have hs : (F64.ofNat 1).negate.isNeg = true := by rw [negate_isNeg, h1.isNeg]; rfl
  have hxn : x.negate.toNat = x.toNat + 2 ^ 63 := by rw [negate_toNat, if_pos h.lt]
  by_cases hf : x.toNat = infMag
  · have hxi : x.isInf = true := by rw [h.isInf, hf]; simp
    have hx0 : x.abs ≠ 0 := by
      rw [ne_eq, h.abs_zero, hf, infMag_eq]
      decide
    unfold F64.mul
    rw [hneg.1, h.isNaN, hs, h.isNeg, hxi, habs]
    simp only [Bool.or_false, Bool.false_eq_true, if_false, Bool.or_true, if_true, hx0, h0, or_self]
    apply nn_eq
    rw [make_toNat _ infMag_lt, hxn, hf]
    rfl
  · have hlt : x.toNat < infMag := Nat.lt_of_le_of_ne h hf
    rw [mul_fin hneg.fin (h.fin.2 hlt), hs, h.isNeg, habs, Nat.mul_comm, h.abs, magVal_rep _ hlt _ pow1074_pos]
    apply nn_eq
    rw [make_toNat _ h.lt, hxn]
    rfl

theorem mul_zero_nn {x : F64} (h : NN x) (hf : x.toNat < infMag) : x.mul (F64.ofNat 0) = F64.ofNat 0 := by
  have h0 : NN (F64.ofNat 0) := nn_ofNat 0
  have hz : (F64.ofNat 0).abs = 0 := h0.abs_zero.2 ofNat_zero_toNat
  rw [mul_fin (h.fin.2 hf) (is_ofNat (n := 0) (by decide)).fin, h.isNeg, h0.isNeg, hz, Nat.mul_zero]
  decide +kernel

theorem add_zero_nn {x : F64} (h : NN x) : x.add (F64.ofNat 0) = x := by
  have h0 : NN (F64.ofNat 0) := nn_ofNat 0
  have hz : (F64.ofNat 0).abs = 0 := h0.abs_zero.2 ofNat_zero_toNat
  have hi0 : (F64.ofNat 0).isInf = false := by decide +kernel
  unfold F64.add
  rw [h.isNaN, h0.isNaN, h.isNeg, h0.isNeg, hi0, h.scaled, h0.scaled, hz]
  simp only [Bool.or_false, Bool.false_eq_true, if_false, bne_self_eq_false, Bool.and_false]
  split
  · rfl
  · next hf =>
    rw [h.isInf, decide_eq_true_eq] at hf
    have hlt : x.toNat < infMag := Nat.lt_of_le_of_ne h hf
    unfold F64.ofScaled
    simp only [Int.natCast_zero, Int.add_zero]
    split
    · next hx =>
      apply nn_eq
      rw [make_false_toNat (Nat.zero_le _)]
      exact (h.abs_zero.1 (by omega)).symm
    · rw [decide_eq_false (by omega), Int.natAbs_natCast, h.abs]
      have := magVal_rep _ hlt 1 (by decide)
      rw [Nat.mul_one] at this
      rw [this]
      apply nn_eq
      exact make_false_toNat h

end Cdx
