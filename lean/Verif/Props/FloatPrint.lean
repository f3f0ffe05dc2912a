import Verif.Lemmas.FloatWhole

/-!
C100, C107 with doubles: printing whole numbers and reading them back.
-/

namespace Cdx

/-! ## C100 -/

theorem lit_small : (F64.lit 1 10000).isNaN = false ∧ 0 < (F64.lit 1 10000).scaled ∧ (F64.lit 1 10000).scaled < 2 ^ 1074 := by decide +kernel

theorem ge_small {y : F64} {m : Nat} (h : y.Is m) : y.ge (F64.lit 1 10000) = decide (1 ≤ m) := by
  obtain ⟨l1, l2, l3⟩ := lit_small
  have hp := pow1074_int
  unfold F64.ge F64.gt F64.eq
  rw [h.1, l1, h.2.2]
  generalize (F64.lit 1 10000).scaled = c at *
  simp only [Bool.not_false, Bool.true_and]
  by_cases hm : 1 ≤ m
  · have : (1 : Int) * 2 ^ 1074 ≤ (m : Int) * 2 ^ 1074 := Int.mul_le_mul_of_nonneg_right (by omega) (Int.le_of_lt hp)
    rw [decide_eq_true hm, decide_eq_true (by omega), Bool.true_or]
  · have : m = 0 := by omega
    subst this
    rw [decide_eq_false hm, decide_eq_false (by omega), Bool.false_or, beq_eq_false_iff_ne.2 (by omega)]

theorem newFormatF_whole (f : NumFormat) {x : F64} {n : Int} (h : x.Is n) : f.newFormatF x = f.newFormat n.natAbs := by
  have ha := is_absF h
  unfold NumFormat.newFormatF NumFormat.newFormat
  cases f with
  | short p =>
    simp only
    rw [ge_small ha, is_lt ha (is_ofNat (n := 1000) (by decide)), ← Bool.decide_and]
    by_cases hc : 1 ≤ n.natAbs ∧ n.natAbs < 1000
    · rw [if_pos hc, if_pos (by rw [decide_eq_true_eq]; omega)]
    · rw [if_neg hc, if_neg (by rw [decide_eq_true_eq]; omega)]
  | _ => rfl

/-- A whole double is printed as the model of whole numbers prints it, up to `2^53` or with a precision. -/
theorem printF_whole (f : NumFormat) (p : Option Nat) (hf : f.prec? = some p) {x : F64} {n : Int} (h : x.Is n) (h0 : n = 0 → x.isNeg = false)
    (hn : p = none → n.natAbs ≤ 2 ^ 53) : f.printF x = f.print n := by
  have hs := is_sign h h0
  have key : ∀ g : NumFormat, (g = .plain p ∨ g = .float p) → f.newFormatF x = g → f.newFormat n.natAbs = g → f.printF x = f.print n := by
    intro g hg e1 e2
    unfold NumFormat.printF NumFormat.print
    rw [e1]
    simp only
    rw [e2]
    have e3 : (if n < 0 then [45] else [] : Bytes) = if x.isNeg then [45] else [] := by rw [hs]; simp
    rw [e3]
    rcases hg with rfl | rfl
    · cases p with
      | none => simp only [display_whole h (hn rfl), plainText]
      | some p => simp only [fixed_whole h p]
    · cases p with
      | none => simp only [lowerExp_whole h (hn rfl)]
      | some p => simp only [fixedExp_whole h p]
  have e := newFormatF_whole f h
  refine key (f.newFormat n.natAbs) ?_ e rfl
  unfold NumFormat.newFormat
  cases f with
  | short q =>
    have : q = p := by simpa [NumFormat.prec?] using hf
    subst this
    simp only
    split
    · exact .inl rfl
    · exact .inr rfl
  | plain q =>
    have : q = p := by simpa [NumFormat.prec?] using hf
    subst this
    exact .inl rfl
  | float q =>
    have : q = p := by simpa [NumFormat.prec?] using hf
    subst this
    exact .inr rfl
  | power2 => simp [NumFormat.prec?] at hf
  | power10 => simp [NumFormat.prec?] at hf

/-- Full statement: every double that is a whole number is printed as a text that means it, or it rounded to the digits asked for. -/
def C100_statement : Prop :=
  ∀ (f : NumFormat) (p : Option Nat) (x : F64) (n : Int), f.prec? = some p → x.Is n → (n = 0 → x.isNeg = false) →
    ∃ (t : Bytes) (m : Int), f.printF x = some t ∧ SignedText t m ∧ (p = none → m = n) ∧
      ∀ k, p = some k → 2 * 10 ^ k * (m - n).natAbs ≤ n.natAbs

/-- Great numbers are printed with the shortest digits that stand for the double: `2^60` is 1152921504606846976. -/
theorem C100_refuted : ¬ C100_statement := by
  intro h
  obtain ⟨t, m, h1, h2, h3, _⟩ := h (.plain none) none (F64.ofNat (2 ^ 60)) (2 ^ 60) rfl (by unfold F64.Is; decide +kernel) (by decide)
  have h3 := h3 rfl
  subst h3
  have h4 := signedText_read h2 (by decide +kernel)
  rw [show (NumFormat.plain none).printF (F64.ofNat (2 ^ 60)) = some (ascii "1152921504606847000") by decide +kernel] at h1
  rw [← Option.some.inj h1] at h4
  exact absurd h4 (by decide +kernel)

/-- Holds up to `2^53`, and for all numbers if a precision is given. -/
theorem C100_doubles_partial (f : NumFormat) (p : Option Nat) (x : F64) (n : Int) (hf : f.prec? = some p) (h : x.Is n)
    (h0 : n = 0 → x.isNeg = false) (hn : p = none → n.natAbs ≤ 2 ^ 53) :
    ∃ (t : Bytes) (m : Int), f.printF x = some t ∧ SignedText t m ∧ (p = none → m = n) ∧
      ∀ k, p = some k → 2 * 10 ^ k * (m - n).natAbs ≤ n.natAbs := by
  rw [printF_whole f p hf h h0 hn]
  exact C100_integers f p hf n

example : (NumFormat.short none).printF (F64.ofNat 1234567) = some (ascii "1.234567e6") ∧ (F64.ofNat 1234567).Is 1234567 := by
  refine ⟨by decide +kernel, is_ofNat (by decide)⟩

example : (NumFormat.float (some 2)).printF (F64.ofNat 1999).negate = some (ascii "-2.00e3") := by decide +kernel

/-! ## C107 -/

/-- Full statement: a whole number printed without a precision is read back as the same double. -/
def C107_statement : Prop :=
  ∀ (f : NumFormat) (x : F64) (n : Int), f.prec? = some none → x.Is n →
    ∃ t, f.printF x = some t ∧ readF64 pow10F t = some (x, [])

/-- The default format prints 1148 as 1.148e3, and this is read as 1148.0000000000002. -/
theorem C107_refuted : ¬ C107_statement := by
  intro h
  obtain ⟨t, h1, h2⟩ := h NumFormat.default (F64.ofNat 1148) 1148 rfl (is_ofNat (by decide))
  rw [show NumFormat.default.printF (F64.ofNat 1148) = some (ascii "1.148e3") by decide +kernel] at h1
  rw [← Option.some.inj h1] at h2
  exact absurd h2 (by decide +kernel)

/-- The parts of a whole number. -/
def wholeParts (s : Bytes) (N : Nat) : NumParts := ⟨s, decText N, none, none, none⟩

theorem wholeParts_wf {s : Bytes} (hs : IsSign s) (N : Nat) : (wholeParts s N).WF :=
  ⟨hs, decText_isDigit N, by simp [wholeParts, NumParts.fs], by simp [wholeParts], by simp [wholeParts]⟩

theorem wholeParts_text (s : Bytes) (N : Nat) : (wholeParts s N).text = s ++ decText N := by
  simp [wholeParts, NumParts.text, fracText, expText, sufText]

theorem wholeParts_value (s : Bytes) (N : Nat) : (wholeParts s N).value = (if s = [45] then -1 else 1) * (N : Rat) := by
  unfold NumParts.value wholeParts NumParts.fs
  simp only [Option.getD_none, List.append_nil, decVal_decText, List.length_nil, expVal, sufVal]
  congr 1
  rw [Rat.mul_one, Rat.mul_one]
  grind

/-- A zero is determined by its sign. -/
theorem zero_unique {x y : F64} (hx : x.Is 0) (hy : y.Is 0) (h : x.isNeg = y.isNeg) : x = y := by
  have e1 := hx.abs
  have e2 := hy.abs
  rw [abs_eq, Int.natAbs_zero, Nat.zero_mul] at e1 e2
  have hz : magVal 0 = 0 := by decide +kernel
  rw [← hz] at e1 e2
  have e1 := (magVal_inj (Nat.mod_lt _ (by decide)) (by decide)).1 e1
  have e2 := (magVal_inj (Nat.mod_lt _ (by decide)) (by decide)).1 e2
  apply nn_eq
  unfold F64.isNeg at h
  have h1 := x.toNat_lt
  have h2 := y.toNat_lt
  rw [decide_eq_decide] at h
  omega

theorem is_zero_of_val {x : F64} (h : x.Fin) (h0 : x.val = 0) : x.Is 0 := by
  rw [Is_iff]
  refine ⟨h, ?_⟩
  unfold F64.val at h0
  have hp := natCast_pos pow1074_pos
  rw [Int.zero_mul]
  have : ((x.scaled : Int) : Rat) = 0 := by
    generalize ((2 ^ 1074 : Nat) : Rat) = u at *
    have e : (x.scaled : Rat) = (x.scaled : Rat) / u * u := by
      rw [Rat.div_mul_cancel]
      intro hu
      rw [hu] at hp
      exact absurd hp (by decide)
    rw [e, h0, Rat.zero_mul]
  exact_mod_cast this

/-- A whole number up to `2^53` in the plain format is read back as the same double. -/
theorem read_display (exp10 : Int → F64) {x : F64} {n : Int} (h : x.Is n) (hn : n.natAbs ≤ 2 ^ 53) :
    readF64 exp10 x.display = some (x, []) := by
  obtain ⟨so1, so2⟩ := sign_ok x.isNeg
  rw [display_whole h hn, ← wholeParts_text]
  generalize hp : wholeParts (if x.isNeg then [45] else []) n.natAbs = p
  have wf : p.WF := by rw [← hp]; exact wholeParts_wf so1 _
  by_cases h0 : n = 0
  · subst h0
    have hl1 : p.ds.length ≤ 300 := by rw [← hp]; show (decText 0).length ≤ 300; decide
    have hl2 : p.fs.length ≤ 300 := by rw [← hp]; simp [wholeParts, NumParts.fs]
    obtain ⟨v, r1, r2, r3, r4, r5, r6⟩ := C185_near_partial exp10 p wf (by rw [← hp]; exact ⟨rfl, rfl⟩) hl1 hl2
    obtain ⟨v', r1', _, r5', r6'⟩ := C185_error_partial exp10 p wf (by rw [← hp]; exact ⟨rfl, rfl⟩) hl1 hl2
    rw [r1] at r1'
    obtain rfl : v = v' := by simpa using r1'
    have hb : p.bare.value = 0 := by
      rw [← hp]
      show (wholeParts [] _).value = 0
      rw [wholeParts_value]
      simp
    have hv : p.value = 0 := by rw [r4, hb, Rat.mul_zero]
    rw [hb, hv] at r5' r6'
    have hv0 : v.val = 0 := by
      rw [Rat.div_def, Rat.zero_mul] at r5' r6'
      grind
    rw [r1, zero_unique h (is_zero_of_val r2 hv0) (by
      rw [r3, ← hp]
      show _ = decide ((if x.isNeg then [45] else [] : Bytes) = [45])
      cases x.isNeg <;> rfl)]
  · obtain ⟨v, m, r1, r2, r3, _⟩ := C185_whole_partial exp10 p wf (by rw [← hp]; simp [wholeParts, NumParts.fs]) 0 (by rw [← hp]; rfl) (by decide)
      (by rw [← hp]; show (1 : Nat) ≤ 2 ^ 53; decide) (by rw [← hp]; simp only [wholeParts, decVal_decText, sufNat, Nat.pow_zero, Nat.mul_one]; exact hn)
    have hm : m = n := by
      rw [← Rat.intCast_inj, r3, ← hp, wholeParts_value, is_sign h (fun h => absurd h h0), ← Rat.intCast_natCast]
      by_cases hneg : n < 0
      · rw [decide_eq_true hneg, if_pos rfl, if_pos rfl, show n = -(n.natAbs : Int) by omega, Rat.intCast_neg]
        simp only [Int.natAbs_neg, Int.natAbs_natCast]
        grind
      · rw [decide_eq_false hneg]
        simp only [Bool.false_eq_true, if_false]
        rw [if_neg (by decide), show (n.natAbs : Int) = n by omega, Rat.one_mul]
    subst hm
    rw [r1, is_unique r2 h h0]

/-- What is missing: in the exponential notation, which the default format takes from 1000 on, numbers need not be read back. -/
theorem C107_plain_partial (exp10 : Int → F64) (f : NumFormat) (x : F64) (n : Int) (h : x.Is n) (hn : n.natAbs ≤ 2 ^ 53)
    (hf : f = .plain none ∨ f = .short none ∧ n ≠ 0 ∧ n.natAbs < 1000) :
    ∃ t, f.printF x = some t ∧ readF64 exp10 t = some (x, []) := by
  refine ⟨x.display, ?_, read_display exp10 h hn⟩
  have e := newFormatF_whole f h
  unfold NumFormat.printF
  rw [e]
  rcases hf with rfl | ⟨rfl, h0, h1⟩
  · rfl
  · unfold NumFormat.newFormat
    simp only
    rw [if_pos (by omega)]

example : readF64 pow10F (ascii "-9007199254740992") = some ((F64.ofNat (2 ^ 53)).negate, []) ∧
    (NumFormat.plain none).printF (F64.ofNat (2 ^ 53)).negate = some (ascii "-9007199254740992") := by decide +kernel

end Cdx
