import Verif.Props.Words
import Verif.Props.FloatNear

/-!
C189: column sets with thresholds.
-/

namespace Cdx

/-! ## The texts -/

theorem threshWords_names : ∀ w ∈ threshNames, ∃ v ∈ threshWords, v.1 = ascii w.1 ++ [44] ∧ v.2 = w.2 := by
  simp only [threshNames, threshWords, List.mem_cons, List.not_mem_nil, or_false, forall_eq_or_imp, forall_eq]
  refine ⟨⟨_, .inl rfl, ?_, rfl⟩, ⟨_, .inr (.inl rfl), ?_, rfl⟩, ⟨_, .inr (.inr (.inl rfl)), ?_, rfl⟩,
    ⟨_, .inr (.inr (.inr (.inl rfl))), ?_, rfl⟩, ⟨_, .inr (.inr (.inr (.inr (.inl rfl)))), ?_, rfl⟩,
    ⟨_, .inr (.inr (.inr (.inr (.inr rfl)))), ?_, rfl⟩⟩ <;> decide +kernel

theorem threshWords_ends : ∀ w ∈ threshWords, ∃ x, w.1 = x ++ [44] ∧ (44 : UInt8) ∉ x := by
  simp only [threshWords, List.mem_cons, List.not_mem_nil, or_false, forall_eq_or_imp, forall_eq]
  refine ⟨⟨ascii "atmost", ?_⟩, ⟨ascii "atleast", ?_⟩, ⟨ascii "exactly", ?_⟩, ⟨ascii "atmostno", ?_⟩, ⟨ascii "atleastno", ?_⟩,
    ⟨ascii "exactlyno", ?_⟩⟩ <;> decide +kernel

theorem comma_unique {x y t u : Bytes} (hx : (44 : UInt8) ∉ x) (hy : (44 : UInt8) ∉ y) (h : x ++ 44 :: t = y ++ 44 :: u) : x = y ∧ t = u := by
  have h1 := splitOnce_some 44 x t hx
  rw [h, splitOnce_some 44 y u hy] at h1
  injection h1 with h1
  injection h1 with h2 h3
  exact ⟨h2.symm, h3.symm⟩

theorem thresh_find (t x : Bytes) (hx : (44 : UInt8) ∉ x) {f : Thresh → Determiner} (tab : List (Bytes × (Thresh → Determiner)))
    (he : ∀ w ∈ tab, ∃ x, w.1 = x ++ [44] ∧ (44 : UInt8) ∉ x) (hn : (tab.map (·.1)).Nodup) (hm : (x ++ [44], f) ∈ tab) :
    tab.find? (fun w => w.1.isPrefixOf (x ++ 44 :: t)) = some (x ++ [44], f) := by
  induction tab with
  | nil => simp at hm
  | cons y ys ih =>
    simp only [List.map_cons, List.nodup_cons] at hn
    rw [List.find?_cons]
    rcases List.mem_cons.1 hm with e | e
    · have : y.1.isPrefixOf (x ++ 44 :: t) = true := by
        rw [← e, List.isPrefixOf_iff_prefix]
        exact ⟨t, by simp⟩
      rw [this]
      simp [e]
    · have : y.1.isPrefixOf (x ++ 44 :: t) = false := by
        rw [← Bool.not_eq_true, List.isPrefixOf_iff_prefix]
        rintro ⟨u, hu⟩
        obtain ⟨z, hz, hz2⟩ := he y (by simp)
        rw [hz, List.append_assoc] at hu
        have := (comma_unique hz2 hx hu).1
        rw [this] at hz
        exact hn.1 (by rw [hz]; exact List.mem_map_of_mem (f := (·.1)) e)
      rw [this]
      exact ih (fun w hw => he w (by simp [hw])) hn.2 e

theorem comma_not_word (s : Bytes) (h : (44 : UInt8) ∈ s) : ∀ w ∈ detWords, eqIgnoreCase s (ascii w.1) = false := by
  intro w hw
  rw [eqIgnore_lower _ _ ((by decide +kernel : ∀ w ∈ detWords, lower (ascii w.1) = ascii w.1) w hw), beq_eq_false_iff_ne]
  intro e
  have h1 := (by decide +kernel : ∀ w ∈ detWords, (44 : UInt8) ∉ ascii w.1) w hw
  exact h1 (e ▸ List.mem_map.2 ⟨44, h, by decide⟩)

/-- A determiner with a threshold: the word, a comma, and the threshold. -/
theorem C189_words (exp10 : Int → F64) (w : String × (Thresh → Determiner)) (hw : w ∈ threshNames) (t : Bytes) :
    Determiner.newAll exp10 (ascii w.1 ++ 44 :: t) = (Thresh.new exp10 t).bind fun x => .ok (w.2 x) := by
  obtain ⟨v, hv, e1, e2⟩ := threshWords_names w hw
  have hx : (44 : UInt8) ∉ ascii w.1 := by
    obtain ⟨x, g1, g2⟩ := threshWords_ends v hv
    rw [e1] at g1
    rwa [List.append_cancel_right g1]
  have hf := thresh_find t (ascii w.1) hx (f := w.2) threshWords threshWords_ends (by decide +kernel) (by rw [← e1, ← e2]; exact hv)
  have hd := comma_not_word (ascii w.1 ++ 44 :: t) (by simp)
  simp only [detWords, List.mem_cons, List.not_mem_nil, or_false, forall_eq_or_imp, forall_eq] at hd
  unfold Determiner.newAll
  rw [hd.1, hd.2.1, hd.2.2.1, hd.2.2.2.1, hd.2.2.2.2.1, hd.2.2.2.2.2, hf]
  simp

/-- Without a comma, only the words without a threshold are left, as `Model/Match` has it. -/
theorem newAll_plain (exp10 : Int → F64) (s : Bytes) (h : (44 : UInt8) ∉ s) : Determiner.newAll exp10 s = Determiner.new s := by
  have : threshWords.find? (fun w => w.1.isPrefixOf s) = none := by
    rw [List.find?_eq_none]
    intro w hw
    rw [List.isPrefixOf_iff_prefix]
    rintro ⟨u, hu⟩
    obtain ⟨x, hx, _⟩ := threshWords_ends w hw
    rw [hx] at hu
    exact h (by rw [← hu]; simp)
  unfold Determiner.newAll Determiner.new
  rw [this]

/-- The reader of column sets as modelled first is that with all determiners. -/
theorem mkSetAll_eq (exp10 : Int → F64) (env : MEnv) (cols method pattern : Bytes) : mkSetAll exp10 env cols method pattern = mkSet env cols method pattern := by
  unfold mkSetAll mkSet
  cases h : splitOnce 44 cols with
  | none => rfl
  | some ab =>
    obtain ⟨a, b⟩ := ab
    simp only [newAll_plain exp10 a (splitOnce_eq _ _ _ _ h).2]

/-! ## The thresholds -/

/-- A whole number is a count. -/
theorem C189_count (exp10 : Int → F64) (n : Nat) (h : n < 2 ^ 64) : Thresh.new exp10 (decText n) = .ok (.count n) := by
  have hd : (46 : UInt8) ∉ decText n := fun hm => absurd (decText_digits n 46 hm) (by decide)
  unfold Thresh.new
  rw [if_neg (by simpa using hd), (C39_whole (decText n) n).2 (.inr ⟨[], decText n, [], .inl rfl, decText_ne_nil n,
    fun c hc => (isDigit_iff c).2 (decText_digits n c hc), by simp, .inl ⟨rfl, (decVal_decText n).symm⟩, by unfold usizeMax; omega⟩)]
  rfl

theorem ge_iff {x y : F64} (hx : x.isNaN = false) (hy : y.isNaN = false) : x.ge y = decide (y.scaled ≤ x.scaled) := by
  unfold F64.ge F64.gt F64.eq
  rw [hx, hy]
  simp only [Bool.not_false, Bool.true_and]
  by_cases h : y.scaled ≤ x.scaled
  · rw [decide_eq_true h]
    by_cases h2 : x.scaled = y.scaled
    · simp [h2]
    · rw [decide_eq_true (by omega)]; rfl
  · rw [decide_eq_false h, decide_eq_false (by omega)]
    simp
    omega

theorem val_unit (v : F64) : v.val * ((2 ^ 1074 : Nat) : Rat) = (v.scaled : Rat) := by
  unfold F64.val
  have hp := natCast_pos pow1074_pos
  generalize ((2 ^ 1074 : Nat) : Rat) = u at *
  exact Rat.div_mul_cancel (by grind)

theorem mul_le_iff {a b u : Rat} (hu : 0 < u) : a ≤ b ↔ a * u ≤ b * u := by
  refine ⟨fun h => Rat.mul_le_mul_of_nonneg_right h (Rat.le_of_lt hu), fun h => ?_⟩
  exact Rat.not_lt.1 fun g => Rat.not_le.2 (Rat.mul_lt_mul_of_pos_right g hu) h

theorem val_nonneg_iff (v : F64) : 0 ≤ v.val ↔ 0 ≤ v.scaled := by
  rw [mul_le_iff (natCast_pos pow1074_pos), val_unit, Rat.zero_mul]
  exact Rat.intCast_le_intCast (a := 0)

theorem val_le_one_iff (v : F64) : v.val ≤ 1 ↔ v.scaled ≤ 2 ^ 1074 := by
  rw [mul_le_iff (natCast_pos pow1074_pos), val_unit, Rat.one_mul, show ((2 ^ 1074 : Nat) : Rat) = (((2 ^ 1074 : Nat) : Int) : Rat) from rfl,
    Rat.intCast_le_intCast, Int.natCast_pow]
  rfl

/-- A fraction must be from zero to one, both allowed. -/
theorem newFrac_iff (v : F64) (h : v.Fin) :
    Thresh.newFrac v = if 0 ≤ v.val ∧ v.val ≤ 1 then .ok (.frac v.abs (2 ^ 1074)) else .err := by
  have h0 := is_ofNat (n := 0) (by decide)
  have h1 := is_ofNat (n := 1) (by decide)
  unfold Thresh.newFrac
  rw [ge_iff ((Fin_iff v).1 h).1 h0.1, ge_iff h1.1 ((Fin_iff v).1 h).1, h0.2.2, h1.2.2]
  have e1 : (0 ≤ v.val) ↔ ((0 : Nat) : Int) * 2 ^ 1074 ≤ v.scaled := by
    rw [show ((0 : Nat) : Int) * 2 ^ 1074 = 0 from Int.zero_mul _]
    exact val_nonneg_iff v
  have e2 : (v.val ≤ 1) ↔ v.scaled ≤ ((1 : Nat) : Int) * 2 ^ 1074 := by
    rw [show ((1 : Nat) : Int) * 2 ^ 1074 = 2 ^ 1074 from Int.one_mul _]
    exact val_le_one_iff v
  rw [← Bool.decide_and]
  simp only [decide_eq_true_eq, ← e1, ← e2]

theorem text_point {p : NumParts} {f : Bytes} (h : p.frac = some f) : p.text.contains 46 = true := by
  unfold NumParts.text
  rw [h]
  simp [fracText]

theorem thresh_arith {C D b w s : Rat} (hC : 4 < C) (hD : C = 2 * D) (hb : 0 ≤ b) (hw : w = b ∨ w = -b) (r3 : w - b / C ≤ s)
    (r4 : s ≤ w + b / C) :
    (w = b → w ≤ 1 - 1 / D → 0 ≤ s ∧ s ≤ 1) ∧ (w < 0 ∨ 1 + 1 / D ≤ w → ¬ (0 ≤ s ∧ s ≤ 1)) := by
  obtain ⟨c, hc⟩ : ∃ c, c = 1 / C := ⟨_, rfl⟩
  have e1 : b / C = b * c := by grind
  have e2 : 1 / D = 2 * c := by grind
  have e3 : c * C = 1 := by grind
  have hc0 : 0 < c := by
    rw [hc, Rat.div_def, Rat.one_mul]
    exact Rat.inv_pos.2 (by grind)
  have hc4 : 4 * c < 1 := by
    have := Rat.mul_lt_mul_of_pos_right hC hc0
    grind
  rw [e1] at r3 r4
  rw [e2]
  clear e1 e2 hc e3 hC hD
  have hbc : 0 ≤ b * c := Rat.mul_nonneg hb (Rat.le_of_lt hc0)
  have hb4 : b * (4 * c) ≤ b * 1 := Rat.mul_le_mul_of_nonneg_left (Rat.le_of_lt hc4) hb
  have hcc : c * (4 * c) ≤ c * 1 := Rat.mul_le_mul_of_nonneg_left (Rat.le_of_lt hc4) (Rat.le_of_lt hc0)
  have hcc0 : 0 ≤ c * c := Rat.mul_nonneg (Rat.le_of_lt hc0) (Rat.le_of_lt hc0)
  constructor
  · intro h1 h2
    have : b * c ≤ (1 - 2 * c) * c := Rat.mul_le_mul_of_nonneg_right (by grind) (Rat.le_of_lt hc0)
    constructor <;> grind
  · rintro (h1 | h1) ⟨g1, g2⟩
    · grind
    · have hw' : w = b := by
        rcases hw with h | h
        · exact h
        · grind
      have : (1 + 2 * c) * (1 - c) ≤ b * (1 - c) := Rat.mul_le_mul_of_nonneg_right (by grind) (by grind)
      grind

/-- A number with a point is a fraction: nearly the one written if that is clearly from zero to one, and an error if it is clearly not. What
is missing: numbers nearer to one than a `2^40`th, apart from what `C185_whole_partial` says, and more than 300 digits. -/
theorem C189_fraction_partial (exp10 : Int → F64) (p : NumParts) (hp : p.WF) (h : p.Plain) {f : Bytes} (hf : p.frac = some f)
    (h1 : p.ds.length ≤ 300) (h2 : p.fs.length ≤ 300) :
    (p.sign ≠ [45] → p.value ≤ 1 - 1 / ((2 ^ 40 : Nat) : Rat) → ∃ a, Thresh.new exp10 p.text = .ok (.frac a (2 ^ 1074)) ∧
      p.value - p.value / ((2 ^ 41 : Nat) : Rat) ≤ (a : Rat) / ((2 ^ 1074 : Nat) : Rat) ∧
      (a : Rat) / ((2 ^ 1074 : Nat) : Rat) ≤ p.value + p.value / ((2 ^ 41 : Nat) : Rat)) ∧
    (p.value < 0 ∨ 1 + 1 / ((2 ^ 40 : Nat) : Rat) ≤ p.value → Thresh.new exp10 p.text = .err) := by
  obtain ⟨v, r1, r2, r3, r4⟩ := C185_error_partial exp10 p hp h h1 h2
  have h0 : 0 ≤ p.bare.value := by
    rw [bare_value]
    exact (mant_appr p hp h1 h2).2.2.1
  have hval : p.value = p.sgn * p.bare.value := plain_value p h
  have hnew : Thresh.new exp10 p.text = if 0 ≤ v.val ∧ v.val ≤ 1 then .ok (.frac v.abs (2 ^ 1074)) else .err := by
    unfold Thresh.new
    rw [if_pos (text_point hf), r1]
    simp only [ne_eq, not_true_eq_false, if_false]
    exact newFrac_iff v r2
  have A := thresh_arith (C := ((2 ^ 41 : Nat) : Rat)) (D := ((2 ^ 40 : Nat) : Rat)) (by decide +kernel) (by decide +kernel) h0
    (show p.value = p.bare.value ∨ p.value = -p.bare.value by
      rw [hval]
      unfold NumParts.sgn
      split
      · right; grind
      · left; grind) r3 r4
  constructor
  · intro hs hv
    have hw : p.value = p.bare.value := by
      rw [hval]
      unfold NumParts.sgn
      rw [if_neg hs]
      grind
    obtain ⟨g1, g2⟩ := A.1 hw hv
    refine ⟨v.abs, by rw [hnew, if_pos ⟨g1, g2⟩], ?_⟩
    have e : ((v.abs : Nat) : Rat) / ((2 ^ 1074 : Nat) : Rat) = v.val := by
      unfold F64.val F64.abs
      have := (val_nonneg_iff v).1 g1
      rw [show ((v.scaled.natAbs : Nat) : Rat) = ((v.scaled.natAbs : Int) : Rat) from rfl, Int.natAbs_of_nonneg this]
    rw [e]
    rw [← hw] at r3 r4
    exact ⟨r3, r4⟩
  · intro hv
    rw [hnew, if_neg (A.2 hv)]

/-- `0.25`, `-0.5` and `1.5`. -/
example : Thresh.new (fun _ => 0) (ascii "0.25") = .ok (.frac (2 ^ 1072) (2 ^ 1074)) ∧ Thresh.new (fun _ => 0) (ascii "-0.5") = .err ∧
    Thresh.new (fun _ => 0) (ascii "1.5") = .err ∧ Thresh.new (fun _ => 0) (ascii "1.0") = .ok (.frac (2 ^ 1074) (2 ^ 1074)) := by
  decide +kernel

/-! ## C189 -/

/-- The full claim: a set of columns can be tested with a threshold. -/
def C189_statement : Prop :=
  ∀ (exp10 : Int → F64) (env : MEnv) (method pattern cols : Bytes) (m : Matcher) (cs : ColumnSet) (w : String × (Thresh → Determiner)) (n : Nat),
    w ∈ threshNames → n < 2 ^ 64 → Matcher.make2 env method pattern = .ok m → ColumnSet.fromSpec env cols = .ok cs →
    mkSetAll exp10 env (ascii w.1 ++ 44 :: (decText n ++ 44 :: cols)) method pattern = .ok (.set m cs (w.2 (.count n)))

/-- It never can: the determiner is cut off at the first comma, which is before the threshold. -/
theorem C189_never (exp10 : Int → F64) (env : MEnv) (method pattern rest : Bytes) (w : String × (Thresh → Determiner)) (hw : w ∈ threshNames)
    (x : LineMatcher) : mkSetAll exp10 env (ascii w.1 ++ 44 :: rest) method pattern ≠ .ok x := by
  have hx : (44 : UInt8) ∉ ascii w.1 := by
    obtain ⟨v, hv, e1, _⟩ := threshWords_names w hw
    obtain ⟨x, g1, g2⟩ := threshWords_ends v hv
    rw [e1] at g1
    rwa [List.append_cancel_right g1]
  have hn : ∀ w ∈ threshNames, Determiner.new (ascii w.1) = .err := by
    simp only [threshNames, List.mem_cons, List.not_mem_nil, or_false, forall_eq_or_imp, forall_eq]
    decide +kernel
  unfold mkSetAll
  rw [splitOnce_some 44 _ _ hx]
  simp only [newAll_plain exp10 _ hx, hn w hw, Res.bind_err]
  cases Matcher.make2 env method pattern with
  | ok m => cases ColumnSet.fromSpec env rest <;> simp
  | err => simp
  | panic => simp

theorem C189_refuted : ¬ C189_statement := by
  intro h
  have hm : ∃ m, Matcher.make2 MEnv.trivial (ascii "exact") (ascii "x") = .ok m := ⟨_, rfl⟩
  have hc : ∃ cs, ColumnSet.fromSpec MEnv.trivial (ascii "a") = .ok cs := ⟨_, rfl⟩
  obtain ⟨m, hm⟩ := hm
  obtain ⟨cs, hc⟩ := hc
  exact C189_never (fun _ => 0) MEnv.trivial (ascii "exact") (ascii "x") (decText 2 ++ 44 :: ascii "a") ("atleast", .atLeast) (by simp [threshNames]) _
    (h (fun _ => 0) MEnv.trivial (ascii "exact") (ascii "x") (ascii "a") m cs ("atleast", .atLeast) 2 (by simp [threshNames]) (by decide) hm hc)

/-- The determiners without a threshold can be used. -/
theorem C189_plain_partial (exp10 : Int → F64) (env : MEnv) (method pattern cols word : Bytes) (m : Matcher) (cs : ColumnSet)
    (w : String × Determiner) (hw : w ∈ detWords) (hword : lower word = ascii w.1) (hm : Matcher.make2 env method pattern = .ok m)
    (hc : ColumnSet.fromSpec env cols = .ok cs) : mkSetAll exp10 env (word ++ 44 :: cols) method pattern = .ok (.set m cs w.2) := by
  have hx : (44 : UInt8) ∉ word := fun hmem =>
    (by decide +kernel : ∀ w ∈ detWords, (44 : UInt8) ∉ ascii w.1) w hw (hword ▸ List.mem_map.2 ⟨44, hmem, by decide⟩)
  unfold mkSetAll
  rw [splitOnce_some 44 _ _ hx]
  simp only [newAll_plain exp10 _ hx, ((C190_determiners word).1 w.2).2 ⟨w, hw, hword, rfl⟩, hm, hc, Res.bind_ok]

example : lower (ascii "All") = ascii "all" ∧ ("all", Determiner.all) ∈ detWords ∧
    ∃ m cs, Matcher.make2 MEnv.trivial (ascii "exact") (ascii "x") = .ok m ∧ ColumnSet.fromSpec MEnv.trivial (ascii "a") = .ok cs :=
  ⟨by decide +kernel, by simp [detWords], _, _, rfl, rfl⟩

end Cdx
