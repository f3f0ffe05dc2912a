import Verif.Props.Comp

/-!
C23 (numeric comparison orders digit strings by value), C24 (numeric comparison is a consistent ordering).
-/

namespace Cdx

/-! ## C23 -/

/-- The claim in full: the comparison of two integer texts is the comparison of their values. -/
def C23_statement : Prop :=
  ∀ a b : IntText, a.WF → b.WF → numCmpSigned a.text b.text = compare a.value b.value

/-- "-0" is placed before "0". -/
theorem C23_refuted : ¬ C23_statement := by
  intro h
  have := h ⟨[], true, [48]⟩ ⟨[], false, [48]⟩ ⟨by simp [Blanks], by simp [DigitsCommas]⟩
    ⟨by simp [Blanks], by simp [DigitsCommas]⟩
  revert this
  decide

/-- The claim for all pairs except a negative zero against a non-negative zero. -/
theorem C23_integers_partial (a b : IntText) (ha : a.WF) (hb : b.WF)
    (hz : ¬ (a.value = 0 ∧ b.value = 0 ∧ a.neg ≠ b.neg)) :
    numCmpSigned a.text b.text = compare a.value b.value := by
  have h := numCmpSigned_eq a.blanks b.blanks a.neg b.neg a.digits b.digits [] [] ha.1 hb.1 ha.2 hb.2
    (Or.inl rfl) (Or.inl rfl)
  rw [List.append_nil, List.append_nil] at h
  rw [IntText.text, IntText.text, h]
  have hnd : numDiff [] [] = .eq := rfl
  have hthen : ∀ o : Ordering, o.then .eq = o := by intro o; cases o <;> rfl
  rw [hnd, hthen, hthen]
  rw [compare_int]
  unfold IntText.value at *
  generalize groupedVal a.digits = x at *
  generalize groupedVal b.digits = y at *
  have nc : ∀ m n : Nat, compare m n = compare (m : Int) (n : Int) := by
    intro m n
    rw [compare_int]
    rcases Nat.lt_trichotomy m n with h | h | h
    · rw [Nat.compare_eq_lt.2 h, if_neg (by omega), if_neg (by omega)]
    · rw [Nat.compare_eq_eq.2 h, if_pos (by omega)]
    · rw [Nat.compare_eq_gt.2 h, if_neg (by omega), if_pos (by omega)]
  cases hna : a.neg <;> cases hnb : b.neg <;> simp only [hna, hnb, if_true, if_false, Bool.false_eq_true] at hz ⊢
  · rw [nc, compare_int]
  · have : ¬ ((x : Int) = 0 ∧ (-(y : Int)) = 0) := fun e => hz ⟨e.1, e.2, by decide⟩
    rw [if_neg (by omega), if_pos (by omega)]
  · have : ¬ ((-(x : Int)) = 0 ∧ (y : Int) = 0) := fun e => hz ⟨e.1, e.2, by decide⟩
    rw [if_neg (by omega), if_neg (by omega)]
  · rw [nc, compare_int]
    split
    · rw [if_pos (by omega)]
    · split
      · rw [if_neg (by omega), if_pos (by omega)]
      · rw [if_neg (by omega), if_neg (by omega)]

/-- "  -1,234" and "0099". -/
example : IntText.WF ⟨[32, 32], true, [49, 44, 50, 51, 52]⟩ ∧ IntText.WF ⟨[], false, [48, 48, 57, 57]⟩ ∧
    ¬ (IntText.value ⟨[32, 32], true, [49, 44, 50, 51, 52]⟩ = 0) ∧
    IntText.value ⟨[32, 32], true, [49, 44, 50, 51, 52]⟩ = -1234 := by
  refine ⟨⟨?_, ?_⟩, ⟨?_, ?_⟩, ?_, ?_⟩
  · simp [Blanks]
  · simp [DigitsCommas]
  · simp [Blanks]
  · simp [DigitsCommas]
  · decide
  · decide

/-- A plus sign is not understood: "+5" is placed before "4". -/
theorem C23_plus : numCmpSigned [43, 53] [52] = .lt := by decide

/-- Leading zeros, blanks and commas do not count. -/
theorem C23_leading (a b : IntText) (ha : a.WF) (hb : b.WF) (hn : a.neg = b.neg) (hv : a.value = b.value) :
    numCmpSigned a.text b.text = .eq := by
  rw [C23_integers_partial a b ha hb (fun h => h.2.2 hn), hv, compare_int, if_pos rfl]

/-! ## C24 -/

/-- The claim in full: the comparison is a total preorder on all texts, and a number is different from the same number
with a non-zero fraction. -/
def C24_statement : Prop :=
  TotalPreorder numCmpSigned ∧
    ∀ (a : IntText) (f : Bytes), a.WF → (∀ c ∈ f, 48 ≤ c ∧ c ≤ 57) → decVal f ≠ 0 →
      numCmpSigned a.text (a.text ++ 46 :: f) ≠ .eq

/-- "1" is equal to "1.5" and to "1.7", which differ. -/
theorem C24_refuted : ¬ C24_statement := by
  intro h
  have := h.1.trans [49, 46, 55] [49] [49, 46, 53]
  revert this
  decide

/-- The second half fails for every integer: a fraction is not looked at unless both numbers have one. -/
theorem C24_fraction_ignored (a : IntText) (f : Bytes) (ha : a.WF) :
    numCmpSigned a.text (a.text ++ 46 :: f) = .eq := by
  have h := numCmpSigned_eq a.blanks a.blanks a.neg a.neg a.digits a.digits [] (46 :: f) ha.1 ha.1 ha.2 ha.2
    (Or.inl rfl) (Or.inr ⟨f, rfl⟩)
  rw [List.append_nil] at h
  rw [IntText.text, h]
  have e : numDiff [] (46 :: f) = .eq := by simp [numDiff, isDigit]
  have e' : numDiff (46 :: f) [] = .eq := by simp [numDiff, isDigit]
  rw [e, e', Nat.compare_eq_eq.2 rfl]
  cases a.neg <;> rfl

theorem fracPrefix_swap (a b : Bytes) : fracPrefix b a = ((fracPrefix a b).2, (fracPrefix a b).1) := by
  induction a generalizing b with
  | nil => cases b <;> rfl
  | cons x xs ih =>
    cases b with
    | nil => rfl
    | cons y ys =>
      simp only [fracPrefix]
      by_cases h : x = y ∧ isDigit x
      · rw [if_pos h, if_pos (by rw [← h.1]; exact ⟨rfl, h.2⟩), ih]
      · rw [if_neg h, if_neg (by rintro ⟨rfl, h2⟩; exact h ⟨rfl, h2⟩)]

theorem fracCmp_swap (a b : Bytes) : fracCmp b a = (fracCmp a b).swap := by
  unfold fracCmp
  rw [fracPrefix_swap a.tail b.tail]
  rcases fracPrefix a.tail b.tail with ⟨p, q⟩
  cases p with
  | nil => cases q with
    | nil => rfl
    | cons y ys => simp only; split <;> rfl
  | cons x xs => cases q with
    | nil => simp only; split <;> rfl
    | cons y ys =>
      simp only
      have := preorder_byte.swap x y
      cases isDigit x <;> cases isDigit y <;> simp [this]

theorem numDiff_swap (a b : Bytes) : numDiff b a = (numDiff a b).swap := by
  cases a with
  | nil => cases b with
    | nil => rfl
    | cons y ys => simp only [numDiff]; split <;> rfl
  | cons x xs => cases b with
    | nil => simp only [numDiff]; split <;> rfl
    | cons y ys =>
      simp only [numDiff]
      by_cases h : x = 46 ∧ y = 46
      · rw [if_pos h, if_pos ⟨h.2, h.1⟩, fracCmp_swap]
      · rw [if_neg h, if_neg (fun e => h ⟨e.2, e.1⟩)]
        generalize numLog false (x :: xs) = m
        generalize numLog false (y :: ys) = n
        by_cases hmn : m = n
        · subst hmn
          simp only [ne_eq, not_true_eq_false, if_false]
          split
          · rfl
          · exact preorder_byte.swap x y
        · rw [if_pos hmn, if_pos (Ne.symm hmn)]
          exact preorder_nat.swap m n

theorem numPrefix_swap (n m : Nat) (a b : Bytes) (hn : a.length ≤ n) (hm : b.length ≤ m) :
    numPrefix m b a = ((numPrefix n a b).2, (numPrefix n a b).1) := by
  induction n generalizing m a b with
  | zero =>
    have : a = [] := List.length_eq_zero_iff.1 (by omega)
    subst this
    cases m <;> cases b <;> rfl
  | succ n ih =>
    cases a with
    | nil => cases m <;> cases b <;> rfl
    | cons x xs =>
      cases b with
      | nil => cases m <;> rfl
      | cons y ys =>
        cases m with
        | zero => simp at hm
        | succ m =>
          simp only [numPrefix]
          by_cases h : x = y ∧ isDigit x
          · rw [if_pos h, if_pos (by rw [← h.1]; exact ⟨rfl, h.2⟩)]
            have h1 := (List.dropWhile_suffix (l := xs) (fun c : UInt8 => c == 44)).length_le
            have h2 := (List.dropWhile_suffix (l := ys) (fun c : UInt8 => c == 44)).length_le
            simp only [List.length_cons] at hn hm
            exact ih m (skipComma xs) (skipComma ys) (by unfold skipComma; omega) (by unfold skipComma; omega)
          · rw [if_neg h, if_neg (by rintro ⟨rfl, h2⟩; exact h ⟨rfl, h2⟩)]

theorem numCmpUnsigned_swap (a b : Bytes) : numCmpUnsigned b a = (numCmpUnsigned a b).swap := by
  unfold numCmpUnsigned
  simp only
  rw [numPrefix_swap (skipCommaZero a).length (skipCommaZero b).length (skipCommaZero a) (skipCommaZero b)
    (Nat.le_refl _) (Nat.le_refl _)]
  exact numDiff_swap _ _

/-- On all texts, swapping the arguments reverses the answer. -/
theorem C24_swap_partial (a b : Bytes) : numCmpSigned b a = (numCmpSigned a b).swap := by
  unfold numCmpSigned
  simp only
  cases (takeMinus (trimwStart a)).1 <;> cases (takeMinus (trimwStart b)).1 <;> simp
  · exact numCmpUnsigned_swap _ _
  · exact numCmpUnsigned_swap _ _

/-- On all texts, a text is equal to itself. -/
theorem C24_refl_partial (a : Bytes) : numCmpSigned a a = .eq := by
  have := C24_swap_partial a a
  cases h : numCmpSigned a a <;> rw [h] at this <;> simp at this

theorem digits_of_frac {f : Bytes} (h : ∀ c ∈ f, 48 ≤ c ∧ c ≤ 57) : AllDigits f :=
  fun c hc => (isDigit_iff c).2 (h c hc)

/-- On numbers with a decimal point the comparison is by sign, integer value and fraction digits. -/
theorem C24_decimals_partial (a b : DecText) (ha : a.WF) (hb : b.WF) :
    numCmpSigned a.text b.text = a.cmp b := by
  have h := numCmpSigned_eq a.blanks b.blanks a.neg b.neg a.digits b.digits (46 :: a.frac) (46 :: b.frac)
    ha.1 hb.1 ha.2.1 hb.2.1 (Or.inr ⟨_, rfl⟩) (Or.inr ⟨_, rfl⟩)
  rw [DecText.text, DecText.text, h, numDiff_frac _ _ (digits_of_frac ha.2.2) (digits_of_frac hb.2.2),
    numDiff_frac _ _ (digits_of_frac hb.2.2) (digits_of_frac ha.2.2)]
  unfold DecText.cmp DecText.magCmp
  cases a.neg <;> cases b.neg <;> rfl

theorem magCmp_preorder : TotalPreorder DecText.magCmp :=
  (preorder_nat.comap fun a : DecText => groupedVal a.digits).then
    ((listCmp_preorder preorder_byte).comap fun a : DecText => a.frac)

/-- So on numbers with a decimal point it is a total preorder. -/
theorem C24_decimals_preorder_partial :
    TotalPreorder fun a b : { t : DecText // t.WF } => numCmpSigned a.1.text b.1.text := by
  have e : (fun a b : { t : DecText // t.WF } => numCmpSigned a.1.text b.1.text) = fun a b => a.1.cmp b.1 := by
    funext a b; exact C24_decimals_partial a.1 b.1 a.2 b.2
  rw [e]
  have h : TotalPreorder DecText.cmp := by
    have hm := magCmp_preorder
    unfold DecText.cmp
    refine ⟨fun a => ?_, fun a b => ?_, fun a b c => ?_⟩
    · cases a.neg <;> simp [hm.refl]
    · cases a.neg <;> cases b.neg
      · exact hm.swap a b
      · rfl
      · rfl
      · exact hm.swap b a
    · cases a.neg <;> cases b.neg <;> cases c.neg <;> simp
      · exact hm.trans a b c
      · intro h1 h2; exact hm.trans c b a h2 h1
  exact h.comap fun a : { t : DecText // t.WF } => a.1

/-- And different fractions are different. -/
theorem C24_decimals_differ_partial (a b : DecText) (ha : a.WF) (hb : b.WF) :
    numCmpSigned a.text b.text = .eq ↔
      a.neg = b.neg ∧ groupedVal a.digits = groupedVal b.digits ∧ a.frac = b.frac := by
  rw [C24_decimals_partial a b ha hb]
  have hm : ∀ x y : DecText, x.magCmp y = .eq ↔ groupedVal x.digits = groupedVal y.digits ∧ x.frac = y.frac := by
    intro x y
    unfold DecText.magCmp
    rw [← Nat.compare_eq_eq, ← lexCmp_eq, lexCmp_eq_listCmp]
    cases compare (groupedVal x.digits) (groupedVal y.digits) <;> simp [Ordering.then]
  unfold DecText.cmp
  cases a.neg <;> cases b.neg <;> simp [hm]
  exact ⟨fun h => ⟨h.1.symm, h.2.symm⟩, fun h => ⟨h.1.symm, h.2.symm⟩⟩

theorem lex_zeros (d : Bytes) (hd : AllDigits d) : listCmp compare d (List.replicate d.length 48) ≠ .lt := by
  induction d with
  | nil => simp [listCmp]
  | cons x xs ih =>
    have ih := ih fun c hc => hd c (by simp [hc])
    have dx := digit_toNat (hd x (by simp))
    simp only [List.length_cons, List.replicate_succ, listCmp, compare_byte]
    have e : (48 : UInt8).toNat = 48 := rfl
    rw [e]
    by_cases h : x.toNat = 48
    · rw [h, Nat.compare_eq_eq.2 rfl]; exact ih
    · rw [Nat.compare_eq_gt.2 (by omega)]; simp [Ordering.then]

theorem decVal_zeros (d : Bytes) (k : Nat) : decVal (d ++ List.replicate k 48) = decVal d * 10 ^ k := by
  have h0 : ∀ k, decVal (List.replicate k 48) = 0 := by
    intro k
    induction k with
    | zero => rfl
    | succ k ih => simp [List.replicate_succ, decVal, ih]
  induction d with
  | nil => simp [h0, decVal]
  | cons x xs ih =>
    simp only [List.cons_append, decVal, ih, List.length_append, List.length_replicate, Nat.pow_add, Nat.add_mul,
      Nat.mul_assoc]

theorem padded_lt (f g : Bytes) (hf : AllDigits f) (hg : AllDigits g) (n : Nat) (h1 : f.length ≤ n) (h2 : g.length ≤ n)
    (h : listCmp compare (f ++ List.replicate (n - f.length) 48) (g ++ List.replicate (n - g.length) 48) = .lt) :
    listCmp compare f g = .lt := by
  induction f generalizing g n with
  | nil =>
    cases g with
    | nil => rw [(listCmp_preorder preorder_byte).refl] at h; simp at h
    | cons y ys => rfl
  | cons x xs ih =>
    cases g with
    | nil =>
      exfalso
      simp only [List.length_nil, Nat.sub_zero, List.nil_append] at h
      have hl : (x :: xs ++ List.replicate (n - (x :: xs).length) 48).length = n := by
        simp only [List.length_append, List.length_replicate]; omega
      have := lex_zeros (x :: xs ++ List.replicate (n - (x :: xs).length) 48) (by
        intro c hc
        rcases List.mem_append.1 hc with hc | hc
        · exact hf c hc
        · rw [(List.mem_replicate.1 hc).2]; decide)
      rw [hl] at this
      exact this h
    | cons y ys =>
      cases n with
      | zero => simp at h1
      | succ n =>
        simp only [List.length_cons, Nat.add_sub_add_right, List.cons_append, listCmp] at h ⊢
        have := ih ys (fun c hc => hf c (by simp [hc])) (fun c hc => hg c (by simp [hc])) n
          (by simpa using h1) (by simpa using h2)
        cases hc : compare x y <;> rw [hc] at h <;> simp_all [Ordering.then]

/-- The order agrees with the values: a smaller number comes first. -/
theorem C24_decimals_value_partial (a b : DecText) (ha : a.WF) (hb : b.WF) (n : Nat) (h1 : a.frac.length ≤ n)
    (h2 : b.frac.length ≤ n) (h : a.scaled n < b.scaled n) : numCmpSigned a.text b.text = .lt := by
  rw [C24_decimals_partial a b ha hb]
  have key : ∀ x y : DecText, x.WF → y.WF → x.frac.length ≤ n → y.frac.length ≤ n →
      x.scaledMag n < y.scaledMag n → x.magCmp y = .lt := by
    intro x y hx hy lx ly h
    have dx := digits_of_frac hx.2.2
    have dy := digits_of_frac hy.2.2
    have px : AllDigits (x.frac ++ List.replicate (n - x.frac.length) 48) := by
      intro c hc
      rcases List.mem_append.1 hc with hc | hc
      · exact dx c hc
      · rw [(List.mem_replicate.1 hc).2]; decide
    have py : AllDigits (y.frac ++ List.replicate (n - y.frac.length) 48) := by
      intro c hc
      rcases List.mem_append.1 hc with hc | hc
      · exact dy c hc
      · rw [(List.mem_replicate.1 hc).2]; decide
    have llx : (x.frac ++ List.replicate (n - x.frac.length) 48).length = n := by simp; omega
    have lly : (y.frac ++ List.replicate (n - y.frac.length) 48).length = n := by simp; omega
    have bx := decVal_lt _ px
    have by' := decVal_lt _ py
    rw [llx] at bx
    rw [lly] at by'
    unfold DecText.scaledMag at h
    rw [← decVal_zeros, ← decVal_zeros] at h
    unfold DecText.magCmp
    have lv := lex_eq_val _ _ px py (by rw [llx, lly])
    have pl := padded_lt x.frac y.frac dx dy n lx ly
    generalize decVal (x.frac ++ List.replicate (n - x.frac.length) 48) = u at *
    generalize decVal (y.frac ++ List.replicate (n - y.frac.length) 48) = v at *
    generalize groupedVal x.digits = p at *
    generalize groupedVal y.digits = q at *
    generalize 10 ^ n = T at *
    rcases Nat.lt_trichotomy p q with hpq | hpq | hpq
    · rw [Nat.compare_eq_lt.2 hpq]; rfl
    · subst hpq
      rw [Nat.compare_eq_eq.2 rfl]
      have : u < v := by omega
      exact pl (by rw [lv, Nat.compare_eq_lt.2 this])
    · exfalso
      have := Nat.mul_le_mul_right T (show q + 1 ≤ p from hpq)
      rw [Nat.add_mul] at this
      omega
  unfold DecText.cmp DecText.scaled at *
  cases hna : a.neg <;> cases hnb : b.neg <;> simp only [hna, hnb, if_true, if_false, Bool.false_eq_true] at h ⊢
  · exact key a b ha hb h1 h2 (by omega)
  · omega
  · exact key b a hb ha h2 h1 (by omega)

/-- "-1.50" and "0,001.7". -/
example : DecText.WF ⟨[], true, [49], [53, 48]⟩ ∧ DecText.WF ⟨[], false, [48, 44, 48, 48, 49], [55]⟩ ∧
    DecText.scaled 2 ⟨[], true, [49], [53, 48]⟩ < DecText.scaled 2 ⟨[], false, [48, 44, 48, 48, 49], [55]⟩ := by
  refine ⟨⟨?_, ?_, ?_⟩, ⟨?_, ?_, ?_⟩, ?_⟩ <;> first | decide | simp [Blanks, DigitsCommas]

end Cdx
