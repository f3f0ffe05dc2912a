import Verif.Lemmas.F64

/-!
Lemmas on the comparison of numbers as text.
-/

namespace Cdx

/-- All bytes are digits. -/
def AllDigits (d : Bytes) : Prop := ∀ c ∈ d, isDigit c = true

theorem decVal_lt (d : Bytes) (h : AllDigits d) : decVal d < 10 ^ d.length := by
  induction d with
  | nil => simp [decVal]
  | cons x xs ih =>
    have hx := (isDigit_iff x).1 (h x (by simp))
    have ih := ih fun c hc => h c (by simp [hc])
    have h9 : x.toNat - 48 ≤ 9 := by
      have := hx.2; rw [UInt8.le_iff_toNat_le] at this
      have e : (57 : UInt8).toNat = 57 := rfl
      omega
    simp only [decVal, List.length_cons, Nat.pow_succ]
    have := Nat.mul_le_mul_right (10 ^ xs.length) h9
    omega

theorem digit_toNat {x : UInt8} (h : isDigit x = true) : 48 ≤ x.toNat ∧ x.toNat ≤ 57 := by
  have h := (isDigit_iff x).1 h
  have h1 := UInt8.le_iff_toNat_le.1 h.1
  have h2 := UInt8.le_iff_toNat_le.1 h.2
  have e : (57 : UInt8).toNat = 57 := rfl
  have e' : (48 : UInt8).toNat = 48 := rfl
  omega

/-- Equal length digit strings compare like their values. -/
theorem lex_eq_val (a b : Bytes) (ha : AllDigits a) (hb : AllDigits b) (hl : a.length = b.length) :
    listCmp compare a b = compare (decVal a) (decVal b) := by
  induction a generalizing b with
  | nil => cases b with | nil => simp [listCmp] | cons => simp at hl
  | cons x xs ih =>
    cases b with
    | nil => simp at hl
    | cons y ys =>
      have hl : xs.length = ys.length := by simpa using hl
      have hxs : AllDigits xs := fun c hc => ha c (by simp [hc])
      have hys : AllDigits ys := fun c hc => hb c (by simp [hc])
      have ih := ih ys hxs hys hl
      have l1 := decVal_lt xs hxs
      have l2 := decVal_lt ys hys
      have dx := digit_toNat (ha x (by simp))
      have dy := digit_toNat (hb y (by simp))
      simp only [listCmp, decVal, compare_byte]
      rw [← hl] at *
      generalize 10 ^ xs.length = P at *
      rcases Nat.lt_trichotomy x.toNat y.toNat with h | h | h
      · rw [Nat.compare_eq_lt.2 h]
        have : (x.toNat - 48 + 1) * P ≤ (y.toNat - 48) * P := Nat.mul_le_mul_right P (by omega)
        rw [Nat.add_mul] at this
        exact (Nat.compare_eq_lt.2 (by omega)).symm
      · rw [h, Nat.compare_eq_eq.2 rfl, ih]
        simp only [Ordering.then]
        rcases Nat.lt_trichotomy (decVal xs) (decVal ys) with h | h | h
        · rw [Nat.compare_eq_lt.2 h, Nat.compare_eq_lt.2 (by omega)]
        · rw [h, Nat.compare_eq_eq.2 rfl, Nat.compare_eq_eq.2 rfl]
        · rw [Nat.compare_eq_gt.2 h, Nat.compare_eq_gt.2 (by omega)]
      · rw [Nat.compare_eq_gt.2 h]
        have : (y.toNat - 48 + 1) * P ≤ (x.toNat - 48) * P := Nat.mul_le_mul_right P (by omega)
        rw [Nat.add_mul] at this
        exact (Nat.compare_eq_gt.2 (by omega)).symm

/-- No leading zero. -/
def NoLead (d : Bytes) : Prop := ∀ r, d ≠ 48 :: r

theorem decVal_ge (d : Bytes) (h : AllDigits d) (hn : NoLead d) (hne : d ≠ []) : 10 ^ (d.length - 1) ≤ decVal d := by
  cases d with
  | nil => exact absurd rfl hne
  | cons x xs =>
    have dx := digit_toNat (h x (by simp))
    have : x.toNat ≠ 48 := fun e => hn xs (by rw [show x = 48 from UInt8.toNat_inj.1 e])
    simp only [decVal, List.length_cons, Nat.add_sub_cancel]
    have := Nat.mul_le_mul_right (10 ^ xs.length) (show 1 ≤ x.toNat - 48 by omega)
    omega

theorem seg_eq_val (a b : Bytes) (ha : AllDigits a) (hb : AllDigits b) (na : NoLead a) (nb : NoLead b) :
    segCmp a b = compare (decVal a) (decVal b) := by
  have key : ∀ a b : Bytes, AllDigits a → AllDigits b → NoLead b → a.length < b.length → decVal a < decVal b := by
    intro a b ha hb nb h
    have h1 := decVal_lt a ha
    have h2 := decVal_ge b hb nb (by rintro rfl; simp at h)
    have h3 : 10 ^ a.length ≤ 10 ^ (b.length - 1) := Nat.pow_le_pow_right (by decide) (by omega)
    omega
  unfold segCmp
  rcases Nat.lt_trichotomy a.length b.length with h | h | h
  · rw [Nat.compare_eq_lt.2 h, Nat.compare_eq_lt.2 (key a b ha hb nb h)]; rfl
  · rw [Nat.compare_eq_eq.2 h, lex_eq_val a b ha hb h]; rfl
  · rw [Nat.compare_eq_gt.2 h, Nat.compare_eq_gt.2 (key b a hb ha na h)]; rfl

/-! ## Commas -/

/-- The digits without the grouping commas. -/
def noCommas (d : Bytes) : Bytes := d.filter (· ≠ 44)

theorem noCommas_digits {d : Bytes} (h : DigitsCommas d) : AllDigits (noCommas d) := by
  intro c hc
  simp only [noCommas, ne_eq, decide_not, List.mem_filter, Bool.not_eq_eq_eq_not, Bool.not_true,
    decide_eq_false_iff_not] at hc
  rcases h c hc.1 with h | h
  · exact (isDigit_iff c).2 h
  · exact absurd h hc.2

/-- The text after the integer part: nothing, or a point and something. -/
def PointOrEnd (t : Bytes) : Prop := t = [] ∨ ∃ f, t = 46 :: f

theorem dropWhile_append_point (p : UInt8 → Bool) (hp : p 46 = false) (d t : Bytes) (ht : PointOrEnd t) :
    (d ++ t).dropWhile p = d.dropWhile p ++ t := by
  induction d with
  | nil => rcases ht with rfl | ⟨f, rfl⟩ <;> simp [List.dropWhile_cons, hp]
  | cons x xs ih => simp only [List.cons_append, List.dropWhile_cons]; split <;> simp [ih]

theorem noCommas_skip (d : Bytes) : noCommas (skipComma d) = noCommas d := by
  unfold noCommas skipComma
  induction d with
  | nil => rfl
  | cons x xs ih =>
    by_cases h : x = 44
    · simp only [List.dropWhile_cons, h, beq_self_eq_true, if_true, ih]
      simp
    · simp [List.dropWhile_cons, h]

theorem dropWhile_sub {d : Bytes} (p : UInt8 → Bool) (h : DigitsCommas d) : DigitsCommas (d.dropWhile p) :=
  fun c hc => h c ((List.dropWhile_suffix p).subset hc)

/-- Does not begin with a comma. -/
def NoComma (d : Bytes) : Prop := ∀ r, d ≠ 44 :: r

theorem skipComma_noComma (d : Bytes) : NoComma (skipComma d) := by
  intro r h
  have := List.head?_dropWhile_not (fun c : UInt8 => c == 44) d
  unfold skipComma at h
  rw [h] at this
  simp at this

theorem first_digit {x : UInt8} {xs : Bytes} (h : DigitsCommas (x :: xs)) (hn : NoComma (x :: xs)) :
    isDigit x = true := by
  rcases h x (by simp) with h | h
  · exact (isDigit_iff x).2 h
  · exact absurd (by rw [h]) (hn xs)

theorem numLog_true (d t : Bytes) (h : DigitsCommas d) (ht : PointOrEnd t) :
    numLog true (d ++ t) = (noCommas d).length := by
  induction d with
  | nil => rcases ht with rfl | ⟨f, rfl⟩ <;> simp [numLog, noCommas, isDigit]
  | cons x xs ih =>
    have ih := ih fun c hc => h c (by simp [hc])
    rcases h x (by simp) with hx | hx
    · have hd := (isDigit_iff x).2 hx
      have h44 : x ≠ 44 := by rintro rfl; revert hd; decide
      simp [numLog, noCommas, h44, hd] at *
      exact ih
    · simp [numLog, noCommas, hx] at *
      exact ih

theorem numLog_false (x : UInt8) (xs t : Bytes) (h : DigitsCommas (x :: xs)) (hd : isDigit x = true) (ht : PointOrEnd t) :
    numLog false (x :: (xs ++ t)) = (noCommas (x :: xs)).length := by
  have := numLog_true xs t (fun c hc => h c (by simp [hc])) ht
  have h44 : x ≠ 44 := by rintro rfl; revert hd; decide
  simp [numLog, hd, this, noCommas, h44]

theorem numLog_point (b : Bool) (t : Bytes) (ht : PointOrEnd t) : numLog b t = 0 := by
  rcases ht with rfl | ⟨f, rfl⟩
  · rfl
  · simp [numLog, isDigit]

theorem numPrefix_point (n : Nat) (t b : Bytes) (ht : PointOrEnd t) : numPrefix n t b = (t, b) := by
  rcases ht with rfl | ⟨f, rfl⟩
  · cases n <;> rfl
  · cases n with
    | zero => rfl
    | succ n => cases b with
      | nil => rfl
      | cons y ys => simp [numPrefix, isDigit]

theorem numPrefix_point_right (n : Nat) (a t : Bytes) (ht : PointOrEnd t) : numPrefix n a t = (a, t) := by
  rcases ht with rfl | ⟨f, rfl⟩
  · cases n <;> cases a <;> rfl
  · cases n with
    | zero => rfl
    | succ n => cases a with
      | nil => rfl
      | cons y ys =>
        simp only [numPrefix]
        rw [if_neg]
        rintro ⟨rfl, h⟩
        revert h; decide

theorem numDiff_nil_digit (y : UInt8) (ys t : Bytes) (ht : PointOrEnd t) (hd : isDigit y = true)
    (hp : 0 < numLog false (y :: ys)) : numDiff t (y :: ys) = .lt ∧ numDiff (y :: ys) t = .gt := by
  have h46 := digit_ne_dot hd
  rcases ht with rfl | ⟨f, rfl⟩
  · simp [numDiff, hd]
  · have h0 := numLog_point false (46 :: f) (Or.inr ⟨f, rfl⟩)
    simp only [numDiff, h46, and_false, false_and, if_false, h0]
    rw [if_pos (by omega), if_pos (by omega), Nat.compare_eq_lt.2 hp, Nat.compare_eq_gt.2 hp]
    exact ⟨rfl, rfl⟩

/-- The order of what follows the integer parts. -/
def tailCmp (t u : Bytes) : Ordering := numDiff t u

theorem numPrefix_main (n : Nat) (d e t u : Bytes) (hd : DigitsCommas d) (he : DigitsCommas e)
    (nd : NoComma d) (ne : NoComma e) (ht : PointOrEnd t) (hu : PointOrEnd u) (hn : d.length ≤ n) :
    numDiff (numPrefix n (d ++ t) (e ++ u)).1 (numPrefix n (d ++ t) (e ++ u)).2
      = (segCmp (noCommas d) (noCommas e)).then (numDiff t u) := by
  induction n generalizing d e with
  | zero =>
    have : d = [] := List.length_eq_zero_iff.1 (by omega)
    subst this
    cases e with
    | nil =>
      rw [List.nil_append, List.nil_append, numPrefix_point _ _ _ ht]
      rfl
    | cons y ys =>
      have hy := first_digit he ne
      have hl := numLog_false y ys u he hy hu
      have h44 : y ≠ 44 := by rintro rfl; revert hy; decide
      rw [List.nil_append, numPrefix_point _ _ _ ht]
      have := (numDiff_nil_digit y (ys ++ u) t ht hy (by rw [hl]; simp [noCommas, h44])).1
      simp only [List.cons_append, this]
      simp [noCommas, h44, segCmp, listCmp, Nat.compare_eq_lt.2]
  | succ n ih =>
    cases d with
    | nil =>
      cases e with
      | nil =>
        rw [List.nil_append, List.nil_append, numPrefix_point _ _ _ ht]
        rfl
      | cons y ys =>
        have hy := first_digit he ne
        have hl := numLog_false y ys u he hy hu
        have h44 : y ≠ 44 := by rintro rfl; revert hy; decide
        rw [List.nil_append, numPrefix_point _ _ _ ht]
        have := (numDiff_nil_digit y (ys ++ u) t ht hy (by rw [hl]; simp [noCommas, h44])).1
        simp only [List.cons_append, this]
        simp [noCommas, h44, segCmp, listCmp, Nat.compare_eq_lt.2]
    | cons x xs =>
      have hx := first_digit hd nd
      have hxl := numLog_false x xs t hd hx ht
      have hx44 : x ≠ 44 := by rintro rfl; revert hx; decide
      cases e with
      | nil =>
        rw [List.nil_append, numPrefix_point_right _ _ _ hu]
        have := (numDiff_nil_digit x (xs ++ t) u hu hx (by rw [hxl]; simp [noCommas, hx44])).2
        simp only [List.cons_append, this]
        simp [noCommas, hx44, segCmp, listCmp, Nat.compare_eq_gt.2]
      | cons y ys =>
        have hy := first_digit he ne
        have hyl := numLog_false y ys u he hy hu
        have hy44 : y ≠ 44 := by rintro rfl; revert hy; decide
        have cx : noCommas (x :: xs) = x :: noCommas xs := by simp [noCommas, hx44]
        have cy : noCommas (y :: ys) = y :: noCommas ys := by simp [noCommas, hy44]
        by_cases hxy : x = y
        · subst hxy
          simp only [List.cons_append, numPrefix, hx, and_self, if_true]
          unfold skipComma
          rw [dropWhile_append_point _ (by decide) xs t ht, dropWhile_append_point _ (by decide) ys u hu]
          have hxs : DigitsCommas xs := fun c hc => hd c (by simp [hc])
          have hys : DigitsCommas ys := fun c hc => he c (by simp [hc])
          have hlen := (List.dropWhile_suffix (l := xs) (fun c : UInt8 => c == 44)).length_le
          have := ih (skipComma xs) (skipComma ys) (dropWhile_sub _ hxs) (dropWhile_sub _ hys)
            (skipComma_noComma xs) (skipComma_noComma ys)
            (by unfold skipComma; simp only [List.length_cons] at hn; omega)
          rw [noCommas_skip, noCommas_skip] at this
          unfold skipComma at this
          rw [this, cx, cy]
          congr 1
          simp only [segCmp, List.length_cons, listCmp, preorder_byte.refl x, Ordering.then]
          congr 1
          simp [compare, compareOfLessAndEq]
        · simp only [List.cons_append, numPrefix, hxy, false_and, if_false, numDiff, digit_ne_dot hx]
          rw [hxl, hyl, cx, cy]
          simp only [segCmp, List.length_cons, listCmp]
          have hne : compare x y ≠ .eq := by
            intro hc
            rcases byte_cases x y with ⟨_, e⟩ | ⟨_, e⟩ | ⟨e, _⟩
            · rw [e] at hc; simp at hc
            · rw [e] at hc; simp at hc
            · exact hxy e
          by_cases hl : (noCommas xs).length + 1 = (noCommas ys).length + 1
          · rw [if_neg (by simpa using hl), if_neg (by omega), hl, Nat.compare_eq_eq.2 rfl]
            cases hc : compare x y <;> simp_all [Ordering.then]
          · rw [if_pos hl]
            have : compare ((noCommas xs).length + 1) ((noCommas ys).length + 1) ≠ .eq :=
              fun h => hl (Nat.compare_eq_eq.1 h)
            cases hc : compare ((noCommas xs).length + 1) ((noCommas ys).length + 1) <;> simp_all [Ordering.then]

theorem skipCommaZero_noLead (d : Bytes) : NoComma (skipCommaZero d) ∧ NoLead (noCommas (skipCommaZero d)) := by
  have h0 := List.head?_dropWhile_not (fun c : UInt8 => c == 48 || c == 44) d
  have hc : NoComma (skipCommaZero d) := by
    intro r h
    unfold skipCommaZero at h
    rw [h] at h0
    simp at h0
  refine ⟨hc, ?_⟩
  intro r h
  unfold skipCommaZero at *
  cases hd : d.dropWhile fun c => c == 48 || c == 44 with
  | nil => rw [hd] at h; simp [noCommas] at h
  | cons x xs =>
    rw [hd] at h h0
    simp only [List.head?_cons, Bool.not_eq_eq_eq_not, Bool.not_true, Bool.or_eq_false_iff, beq_eq_false_iff_ne] at h0
    simp only [noCommas, ne_eq, decide_not, List.filter_cons, h0.2, decide_false, Bool.not_false, if_true,
      List.cons.injEq] at h
    exact h0.1 h.1

theorem skipCommaZero_val (d : Bytes) : decVal (noCommas (skipCommaZero d)) = groupedVal d := by
  unfold groupedVal
  show _ = decVal (noCommas d)
  induction d with
  | nil => rfl
  | cons x xs ih =>
    unfold skipCommaZero at *
    simp only [List.dropWhile_cons]
    by_cases h48 : x = 48
    · subst h48
      simp only [beq_self_eq_true, Bool.true_or, if_true, ih]
      simp [noCommas, decVal]
    · by_cases h44 : x = 44
      · subst h44
        simp only [beq_self_eq_true, Bool.or_true, if_true, ih]
        simp [noCommas]
      · simp [h48, h44]

theorem numCmpUnsigned_eq (d e t u : Bytes) (hd : DigitsCommas d) (he : DigitsCommas e)
    (ht : PointOrEnd t) (hu : PointOrEnd u) :
    numCmpUnsigned (d ++ t) (e ++ u) = (compare (groupedVal d) (groupedVal e)).then (numDiff t u) := by
  have sd : skipCommaZero (d ++ t) = skipCommaZero d ++ t := dropWhile_append_point _ (by decide) d t ht
  have se : skipCommaZero (e ++ u) = skipCommaZero e ++ u := dropWhile_append_point _ (by decide) e u hu
  have h1 := skipCommaZero_noLead d
  have h2 := skipCommaZero_noLead e
  have hd' : DigitsCommas (skipCommaZero d) := dropWhile_sub _ hd
  have he' : DigitsCommas (skipCommaZero e) := dropWhile_sub _ he
  unfold numCmpUnsigned
  simp only [sd, se]
  rw [numPrefix_main _ _ _ _ _ hd' he' h1.1 h2.1 ht hu (by simp)]
  rw [seg_eq_val _ _ (noCommas_digits hd') (noCommas_digits he') h1.2 h2.2, skipCommaZero_val, skipCommaZero_val]

/-! ## Fractions -/

theorem fracPrefix_cmp (f g : Bytes) (hf : AllDigits f) (hg : AllDigits g) :
    fracCmp (46 :: f) (46 :: g) = listCmp compare f g := by
  unfold fracCmp
  simp only [List.tail_cons]
  induction f generalizing g with
  | nil =>
    cases g with
    | nil => rfl
    | cons y ys => simp [fracPrefix, listCmp, hg y]
  | cons x xs ih =>
    cases g with
    | nil => simp [fracPrefix, listCmp, hf x]
    | cons y ys =>
      have dx := hf x (by simp)
      have dy := hg y (by simp)
      by_cases hxy : x = y
      · subst hxy
        have := ih ys (fun c hc => hf c (by simp [hc])) (fun c hc => hg c (by simp [hc]))
        simp only [fracPrefix, dx, and_self, if_true, listCmp, preorder_byte.refl x, Ordering.then]
        exact this
      · simp only [fracPrefix, hxy, false_and, if_false, dx, dy, if_true, listCmp]
        have hne : compare x y ≠ .eq := by
          intro hc
          rcases byte_cases x y with ⟨_, e⟩ | ⟨_, e⟩ | ⟨e, _⟩
          · rw [e] at hc; simp at hc
          · rw [e] at hc; simp at hc
          · exact hxy e
        cases hc : compare x y <;> simp_all [Ordering.then]

theorem numDiff_frac (f g : Bytes) (hf : AllDigits f) (hg : AllDigits g) :
    numDiff (46 :: f) (46 :: g) = listCmp compare f g := by
  simp only [numDiff, and_self, if_true]
  exact fracPrefix_cmp f g hf hg

/-! ## Blanks and signs -/

theorem trimwStart_append (s r : Bytes) (hs : Blanks s) (hr : ∀ c r', r = c :: r' → 32 < c) :
    trimwStart (s ++ r) = r := by
  unfold trimwStart
  induction s with
  | nil =>
    cases r with
    | nil => rfl
    | cons c r' =>
      have := hr c r' rfl
      have : ¬ c ≤ 32 := by rw [UInt8.le_iff_toNat_le]; rw [UInt8.lt_iff_toNat_lt] at this; omega
      simp [List.dropWhile_cons, this]
  | cons x xs ih =>
    have hx := hs x (by simp)
    simp only [List.cons_append, List.dropWhile_cons, hx, decide_true, if_true]
    exact ih fun c hc => hs c (by simp [hc])

theorem takeMinus_text (neg : Bool) (d t : Bytes) (hd : DigitsCommas d) (ht : PointOrEnd t) :
    takeMinus ((if neg then [45] else []) ++ d ++ t) = (neg, d ++ t) := by
  cases neg
  · simp only [Bool.false_eq_true, if_false, List.nil_append]
    have : ∀ r, d ++ t ≠ 45 :: r := by
      intro r h
      cases d with
      | nil =>
        rcases ht with rfl | ⟨f, rfl⟩
        · simp at h
        · simp only [List.nil_append, List.cons.injEq] at h; exact absurd h.1 (by decide)
      | cons x xs =>
        simp only [List.cons_append, List.cons.injEq] at h
        have := hd x (by simp)
        rw [h.1] at this
        revert this; decide
    unfold takeMinus
    split
    · rename_i r heq; exact absurd heq (this r)
    · rfl
  · rfl

theorem trimw_text (s : Bytes) (neg : Bool) (d t : Bytes) (hs : Blanks s) (hd : DigitsCommas d) (ht : PointOrEnd t) :
    takeMinus (trimwStart (s ++ (if neg then [45] else []) ++ d ++ t)) = (neg, d ++ t) := by
  have e : s ++ (if neg then [45] else []) ++ d ++ t = s ++ ((if neg then [45] else []) ++ d ++ t) := by
    simp [List.append_assoc]
  rw [e, trimwStart_append s _ hs, takeMinus_text neg d t hd ht]
  intro c r' h
  cases neg
  · simp only [Bool.false_eq_true, if_false, List.nil_append] at h
    cases d with
    | nil =>
      rcases ht with rfl | ⟨f, rfl⟩
      · simp at h
      · simp only [List.nil_append, List.cons.injEq] at h; rw [← h.1]; decide
    | cons x xs =>
      simp only [List.cons_append, List.cons.injEq] at h
      rw [← h.1]
      rcases hd x (by simp) with hx | hx
      · have h48 := hx.1
        rw [UInt8.le_iff_toNat_le] at h48
        rw [UInt8.lt_iff_toNat_lt]
        have e : (48 : UInt8).toNat = 48 := rfl
        have e' : (32 : UInt8).toNat = 32 := rfl
        omega
      · rw [hx]; decide
  · simp only [if_true, List.cons_append, List.nil_append, List.cons.injEq] at h
    rw [← h.1]; decide

theorem numCmpSigned_eq (s s' : Bytes) (n m : Bool) (d e t u : Bytes) (hs : Blanks s) (hs' : Blanks s')
    (hd : DigitsCommas d) (he : DigitsCommas e) (ht : PointOrEnd t) (hu : PointOrEnd u) :
    numCmpSigned (s ++ (if n then [45] else []) ++ d ++ t) (s' ++ (if m then [45] else []) ++ e ++ u)
      = if n then (if m then (compare (groupedVal e) (groupedVal d)).then (numDiff u t) else .lt)
        else if m then .gt else (compare (groupedVal d) (groupedVal e)).then (numDiff t u) := by
  unfold numCmpSigned
  simp only [trimw_text s n d t hs hd ht, trimw_text s' m e u hs' he hu,
    numCmpUnsigned_eq d e t u hd he ht hu, numCmpUnsigned_eq e d u t he hd hu ht]

end Cdx
