import Verif.Model.Insens

/-!
# C105: comparing strings without case

The order should be that of the strings in lower case. Because lengths are taken before lowering and a character may change its length,
neither the order nor the equality is even transitive; for texts whose characters keep their length both are as they should be.
-/

namespace Cdx

/-- What any table of lower case letters says of ASCII and of the Kelvin sign. -/
def LowerTable (low : Nat → Chars) : Prop :=
  low 0x212A = [0x6B] ∧ ∀ c, c < 128 → low c = [if 65 ≤ c ∧ c ≤ 90 then c + 32 else c]

/-- Order of lists of numbers, from the first difference. -/
def charCmp : Chars → Chars → Ordering
  | [], [] => .eq
  | [], _ :: _ => .lt
  | _ :: _, [] => .gt
  | x :: xs, y :: ys => if x < y then .lt else if y < x then .gt else charCmp xs ys

/-- Every character keeps its length, as a single character, in lower case. -/
def KeepsLength (low : Nat → Chars) (s : Chars) : Prop := ∀ c ∈ s, ∃ d, low c = [d] ∧ utf8Len d = utf8Len c

/-- Full statement: strings are compared by their lower case. -/
def C105_statement : Prop := ∀ low, LowerTable low → ∀ a b,
  strCmpInsens low a b = charCmp (a.flatMap low) (b.flatMap low) ∧ (strEqualInsens low a b = true ↔ a.flatMap low = b.flatMap low)

theorem utf8Len_pos (c : Nat) : 0 < utf8Len c := by
  unfold utf8Len; split
  · omega
  · split
    · omega
    · split <;> omega

theorem strLen_lower (low : Nat → Chars) (a : Chars) (h : KeepsLength low a) : strLen a = strLen (a.flatMap low) := by
  induction a with
  | nil => rfl
  | cons c cs ih =>
    obtain ⟨d, hd, hl⟩ := h c (by simp)
    have := ih fun x hx => h x (by simp [hx])
    simp only [List.flatMap_cons, hd, strLen, List.map_cons, List.sum_cons, List.cons_append, List.nil_append] at this ⊢
    omega

theorem charCmp_zip (a b : Chars) (n : Nat) : (match strCmpLoop (a.zip b) with
    | some o => o
    | none => compare (n + strLen a) (n + strLen b)) = charCmp a b := by
  induction a generalizing b n with
  | nil =>
    cases b with
    | nil => simp [strCmpLoop, charCmp, strLen]
    | cons y ys =>
      simp only [List.zip_nil_left, strCmpLoop, charCmp]
      have := utf8Len_pos y
      rw [Nat.compare_eq_lt]
      simp [strLen]; omega
  | cons x xs ih =>
    cases b with
    | nil =>
      simp only [List.zip_nil_right, strCmpLoop, charCmp]
      have := utf8Len_pos x
      rw [Nat.compare_eq_gt]
      simp [strLen]; omega
    | cons y ys =>
      simp only [List.zip_cons_cons, strCmpLoop, charCmp]
      by_cases h1 : x < y
      · simp [h1]
      · by_cases h2 : y < x
        · simp [h1, h2]
        · have e : x = y := by omega
          subst e
          simp only [h1, if_false, gt_iff_lt]
          have := ih ys (n + utf8Len x)
          rw [← this]
          simp [strLen, Nat.add_assoc]

theorem strEqLoop_cmp (l : List (Nat × Nat)) : strEqLoop l = true ↔ strCmpLoop l = none := by
  induction l with
  | nil => simp [strEqLoop, strCmpLoop]
  | cons c cs ih =>
    simp only [strEqLoop, strCmpLoop]
    by_cases h : c.1 = c.2
    · simp [h, ih]
    · by_cases h1 : c.1 < c.2
      · simp [h, h1]
      · have : c.2 < c.1 := by omega
        simp [h, h1, this]

theorem charCmp_eq (a b : Chars) : charCmp a b = .eq ↔ a = b := by
  induction a generalizing b with
  | nil => cases b <;> simp [charCmp]
  | cons x xs ih =>
    cases b with
    | nil => simp [charCmp]
    | cons y ys =>
      simp only [charCmp, List.cons.injEq]
      by_cases h1 : x < y
      · simp [h1]; omega
      · by_cases h2 : y < x
        · simp [h1, h2]; omega
        · have : x = y := by omega
          simp [this, ih]

/-- Equality and order agree, whatever lower case is. -/
theorem C105_equal_iff (low : Nat → Chars) (a b : Chars) : strEqualInsens low a b = true ↔ strCmpInsens low a b = .eq := by
  unfold strEqualInsens strCmpInsens
  by_cases h : strEqLoop ((a.flatMap low).zip (b.flatMap low)) = true
  · rw [if_pos h, (strEqLoop_cmp _).1 h]
    simp [Nat.compare_eq_eq]
  · rw [if_neg h]
    cases hc : strCmpLoop ((a.flatMap low).zip (b.flatMap low)) with
    | none => exact absurd ((strEqLoop_cmp _).2 hc) h
    | some o =>
      have : ∀ l, strCmpLoop l ≠ some .eq := by
        intro l
        induction l with
        | nil => simp [strCmpLoop]
        | cons c cs ih =>
          simp only [strCmpLoop]
          by_cases h1 : c.1 < c.2
          · simp [h1]
          · by_cases h2 : c.2 < c.1 <;> simp [h1, h2, ih]
      have := this ((a.flatMap low).zip (b.flatMap low))
      rw [hc] at this
      simp only [Bool.false_eq_true, false_iff]
      intro e
      exact this (by rw [e])

/-- Where characters keep their length, the order is that of the strings in lower case. -/
theorem C105_cmp_partial (low : Nat → Chars) (a b : Chars) (ha : KeepsLength low a) (hb : KeepsLength low b) :
    strCmpInsens low a b = charCmp (a.flatMap low) (b.flatMap low) ∧ (strEqualInsens low a b = true ↔ a.flatMap low = b.flatMap low) := by
  have h : strCmpInsens low a b = charCmp (a.flatMap low) (b.flatMap low) := by
    rw [← charCmp_zip _ _ 0]
    unfold strCmpInsens
    rw [strLen_lower low a ha, strLen_lower low b hb]
    simp only [Nat.zero_add]
    cases strCmpLoop ((a.flatMap low).zip (b.flatMap low)) <;> rfl
  exact ⟨h, by rw [C105_equal_iff, h, charCmp_eq]⟩

/-- ASCII texts keep their length. -/
theorem C105_ascii (low : Nat → Chars) (h : LowerTable low) (a : Chars) (ha : ∀ c ∈ a, c < 128) : KeepsLength low a := by
  intro c hc
  have := ha c hc
  refine ⟨_, h.2 c this, ?_⟩
  have e : ∀ x, x < 128 → utf8Len x = 1 := by intro x hx; unfold utf8Len; rw [if_pos (by omega)]
  rw [e c this, e]
  split <;> omega

theorem strCmpLoop_swap (a b : Chars) : strCmpLoop (b.zip a) = (strCmpLoop (a.zip b)).map Ordering.swap := by
  induction a generalizing b with
  | nil => cases b <;> rfl
  | cons x xs ih =>
    cases b with
    | nil => rfl
    | cons y ys =>
      simp only [List.zip_cons_cons, strCmpLoop]
      by_cases h1 : x < y
      · have : ¬ y < x := by omega
        simp [h1, this]
      · by_cases h2 : y < x
        · simp [h1, h2]
        · simp [h1, h2, ih]

/-- Whatever lower case is, changing the sides changes the answer. -/
theorem C105_swap (low : Nat → Chars) (a b : Chars) : strCmpInsens low b a = (strCmpInsens low a b).swap := by
  unfold strCmpInsens
  rw [strCmpLoop_swap]
  cases strCmpLoop ((a.flatMap low).zip (b.flatMap low)) with
  | some o => rfl
  | none => exact (Nat.compare_swap _ _).symm

/-- "kz" is before the Kelvin sign, which is before "kaaa", but "kz" is after "kaaa". -/
theorem C105_refuted_order (low : Nat → Chars) (h : LowerTable low) :
    strCmpInsens low [107, 122] [0x212A] = .lt ∧ strCmpInsens low [0x212A] [107, 97, 97, 97] = .lt ∧
      strCmpInsens low [107, 122] [107, 97, 97, 97] = .gt := by
  have h1 := h.1
  have k := h.2 107 (by decide)
  have z := h.2 122 (by decide)
  have a := h.2 97 (by decide)
  simp only [strCmpInsens, List.flatMap_cons, List.flatMap_nil, h1, k, z, a]
  decide

/-- The Kelvin sign is equal to "kaa" and to "kbb". -/
theorem C105_refuted_equal (low : Nat → Chars) (h : LowerTable low) :
    strEqualInsens low [0x212A] [107, 97, 97] = true ∧ strEqualInsens low [0x212A] [107, 98, 98] = true ∧
      strEqualInsens low [107, 97, 97] [107, 98, 98] = false ∧ strEqualInsens low [0x212A] [107] = false := by
  have h1 := h.1
  have k := h.2 107 (by decide)
  have b := h.2 98 (by decide)
  have a := h.2 97 (by decide)
  simp only [strEqualInsens, List.flatMap_cons, List.flatMap_nil, h1, k, b, a]
  decide

/-- A table. -/
def smallTable (c : Nat) : Chars := if c = 0x212A then [0x6B] else [if 65 ≤ c ∧ c ≤ 90 then c + 32 else c]

theorem smallTable_ok : LowerTable smallTable := by
  refine ⟨rfl, fun c hc => ?_⟩
  have : c ≠ 0x212A := by omega
  simp [smallTable, this]

theorem C105_refuted : ¬ C105_statement := by
  intro h
  have h1 := (h smallTable smallTable_ok [0x212A] [107]).2.2 (by decide)
  rw [(C105_refuted_equal smallTable smallTable_ok).2.2.2] at h1
  exact absurd h1 (by decide)

example : KeepsLength smallTable [75, 122] ∧ strCmpInsens smallTable [75, 122] [107, 65] = .gt :=
  ⟨C105_ascii _ smallTable_ok _ (by decide), by decide⟩

end Cdx
