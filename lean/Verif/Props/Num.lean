import Verif.Model.Num
import Verif.Props.ColumnOut
import Verif.Props.Column

/-!
C99: the short format. C100: integers are printed exactly, or rounded to the wanted precision. C101: formats with powers.
-/

namespace Cdx

/-! ## Texts of numbers -/

/-- A point and the digits after it, if there are any. -/
def point (f : Bytes) : Bytes := if f = [] then [] else 46 :: f

/-- The text means the number: either `12.00`, or `1.2e1`, where the exponent is not larger than needed. -/
inductive NumText : Bytes → Nat → Prop
  | plain {i f : Bytes} {n : Nat} : i ≠ [] → (∀ c ∈ i ++ f, Digit c) → decVal (i ++ f) = n * 10 ^ f.length → NumText (i ++ point f) n
  | sci {d : UInt8} {f : Bytes} {e n : Nat} : (∀ c ∈ d :: f, Digit c) → decVal (d :: f) * 10 ^ e = n * 10 ^ f.length →
      (e = 0 ∨ 10 ^ e ≤ n) → NumText (d :: (point f ++ 101 :: decText e)) n

/-- The same with a sign. -/
def SignedText (t : Bytes) (n : Int) : Prop := (0 ≤ n ∧ NumText t n.natAbs) ∨ (n < 0 ∧ ∃ b, t = 45 :: b ∧ NumText b n.natAbs)

theorem decVal_append (a b : Bytes) : decVal (a ++ b) = decVal a * 10 ^ b.length + decVal b := by
  induction a with
  | nil => simp [decVal]
  | cons x a ih =>
    simp only [List.cons_append, decVal, ih, List.length_append, Nat.pow_add, Nat.add_mul, Nat.mul_assoc, Nat.add_assoc]

theorem decVal_nulls (k : Nat) : decVal (List.replicate k 48) = 0 := by
  induction k with
  | zero => rfl
  | succ k ih => simp [List.replicate_succ, decVal, ih]

theorem digit_zero : Digit 48 := by unfold Digit; decide

theorem digits_zeros (k : Nat) : ∀ c ∈ List.replicate k (48 : UInt8), Digit c := by
  intro c hc
  rw [(List.mem_replicate.1 hc).2]
  exact digit_zero

theorem noTrailing_eq (t : Bytes) : ∃ k, t = noTrailing t ++ List.replicate k 48 := by
  unfold noTrailing
  have key : ∀ r : Bytes, ∃ k, r = List.replicate k 48 ++ r.dropWhile (· == 48) := by
    intro r
    induction r with
    | nil => exact ⟨0, rfl⟩
    | cons x r ih =>
      by_cases h : x = 48
      · obtain ⟨k, hk⟩ := ih
        refine ⟨k + 1, ?_⟩
        subst h
        rw [List.dropWhile_cons_of_pos (by rfl), List.replicate_succ, List.cons_append, ← hk]
      · refine ⟨0, ?_⟩
        rw [List.dropWhile_cons_of_neg (by simpa using h)]
        rfl
  obtain ⟨k, hk⟩ := key t.reverse
  refine ⟨k, ?_⟩
  have := congrArg List.reverse hk
  rw [List.reverse_append, List.reverse_reverse, List.reverse_replicate] at this
  exact this

theorem decRev_length (fuel n : Nat) (h : n < fuel) :
    ∃ e, (decRev fuel n).length = e + 1 ∧ (n = 0 ∨ 10 ^ e ≤ n) ∧ n < 10 ^ (e + 1) := by
  induction fuel generalizing n with
  | zero => omega
  | succ fuel ih =>
    simp only [decRev]
    by_cases h0 : n / 10 = 0
    · rw [if_pos h0]
      exact ⟨0, rfl, by omega, by omega⟩
    · rw [if_neg h0]
      obtain ⟨e, h1, h2, h3⟩ := ih (n / 10) (by omega)
      refine ⟨e + 1, by simp [h1], Or.inr ?_, ?_⟩
      · rcases h2 with h2 | h2
        · omega
        · rw [Nat.pow_succ]; omega
      · rw [Nat.pow_succ]; omega

theorem decText_length (n : Nat) : ∃ e, (decText n).length = e + 1 ∧ (n = 0 ∨ 10 ^ e ≤ n) ∧ n < 10 ^ (e + 1) := by
  unfold decText
  rw [List.length_reverse]
  exact decRev_length (n + 1) n (by omega)

theorem decText_length_eq {n e : Nat} (h1 : 10 ^ e ≤ n) (h2 : n < 10 ^ (e + 1)) : (decText n).length = e + 1 := by
  obtain ⟨k, h3, h4, h5⟩ := decText_length n
  have h4 : 10 ^ k ≤ n := by
    rcases h4 with rfl | h4
    · exact absurd h1 (Nat.not_le.2 (Nat.pow_pos (by decide)))
    · exact h4
  have a : k < e + 1 := (Nat.pow_lt_pow_iff_right (by decide : 1 < 10)).1 (Nat.lt_of_le_of_lt h4 h2)
  have b : e < k + 1 := (Nat.pow_lt_pow_iff_right (by decide : 1 < 10)).1 (Nat.lt_of_le_of_lt h1 h5)
  omega

theorem divRound_near {a b : Nat} (h : 0 < b) : 2 * a ≤ 2 * (divRound a b * b) + b ∧ 2 * (divRound a b * b) ≤ 2 * a + b := by
  have e := Nat.div_add_mod a b
  have l := Nat.mod_lt a h
  unfold divRound
  rw [Nat.mul_comm] at e
  split
  · rename_i hc
    rw [Nat.add_mul]
    omega
  · rename_i hc
    omega

theorem sciText_means {t : Bytes} {e n : Nat} (h1 : t ≠ []) (h2 : ∀ c ∈ t, Digit c) (h3 : decVal t * 10 ^ e = n * 10 ^ (t.length - 1))
    (h4 : e = 0 ∨ 10 ^ e ≤ n) : NumText (sciText t e) n := by
  cases t with
  | nil => exact absurd rfl h1
  | cons d f =>
    have : sciText (d :: f) e = d :: (point f ++ 101 :: decText e) := by
      unfold sciText point
      by_cases hf : f = []
      · simp [hf]
      · simp [hf]
    rw [this]
    exact .sci h2 h3 h4

theorem floatText_none (n : Nat) : NumText (floatText n none) n := by
  unfold floatText
  simp only
  split
  · rename_i h
    subst h
    exact sciText_means (by simp) (by simpa using digit_zero) (by simp [decVal]) (Or.inl rfl)
  · rename_i h
    obtain ⟨k, hk⟩ := noTrailing_eq (decText n)
    have hv := decVal_decText n
    have hsize : (decText n).length - 1 = 0 ∨ 10 ^ ((decText n).length - 1) ≤ n := by
      obtain ⟨e, h1, h2, _⟩ := decText_length n
      rw [h1, Nat.add_sub_cancel]
      exact Or.inr (h2.resolve_left h)
    have hd := decText_digits n
    generalize noTrailing (decText n) = u at *
    rw [hk] at hv hd
    rw [decVal_append, decVal_nulls, List.length_replicate] at hv
    have hne : u ≠ [] := by
      rintro rfl
      simp [decVal] at hv
      omega
    refine sciText_means hne ?_ ?_ hsize
    · intro c hc
      exact hd c (by simp [hc])
    · rw [hk, List.length_append, List.length_replicate, ← hv]
      have := List.length_pos_iff.2 hne
      rw [show u.length + k - 1 = k + (u.length - 1) by omega, Nat.pow_add]
      simp [Nat.mul_assoc]

/-- With a precision the number is rounded. -/
theorem floatText_some (n p : Nat) : ∃ m, NumText (floatText n (some p)) m ∧
    2 * 10 ^ p * m ≤ 2 * 10 ^ p * n + n ∧ 2 * 10 ^ p * n ≤ 2 * 10 ^ p * m + n := by
  obtain ⟨e, h1, h2, h3⟩ := decText_length n
  unfold floatText
  simp only
  rw [h1, Nat.add_sub_cancel]
  split
  · rename_i hp
    refine ⟨n, sciText_means (by simp [decText_ne_nil]) ?_ ?_ ?_, by omega, by omega⟩
    · intro c hc
      rcases List.mem_append.1 hc with hc | hc
      · exact decText_digits n c hc
      · exact digits_zeros _ c hc
    · rw [decVal_append, decVal_nulls, decVal_decText, List.length_replicate, List.length_append, h1, List.length_replicate,
        Nat.add_zero, Nat.mul_assoc, ← Nat.pow_add]
      congr 2
      omega
    · rcases h2 with rfl | h2
      · left
        simp [decText, decRev] at h1
        omega
      · exact Or.inr h2
  · rename_i hp
    have h2 : 10 ^ e ≤ n := by
      rcases h2 with rfl | h2
      · exfalso
        simp [decText, decRev] at h1
        omega
      · exact h2
    have hs : 10 ^ e = 10 ^ p * 10 ^ (e - p) := by rw [← Nat.pow_add]; congr 1; omega
    have hs1 : 10 ^ (e + 1) = 10 ^ (p + 1) * 10 ^ (e - p) := by rw [← Nat.pow_add]; congr 1; omega
    have hb : 0 < 10 ^ (e - p) := Nat.pow_pos (by decide)
    obtain ⟨n1, n2⟩ := divRound_near (a := n) hb
    have hq1 : 10 ^ p ≤ divRound n (10 ^ (e - p)) := by
      unfold divRound
      have : 10 ^ p ≤ n / 10 ^ (e - p) := (Nat.le_div_iff_mul_le hb).2 (by rw [← hs]; exact h2)
      split <;> omega
    have hq2 : divRound n (10 ^ (e - p)) ≤ 10 ^ (p + 1) := by
      unfold divRound
      have : n / 10 ^ (e - p) < 10 ^ (p + 1) := (Nat.div_lt_iff_lt_mul hb).2 (by rw [← hs1]; exact h3)
      split <;> omega
    have hle : 10 ^ p * 10 ^ (e - p) ≤ n := hs ▸ h2
    generalize divRound n (10 ^ (e - p)) = q at *
    refine ⟨q * 10 ^ (e - p), ?_, ?_, ?_⟩
    · split
      · rename_i hq
        refine sciText_means (decText_ne_nil _) (decText_digits _) ?_ (Or.inr (by rw [hq, hs1]; exact Nat.le_refl _))
        rw [decVal_decText, hq, decText_length_eq (Nat.le_refl (10 ^ p)) (by rw [Nat.pow_succ]; have := Nat.pow_pos (n := p) (show 0 < 10 by decide); omega),
          Nat.add_sub_cancel, ← Nat.pow_add, ← Nat.pow_add, ← Nat.pow_add]
        congr 1
        omega
      · rename_i hq
        refine sciText_means (decText_ne_nil _) (decText_digits _) ?_ (Or.inr (by rw [hs]; exact Nat.mul_le_mul_right _ hq1))
        rw [decVal_decText, decText_length_eq hq1 (by omega), Nat.add_sub_cancel, Nat.mul_assoc, ← Nat.pow_add]
        congr 2
        omega
    · have := Nat.mul_le_mul_left (10 ^ p) n2
      generalize hx : 10 ^ (e - p) = x at *
      have e1 : 10 ^ p * (2 * (q * x)) = 2 * 10 ^ p * (q * x) := by rw [Nat.mul_left_comm, Nat.mul_assoc]
      have e2 : 10 ^ p * (2 * n + x) = 2 * 10 ^ p * n + 10 ^ p * x := by rw [Nat.mul_add, Nat.mul_left_comm, Nat.mul_assoc]
      omega
    · have := Nat.mul_le_mul_left (10 ^ p) n1
      generalize hx : 10 ^ (e - p) = x at *
      have e1 : 10 ^ p * (2 * n) = 2 * 10 ^ p * n := by rw [Nat.mul_left_comm, Nat.mul_assoc]
      have e2 : 10 ^ p * (2 * (q * x) + x) = 2 * 10 ^ p * (q * x) + 10 ^ p * x := by rw [Nat.mul_add, Nat.mul_left_comm, Nat.mul_assoc]
      omega

theorem plainText_means (n : Nat) (p : Option Nat) : NumText (plainText n p) n := by
  have h0 : NumText (decText n ++ point []) n := .plain (decText_ne_nil n)
    (by simpa using decText_digits n) (by simp [decVal_decText])
  rw [show point [] = [] from rfl, List.append_nil] at h0
  cases p with
  | none => exact h0
  | some p =>
    unfold plainText
    simp only
    split
    · rename_i hp
      rw [List.append_nil]
      exact h0
    · rename_i hp
      have hne : List.replicate p (48 : UInt8) ≠ [] := by simpa using hp
      have : (46 :: List.replicate p 48 : Bytes) = point (List.replicate p 48) := by unfold point; rw [if_neg hne]
      rw [this]
      refine .plain (decText_ne_nil n) ?_ ?_
      · intro c hc
        rcases List.mem_append.1 hc with hc | hc
        · exact decText_digits n c hc
        · exact digits_zeros _ c hc
      · rw [decVal_append, decVal_nulls, decVal_decText]
        simp

/-- The precision asked for, if the format is not one with powers. -/
def NumFormat.prec? : NumFormat → Option (Option Nat)
  | .short p => some p
  | .plain p => some p
  | .float p => some p
  | _ => none

/-- C100: an integer is printed exactly, or, if a precision is given, with a relative error of half a unit of the last digit. -/
theorem C100_integers (f : NumFormat) (p : Option Nat) (hf : f.prec? = some p) (num : Int) :
    ∃ (t : Bytes) (m : Int), f.print num = some t ∧ SignedText t m ∧ (p = none → m = num) ∧
      ∀ k, p = some k → 2 * 10 ^ k * (m - num).natAbs ≤ num.natAbs := by
  have main : ∀ g, f.newFormat num.natAbs = g → (g = .plain p ∨ g = .float p) →
      ∃ (t : Bytes) (m : Nat), f.print num = some ((if num < 0 then [45] else []) ++ t) ∧ NumText t m ∧ (p = none → m = num.natAbs) ∧
        (∀ k, p = some k → 2 * 10 ^ k * m ≤ 2 * 10 ^ k * num.natAbs + num.natAbs ∧ 2 * 10 ^ k * num.natAbs ≤ 2 * 10 ^ k * m + num.natAbs) := by
    intro g hg hcase
    rcases hcase with rfl | rfl
    · refine ⟨plainText num.natAbs p, num.natAbs, ?_, plainText_means _ _, fun _ => rfl, fun k _ => ⟨by omega, by omega⟩⟩
      unfold NumFormat.print
      simp only [hg]
    · cases p with
      | none =>
        refine ⟨floatText num.natAbs none, num.natAbs, ?_, floatText_none _, fun _ => rfl, fun k h => by cases h⟩
        unfold NumFormat.print
        simp only [hg]
      | some k =>
        obtain ⟨m, h1, h2, h3⟩ := floatText_some num.natAbs k
        refine ⟨floatText num.natAbs (some k), m, ?_, h1, (fun h => by cases h), fun j hj => (by cases hj; exact ⟨h2, h3⟩)⟩
        unfold NumFormat.print
        simp only [hg]
  have hg : f.newFormat num.natAbs = .plain p ∨ f.newFormat num.natAbs = .float p := by
    cases f with
    | short q =>
      simp only [NumFormat.prec?, Option.some.injEq] at hf
      subst hf
      unfold NumFormat.newFormat
      simp only
      split
      · exact Or.inl rfl
      · exact Or.inr rfl
    | plain q => simp only [NumFormat.prec?, Option.some.injEq] at hf; subst hf; exact Or.inl rfl
    | float q => simp only [NumFormat.prec?, Option.some.injEq] at hf; subst hf; exact Or.inr rfl
    | power2 => simp [NumFormat.prec?] at hf
    | power10 => simp [NumFormat.prec?] at hf
  obtain ⟨t, m, h1, h2, h3, h4⟩ := main _ rfl hg
  by_cases hn : num < 0
  · have hm : 0 < m := by
      cases p with
      | none => have := h3 rfl; omega
      | some k =>
        have := (h4 k rfl).2
        have hpos : 0 < 10 ^ k := Nat.pow_pos (by decide)
        rcases Nat.eq_zero_or_pos m with rfl | h
        · exfalso
          have : 2 * num.natAbs ≤ 2 * 10 ^ k * num.natAbs := Nat.mul_le_mul_right _ (by omega)
          omega
        · exact h
    refine ⟨_, -(m : Int), h1, Or.inr ⟨by omega, t, by simp [hn], ?_⟩, fun hp => ?_, fun k hk => ?_⟩
    · have : (-(m : Int)).natAbs = m := by omega
      rwa [this]
    · have := h3 hp; omega
    · obtain ⟨a, b⟩ := h4 k hk
      rcases Nat.le_total m num.natAbs with hle | hle
      · have : (-(m : Int) - num).natAbs = num.natAbs - m := by omega
        rw [this, Nat.mul_sub]
        omega
      · have : (-(m : Int) - num).natAbs = m - num.natAbs := by omega
        rw [this, Nat.mul_sub]
        omega
  · refine ⟨_, m, h1, Or.inl ⟨by omega, ?_⟩, fun hp => ?_, fun k hk => ?_⟩
    · simp only [hn, if_false, List.nil_append]
      exact h2
    · have := h3 hp; omega
    · obtain ⟨a, b⟩ := h4 k hk
      rcases Nat.le_total m num.natAbs with hle | hle
      · have : ((m : Int) - num).natAbs = num.natAbs - m := by omega
        rw [this, Nat.mul_sub]
        omega
      · have : ((m : Int) - num).natAbs = m - num.natAbs := by omega
        rw [this, Nat.mul_sub]
        omega

example : NumFormat.default.print 1234567 = some (ascii "1.234567e6") := by decide +kernel
example : (NumFormat.float (some 2)).print (-1999) = some (ascii "-2.00e3") := by decide +kernel

/-! ## Powers -/

/-- The letter is a suffix with this value. -/
abbrev SuffixOf (c : UInt8) (v : Nat) : Prop := c ≠ 48 ∧ suffixValF c = some v

/-- A number with at most one digit after the point and a suffix; the value of the suffix is what the reader of numbers takes. -/
inductive PowerText : Bytes → (tenths v : Nat) → Prop
  | whole {a v : Nat} {c : UInt8} : SuffixOf c v → PowerText (decText a ++ [c]) (10 * a) v
  | tenths {a d v : Nat} {c : UInt8} : d < 10 → SuffixOf c v → PowerText (decText a ++ 46 :: (decText d ++ [c])) (10 * a + d) v

theorem tenthsText_means {q v : Nat} {c : UInt8} (h : SuffixOf c v) : PowerText (tenthsText q ++ [c]) q v := by
  unfold tenthsText
  rw [List.append_assoc, List.cons_append]
  have := PowerText.tenths (a := q / 10) (d := q % 10) (by omega) h
  rwa [Nat.div_add_mod] at this

/-- What the number says is within a tenth of the number. -/
def PowerNear (n : Nat) (t : Bytes) : Prop := ∃ q v, PowerText t q v ∧ q * v ≤ 10 * n + n ∧ 10 * n ≤ q * v + n

theorem powerLoop_near (letters : Bytes) (base n : Nat) (hb : base = 1000 ∨ base = 1024)
    (hl : ∀ k, 1 ≤ k → k ≤ 8 → ∃ c, letters[k]? = some c ∧ SuffixOf c (base ^ k)) :
    ∀ left expNum, left + expNum = 8 → 1 ≤ left → (expNum = 0 → 999 ≤ n) → (1 ≤ expNum → 999 * base ^ expNum ≤ n * base) →
      ∃ t, powerLoop letters base n left expNum (base ^ expNum) = some t ∧ PowerNear n t := by
  intro left
  induction left with
  | zero => intro e h1 h2; omega
  | succ left ih =>
    intro e h1 _ h3 h4
    rw [powerLoop]
    have hpos : 0 < base ^ e := Nat.pow_pos (by omega)
    by_cases hn : n < 999 * base ^ e
    · rw [if_pos hn]
      have he : 1 ≤ e := by
        rcases Nat.eq_zero_or_pos e with rfl | h
        · have := h3 rfl
          simp at hn
          omega
        · exact h
      have h4 := h4 he
      obtain ⟨c, hc, hv⟩ := hl e he (by omega)
      rw [hc]
      simp only [Option.map_some]
      refine ⟨_, rfl, ?_⟩
      generalize base ^ e = x at *
      by_cases g1 : n ≥ 10 * x
      · rw [if_pos g1]
        obtain ⟨n1, n2⟩ := divRound_near (a := n) hpos
        generalize divRound n x = q at *
        exact ⟨10 * q, x, .whole hv, by rw [Nat.mul_assoc]; omega, by rw [Nat.mul_assoc]; omega⟩
      · rw [if_neg g1]
        by_cases g2 : 10 * n ≥ 11 * x
        · rw [if_pos g2]
          obtain ⟨n1, n2⟩ := divRound_near (a := 10 * n) hpos
          generalize divRound (10 * n) x = q at *
          exact ⟨q, x, tenthsText_means hv, by omega, by omega⟩
        · rw [if_neg g2]
          refine ⟨10 * 1, x, PowerText.whole (a := 1) hv, ?_, by omega⟩
          rcases hb with rfl | rfl <;> omega
    · rw [if_neg hn]
      by_cases he : e + 1 ≥ 8
      · rw [if_pos he]
        have he : e = 7 := by omega
        obtain ⟨c, hc, hv⟩ := hl 8 (by omega) (by omega)
        rw [hc]
        simp only [Option.map_some]
        refine ⟨_, rfl, ?_⟩
        subst he
        rw [Nat.pow_succ] at hv
        have hp2 : 0 < base ^ 7 * base := Nat.mul_pos hpos (by omega)
        obtain ⟨n1, n2⟩ := divRound_near (a := 10 * n) hp2
        generalize divRound (10 * n) (base ^ 7 * base) = q at *
        refine ⟨q, _, tenthsText_means hv, ?_, ?_⟩
        · generalize base ^ 7 = y at *
          rcases hb with rfl | rfl <;> omega
        · generalize base ^ 7 = y at *
          rcases hb with rfl | rfl <;> omega
      · rw [if_neg he, ← Nat.pow_succ]
        refine ih (e + 1) (by omega) (by omega) (by omega) fun _ => ?_
        rw [Nat.pow_succ, ← Nat.mul_assoc]
        exact Nat.mul_le_mul_right _ (by omega)

theorem p2_letters : ∀ k, 1 ≤ k → k ≤ 8 → ∃ c, p2Letters[k]? = some c ∧ SuffixOf c (1024 ^ k) := by
  have : ∀ k : Fin 9, 1 ≤ k.val → ∃ c, p2Letters[k.val]? = some c ∧ SuffixOf c (1024 ^ k.val) := by
    intro k hk
    have h : p2Letters[k.val]? = some (p2Letters[k.val]?.getD 0) := by revert k; decide
    exact ⟨_, h, by revert k; decide⟩
  intro k h1 h2
  exact this ⟨k, by omega⟩ h1

theorem p10_letters : ∀ k, 1 ≤ k → k ≤ 8 → ∃ c, p10Letters[k]? = some c ∧ SuffixOf c (1000 ^ k) := by
  have : ∀ k : Fin 9, 1 ≤ k.val → ∃ c, p10Letters[k.val]? = some c ∧ SuffixOf c (1000 ^ k.val) := by
    intro k hk
    have h : p10Letters[k.val]? = some (p10Letters[k.val]?.getD 0) := by revert k; decide
    exact ⟨_, h, by revert k; decide⟩
  intro k h1 h2
  exact this ⟨k, by omega⟩ h1

/-- C101: a number below 1000 is printed as it is, a greater one such that its text is read as a number within a tenth of it. -/
theorem C101_powers (f : NumFormat) (hf : f = .power2 ∨ f = .power10) (num : Int) :
    ∃ t, f.print num = some ((if num < 0 then [45] else []) ++ t) ∧
      (num.natAbs < 1000 → t = decText num.natAbs) ∧ (1000 ≤ num.natAbs → PowerNear num.natAbs t) := by
  have e2 := powerLoop_near p2Letters 1024 num.natAbs (by omega) p2_letters 8 0 rfl (by omega)
  have e10 := powerLoop_near p10Letters 1000 num.natAbs (by omega) p10_letters 8 0 rfl (by omega)
  rw [Nat.pow_zero] at e2 e10
  by_cases hn : num.natAbs < 1000
  · refine ⟨decText num.natAbs, ?_, fun _ => rfl, by omega⟩
    rcases hf with rfl | rfl <;> simp [NumFormat.print, NumFormat.newFormat, hn]
  · rcases hf with rfl | rfl
    · obtain ⟨t, h1, h2⟩ := e2 (by omega) (by omega)
      refine ⟨t, ?_, by omega, fun _ => h2⟩
      simp [NumFormat.print, NumFormat.newFormat, hn, h1]
    · obtain ⟨t, h1, h2⟩ := e10 (by omega) (by omega)
      refine ⟨t, ?_, by omega, fun _ => h2⟩
      simp [NumFormat.print, NumFormat.newFormat, hn, h1]

example : NumFormat.power2.print (-1000000) = some (ascii "-977K") := by decide +kernel
example : NumFormat.power10.print 1049999 = some (ascii "1m") := by decide +kernel
example : NumFormat.power10.print (10 ^ 26) = some (ascii "100.0y") := by decide +kernel

/-! ## The short format -/

/-- Full statement: the short format is the plain or the float one, whichever is shorter. -/
def C99_statement : Prop :=
  ∀ (num : Int) (t u v : Bytes), (NumFormat.short none).print num = some t → (NumFormat.plain none).print num = some u →
    (NumFormat.float none).print num = some v → (t = u ∨ t = v) ∧ t.length ≤ u.length ∧ t.length ≤ v.length

/-- Zero is printed as `0e0`. -/
theorem C99_refuted : ¬ C99_statement := by
  intro h
  have := (h 0 (ascii "0e0") (ascii "0") (ascii "0e0") (by decide +kernel) (by decide +kernel) (by decide +kernel)).2.1
  exact absurd this (by decide +kernel)

/-- And 1234 as `1.234e3`. -/
theorem C99_refuted_digits : (NumFormat.short none).print 1234 = some (ascii "1.234e3") := by decide +kernel

/-- It is always one of the two, and it is the shorter one from 1 to 999. -/
theorem C99_short_partial (num : Int) (t u v : Bytes) (ht : (NumFormat.short none).print num = some t)
    (hu : (NumFormat.plain none).print num = some u) (hv : (NumFormat.float none).print num = some v) :
    (t = u ∨ t = v) ∧ (num.natAbs ≠ 0 → num.natAbs < 1000 → t.length ≤ u.length ∧ t.length ≤ v.length) := by
  have eu : u = (if num < 0 then [45] else []) ++ decText num.natAbs := by
    simpa [NumFormat.print, NumFormat.newFormat, plainText] using hu.symm
  have ev : v = (if num < 0 then [45] else []) ++ floatText num.natAbs none := by
    simpa [NumFormat.print, NumFormat.newFormat] using hv.symm
  by_cases h : 1 ≤ num.natAbs ∧ num.natAbs < 1000
  · have et : t = u := by
      rw [eu]
      simpa [NumFormat.print, NumFormat.newFormat, h, plainText] using ht.symm
    refine ⟨Or.inl et, fun _ _ => ⟨by rw [et]; exact Nat.le_refl _, ?_⟩⟩
    rw [et, eu, ev, List.length_append, List.length_append]
    have key : ∀ n : Fin 1000, 1 ≤ n.val → (decText n.val).length ≤ (floatText n.val none).length := by decide +kernel
    have := key ⟨num.natAbs, h.2⟩ h.1
    simp only at this
    omega
  · have et : t = v := by
      rw [ev]
      simpa [NumFormat.print, NumFormat.newFormat, h] using ht.symm
    exact ⟨Or.inr et, fun h1 h2 => absurd ⟨by omega, h2⟩ h⟩

example : (NumFormat.short none).print 42 = some (ascii "42") ∧ (NumFormat.float none).print 42 = some (ascii "4.2e1") := by decide +kernel

end Cdx
