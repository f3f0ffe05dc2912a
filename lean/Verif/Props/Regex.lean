import Verif.Lemmas.Regex
import Verif.Spec.Match

/-!
C77: the matchers `integer`, `number`, `float` and `ip` accept what they are called.
-/

namespace Cdx

theorem Lang_digit (v : Bytes) : RE.digit.Lang v ↔ ∃ c, v = [c] ∧ isDigit c = true := by
  simp [RE.digit, RE.Lang_rng, isDigit]

theorem Lang_digits (v : Bytes) : (RE.plus RE.digit).Lang v ↔ Digits v :=
  RE.Lang_plus_cls _ v

theorem Lang_minus (v : Bytes) : (RE.opt (RE.chr 45)).Lang v ↔ Minus v := by
  rw [RE.Lang_opt, RE.Lang_chr]
  rfl

/-- `integer` accepts an optional minus sign and digits. -/
theorem C77_integer (v : Bytes) : integerRE.isMatch v = true ↔ IntegerText v := by
  rw [RE.isMatch_iff, integerRE, RE.Lang]
  simp only [Lang_minus, Lang_digits, IntegerText]

example : integerRE.isMatch (ascii "-42") = true ∧ integerRE.isMatch (ascii "4.2") = false := by decide

/-- `number` accepts an integer with or without decimals. -/
theorem C77_number (v : Bytes) : numberRE.isMatch v = true ↔ NumberText v := by
  rw [RE.isMatch_iff, numberRE]
  simp only [RE.Lang, Lang_minus, Lang_digits, RE.Lang_opt, RE.Lang_chr, NumberText]
  constructor
  · rintro ⟨s, _, rfl, hs, d, f, rfl, hd, hf⟩
    refine ⟨s, d, f, by simp, hs, hd, ?_⟩
    rcases hf with h | ⟨_, e, rfl, rfl, he⟩
    · exact .inl h
    · exact .inr ⟨e, rfl, he⟩
  · rintro ⟨s, d, f, rfl, hs, hd, hf⟩
    refine ⟨s, d ++ f, by simp, hs, d, f, rfl, hd, ?_⟩
    rcases hf with h | ⟨e, rfl, he⟩
    · exact .inl h
    · exact .inr ⟨[46], e, rfl, rfl, he⟩

example : numberRE.isMatch (ascii "-4.2") = true ∧ numberRE.isMatch (ascii "4.") = false := by decide

theorem Lang_mantissa (v : Bytes) :
    (RE.cat (.star .digit) (.cat (.opt (.chr 46)) (.plus .digit))).Lang v ↔ Mantissa v := by
  have star : ∀ w, (RE.star .digit).Lang w ↔ ∀ c ∈ w, isDigit c = true := fun w => StarLang.cls _ w
  constructor
  · rintro ⟨a, _, rfl, ha, p, b, rfl, hp, hb⟩
    rw [star] at ha
    rw [Lang_digits] at hb
    rw [RE.Lang_opt, RE.Lang_chr] at hp
    rcases hp with rfl | rfl
    · left
      refine ⟨by simp [hb.1], ?_⟩
      intro c hc
      simp only [List.nil_append, List.mem_append] at hc
      rcases hc with hc | hc
      · exact ha c hc
      · exact hb.2 c hc
    · exact .inr ⟨a, b, rfl, ha, hb⟩
  · rintro (h | ⟨a, b, rfl, ha, hb⟩)
    · exact ⟨[], v, rfl, (star []).2 (by simp), [], v, rfl, .inl rfl, (Lang_digits v).2 h⟩
    · exact ⟨a, 46 :: b, rfl, (star a).2 ha, [46], b, rfl, .inr ((RE.Lang_chr 46 _).2 rfl), (Lang_digits b).2 hb⟩

theorem Lang_exponent (v : Bytes) :
    (RE.opt (.cat (.cls fun c => c == 101 || c == 69)
      (.cat (.opt (.cls fun c => c == 45 || c == 43)) (.plus .digit)))).Lang v ↔ Exponent v := by
  rw [RE.Lang_opt]
  simp only [RE.Lang, RE.Lang_opt, Lang_digits, Exponent, Bool.or_eq_true, beq_iff_eq]
  constructor
  · rintro (h | ⟨_, _, rfl, ⟨x, rfl, hx⟩, s, d, rfl, hs, hd⟩)
    · exact .inl h
    · refine .inr ⟨x, s, d, rfl, hx, ?_, hd⟩
      rcases hs with rfl | ⟨c, rfl, rfl | rfl⟩
      · exact .inl rfl
      · exact .inr (.inl rfl)
      · exact .inr (.inr rfl)
  · rintro (h | ⟨x, s, d, rfl, hx, hs, hd⟩)
    · exact .inl h
    · refine .inr ⟨[x], s ++ d, rfl, ⟨x, rfl, hx⟩, s, d, rfl, ?_, hd⟩
      rcases hs with rfl | rfl | rfl
      · exact .inl rfl
      · exact .inr ⟨45, rfl, .inl rfl⟩
      · exact .inr ⟨43, rfl, .inr rfl⟩

theorem Lang_cat_assoc (r s t : RE) (v : Bytes) : (RE.cat r (.cat s t)).Lang v ↔ (RE.cat (.cat r s) t).Lang v := by
  simp only [RE.Lang]
  constructor
  · rintro ⟨a, _, rfl, ha, b, c, rfl, hb, hc⟩
    exact ⟨a ++ b, c, by simp, ⟨a, b, rfl, ha, hb⟩, hc⟩
  · rintro ⟨_, c, rfl, ⟨a, b, rfl, ha, hb⟩, hc⟩
    exact ⟨a, b ++ c, by simp, ha, b, c, rfl, hb, hc⟩

/-- `float` accepts a mantissa with or without a minus sign and an exponent. -/
theorem C77_float (v : Bytes) : floatRE.isMatch v = true ↔ FloatText v := by
  rw [RE.isMatch_iff, floatRE]
  have key : ∀ (e : RE) (w : Bytes), (RE.cat (.star .digit) (.cat (.opt (.chr 46)) (.cat (.plus .digit) e))).Lang w ↔
      (RE.cat (RE.cat (.star .digit) (.cat (.opt (.chr 46)) (.plus .digit))) e).Lang w := by
    intro e w
    rw [← Lang_cat_assoc]
    have : ∀ u, (RE.cat (.opt (.chr 46)) (.cat (.plus .digit) e)).Lang u ↔
        (RE.cat (.cat (.opt (.chr 46)) (.plus .digit)) e).Lang u := fun u => Lang_cat_assoc _ _ _ u
    constructor
    · rintro ⟨a, b, h, ha, hb⟩; exact ⟨a, b, h, ha, (this b).1 hb⟩
    · rintro ⟨a, b, h, ha, hb⟩; exact ⟨a, b, h, ha, (this b).2 hb⟩
  constructor
  · rintro ⟨s, w, rfl, hs, hw⟩
    obtain ⟨m, e, rfl, hm, he⟩ := (key _ w).1 hw
    exact ⟨s, m, e, by simp, (Lang_minus s).1 hs, (Lang_mantissa m).1 hm, (Lang_exponent e).1 he⟩
  · rintro ⟨s, m, e, rfl, hs, hm, he⟩
    refine ⟨s, m ++ e, by simp, (Lang_minus s).2 hs, (key _ _).2 ⟨m, e, rfl, (Lang_mantissa m).2 hm, ?_⟩⟩
    exact (Lang_exponent e).2 he

example : floatRE.isMatch (ascii "-.5e+10") = true ∧ floatRE.isMatch (ascii "5.") = false := by decide

theorem isDigit_range {c : UInt8} : isDigit c = true ↔ 48 ≤ c.toNat ∧ c.toNat ≤ 57 := by
  simp [isDigit, UInt8.le_iff_toNat_le]

theorem uint8_of_toNat {c : UInt8} {n : Nat} (h : c.toNat = n) : c = UInt8.ofNat n := by
  rw [← h]; simp

/-- One part of an address: one to three digits with a value of at most 255. -/
theorem C77_octet (v : Bytes) : octetRE.Lang v ↔ Octet v := by
  simp only [octetRE, RE.Lang, RE.Lang_chr, RE.Lang_rng, RE.Lang_opt, Lang_digit, isDigit_range,
    UInt8.le_iff_toNat_le]
  constructor
  · rintro (⟨_, _, rfl, rfl, _, _, rfl, rfl, c, rfl, h1, h2⟩ | ⟨_, _, rfl, rfl, _, _, rfl, ⟨b, rfl, h1, h2⟩, c, rfl, h3, h4⟩ |
      ⟨x, _, rfl, hx, _, y, rfl, ⟨b, rfl, h1, h2⟩, hy⟩)
    · have e1 : (48 : UInt8).toNat = 48 := rfl
      have e2 : (53 : UInt8).toNat = 53 := rfl
      refine ⟨⟨by simp, ?_⟩, by simp, ?_⟩
      · intro d hd
        simp only [List.cons_append, List.nil_append, List.mem_cons, List.not_mem_nil, or_false] at hd
        rcases hd with rfl | rfl | rfl
        · decide
        · decide
        · rw [isDigit_range]; omega
      · simp [decVal]; omega
    · have e1 : (48 : UInt8).toNat = 48 := rfl
      have e2 : (52 : UInt8).toNat = 52 := rfl
      refine ⟨⟨by simp, ?_⟩, by simp, ?_⟩
      · intro d hd
        simp only [List.cons_append, List.nil_append, List.mem_cons, List.not_mem_nil, or_false] at hd
        rcases hd with rfl | rfl | rfl
        · decide
        · rw [isDigit_range]; omega
        · rw [isDigit_range]; omega
      · simp [decVal]; omega
    · have e1 : (48 : UInt8).toNat = 48 := rfl
      have e2 : (49 : UInt8).toNat = 49 := rfl
      rcases hx with rfl | ⟨a, rfl, ha1, ha2⟩ <;> rcases hy with rfl | ⟨c, rfl, hc1, hc2⟩ <;>
        refine ⟨⟨by simp, ?_⟩, by simp, by simp [decVal]; omega⟩ <;>
        intro d hd <;>
        simp only [List.cons_append, List.nil_append, List.mem_cons, List.not_mem_nil, or_false] at hd
      · subst hd; rw [isDigit_range]; omega
      · rcases hd with rfl | rfl <;> rw [isDigit_range] <;> omega
      · rcases hd with rfl | rfl <;> rw [isDigit_range] <;> omega
      · rcases hd with rfl | rfl | rfl <;> rw [isDigit_range] <;> omega
  · rintro ⟨⟨hne, hd⟩, hl, hv⟩
    have e0 : (48 : UInt8).toNat = 48 := rfl
    have e1 : (49 : UInt8).toNat = 49 := rfl
    have e2 : (52 : UInt8).toNat = 52 := rfl
    have e3 : (53 : UInt8).toNat = 53 := rfl
    match v, hne, hl with
    | [a], _, _ =>
      have h := isDigit_range.1 (hd a (by simp))
      exact .inr (.inr ⟨[], [a], rfl, .inl rfl, [a], [], rfl, ⟨a, rfl, h⟩, .inl rfl⟩)
    | [a, b], _, _ =>
      have h := isDigit_range.1 (hd a (by simp))
      have h' := isDigit_range.1 (hd b (by simp))
      exact .inr (.inr ⟨[], [a, b], rfl, .inl rfl, [a], [b], rfl, ⟨a, rfl, h⟩, .inr ⟨b, rfl, h'⟩⟩)
    | [a, b, c], _, _ =>
      have ha := isDigit_range.1 (hd a (by simp))
      have hb := isDigit_range.1 (hd b (by simp))
      have hc := isDigit_range.1 (hd c (by simp))
      simp only [decVal, List.length_cons, List.length_nil] at hv
      by_cases h1 : a.toNat ≤ 49
      · exact .inr (.inr ⟨[a], [b, c], rfl, .inr ⟨a, rfl, by omega, by omega⟩, [b], [c], rfl, ⟨b, rfl, hb⟩, .inr ⟨c, rfl, hc⟩⟩)
      · have ha2 : a = 50 := uint8_of_toNat (n := 50) (by omega)
        subst ha2
        have e4 : (50 : UInt8).toNat = 50 := rfl
        by_cases h2 : b.toNat ≤ 52
        · exact .inr (.inl ⟨[50], [b, c], rfl, rfl, [b], [c], rfl, ⟨b, rfl, by omega, by omega⟩, c, rfl, hc⟩)
        · have hb2 : b = 53 := uint8_of_toNat (n := 53) (by omega)
          subst hb2
          exact .inl ⟨[50], [53, c], rfl, rfl, [53], [c], rfl, rfl, c, rfl, by omega, by omega⟩
    | _ :: _ :: _ :: _ :: _, _, hl => simp at hl

/-- `ip` accepts four parts of at most 255. -/
theorem C77_ip (v : Bytes) : ipRE.isMatch v = true ↔ IpText v := by
  rw [RE.isMatch_iff, ipRE]
  simp only [RE.Lang, C77_octet, RE.Lang_chr]
  constructor
  · rintro ⟨_, _, rfl, ⟨a, _, rfl, ha, rfl⟩, _, _, rfl, ⟨b, _, rfl, hb, rfl⟩, _, d, rfl, ⟨c, _, rfl, hc, rfl⟩, hd⟩
    exact ⟨a, b, c, d, by simp, ha, hb, hc, hd⟩
  · rintro ⟨a, b, c, d, rfl, ha, hb, hc, hd⟩
    exact ⟨a ++ [46], b ++ 46 :: (c ++ 46 :: d), by simp, ⟨a, [46], rfl, ha, rfl⟩, b ++ [46], c ++ 46 :: d, by simp,
      ⟨b, [46], rfl, hb, rfl⟩, c ++ [46], d, by simp, ⟨c, [46], rfl, hc, rfl⟩, hd⟩

example : ipRE.isMatch (ascii "192.168.0.255") = true ∧ ipRE.isMatch (ascii "192.168.0.256") = false := by decide

/-- Every integer is a number, and every number a float. -/
theorem C77_nested (v : Bytes) :
    (integerRE.isMatch v = true → numberRE.isMatch v = true) ∧ (numberRE.isMatch v = true → floatRE.isMatch v = true) := by
  rw [C77_integer, C77_number, C77_float]
  constructor
  · rintro ⟨s, d, rfl, hs, hd⟩
    exact ⟨s, d, [], by simp, hs, hd, .inl rfl⟩
  · rintro ⟨s, d, f, rfl, hs, hd, hf⟩
    refine ⟨s, d ++ f, [], by simp, hs, ?_, .inl rfl⟩
    rcases hf with rfl | ⟨e, rfl, he⟩
    · exact .inl (by simpa using hd)
    · exact .inr ⟨d, e, rfl, hd.2, he⟩

end Cdx
