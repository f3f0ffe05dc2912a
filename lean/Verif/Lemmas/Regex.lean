import Verif.Model.Regex

/-!
Derivatives decide the language of an expression.
-/

namespace Cdx

/-- Zero or more words of a language, one after the other. -/
inductive StarLang (L : Bytes → Prop) : Bytes → Prop
  | nil : StarLang L []
  | cons (a b : Bytes) : L a → StarLang L b → StarLang L (a ++ b)

/-- The language of an expression. -/
def RE.Lang : RE → Bytes → Prop
  | .none, _ => False
  | .eps, v => v = []
  | .cls p, v => ∃ c, v = [c] ∧ p c = true
  | .cat r s, v => ∃ a b, v = a ++ b ∧ r.Lang a ∧ s.Lang b
  | .alt r s, v => r.Lang v ∨ s.Lang v
  | .star r, v => StarLang r.Lang v

theorem RE.null_iff (r : RE) : r.null = true ↔ r.Lang [] := by
  induction r with
  | none => simp [RE.null, RE.Lang]
  | eps => simp [RE.null, RE.Lang]
  | cls p => simp [RE.null, RE.Lang]
  | cat r s ihr ihs =>
    simp only [RE.null, RE.Lang, Bool.and_eq_true, ihr, ihs]
    constructor
    · rintro ⟨h1, h2⟩; exact ⟨[], [], rfl, h1, h2⟩
    · rintro ⟨a, b, h, h1, h2⟩
      obtain ⟨rfl, rfl⟩ := List.append_eq_nil_iff.1 h.symm
      exact ⟨h1, h2⟩
  | alt r s ihr ihs => simp [RE.null, RE.Lang, ihr, ihs]
  | star r => simpa [RE.null, RE.Lang] using StarLang.nil

theorem StarLang.cons_iff (L : Bytes → Prop) (c : UInt8) (v : Bytes) :
    StarLang L (c :: v) ↔ ∃ a b, v = a ++ b ∧ L (c :: a) ∧ StarLang L b := by
  constructor
  · intro h
    generalize hw : c :: v = w at h
    induction h with
    | nil => simp at hw
    | cons a b ha hb ih =>
      cases a with
      | nil => exact ih (by simpa using hw)
      | cons x a =>
        simp only [List.cons_append, List.cons.injEq] at hw
        obtain ⟨rfl, rfl⟩ := hw
        exact ⟨a, b, rfl, ha, hb⟩
  · rintro ⟨a, b, rfl, ha, hb⟩
    exact StarLang.cons (c :: a) b ha hb

theorem RE.der_iff (c : UInt8) (r : RE) (v : Bytes) : (r.der c).Lang v ↔ r.Lang (c :: v) := by
  induction r generalizing v with
  | none => simp [RE.der, RE.Lang]
  | eps => simp [RE.der, RE.Lang]
  | cls p =>
    simp only [RE.der]
    split
    · rename_i h
      simp only [RE.Lang, List.cons.injEq]
      constructor
      · rintro rfl; exact ⟨c, ⟨rfl, rfl⟩, h⟩
      · rintro ⟨d, ⟨_, h2⟩, _⟩; exact h2
    · rename_i h
      simp only [RE.Lang, List.cons.injEq, false_iff]
      rintro ⟨d, ⟨rfl, _⟩, hd⟩; exact h hd
  | alt r s ihr ihs => simp [RE.der, RE.Lang, ihr, ihs]
  | star r ih =>
    simp only [RE.der, RE.Lang, ih]
    rw [StarLang.cons_iff]
  | cat r s ihr ihs =>
    have key : (∃ a b, c :: v = a ++ b ∧ r.Lang a ∧ s.Lang b) ↔
        (∃ a b, v = a ++ b ∧ r.Lang (c :: a) ∧ s.Lang b) ∨ (r.Lang [] ∧ s.Lang (c :: v)) := by
      constructor
      · rintro ⟨a, b, h, ha, hb⟩
        cases a with
        | nil =>
          right
          rw [List.nil_append] at h
          exact ⟨ha, h ▸ hb⟩
        | cons x a =>
          simp only [List.cons_append, List.cons.injEq] at h
          obtain ⟨rfl, rfl⟩ := h
          exact .inl ⟨a, b, rfl, ha, hb⟩
      · rintro (⟨a, b, rfl, ha, hb⟩ | ⟨ha, hb⟩)
        · exact ⟨c :: a, b, rfl, ha, hb⟩
        · exact ⟨[], c :: v, rfl, ha, hb⟩
    simp only [RE.der]
    split
    · rename_i h
      rw [RE.null_iff] at h
      simp only [RE.Lang, ihr, ihs, key, h, true_and]
    · rename_i h
      rw [Bool.not_eq_true, ← Bool.not_eq_true] at h
      rw [RE.null_iff] at h
      simp only [RE.Lang, ihr, key, h, false_and, or_false]

/-- Derivatives decide the language. -/
theorem RE.isMatch_iff (r : RE) (v : Bytes) : r.isMatch v = true ↔ r.Lang v := by
  induction v generalizing r with
  | nil => exact r.null_iff
  | cons c cs ih => rw [RE.isMatch, ih, RE.der_iff]

theorem StarLang.cls (p : UInt8 → Bool) (v : Bytes) :
    StarLang (RE.Lang (.cls p)) v ↔ ∀ c ∈ v, p c = true := by
  induction v with
  | nil => simpa using StarLang.nil
  | cons c cs ih =>
    rw [StarLang.cons_iff]
    simp only [RE.Lang, List.cons.injEq, List.mem_cons, forall_eq_or_imp]
    constructor
    · rintro ⟨a, b, rfl, ⟨d, ⟨rfl, rfl⟩, hd⟩, hb⟩
      exact ⟨hd, ih.1 hb⟩
    · rintro ⟨h1, h2⟩
      exact ⟨[], cs, rfl, ⟨c, ⟨rfl, rfl⟩, h1⟩, ih.2 h2⟩

theorem RE.Lang_opt (r : RE) (v : Bytes) : r.opt.Lang v ↔ v = [] ∨ r.Lang v := Iff.rfl

theorem RE.Lang_chr (c : UInt8) (v : Bytes) : (RE.chr c).Lang v ↔ v = [c] := by
  simp only [RE.chr, RE.Lang, beq_iff_eq]
  constructor
  · rintro ⟨d, rfl, rfl⟩; rfl
  · rintro rfl; exact ⟨c, rfl, rfl⟩

theorem RE.Lang_rng (lo hi : UInt8) (v : Bytes) : (RE.rng lo hi).Lang v ↔ ∃ c, v = [c] ∧ lo ≤ c ∧ c ≤ hi := by
  simp [RE.rng, RE.Lang]

theorem RE.Lang_plus_cls (p : UInt8 → Bool) (v : Bytes) :
    (RE.plus (.cls p)).Lang v ↔ v ≠ [] ∧ ∀ c ∈ v, p c = true := by
  rw [RE.plus, RE.Lang]
  constructor
  · rintro ⟨a, b, rfl, ⟨c, rfl, hc⟩, hb⟩
    rw [RE.Lang, StarLang.cls] at hb
    refine ⟨by simp, ?_⟩
    intro d hd
    simp only [List.cons_append, List.nil_append, List.mem_cons] at hd
    rcases hd with rfl | hd
    · exact hc
    · exact hb d hd
  · rintro ⟨h1, h2⟩
    cases v with
    | nil => exact absurd rfl h1
    | cons c cs =>
      refine ⟨[c], cs, rfl, ⟨c, rfl, h2 c (by simp)⟩, ?_⟩
      rw [RE.Lang, StarLang.cls]
      exact fun d hd => h2 d (by simp [hd])

end Cdx
