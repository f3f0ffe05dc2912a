import Verif.Model.TextNum
import Verif.Props.Text
import Verif.Props.Num

/-!
C106: the value of a number in a text. C107: reading back printed numbers. C108: junk.
-/

namespace Cdx

/-- The letters and the powers they stand for. -/
def allSuffixes : List (UInt8 × Nat) := suffixPowers ++ [(90, 1024 ^ 7), (89, 1024 ^ 8), (122, 1000 ^ 7), (121, 1000 ^ 8)]

/-- The parts of a number: sign, digits, digits after the point, exponent (letter, sign, digits) and suffix with its value. -/
structure NumParts where
  sign : Bytes
  ds : Bytes
  frac : Option Bytes
  exp : Option (UInt8 × Bytes × Bytes)
  suf : Option (UInt8 × Nat)

/-- The digits after the point. -/
def NumParts.fs (p : NumParts) : Bytes := p.frac.getD []

/-- The text of the point and the digits after it. -/
def fracText : Option Bytes → Bytes
  | none => []
  | some f => 46 :: f

/-- The text of the exponent. -/
def expText : Option (UInt8 × Bytes × Bytes) → Bytes
  | none => []
  | some (c, s, d) => c :: (s ++ d)

/-- The text of the suffix. -/
def sufText : Option (UInt8 × Nat) → Bytes
  | none => []
  | some (c, _) => [c]

/-- The text of a number. -/
def NumParts.text (p : NumParts) : Bytes := p.sign ++ p.ds ++ fracText p.frac ++ expText p.exp ++ sufText p.suf

/-- The power of ten an exponent means. -/
def expVal : Option (UInt8 × Bytes × Bytes) → Rat
  | none => 1
  | some (_, s, d) => if s = [45] then 1 / 10 ^ decVal d else 10 ^ decVal d

/-- The value of a suffix. -/
def sufVal : Option (UInt8 × Nat) → Rat
  | none => 1
  | some (_, m) => (m : Rat)

/-- The number. -/
def NumParts.value (p : NumParts) : Rat :=
  (if p.sign = [45] then -1 else 1) * ((decVal (p.ds ++ p.fs) : Rat) / 10 ^ p.fs.length * expVal p.exp * sufVal p.suf)

/-- A sign, or none. -/
def IsSign (s : Bytes) : Prop := s = [] ∨ s = [43] ∨ s = [45]

/-- The parts are those of a number, though there need not be digits before the exponent. -/
structure NumParts.WF (p : NumParts) : Prop where
  sign : IsSign p.sign
  ds : ∀ c ∈ p.ds, isDigit c = true
  frac : ∀ c ∈ p.fs, isDigit c = true
  exp : ∀ c s d, p.exp = some (c, s, d) → (c = 101 ∨ c = 69) ∧ IsSign s ∧ d ≠ [] ∧ (∀ x ∈ d, isDigit x = true)
  suf : ∀ c m, p.suf = some (c, m) → (c, m) ∈ allSuffixes

/-- The exponent fits. -/
def NumParts.Fits (p : NumParts) : Prop := ∀ c s d, p.exp = some (c, s, d) → decVal d < 2 ^ 31

/-- What follows does not belong to the number. -/
structure NumParts.Ends (p : NumParts) (rest : Bytes) : Prop where
  digit : ∀ c, (sufText p.suf ++ rest).head? = some c → isDigit c = false
  exp : p.exp = none → isExp (sufText p.suf ++ rest) = false
  point : p.frac = none → p.exp = none → (sufText p.suf ++ rest).head? ≠ some 46
  suf : p.suf = none → ∀ c m, (c, m) ∈ allSuffixes → rest.head? ≠ some c
  sign : p.sign ++ p.ds ++ fracText p.frac ++ expText p.exp = [] → (sufText p.suf ++ rest).head? ≠ some 43 ∧ (sufText p.suf ++ rest).head? ≠ some 45

theorem suffixValF_iff (c : UInt8) (m : Nat) (hc : isDigit c = false) : suffixValF c = some m ↔ (c, m) ∈ allSuffixes := by
  have key : ∀ n, n < 256 → isDigit (UInt8.ofNat n) = false →
      (∀ m ∈ (suffixValF (UInt8.ofNat n)).toList, (UInt8.ofNat n, m) ∈ allSuffixes) ∧
      ∀ q ∈ allSuffixes, q.1 = UInt8.ofNat n → suffixValF q.1 = some q.2 := by decide +kernel
  have hk := key c.toNat (UInt8.toNat_lt c)
  rw [UInt8.ofNat_toNat] at hk
  obtain ⟨h1, h2⟩ := hk hc
  constructor
  · intro h
    exact h1 m (by simp [h])
  · intro h
    exact h2 (c, m) h rfl

theorem ten_pow_ne (n : Nat) : (10 : Rat) ^ n ≠ 0 := by
  have : (0 : Rat) < 10 ^ n := Rat.pow_pos (by decide)
  grind

theorem intLoop_spec (rest : Bytes) (hrest : ∀ c, rest.head? = some c → isDigit c = false) (ds : Bytes) :
    ∀ r : Rat, (∀ c ∈ ds, isDigit c = true) → intLoop r (ds ++ rest) = (r * 10 ^ ds.length + (decVal ds : Rat), rest) := by
  induction ds with
  | nil =>
    intro r _
    cases rest with
    | nil => simp [intLoop, decVal]; grind
    | cons c cs => simp [intLoop, hrest c rfl, decVal]; grind
  | cons d ds ih =>
    intro r h
    rw [List.cons_append, intLoop, if_pos (h d (by simp)), ih _ (fun c hc => h c (by simp [hc]))]
    simp only [decVal, List.length_cons, Prod.mk.injEq, and_true]
    rw [Rat.natCast_add, Rat.natCast_mul, Rat.natCast_pow]
    grind

theorem fracLoop_spec (rest : Bytes) (hrest : ∀ c, rest.head? = some c → isDigit c = false) (ds : Bytes) :
    ∀ r p : Rat, (∀ c ∈ ds, isDigit c = true) →
      fracLoop r p (ds ++ rest) = (r + p * 10 * ((decVal ds : Rat) / 10 ^ ds.length), rest) := by
  induction ds with
  | nil =>
    intro r p _
    cases rest with
    | nil => simp [fracLoop, decVal]; grind
    | cons c cs => simp [fracLoop, hrest c rfl, decVal]; grind
  | cons d ds ih =>
    intro r p h
    rw [List.cons_append, fracLoop, if_pos (h d (by simp)), ih _ _ (fun c hc => h c (by simp [hc]))]
    simp only [decVal, List.length_cons, Prod.mk.injEq, and_true]
    rw [Rat.natCast_add, Rat.natCast_mul, Rat.natCast_pow]
    have := ten_pow_ne ds.length
    grind

theorem signPart_spec (s : Bytes) (hs : IsSign s) (u : Bytes) (hu : s = [] → u.head? ≠ some 43 ∧ u.head? ≠ some 45) :
    signPart (s ++ u) = (decide (s = [45]), u) := by
  rcases hs with rfl | rfl | rfl
  · obtain ⟨h1, h2⟩ := hu rfl
    cases u with
    | nil => rfl
    | cons c cs =>
      simp only [List.head?_cons, ne_eq, Option.some.injEq] at h1 h2
      simp [signPart, h1, h2]
  · simp [signPart]
  · simp [signPart]

theorem isDigit_ne (c d : UInt8) (h : isDigit c = true) (hd : isDigit d = false) : c ≠ d := by
  rintro rfl
  rw [h] at hd
  exact absurd hd (by decide)

theorem isExp_true (c : UInt8) (s d rest : Bytes) (hc : c = 101 ∨ c = 69) (hs : IsSign s) (hd : d ≠ []) (hdig : ∀ x ∈ d, isDigit x = true) :
    isExp (c :: (s ++ d) ++ rest) = true := by
  obtain ⟨x, xs, rfl⟩ : ∃ x xs, d = x :: xs := by cases d with | nil => exact absurd rfl hd | cons x xs => exact ⟨x, xs, rfl⟩
  have hx := hdig x (by simp)
  have e : (c == 101 || c == 69) = true := by rcases hc with rfl | rfl <;> decide
  rcases hs with rfl | rfl | rfl <;> simp only [List.nil_append, List.cons_append, isExp, e, hx, Bool.true_and, Bool.or_true, Bool.true_or, beq_self_eq_true, Bool.and_true] <;> simp

theorem suffixPart_spec (r : Rat) (p : NumParts) (hp : p.WF) (rest : Bytes) (he : p.Ends rest) :
    suffixPart r (sufText p.suf ++ rest) = (r * sufVal p.suf, rest) := by
  cases hs : p.suf with
  | none =>
    have hd := he.digit
    have h := he.suf hs
    rw [hs] at hd
    simp only [sufText, List.nil_append, sufVal] at hd ⊢
    cases rest with
    | nil => simp only [suffixPart, Prod.mk.injEq, and_true]; grind
    | cons c cs =>
      cases hv : suffixValF c with
      | none => simp only [suffixPart, hv, Prod.mk.injEq, and_true]; grind
      | some m => exact absurd rfl (h c m ((suffixValF_iff c m (hd c rfl)).1 hv))
  | some q =>
    obtain ⟨c, m⟩ := q
    have hd := he.digit
    rw [hs] at hd
    have := (suffixValF_iff c m (hd c rfl)).2 (hp.suf c m hs)
    simp [sufText, suffixPart, this, sufVal]

theorem expPart_spec (r : Rat) (p : NumParts) (hp : p.WF) (rest : Bytes) (he : p.Ends rest) :
    (p.Fits → expPart r (expText p.exp ++ (sufText p.suf ++ rest)) = some (r * expVal p.exp, sufText p.suf ++ rest)) ∧
      (¬ p.Fits → expPart r (expText p.exp ++ (sufText p.suf ++ rest)) = none) := by
  cases hx : p.exp with
  | none =>
    refine ⟨fun _ => ?_, fun h => absurd (fun c s d h' => by rw [hx] at h'; simp at h') h⟩
    simp only [expText, List.nil_append, expVal, expPart, he.exp hx, Bool.false_eq_true, if_false, Option.some.injEq, Prod.mk.injEq,
      and_true]
    grind
  | some q =>
    obtain ⟨c, s, d⟩ := q
    obtain ⟨hc, hs, hd, hdig⟩ := hp.exp c s d hx
    have hfit : p.Fits ↔ decVal d < 2 ^ 31 := by
      constructor
      · intro h; exact h c s d hx
      · intro h c' s' d' h'
        rw [hx] at h'
        simp only [Option.some.injEq, Prod.mk.injEq] at h'
        exact h'.2.2 ▸ h
    rw [hfit]
    simp only [expText]
    unfold expPart
    rw [isExp_true c s d _ hc hs hd hdig, if_pos rfl]
    have e1 : (c :: (s ++ d) ++ (sufText p.suf ++ rest)).drop 1 = s ++ (d ++ (sufText p.suf ++ rest)) := by simp
    have hsg : signPart (s ++ (d ++ (sufText p.suf ++ rest))) = (decide (s = [45]), d ++ (sufText p.suf ++ rest)) := by
      apply signPart_spec s hs
      intro _
      obtain ⟨x, xs, rfl⟩ : ∃ x xs, d = x :: xs := by cases d with | nil => exact absurd rfl hd | cons x xs => exact ⟨x, xs, rfl⟩
      have hxd := hdig x (by simp)
      simp only [List.cons_append, List.head?_cons, ne_eq, Option.some.injEq]
      exact ⟨isDigit_ne x 43 hxd (by decide), isDigit_ne x 45 hxd (by decide)⟩
    rw [e1, hsg]
    simp only
    rw [digitLoop_spec (2 ^ 31 - 1) 0 (Nat.zero_le _) d _ hdig he.digit]
    simp only [Nat.zero_mul, Nat.zero_add]
    refine ⟨fun h => ?_, fun h => ?_⟩
    · rw [if_pos (by omega)]
      simp only [Option.map_some, tenPow, expVal, decide_eq_true_eq]
    · rw [if_neg (by omega)]
      rfl

theorem pointPart_spec (r : Rat) (p : NumParts) (hp : p.WF) (rest : Bytes) (he : p.Ends rest) :
    pointPart r (fracText p.frac ++ (expText p.exp ++ (sufText p.suf ++ rest))) =
      (r + (decVal p.fs : Rat) / 10 ^ p.fs.length, expText p.exp ++ (sufText p.suf ++ rest)) := by
  have hexp : p.exp ≠ none → ∃ c cs, expText p.exp ++ (sufText p.suf ++ rest) = c :: cs ∧ isDigit c = false ∧ c ≠ 46 := by
    intro h
    cases hx : p.exp with
    | none => exact absurd hx h
    | some q =>
      obtain ⟨c, s, d⟩ := q
      obtain ⟨hc, _⟩ := hp.exp c s d hx
      refine ⟨c, _, rfl, ?_⟩
      rcases hc with rfl | rfl <;> decide
  have hdig : ∀ c, (expText p.exp ++ (sufText p.suf ++ rest)).head? = some c → isDigit c = false := by
    intro c hc
    cases hx : p.exp with
    | none => rw [hx] at hc; exact he.digit c hc
    | some q =>
      obtain ⟨c', cs, e, h, _⟩ := hexp (by simp [hx])
      rw [e] at hc
      simp only [List.head?_cons, Option.some.injEq] at hc
      exact hc ▸ h
  cases hf : p.frac with
  | some f =>
    have hff : p.fs = f := by simp [NumParts.fs, hf]
    have := hp.frac
    rw [hff] at this ⊢
    simp only [fracText, List.cons_append, pointPart, if_true]
    rw [fracLoop_spec _ hdig f r (1 / 10) this]
    simp only [Prod.mk.injEq, and_true]
    grind
  | none =>
    have hff : p.fs = [] := by simp [NumParts.fs, hf]
    rw [hff]
    simp only [fracText, List.nil_append, decVal, List.length_nil]
    have h46 : (expText p.exp ++ (sufText p.suf ++ rest)).head? ≠ some 46 := by
      cases hx : p.exp with
      | none => exact he.point hf hx
      | some q =>
        obtain ⟨c', cs, e, _, h⟩ := hexp (by simp [hx])
        rw [hx] at e
        rw [e]
        simpa using h
    generalize expText p.exp ++ (sufText p.suf ++ rest) = u at h46
    cases u with
    | nil => simp only [pointPart, Prod.mk.injEq, and_true]; grind
    | cons c cs =>
      have : c ≠ 46 := by simpa using h46
      simp only [pointPart, this, if_false, Prod.mk.injEq, and_true]
      grind

/-- C106: a number is read with its value, as far as it goes; if the exponent does not fit, it overflows. -/
theorem C106_value (p : NumParts) (hp : p.WF) (rest : Bytes) (he : p.Ends rest) :
    (p.Fits → toRat (p.text ++ rest) = some (p.value, rest)) ∧ (¬ p.Fits → toRat (p.text ++ rest) = none) := by
  unfold toRat
  have e0 : p.text ++ rest = p.sign ++ (p.ds ++ (fracText p.frac ++ (expText p.exp ++ (sufText p.suf ++ rest)))) := by
    simp [NumParts.text]
  rw [e0]
  by_cases hnil : p.sign ++ (p.ds ++ (fracText p.frac ++ (expText p.exp ++ (sufText p.suf ++ rest)))) = []
  · rw [if_pos hnil]
    simp only [List.append_eq_nil_iff] at hnil
    obtain ⟨h1, h2, h3, h4, h5, h6⟩ := hnil
    have hfit : p.Fits := by
      intro c s d h
      rw [h] at h4
      simp [expText] at h4
    have hf : p.fs = [] := by
      unfold NumParts.fs
      cases hf : p.frac with
      | none => rfl
      | some f => rw [hf] at h3; simp [fracText] at h3
    have : p.value = 0 := by
      unfold NumParts.value
      rw [h2, hf]
      simp only [List.append_nil, decVal]
      grind
    rw [this, h6]
    exact ⟨fun _ => rfl, fun h => absurd hfit h⟩
  · rw [if_neg hnil]
    have hdig : ∀ c, (fracText p.frac ++ (expText p.exp ++ (sufText p.suf ++ rest))).head? = some c → isDigit c = false := by
      intro c hc
      cases hf : p.frac with
      | some f => rw [hf] at hc; simp only [fracText, List.cons_append, List.head?_cons, Option.some.injEq] at hc; rw [← hc]; decide
      | none =>
        rw [hf] at hc
        cases hx : p.exp with
        | none => rw [hx] at hc; exact he.digit c hc
        | some q =>
          obtain ⟨c', s, d⟩ := q
          obtain ⟨hc', _⟩ := hp.exp c' s d hx
          rw [hx] at hc
          simp only [fracText, expText, List.nil_append, List.cons_append, List.head?_cons, Option.some.injEq] at hc
          rw [← hc]
          rcases hc' with rfl | rfl <;> decide
    have hsg : signPart (p.sign ++ (p.ds ++ (fracText p.frac ++ (expText p.exp ++ (sufText p.suf ++ rest))))) =
        (decide (p.sign = [45]), p.ds ++ (fracText p.frac ++ (expText p.exp ++ (sufText p.suf ++ rest)))) := by
      apply signPart_spec _ hp.sign
      intro hs
      cases hd : p.ds with
      | cons x xs =>
        have hxd := hp.ds x (by simp [hd])
        simp only [List.cons_append, List.head?_cons, ne_eq, Option.some.injEq]
        exact ⟨isDigit_ne x 43 hxd (by decide), isDigit_ne x 45 hxd (by decide)⟩
      | nil =>
        cases hf : p.frac with
        | some f => simp [fracText]
        | none =>
          cases hx : p.exp with
          | some q =>
            obtain ⟨c', s, d⟩ := q
            obtain ⟨hc', _⟩ := hp.exp c' s d hx
            rcases hc' with rfl | rfl <;> simp [fracText, expText]
          | none => exact he.sign (by rw [hs, hd, hf, hx]; rfl)
    rw [hsg]
    simp only
    rw [intLoop_spec _ hdig p.ds 0 hp.ds]
    simp only
    rw [pointPart_spec _ p hp rest he]
    simp only
    refine ⟨fun hfit => ?_, fun hfit => (by rw [(expPart_spec _ p hp rest he).2 hfit]; rfl)⟩
    rw [(expPart_spec _ p hp rest he).1 hfit]
    simp only [Option.map_some]
    rw [suffixPart_spec _ p hp rest he]
    simp only [Option.some.injEq, Prod.mk.injEq, and_true, decide_eq_true_eq]
    unfold NumParts.value
    rw [decVal_append, Rat.natCast_add, Rat.natCast_mul, Rat.natCast_pow]
    have := ten_pow_ne p.fs.length
    by_cases hs : p.sign = [45]
    · rw [if_pos hs, if_pos hs]; grind
    · rw [if_neg hs, if_neg hs]; grind

theorem digits_span (u : Bytes) : ∃ ds rest, u = ds ++ rest ∧ (∀ c ∈ ds, isDigit c = true) ∧
    (∀ c, rest.head? = some c → isDigit c = false) := by
  refine ⟨u.takeWhile isDigit, u.dropWhile isDigit, (List.takeWhile_append_dropWhile ..).symm, fun c hc => ?_, fun c hc => ?_⟩
  · have := List.all_takeWhile (p := isDigit) (l := u)
    rw [List.all_eq_true] at this
    exact this c hc
  · have := List.head?_dropWhile_not isDigit u
    rw [hc] at this
    simpa using this

theorem sign_span (u : Bytes) : ∃ s rest, u = s ++ rest ∧ IsSign s ∧ (s = [] → rest.head? ≠ some 43 ∧ rest.head? ≠ some 45) := by
  cases u with
  | nil => exact ⟨[], [], rfl, Or.inl rfl, by simp⟩
  | cons c cs =>
    by_cases h1 : c = 43
    · exact ⟨[43], cs, by simp [h1], Or.inr (Or.inl rfl), by simp⟩
    · by_cases h2 : c = 45
      · exact ⟨[45], cs, by simp [h2], Or.inr (Or.inr rfl), by simp⟩
      · exact ⟨[], c :: cs, rfl, Or.inl rfl, by simp [h1, h2]⟩

theorem exp_span (u : Bytes) (hu : ∀ c, u.head? = some c → isDigit c = false) :
    ∃ (ex : Option (UInt8 × Bytes × Bytes)) (rest : Bytes), u = expText ex ++ rest ∧ (∀ c, rest.head? = some c → isDigit c = false) ∧
      (ex = none → isExp rest = false ∧ rest = u) ∧
      ∀ c s d, ex = some (c, s, d) → (c = 101 ∨ c = 69) ∧ IsSign s ∧ d ≠ [] ∧ (∀ x ∈ d, isDigit x = true) := by
  cases h : isExp u with
  | false => exact ⟨none, u, rfl, hu, fun _ => ⟨h, rfl⟩, by simp⟩
  | true =>
    match u, h with
    | a :: b :: rest, h =>
      simp only [isExp, Bool.and_eq_true, Bool.or_eq_true, beq_iff_eq] at h
      obtain ⟨ha, hb⟩ := h
      obtain ⟨s, r1, e1, hs, hs'⟩ := sign_span (b :: rest)
      obtain ⟨d, r2, e2, hd, hr2⟩ := digits_span r1
      refine ⟨some (a, s, d), r2, by simp [expText, e1, e2], hr2, by simp, ?_⟩
      intro c s' d' h
      simp only [Option.some.injEq, Prod.mk.injEq] at h
      obtain ⟨rfl, rfl, rfl⟩ := h
      refine ⟨ha, hs, ?_, hd⟩
      intro hnil
      rw [hnil, List.nil_append] at e2
      rw [← e2] at hr2
      rcases hs with rfl | rfl | rfl
      · rw [List.nil_append] at e1
        rw [← e1] at hr2 hs'
        have h1 := hr2 b rfl
        obtain ⟨h2, h3⟩ := hs' rfl
        simp only [List.head?_cons, ne_eq, Option.some.injEq] at h2 h3
        simp [h1, h2, h3] at hb
      · simp only [List.cons_append, List.nil_append, List.cons.injEq] at e1
        obtain ⟨rfl, rfl⟩ := e1
        cases rest with
        | nil => simp +decide at hb
        | cons c cs => simp +decide [hr2 c rfl] at hb
      · simp only [List.cons_append, List.nil_append, List.cons.injEq] at e1
        obtain ⟨rfl, rfl⟩ := e1
        cases rest with
        | nil => simp +decide at hb
        | cons c cs => simp +decide [hr2 c rfl] at hb
    | [], h => simp [isExp] at h
    | [_], h => simp [isExp] at h

/-- Every text has this form. -/
theorem C106_decompose (t : Bytes) : ∃ (p : NumParts) (rest : Bytes), t = p.text ++ rest ∧ p.WF ∧ p.Ends rest := by
  obtain ⟨s, u1, e1, hs, hs'⟩ := sign_span t
  obtain ⟨ds, u2, e2, hds, hu2⟩ := digits_span u1
  obtain ⟨fr, u4, e3, hfr, hu4, hnone⟩ : ∃ (fr : Option Bytes) (u4 : Bytes), u2 = fracText fr ++ u4 ∧
      (∀ c ∈ fr.getD [], isDigit c = true) ∧ (∀ c, u4.head? = some c → isDigit c = false) ∧
      (fr = none → u4 = u2 ∧ u2.head? ≠ some 46) := by
    cases u2 with
    | nil => exact ⟨none, [], rfl, by simp, by simp, by simp⟩
    | cons c cs =>
      by_cases hc : c = 46
      · obtain ⟨f, r, e, h1, h2⟩ := digits_span cs
        exact ⟨some f, r, by simp [fracText, hc, e], by simpa using h1, h2, by simp⟩
      · exact ⟨none, c :: cs, rfl, by simp, hu2, fun _ => ⟨rfl, by simpa using hc⟩⟩
  obtain ⟨ex, u5, e4, hu5, hnox, hex⟩ := exp_span u4 hu4
  obtain ⟨sf, rest, e5, hsf, hnos⟩ : ∃ (sf : Option (UInt8 × Nat)) (rest : Bytes), u5 = sufText sf ++ rest ∧
      (∀ c m, sf = some (c, m) → (c, m) ∈ allSuffixes) ∧ (sf = none → ∀ c m, (c, m) ∈ allSuffixes → rest.head? ≠ some c) := by
    cases u5 with
    | nil => exact ⟨none, [], rfl, by simp, by simp⟩
    | cons c cs =>
      have hd := hu5 c rfl
      cases hv : suffixValF c with
      | some m =>
        refine ⟨some (c, m), cs, rfl, ?_, by simp⟩
        intro c' m' h
        simp only [Option.some.injEq, Prod.mk.injEq] at h
        obtain ⟨rfl, rfl⟩ := h
        exact (suffixValF_iff c m hd).1 hv
      | none =>
        refine ⟨none, c :: cs, rfl, by simp, ?_⟩
        intro _ c' m' h h'
        simp only [List.head?_cons, Option.some.injEq] at h'
        subst h'
        rw [(suffixValF_iff c m' hd).2 h] at hv
        simp at hv
  refine ⟨⟨s, ds, fr, ex, sf⟩, rest, ?_, ⟨hs, hds, hfr, hex, hsf⟩, ?_⟩
  · simp [NumParts.text, e1, e2, e3, e4, e5]
  · refine ⟨?_, ?_, ?_, hnos, ?_⟩
    · simpa only [← e5] using hu5
    · intro h; simpa only [← e5] using (hnox h).1
    · intro h1 h2
      simp only [← e5, (hnox h2).2, (hnone h1).1]
      exact (hnone h1).2
    · intro h
      simp only [List.append_eq_nil_iff] at h
      obtain ⟨⟨⟨rfl, rfl⟩, h3⟩, h4⟩ := h
      have hf : fr = none := by cases fr with | none => rfl | some f => simp [fracText] at h3
      have hx : ex = none := by cases ex with | none => rfl | some q => simp [expText] at h4
      simp only [← e5, (hnox hx).2, (hnone hf).1]
      simp only [List.nil_append] at e2
      rw [← e2]
      exact hs' rfl

theorem NumParts.ends_nil (p : NumParts) (hp : p.WF) : p.Ends [] := by
  have hl : ∀ q ∈ allSuffixes, isDigit q.1 = false ∧ q.1 ≠ 46 ∧ q.1 ≠ 43 ∧ q.1 ≠ 45 := by decide +kernel
  have hs : ∀ c m, p.suf = some (c, m) → isDigit c = false ∧ c ≠ 46 ∧ c ≠ 43 ∧ c ≠ 45 := fun c m h => hl (c, m) (hp.suf c m h)
  cases h : p.suf with
  | none => exact ⟨by simp [h, sufText], by simp [h, sufText, isExp], by simp [h, sufText], by simp, by simp [h, sufText]⟩
  | some q =>
    obtain ⟨c, m⟩ := q
    obtain ⟨h1, h2, h3, h4⟩ := hs c m h
    exact ⟨by simp [h, sufText, h1], by simp [h, sufText, isExp], by simp [h, sufText, h2], by simp [h], by simp [h, sufText, h3, h4]⟩

/-- Full statement: a whole text is a number exactly if it is one as usually written, with at least one digit. -/
def C106_statement : Prop :=
  ∀ (t : Bytes) (v : Rat), toRatWhole t = .ok v ↔ ∃ p : NumParts, p.WF ∧ p.ds ++ p.fs ≠ [] ∧ t = p.text ∧ v = p.value

/-- Holds apart from numbers without digits and huge exponents. -/
theorem C106_whole_partial (t : Bytes) (v : Rat) :
    toRatWhole t = .ok v ↔ ∃ p : NumParts, p.WF ∧ p.Fits ∧ t = p.text ∧ v = p.value := by
  constructor
  · intro h
    obtain ⟨p, rest, rfl, hp, he⟩ := C106_decompose t
    obtain ⟨h1, h2⟩ := C106_value p hp rest he
    unfold toRatWhole at h
    by_cases hf : p.Fits
    · rw [h1 hf] at h
      simp only at h
      by_cases hr : rest = []
      · subst hr
        simp only [ne_eq, not_true_eq_false, if_false, Res.ok.injEq] at h
        exact ⟨p, hp, hf, by simp, h.symm⟩
      · simp [hr] at h
    · rw [h2 hf] at h
      simp at h
  · rintro ⟨p, hp, hf, rfl, rfl⟩
    have := (C106_value p hp [] (p.ends_nil hp)).1 hf
    rw [List.append_nil] at this
    simp [toRatWhole, this]

/-- A sign alone is a number. -/
theorem C106_refuted : ¬ C106_statement := by
  intro h
  have h1 : toRatWhole (ascii "-") = .ok 0 := by decide +kernel
  obtain ⟨p, hp, hne, ht, _⟩ := (h _ _).1 h1
  rw [show ascii "-" = [45] from rfl] at ht
  unfold NumParts.text at ht
  cases hd : p.ds with
  | cons x xs =>
    have hx := hp.ds x (by simp [hd])
    rw [hd] at ht
    rcases hp.sign with hs | hs | hs <;> rw [hs] at ht
    · simp only [List.nil_append, List.cons_append, List.cons.injEq] at ht
      rw [← ht.1] at hx
      exact absurd hx (by decide)
    · simp at ht
    · simp at ht
  | nil =>
    cases hf : p.frac with
    | none => rw [hd, NumParts.fs, hf] at hne; simp at hne
    | some f =>
      rw [hd, hf] at ht
      rcases hp.sign with hs | hs | hs <;> rw [hs] at ht <;> simp [fracText] at ht

/-- So are a point, an exponent and a suffix, and nothing at all. -/
theorem C106_refuted_more : toRatWhole (ascii ".") = .ok 0 ∧ toRatWhole (ascii "e5") = .ok 0 ∧ toRatWhole (ascii "K") = .ok 0 ∧
    toRatWhole [] = .ok 0 := by decide +kernel

/-- A huge exponent: no result. -/
theorem C106_refuted_overflow : toRatWhole (ascii "1e9999999999") = .panic := by decide +kernel

example : toRat (ascii "-12.5e-1Kx") = some (-1280, ascii "x") := by decide +kernel
example : (⟨ascii "-", ascii "12", some (ascii "5"), some (101, ascii "-", ascii "1"), some (75, 1024)⟩ : NumParts).WF ∧
    (⟨ascii "-", ascii "12", some (ascii "5"), some (101, ascii "-", ascii "1"), some (75, 1024)⟩ : NumParts).Fits := by
  refine ⟨⟨by unfold IsSign; decide, by decide, by decide, ?_, ?_⟩, ?_⟩
  · intro c s d h
    simp only [Option.some.injEq, Prod.mk.injEq] at h
    obtain ⟨rfl, rfl, rfl⟩ := h
    unfold IsSign
    decide
  · intro c m h
    simp only [Option.some.injEq, Prod.mk.injEq] at h
    obtain ⟨rfl, rfl⟩ := h
    decide
  · intro c s d h
    simp only [Option.some.injEq, Prod.mk.injEq] at h
    obtain ⟨rfl, rfl, rfl⟩ := h
    decide

/-! ## Reading back -/

theorem digits_of_Digit {d : Bytes} (h : ∀ c ∈ d, Digit c) : ∀ c ∈ d, isDigit c = true := fun c hc => (isDigit_iff c).2 (h c hc)

theorem read_sign (b : Bool) (p : NumParts) (hp : p.WF) (hf : p.Fits) (hs : p.sign = []) :
    toRatWhole ((if b then [45] else []) ++ p.text) = .ok (if b then -p.value else p.value) := by
  cases b with
  | false => exact (C106_whole_partial _ _).2 ⟨p, hp, hf, rfl, rfl⟩
  | true =>
    refine (C106_whole_partial _ _).2 ⟨{ p with sign := [45] }, ⟨Or.inr (Or.inr rfl), hp.ds, hp.frac, hp.exp, hp.suf⟩, hf, ?_, ?_⟩
    · simp [NumParts.text, hs]
    · have : (({ p with sign := [45] } : NumParts).fs) = p.fs := rfl
      simp only [NumParts.value, this, hs, if_true]
      rw [if_neg (by decide)]
      grind

theorem numText_parts {t : Bytes} {n : Nat} (h : NumText t n) (hn : n < 2 ^ 1100) :
    ∃ p : NumParts, p.WF ∧ p.Fits ∧ p.sign = [] ∧ p.text = t ∧ p.value = (n : Rat) := by
  have hpt : ∀ f : Bytes, ∃ fr : Option Bytes, fracText fr = point f ∧ fr.getD [] = f := by
    intro f
    by_cases h : f = []
    · exact ⟨none, by simp [fracText, point, h], by simp [h]⟩
    · exact ⟨some f, by simp [fracText, point, h], rfl⟩
  cases h with
  | @plain i f n _ hd hv =>
    obtain ⟨fr, h1, h2⟩ := hpt f
    refine ⟨⟨[], i, fr, none, none⟩, ⟨Or.inl rfl, ?_, ?_, by simp, by simp⟩, by intro c s d h; simp at h, rfl, ?_, ?_⟩
    · exact digits_of_Digit fun c hc => hd c (by simp [hc])
    · simp only [NumParts.fs, h2]
      exact digits_of_Digit fun c hc => hd c (by simp [hc])
    · simp [NumParts.text, h1, expText, sufText]
    · simp only [NumParts.value, NumParts.fs, h2, hv, expVal, sufVal]
      rw [if_neg (by decide), Rat.natCast_mul, Rat.natCast_pow]
      have := ten_pow_ne f.length
      grind
  | @sci d f e n hd hv he =>
    obtain ⟨fr, h1, h2⟩ := hpt f
    have hlt : e < 2 ^ 31 := by
      rcases he with rfl | he
      · omega
      · have : 2 ^ e ≤ 10 ^ e := Nat.pow_le_pow_left (by omega) e
        have : 2 ^ e < 2 ^ 1100 := by omega
        have := (Nat.pow_lt_pow_iff_right (by decide : 1 < 2)).1 this
        omega
    refine ⟨⟨[], [d], fr, some (101, [], decText e), none⟩, ⟨Or.inl rfl, ?_, ?_, ?_, by simp⟩, ?_, rfl, ?_, ?_⟩
    · exact digits_of_Digit fun c hc => hd c (by simp at hc; simp [hc])
    · simp only [NumParts.fs, h2]
      exact digits_of_Digit fun c hc => hd c (by simp [hc])
    · intro c s x h
      simp only [Option.some.injEq, Prod.mk.injEq] at h
      obtain ⟨rfl, rfl, rfl⟩ := h
      exact ⟨Or.inl rfl, Or.inl rfl, decText_ne_nil e, digits_of_Digit (decText_digits e)⟩
    · intro c s x h
      simp only [Option.some.injEq, Prod.mk.injEq] at h
      obtain ⟨rfl, rfl, rfl⟩ := h
      rw [decVal_decText]
      exact hlt
    · simp [NumParts.text, h1, expText, sufText]
    · simp only [NumParts.value, NumParts.fs, h2, expVal, sufVal, decVal_decText]
      rw [if_neg (by decide), if_neg (by decide)]
      have hv' : ((decVal (d :: f) * 10 ^ e : Nat) : Rat) = ((n * 10 ^ f.length : Nat) : Rat) := by rw [hv]
      rw [Rat.natCast_mul, Rat.natCast_mul, Rat.natCast_pow, Rat.natCast_pow] at hv'
      have := ten_pow_ne f.length
      rw [List.cons_append, List.nil_append]
      grind

/-- A text that means a number is read as it. -/
theorem signedText_read {t : Bytes} {m : Int} (h2 : SignedText t m) (hm : m.natAbs < 2 ^ 1100) : toRatWhole t = .ok (m : Rat) := by
  rcases h2 with ⟨h5, h6⟩ | ⟨h5, b, rfl, h6⟩
  · obtain ⟨p, hp, hfit, hs, ht, hv⟩ := numText_parts h6 hm
    have := read_sign false p hp hfit hs
    rw [hv, ht] at this
    simp only [Bool.false_eq_true, if_false, List.nil_append] at this
    rw [this]
    congr 1
    have e : ((m.natAbs : Int)) = m := by omega
    rw [← Rat.intCast_natCast, e]
  · obtain ⟨p, hp, hfit, hs, ht, hv⟩ := numText_parts h6 hm
    have := read_sign true p hp hfit hs
    rw [hv, ht] at this
    simp only [if_true, List.cons_append, List.nil_append] at this
    rw [this]
    congr 1
    have e : (-(m.natAbs : Int)) = m := by omega
    rw [← Rat.intCast_natCast, ← Rat.intCast_neg, e]

/-- C107: a printed integer is read as the same number, or, if a precision is given, as one that near. -/
theorem C107_read_back (f : NumFormat) (p : Option Nat) (hf : f.prec? = some p) (num : Int) (hn : num.natAbs < 2 ^ 1024) :
    ∃ (t : Bytes) (m : Int), f.print num = some t ∧ toRatWhole t = .ok (m : Rat) ∧ (p = none → m = num) ∧
      ∀ k, p = some k → 2 * 10 ^ k * (m - num).natAbs ≤ num.natAbs := by
  obtain ⟨t, m, h1, h2, h3, h4⟩ := C100_integers f p hf num
  refine ⟨t, m, h1, ?_, h3, h4⟩
  have hm : m.natAbs < 2 ^ 1100 := by
    have : m.natAbs ≤ 2 * num.natAbs := by
      cases p with
      | none => rw [h3 rfl]; omega
      | some k =>
        have := h4 k rfl
        have hk : 1 ≤ 10 ^ k := Nat.pow_pos (by decide)
        have : 2 * (m - num).natAbs ≤ 2 * 10 ^ k * (m - num).natAbs := Nat.mul_le_mul_right _ (by omega)
        omega
    have : (2 : Nat) ^ 1024 * 2 ≤ 2 ^ 1100 := by decide +kernel
    omega
  exact signedText_read h2 hm

theorem powerText_parts {t : Bytes} {q v : Nat} (h : PowerText t q v) :
    ∃ p : NumParts, p.WF ∧ p.Fits ∧ p.sign = [] ∧ p.text = t ∧ p.value = (q : Rat) * v / 10 := by
  have key : ∀ c v, SuffixOf c v → (c, v) ∈ allSuffixes := by
    rintro c v ⟨h1, h2⟩
    cases hd : isDigit c with
    | false => exact (suffixValF_iff c v hd).1 h2
    | true =>
      exfalso
      have all : ∀ n, n < 256 → isDigit (UInt8.ofNat n) = true → UInt8.ofNat n ≠ 48 → suffixValF (UInt8.ofNat n) = none := by decide +kernel
      have := all c.toNat (UInt8.toNat_lt c)
      rw [UInt8.ofNat_toNat] at this
      rw [this hd h1] at h2
      simp at h2
  cases h with
  | @whole a v c hc =>
    refine ⟨⟨[], decText a, none, none, some (c, v)⟩, ⟨Or.inl rfl, digits_of_Digit (decText_digits a), by simp [NumParts.fs], by simp, ?_⟩,
      by intro c s d h; simp at h, rfl, by simp [NumParts.text, fracText, expText, sufText], ?_⟩
    · intro c' m h
      simp only [Option.some.injEq, Prod.mk.injEq] at h
      obtain ⟨rfl, rfl⟩ := h
      exact key c v hc
    · simp only [NumParts.value, NumParts.fs, Option.getD_none, List.append_nil, decVal_decText, List.length_nil, expVal, sufVal]
      rw [if_neg (by decide), Rat.natCast_mul]
      have : ((10 : Nat) : Rat) = 10 := rfl
      grind
  | @tenths a d v c hd hc =>
    have hlen : (decText d).length = 1 := by
      have : ∀ d, d < 10 → (decText d).length = 1 := by decide
      exact this d hd
    refine ⟨⟨[], decText a, some (decText d), none, some (c, v)⟩,
      ⟨Or.inl rfl, digits_of_Digit (decText_digits a), digits_of_Digit (by simpa [NumParts.fs] using decText_digits d), by simp, ?_⟩,
      by intro c s d h; simp at h, rfl, by simp [NumParts.text, fracText, expText, sufText], ?_⟩
    · intro c' m h
      simp only [Option.some.injEq, Prod.mk.injEq] at h
      obtain ⟨rfl, rfl⟩ := h
      exact key c v hc
    · simp only [NumParts.value, NumParts.fs, Option.getD_some, decVal_append, decVal_decText, hlen, expVal, sufVal]
      rw [if_neg (by decide), Rat.natCast_add, Rat.natCast_mul, Rat.natCast_add, Rat.natCast_mul, Rat.natCast_pow]
      have : ((10 : Nat) : Rat) = 10 := rfl
      grind

/-- With a letter for the power, it is read as a number within a tenth of it. -/
theorem C107_powers (f : NumFormat) (hf : f = .power2 ∨ f = .power10) (num : Int) :
    ∃ (t : Bytes) (q : Nat), f.print num = some t ∧ toRatWhole t = .ok (if num < 0 then -((q : Rat) / 10) else (q : Rat) / 10) ∧
      (num.natAbs < 1000 → q = 10 * num.natAbs) ∧ q ≤ 10 * num.natAbs + num.natAbs ∧ 10 * num.natAbs ≤ q + num.natAbs := by
  obtain ⟨t, h1, h2, h3⟩ := C101_powers f hf num
  have e : (if num < 0 then [45] else [] : Bytes) = if decide (num < 0) then [45] else [] := by simp
  by_cases hn : num.natAbs < 1000
  · refine ⟨_, 10 * num.natAbs, h1, ?_, fun _ => rfl, by omega, by omega⟩
    have ht : NumText t num.natAbs := by rw [h2 hn]; exact plainText_means num.natAbs none
    obtain ⟨p, hp, hfit, hs, htx, hv⟩ := numText_parts ht (by
      have : (1000 : Nat) ≤ 2 ^ 1100 := by decide +kernel
      omega)
    have := read_sign (decide (num < 0)) p hp hfit hs
    rw [htx, hv] at this
    rw [e, this, Rat.natCast_mul]
    have h10 : ((10 : Nat) : Rat) = 10 := rfl
    by_cases hneg : num < 0
    · simp only [hneg, decide_true, if_true, Res.ok.injEq]; grind
    · simp only [hneg, decide_false, Bool.false_eq_true, if_false, Res.ok.injEq]; grind
  · obtain ⟨q, v, h4, h5, h6⟩ := h3 (by omega)
    obtain ⟨p, hp, hfit, hs, htx, hv⟩ := powerText_parts h4
    refine ⟨_, q * v, h1, ?_, fun h => absurd h hn, h5, h6⟩
    have := read_sign (decide (num < 0)) p hp hfit hs
    rw [htx, hv] at this
    rw [e, this, Rat.natCast_mul]
    by_cases hneg : num < 0 <;> simp [hneg]

example : (NumFormat.float none).print (-1234) = some (ascii "-1.234e3") ∧ toRatWhole (ascii "-1.234e3") = .ok (-1234) := by
  decide +kernel
example : NumFormat.power2.print 5000 = some (ascii "4.9K") ∧ toRatWhole (ascii "4.9K") = .ok (50176 / 10) := by decide +kernel

/-! ## Junk -/

/-- A valid number at the beginning of the text. -/
def StartsNum (t : Bytes) : Prop := ∃ (p : NumParts) (rest : Bytes), p.WF ∧ p.Fits ∧ p.ds ++ p.fs ≠ [] ∧ t = p.text ++ rest

/-- Full statement for floats: if trailing junk is allowed, a text without a number at its beginning has the junk value, and any other
does not. -/
def C108_statement : Prop :=
  ∀ (junk : Rat) (t rest : Bytes) (v : Rat), toRat t = some (v, rest) →
    (¬ StartsNum t → junkVal .trailing junk t (v, rest) = junk) ∧ (StartsNum t → junkVal .trailing junk t (v, rest) = v)

/-- The sign of a text without number is not junk. -/
theorem C108_refuted : ¬ C108_statement := by
  intro h
  have h1 : toRat (ascii "-x") = some (0, ascii "x") := by decide +kernel
  have := (h 7 _ _ _ h1).1 (by
    rintro ⟨p, rest, hp, _, hne, ht⟩
    rw [show ascii "-x" = [45, 120] from rfl] at ht
    unfold NumParts.text at ht
    cases hd : p.ds with
    | cons x xs =>
      have hx := hp.ds x (by simp [hd])
      rw [hd] at ht
      rcases hp.sign with hs | hs | hs <;> rw [hs] at ht
      · simp only [List.nil_append, List.cons_append, List.cons.injEq] at ht
        rw [← ht.1] at hx
        exact absurd hx (by decide)
      · simp at ht
      · simp only [List.nil_append, List.cons_append, List.cons.injEq] at ht
        rw [← ht.2.1] at hx
        exact absurd hx (by decide)
    | nil =>
      cases hf : p.frac with
      | none => rw [hd, NumParts.fs, hf] at hne; simp at hne
      | some f =>
        rw [hd, hf] at ht
        rcases hp.sign with hs | hs | hs <;> rw [hs] at ht <;> simp [fracText] at ht)
  exact absurd this (by decide +kernel)

/-- Any junk is allowed: the value is what could be read. -/
theorem C108_any {α : Type} (junk : α) (t : Bytes) (p : α × Bytes) : junkVal .any junk t p = p.1 := rfl

theorem toRat_parts {t rest : Bytes} {v : Rat} (h : toRat t = some (v, rest)) :
    ∃ p : NumParts, p.WF ∧ p.Fits ∧ p.Ends rest ∧ t = p.text ++ rest ∧ v = p.value := by
  obtain ⟨p, r, rfl, hp, he⟩ := C106_decompose t
  obtain ⟨h1, h2⟩ := C106_value p hp r he
  by_cases hf : p.Fits
  · rw [h1 hf] at h
    simp only [Option.some.injEq, Prod.mk.injEq] at h
    obtain ⟨rfl, rfl⟩ := h
    exact ⟨p, hp, hf, he, rfl, rfl⟩
  · rw [h2 hf] at h; simp at h

/-- C108 for floats: a number at the beginning is taken; without as much as a sign, point, exponent or suffix it is junk. If no junk is
allowed, the text must be a number to its end. -/
theorem C108_float_partial (junk : Rat) (t rest : Bytes) (v : Rat) (h : toRat t = some (v, rest)) :
    (StartsNum t → junkVal .trailing junk t (v, rest) = v) ∧
      ((∀ (p : NumParts) (r : Bytes), p.WF → t = p.text ++ r → p.text = []) → junkVal .trailing junk t (v, rest) = junk) ∧
      ((∃ p : NumParts, p.WF ∧ p.Fits ∧ p.text = t ∧ t ≠ [] ∧ p.value = v) → junkVal .none junk t (v, rest) = v) ∧
      ((∀ p : NumParts, p.WF → p.Fits → p.text ≠ t) ∨ t = [] → junkVal .none junk t (v, rest) = junk) := by
  obtain ⟨p, hp, hf, he, ht, hv⟩ := toRat_parts h
  refine ⟨?_, ?_, ?_, ?_⟩
  · rintro ⟨q, r, hq, _, hne, hqt⟩
    simp only [junkVal]
    rw [if_pos]
    intro hl
    have hl' : p.text = [] := by
      rw [ht, List.length_append] at hl
      exact List.eq_nil_of_length_eq_zero (by omega)
    have hr : rest = t := by rw [ht, hl', List.nil_append]
    unfold NumParts.text at hl'
    simp only [List.append_eq_nil_iff] at hl'
    obtain ⟨⟨⟨⟨e1, e2⟩, e3⟩, e4⟩, e5⟩ := hl'
    have d1 := he.digit
    have d2 := he.point (by cases hx : p.frac with
      | none => rfl
      | some f => rw [hx] at e3; simp [fracText] at e3) (by cases hx : p.exp with
      | none => rfl
      | some f => rw [hx] at e4; simp [expText] at e4)
    have d3 := he.sign (by simp [e1, e2, e3, e4])
    rw [e5, List.nil_append, hr, hqt] at d1 d2 d3
    unfold NumParts.text at d1 d2 d3
    rcases hq.sign with hs | hs | hs <;> rw [hs] at d1 d2 d3
    · cases hd : q.ds with
      | cons c cs =>
        rw [hd] at d1
        have := d1 c (by simp)
        rw [hq.ds c (by simp [hd])] at this
        simp at this
      | nil =>
        cases hx : q.frac with
        | none => rw [hd, NumParts.fs, hx] at hne; simp at hne
        | some f => rw [hd, hx] at d2; simp [fracText] at d2
    · simp at d3
    · simp at d3
  · intro hj
    have := hj p rest hp ht
    simp only [junkVal]
    rw [if_neg]
    simp [ht, this]
  · rintro ⟨q, hq, hqf, hqt, hne, hqv⟩
    have h2 := (C106_whole_partial t v).2 ⟨q, hq, hqf, hqt.symm, hqv.symm⟩
    unfold toRatWhole at h2
    rw [h] at h2
    by_cases hr : rest = []
    · simp [junkVal, hr, hne]
    · simp [hr] at h2
  · intro hj
    simp only [junkVal]
    rw [if_neg]
    rintro ⟨hr, hne⟩
    rcases hj with hj | hj
    · exact hj p hp hf (by rw [ht, hr, List.append_nil])
    · exact hne hj

/-- An unsigned number at the beginning of the text. -/
def StartsUsize (t : Bytes) : Prop := ∃ (sign : Bytes) (c : UInt8) (u : Bytes), (sign = [] ∨ sign = [43]) ∧ isDigit c = true ∧ t = sign ++ c :: u

/-- A signed number at the beginning of the text. -/
def StartsIsize (t : Bytes) : Prop := ∃ (sign : Bytes) (c : UInt8) (u : Bytes), IsSign sign ∧ isDigit c = true ∧ t = sign ++ c :: u

theorem digitLoop_rest (lim : Nat) : ∀ (t : Bytes) (r v : Nat) (rest : Bytes), digitLoop lim r t = some (v, rest) → rest.length ≤ t.length := by
  intro t
  induction t with
  | nil => intro r v rest h; simp [digitLoop] at h; simp [h.2]
  | cons c cs ih =>
    intro r v rest h
    rw [digitLoop] at h
    by_cases h1 : isDigit c = true
    · rw [if_pos h1] at h
      by_cases h2 : r * 10 > lim
      · simp [h2] at h
      · by_cases h3 : r * 10 + (c.toNat - 48) > lim
        · simp [h2, h3] at h
        · rw [if_neg h2, if_neg h3] at h
          have := ih _ _ _ h
          simp only [List.length_cons]; omega
    · rw [if_neg h1] at h
      simp only [Option.some.injEq, Prod.mk.injEq] at h
      simp [← h.2]

/-- With a digit first, the loop moves on. -/
theorem digitLoop_moves (lim : Nat) (c : UInt8) (cs : Bytes) (hc : isDigit c = true) (r v : Nat) (rest : Bytes)
    (h : digitLoop lim r (c :: cs) = some (v, rest)) : rest.length ≤ cs.length := by
  rw [digitLoop, if_pos hc] at h
  by_cases h2 : r * 10 > lim
  · simp [h2] at h
  · by_cases h3 : r * 10 + (c.toNat - 48) > lim
    · simp [h2, h3] at h
    · rw [if_neg h2, if_neg h3] at h
      exact digitLoop_rest _ _ _ _ _ h

/-- C108 for `usize`, with junk after it: a number at the beginning, and nothing else, is taken. -/
theorem C108_usize_trailing (junk : Nat) (t rest : Bytes) (v : Nat) (h : toUsize t = some (v, rest)) :
    (StartsUsize t → junkVal .trailing junk t (v, rest) = v) ∧ (¬ StartsUsize t → junkVal .trailing junk t (v, rest) = junk) := by
  obtain ⟨sign, ds, r, rfl, hs, hd, hr, hpl⟩ := C39_decompose t
  rw [C39_to_usize sign ds r hs hd hr hpl] at h
  by_cases h0 : ds = []
  · subst h0
    rw [if_pos rfl] at h
    simp only [Option.some.injEq, Prod.mk.injEq] at h
    refine ⟨?_, fun _ => by simp [junkVal, ← h.2]⟩
    rintro ⟨s2, c, u, hs2, hc, he⟩
    exfalso
    have h43 : isDigit 43 = false := by decide
    rcases hs with rfl | rfl <;> rcases hs2 with rfl | rfl
    · have := hr c (by simpa using congrArg List.head? he)
      rw [hc] at this; simp at this
    · exact hpl rfl rfl (by simpa using congrArg List.head? he)
    · simp only [List.append_nil, List.cons_append, List.nil_append, List.cons.injEq] at he
      rw [← he.1, h43] at hc; simp at hc
    · simp only [List.append_nil, List.cons_append, List.nil_append, List.cons.injEq, true_and] at he
      have := hr c (by rw [he]; rfl)
      rw [hc] at this; simp at this
  · rw [if_neg h0] at h
    by_cases hle : decVal ds * (takeSuffix r).1 ≤ usizeMax
    · rw [if_pos hle] at h
      simp only [Option.some.injEq, Prod.mk.injEq] at h
      have hl : (takeSuffix r).2.length ≤ r.length := by
        cases r with
        | nil => simp [takeSuffix]
        | cons c cs =>
          simp only [takeSuffix]
          cases suffixValU c <;> simp
      have hp : 0 < ds.length := List.length_pos_iff.2 h0
      refine ⟨fun _ => ?_, fun hn => ?_⟩
      · simp only [junkVal]
        rw [if_pos]
        rw [← h.2, List.length_append, List.length_append]; omega
      · exfalso
        cases ds with
        | nil => exact h0 rfl
        | cons c cs => exact hn ⟨sign, c, cs ++ r, hs, hd c (by simp), by simp⟩
    · rw [if_neg hle] at h; simp at h

/-- C108 for `usize`, without junk: the value is taken from exactly the texts that are a number to the end. -/
theorem C108_usize_none (junk : Nat) (t rest : Bytes) (v : Nat) (h : toUsize t = some (v, rest)) :
    (toUsizeWhole t = .ok v ∧ t ≠ [] → junkVal .none junk t (v, rest) = v) ∧
      (toUsizeWhole t ≠ .ok v ∨ t = [] → junkVal .none junk t (v, rest) = junk) := by
  unfold toUsizeWhole
  rw [h]
  by_cases hr : rest = []
  · by_cases ht : t = [] <;> simp [junkVal, hr, ht]
  · simp [junkVal, hr]

theorem mulIsize_shape (a b : Int) (r : Bytes) (v : Int) (rest : Bytes)
    (h : ((mulIsize a b).bind fun v => some (v, r)) = some (v, rest)) : rest = r := by
  cases hm : mulIsize a b with
  | none => rw [hm] at h; simp at h
  | some w => rw [hm] at h; simp only [Option.bind_some, Option.some.injEq, Prod.mk.injEq] at h; exact h.2.symm

theorem isizeSign_split (t : Bytes) : ∃ sign, IsSign sign ∧ t = sign ++ (isizeSign t).2 ∧ (sign = [] → t.head? ≠ some 43 ∧ t.head? ≠ some 45) := by
  cases t with
  | nil => exact ⟨[], Or.inl rfl, rfl, by simp⟩
  | cons c cs =>
    by_cases h1 : c = 43
    · exact ⟨[43], Or.inr (Or.inl rfl), by simp [isizeSign, h1], by simp⟩
    · by_cases h2 : c = 45
      · exact ⟨[45], Or.inr (Or.inr rfl), by simp [isizeSign, h2], by simp⟩
      · exact ⟨[], Or.inl rfl, by simp [isizeSign, h1, h2], by simp [h1, h2]⟩

/-- C108 for `isize`. -/
theorem C108_isize_trailing (junk : Int) (t rest : Bytes) (v : Int) (h : toIsize t = some (v, rest)) :
    (StartsIsize t → junkVal .trailing junk t (v, rest) = v) ∧ (¬ StartsIsize t → junkVal .trailing junk t (v, rest) = junk) := by
  obtain ⟨sign, hs, ht, hn⟩ := isizeSign_split t
  unfold toIsize at h
  have hlen : (isizeSign t).2.length ≤ t.length := by
    conv => rhs; rw [ht]
    simp
  have nostart : ∀ {c : UInt8} {cs : Bytes}, (isizeSign t).2 = c :: cs → isDigit c = false → ¬ StartsIsize t := by
    intro c cs hc hd
    rintro ⟨s2, c2, u, hs2, hc2, he⟩
    have e43 : isDigit 43 = false := by decide
    have e45 : isDigit 45 = false := by decide
    rw [hc] at ht
    rcases hs with rfl | rfl | rfl <;> rcases hs2 with rfl | rfl | rfl
    all_goals first
      | (have hn' := hn rfl
         rw [he] at hn'
         simp at hn'; done)
      | (rw [ht] at he
         simp only [List.nil_append, List.cons_append, List.cons.injEq] at he
         first
           | (rw [he.1, hc2] at hd; simp at hd; done)
           | (rw [← he.1, e43] at hc2; simp at hc2; done)
           | (rw [← he.1, e45] at hc2; simp at hc2; done)
           | (rw [he.2.1, hc2] at hd; simp at hd; done)
           | (exact absurd he.1 (by decide)))
  cases hi : (isizeSign t).2 with
  | nil =>
    rw [hi] at h ht
    simp only [Option.some.injEq, Prod.mk.injEq] at h
    refine ⟨?_, fun _ => by simp [junkVal, ← h.2]⟩
    rintro ⟨s2, c2, u, hs2, hc2, he⟩
    exfalso
    have e43 : isDigit 43 = false := by decide
    have e45 : isDigit 45 = false := by decide
    rcases hs with rfl | rfl | rfl <;> rcases hs2 with rfl | rfl | rfl <;> rw [ht] at he <;> simp at he
    · rw [← he.1, e43] at hc2; simp at hc2
    · rw [← he.1, e45] at hc2; simp at hc2
  | cons c cs =>
    rw [hi] at h hlen
    simp only [List.length_cons] at hlen
    cases hd : isDigit c with
    | false =>
      simp only [hd, if_true, Option.some.injEq, Prod.mk.injEq] at h
      exact ⟨fun hst => absurd hst (nostart hi hd), fun _ => by simp [junkVal, ← h.2]⟩
    | true =>
      simp only [hd, Bool.true_eq_false, if_false] at h
      have hst : StartsIsize t := ⟨sign, c, cs, hs, hd, by rw [← hi]; exact ht⟩
      refine ⟨fun _ => ?_, fun hx => absurd hst hx⟩
      simp only [junkVal]
      rw [if_pos]
      cases hl : digitLoop isizeMax 0 (c :: cs) with
      | none => rw [hl] at h; simp at h
      | some q =>
        obtain ⟨r, rs⟩ := q
        have hm := digitLoop_moves _ _ _ hd _ _ _ hl
        rw [hl] at h
        simp only at h
        cases rs with
        | nil =>
          have := mulIsize_shape _ _ _ _ _ h
          rw [this, List.length_nil]; omega
        | cons s rs =>
          simp only [List.length_cons] at hm
          simp only at h
          cases hsu : suffixValU s with
          | none =>
            rw [hsu] at h
            have := mulIsize_shape _ _ _ _ _ h
            rw [this]; simp; omega
          | some m =>
            rw [hsu] at h
            simp only at h
            cases hmm : mulIsize r (asIsize m) with
            | none => rw [hmm] at h; simp at h
            | some w =>
              rw [hmm] at h
              have := mulIsize_shape _ _ _ _ _ h
              rw [this]; omega

/-- C108 for `isize`, without junk. -/
theorem C108_isize_none (junk : Int) (t rest : Bytes) (v : Int) (h : toIsize t = some (v, rest)) :
    (toIsizeWhole t = .ok v ∧ t ≠ [] → junkVal .none junk t (v, rest) = v) ∧
      (toIsizeWhole t ≠ .ok v ∨ t = [] → junkVal .none junk t (v, rest) = junk) := by
  unfold toIsizeWhole
  rw [h]
  by_cases hr : rest = []
  · by_cases ht : t = [] <;> simp [junkVal, hr, ht]
  · simp [junkVal, hr]

example : toIsize (ascii "-5kx") = some (-5000, ascii "x") ∧ StartsIsize (ascii "-5kx") ∧
    junkVal .trailing 9 (ascii "-5kx") (-5000, ascii "x") = (-5000 : Int) ∧ junkVal .none 9 (ascii "-5kx") (-5000, ascii "x") = (9 : Int) := by
  refine ⟨by decide +kernel, ⟨[45], 53, ascii "kx", Or.inr (Or.inr rfl), by decide, by decide⟩, by decide +kernel, by decide +kernel⟩

end Cdx
