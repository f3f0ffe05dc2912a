import Verif.Model.Utf8

/-! Facts about writing and decoding characters. -/

namespace Cdx

theorem isCont_iff (b : UInt8) : isCont b = true ↔ 128 ≤ b.toNat ∧ b.toNat ≤ 191 := by
  unfold isCont
  simp only [Bool.and_eq_true, decide_eq_true_eq, UInt8.le_iff_toNat_le]
  rfl

theorem second3_iff (a b : UInt8) : second3 a b = true ↔
    128 ≤ b.toNat ∧ b.toNat ≤ 191 ∧ (a.toNat = 224 → 160 ≤ b.toNat) ∧ (a.toNat = 237 → b.toNat ≤ 159) := by
  have h1 : a = 224 ↔ a.toNat = 224 := by rw [← UInt8.toNat_inj]; rfl
  have h2 : a = 237 ↔ a.toNat = 237 := by rw [← UInt8.toNat_inj]; rfl
  unfold second3
  by_cases c1 : a = 224
  · rw [if_pos c1]
    rw [h1] at c1
    simp only [Bool.and_eq_true, decide_eq_true_eq, UInt8.le_iff_toNat_le]
    show 160 ≤ b.toNat ∧ b.toNat ≤ 191 ↔ _
    omega
  · rw [if_neg c1]
    rw [h1] at c1
    by_cases c2 : a = 237
    · rw [if_pos c2]
      rw [h2] at c2
      simp only [Bool.and_eq_true, decide_eq_true_eq, UInt8.le_iff_toNat_le]
      show 128 ≤ b.toNat ∧ b.toNat ≤ 159 ↔ _
      omega
    · rw [if_neg c2, isCont_iff]
      rw [h2] at c2
      omega

theorem second4_iff (a b : UInt8) : second4 a b = true ↔
    128 ≤ b.toNat ∧ b.toNat ≤ 191 ∧ (a.toNat = 240 → 144 ≤ b.toNat) ∧ (a.toNat = 244 → b.toNat ≤ 143) := by
  have h1 : a = 240 ↔ a.toNat = 240 := by rw [← UInt8.toNat_inj]; rfl
  have h2 : a = 244 ↔ a.toNat = 244 := by rw [← UInt8.toNat_inj]; rfl
  unfold second4
  by_cases c1 : a = 240
  · rw [if_pos c1]
    rw [h1] at c1
    simp only [Bool.and_eq_true, decide_eq_true_eq, UInt8.le_iff_toNat_le]
    show 144 ≤ b.toNat ∧ b.toNat ≤ 191 ↔ _
    omega
  · rw [if_neg c1]
    rw [h1] at c1
    by_cases c2 : a = 244
    · rw [if_pos c2]
      rw [h2] at c2
      simp only [Bool.and_eq_true, decide_eq_true_eq, UInt8.le_iff_toNat_le]
      show 128 ≤ b.toNat ∧ b.toNat ≤ 143 ↔ _
      omega
    · rw [if_neg c2, isCont_iff]
      rw [h2] at c2
      omega

theorem u8_ascii (a : UInt8) : a < 128 ↔ a.toNat < 128 := by
  rw [UInt8.lt_iff_toNat_lt]
  rfl

theorem toNat_ofNat {n : Nat} (h : n < 256) : (UInt8.ofNat n).toNat = n := by
  rw [UInt8.toNat_ofNat', Nat.mod_eq_of_lt h]

theorem ofNat_eq {n : Nat} {a : UInt8} (h : n = a.toNat) : UInt8.ofNat n = a := by
  rw [h, UInt8.ofNat_toNat]

/-- A character at the front is decoded, and what follows is left. -/
theorem utf8Next_enc {c : Nat} (hc : isScalar c) (r : Bytes) : ∃ a t, encChar c = a :: t ∧ utf8Next a (t ++ r) = (some c, r) := by
  unfold isScalar at hc
  unfold encChar
  by_cases h1 : c < 0x80
  · rw [if_pos h1]
    refine ⟨_, _, rfl, ?_⟩
    have e : (UInt8.ofNat c).toNat = c := toNat_ofNat (by omega)
    unfold utf8Next
    rw [if_pos (by omega), e]
    rfl
  rw [if_neg h1]
  by_cases h2 : c < 0x800
  · rw [if_pos h2]
    refine ⟨_, _, rfl, ?_⟩
    have e1 : (UInt8.ofNat (192 + c / 64)).toNat = 192 + c / 64 := toNat_ofNat (by omega)
    have e2 : (UInt8.ofNat (128 + c % 64)).toNat = 128 + c % 64 := toNat_ofNat (by omega)
    have k2 : isCont (UInt8.ofNat (128 + c % 64)) = true := (isCont_iff _).2 (by omega)
    unfold utf8Next
    rw [if_neg (by omega),
      if_neg (by omega), if_pos (by omega)]
    simp only [List.cons_append, List.nil_append, k2, if_true, e1, e2]
    refine Prod.ext (congrArg some ?_) rfl
    show (192 + c / 64 - 192) * 64 + (128 + c % 64 - 128) = c
    omega
  rw [if_neg h2]
  by_cases h3 : c < 0x10000
  · rw [if_pos h3]
    refine ⟨_, _, rfl, ?_⟩
    have e1 : (UInt8.ofNat (224 + c / 4096)).toNat = 224 + c / 4096 := toNat_ofNat (by omega)
    have e2 : (UInt8.ofNat (128 + c / 64 % 64)).toNat = 128 + c / 64 % 64 := toNat_ofNat (by omega)
    have e3 : (UInt8.ofNat (128 + c % 64)).toNat = 128 + c % 64 := toNat_ofNat (by omega)
    have k2 : second3 (UInt8.ofNat (224 + c / 4096)) (UInt8.ofNat (128 + c / 64 % 64)) = true := (second3_iff _ _).2 (by omega)
    have k3 : isCont (UInt8.ofNat (128 + c % 64)) = true := (isCont_iff _).2 (by omega)
    unfold utf8Next
    rw [if_neg (by omega),
      if_neg (by omega),
      if_neg (by omega), if_pos (by omega)]
    simp only [List.cons_append, List.nil_append, k2, k3, if_true, e1, e2, e3]
    refine Prod.ext (congrArg some ?_) rfl
    show (224 + c / 4096 - 224) * 4096 + (128 + c / 64 % 64 - 128) * 64 + (128 + c % 64 - 128) = c
    omega
  rw [if_neg h3]
  refine ⟨_, _, rfl, ?_⟩
  have e1 : (UInt8.ofNat (240 + c / 262144)).toNat = 240 + c / 262144 := toNat_ofNat (by omega)
  have e2 : (UInt8.ofNat (128 + c / 4096 % 64)).toNat = 128 + c / 4096 % 64 := toNat_ofNat (by omega)
  have e3 : (UInt8.ofNat (128 + c / 64 % 64)).toNat = 128 + c / 64 % 64 := toNat_ofNat (by omega)
  have e4 : (UInt8.ofNat (128 + c % 64)).toNat = 128 + c % 64 := toNat_ofNat (by omega)
  have k2 : second4 (UInt8.ofNat (240 + c / 262144)) (UInt8.ofNat (128 + c / 4096 % 64)) = true := (second4_iff _ _).2 (by omega)
  have k3 : isCont (UInt8.ofNat (128 + c / 64 % 64)) = true := (isCont_iff _).2 (by omega)
  have k4 : isCont (UInt8.ofNat (128 + c % 64)) = true := (isCont_iff _).2 (by omega)
  unfold utf8Next
  rw [if_neg (by omega),
    if_neg (by omega),
    if_neg (by omega),
    if_neg (by omega), if_pos (by omega)]
  simp only [List.cons_append, List.nil_append, k2, k3, k4, if_true, e1, e2, e3, e4]
  refine Prod.ext (congrArg some ?_) rfl
  show (240 + c / 262144 - 240) * 262144 + (128 + c / 4096 % 64 - 128) * 4096 + (128 + c / 64 % 64 - 128) * 64 + (128 + c % 64 - 128) = c
  omega

/-- What the decoder takes for a character is one, in the bytes taken. -/
theorem utf8Next_some {a : UInt8} {r r' : Bytes} {c : Nat} (h : utf8Next a r = (some c, r')) : isScalar c ∧ a :: r = encChar c ++ r' := by
  unfold utf8Next at h
  by_cases h1 : a.toNat < 128
  · rw [if_pos h1] at h
    injection h with h2 h3
    injection h2 with h2
    subst h2 h3
    refine ⟨Or.inl (by omega), ?_⟩
    unfold encChar
    rw [if_pos (by omega), UInt8.ofNat_toNat]
    rfl
  rw [if_neg h1] at h
  by_cases h2 : a.toNat < 194
  · rw [if_pos h2] at h
    simp at h
  rw [if_neg h2] at h
  by_cases h3 : a.toNat < 224
  · rw [if_pos h3] at h
    split at h
    · simp at h
    · rename_i b r1
      split at h
      · rename_i k
        rw [isCont_iff] at k
        injection h with h4 h5
        injection h4 with h4
        subst h5
        refine ⟨Or.inl (by omega), ?_⟩
        unfold encChar
        rw [if_neg (by omega), if_pos (by omega), ofNat_eq (a := a) (by omega), ofNat_eq (a := b) (by omega)]
        rfl
      · simp at h
  rw [if_neg h3] at h
  by_cases h4 : a.toNat < 240
  · rw [if_pos h4] at h
    split at h
    · simp at h
    · rename_i b r1
      split at h
      · rename_i k
        rw [second3_iff] at k
        split at h
        · simp at h
        · rename_i d r2
          split at h
          · rename_i k2
            rw [isCont_iff] at k2
            injection h with h5 h6
            injection h5 with h5
            subst h6
            refine ⟨by unfold isScalar; omega, ?_⟩
            unfold encChar
            rw [if_neg (by omega), if_neg (by omega), if_pos (by omega), ofNat_eq (a := a) (by omega), ofNat_eq (a := b) (by omega),
              ofNat_eq (a := d) (by omega)]
            rfl
          · simp at h
      · simp at h
  rw [if_neg h4] at h
  by_cases h5 : a.toNat < 245
  · rw [if_pos h5] at h
    split at h
    · simp at h
    · rename_i b r1
      split at h
      · rename_i k
        rw [second4_iff] at k
        split at h
        · simp at h
        · rename_i d r2
          split at h
          · rename_i k2
            rw [isCont_iff] at k2
            split at h
            · simp at h
            · rename_i e r3
              split at h
              · rename_i k3
                rw [isCont_iff] at k3
                injection h with h6 h7
                injection h6 with h6
                subst h7
                refine ⟨by unfold isScalar; omega, ?_⟩
                unfold encChar
                rw [if_neg (by omega), if_neg (by omega), if_neg (by omega), ofNat_eq (a := a) (by omega),
                  ofNat_eq (a := b) (by omega), ofNat_eq (a := d) (by omega), ofNat_eq (a := e) (by omega)]
                rfl
              · simp at h
          · simp at h
      · simp at h
  · rw [if_neg h5] at h
    simp at h

/-- Every step takes at least a byte. -/
theorem utf8Next_le (a : UInt8) (r : Bytes) : (utf8Next a r).2.length ≤ r.length := by
  unfold utf8Next
  repeat' (first | split)
  all_goals simp
  all_goals omega

theorem encChar_ne (c : Nat) : encChar c ≠ [] := by
  unfold encChar
  repeat' split
  all_goals simp

/-- The fuel of the loop is enough. -/
theorem utf8Pieces_fuel (n : Nat) : ∀ b : Bytes, b.length ≤ n → utf8Pieces n b = decodeUtf8 b := by
  suffices h : ∀ m n, ∀ b : Bytes, b.length ≤ m → b.length ≤ n → utf8Pieces n b = utf8Pieces m b by
    intro b hb
    exact h _ _ b (Nat.le_refl _) hb
  intro m
  induction m with
  | zero =>
    intro n b hb _
    have : b = [] := List.eq_nil_of_length_eq_zero (by omega)
    subst this
    cases n <;> rfl
  | succ m ih =>
    intro n b hm hn
    cases b with
    | nil => cases n <;> rfl
    | cons a r =>
      cases n with
      | zero => simp at hn
      | succ n =>
        have := utf8Next_le a r
        simp only [List.length_cons] at hm hn
        simp only [utf8Pieces]
        rw [ih n _ (by omega) (by omega)]

theorem decodeUtf8_nil : decodeUtf8 [] = [] := rfl

theorem decodeUtf8_cons (a : UInt8) (r : Bytes) : decodeUtf8 (a :: r) = (utf8Next a r).1 :: decodeUtf8 (utf8Next a r).2 := by
  have := utf8Next_le a r
  show utf8Pieces (r.length + 1) (a :: r) = _
  simp only [utf8Pieces]
  rw [utf8Pieces_fuel _ _ this]

theorem decodeUtf8_enc {c : Nat} (hc : isScalar c) (r : Bytes) : decodeUtf8 (encChar c ++ r) = some c :: decodeUtf8 r := by
  obtain ⟨a, t, h1, h2⟩ := utf8Next_enc hc r
  rw [h1, List.cons_append, decodeUtf8_cons, h2]

theorem encChars_nil : encChars [] = [] := rfl
theorem encChars_cons (c : Nat) (cs : List Nat) : encChars (c :: cs) = encChar c ++ encChars cs := by simp [encChars]
theorem encChars_append (a b : List Nat) : encChars (a ++ b) = encChars a ++ encChars b := by simp [encChars]

theorem decodeUtf8_encs {cs : List Nat} (h : ∀ c ∈ cs, isScalar c) (r : Bytes) :
    decodeUtf8 (encChars cs ++ r) = cs.map some ++ decodeUtf8 r := by
  induction cs with
  | nil => rfl
  | cons c cs ih =>
    rw [encChars_cons, List.append_assoc, decodeUtf8_enc (h c (by simp)), ih fun x hx => h x (by simp [hx])]
    rfl

/-- Text without bad pieces is the text of its characters. -/
theorem encs_decodeUtf8 (n : Nat) : ∀ b : Bytes, b.length ≤ n → (decodeUtf8 b).all Option.isSome = true →
    (∀ c ∈ lossyChars b, isScalar c) ∧ encChars (lossyChars b) = b := by
  induction n with
  | zero =>
    intro b hb _
    have : b = [] := List.eq_nil_of_length_eq_zero (by omega)
    subst this
    exact ⟨by simp [lossyChars, decodeUtf8_nil], rfl⟩
  | succ n ih =>
    intro b hb h
    cases b with
    | nil => exact ⟨by simp [lossyChars, decodeUtf8_nil], rfl⟩
    | cons a r =>
      rw [decodeUtf8_cons, List.all_cons, Bool.and_eq_true] at h
      cases hx : utf8Next a r with
      | mk o r' =>
        rw [hx] at h
        obtain ⟨h1, h2⟩ := h
        have hl := utf8Next_le a r
        rw [hx] at hl
        simp only [List.length_cons] at hb
        cases o with
        | none => simp at h1
        | some c =>
          obtain ⟨k1, k2⟩ := utf8Next_some hx
          obtain ⟨i1, i2⟩ := ih r' (by simp only at hl; omega) h2
          have e : lossyChars (a :: r) = c :: lossyChars r' := by
            unfold lossyChars
            rw [decodeUtf8_cons, hx]
            rfl
          rw [e, k2, encChars_cons, i2]
          refine ⟨?_, rfl⟩
          intro d hd
          rcases List.mem_cons.1 hd with rfl | hd
          · exact k1
          · exact i1 d hd

theorem lossyChars_enc {cs : List Nat} (h : ∀ c ∈ cs, isScalar c) : lossyChars (encChars cs) = cs := by
  have := decodeUtf8_encs h []
  rw [List.append_nil, decodeUtf8_nil, List.append_nil] at this
  unfold lossyChars
  rw [this, List.map_map]
  exact List.map_id' _

/-- The decoder finds exactly the strings. -/
theorem isSome_iff (b : Bytes) : (decodeUtf8 b).all Option.isSome = true ↔ IsStr b := by
  constructor
  · intro h
    obtain ⟨h1, h2⟩ := encs_decodeUtf8 _ b (Nat.le_refl _) h
    exact ⟨_, h1, h2⟩
  · rintro ⟨cs, h1, rfl⟩
    have := decodeUtf8_encs h1 []
    rw [List.append_nil, decodeUtf8_nil, List.append_nil] at this
    rw [this]
    simp

theorem encChars_inj {a b : List Nat} (ha : ∀ c ∈ a, isScalar c) (hb : ∀ c ∈ b, isScalar c) (h : encChars a = encChars b) : a = b := by
  rw [← lossyChars_enc ha, h, lossyChars_enc hb]

theorem lossy_scalar (b : Bytes) : ∀ c ∈ lossyChars b, isScalar c := by
  suffices h : ∀ n, ∀ b : Bytes, b.length ≤ n → ∀ c ∈ lossyChars b, isScalar c from h _ b (Nat.le_refl _)
  intro n
  induction n with
  | zero =>
    intro b hb
    have : b = [] := List.eq_nil_of_length_eq_zero (by omega)
    subst this
    simp [lossyChars, decodeUtf8_nil]
  | succ n ih =>
    intro b hb
    cases b with
    | nil => simp [lossyChars, decodeUtf8_nil]
    | cons a r =>
      cases hx : utf8Next a r with
      | mk o r' =>
        have hl := utf8Next_le a r
        rw [hx] at hl
        simp only [List.length_cons] at hb hl
        have e : lossyChars (a :: r) = o.getD 0xFFFD :: lossyChars r' := by
          unfold lossyChars
          rw [decodeUtf8_cons, hx]
          rfl
        rw [e]
        intro c hc
        rcases List.mem_cons.1 hc with rfl | hc
        · cases o with
          | none => decide
          | some c => exact (utf8Next_some hx).1
        · exact ih r' (by omega) c hc

theorem lossy_isStr (b : Bytes) : IsStr (lossyText b) := ⟨_, lossy_scalar b, rfl⟩

/-! ## Where a string may be cut -/

/-- The first byte of a character begins it, and the others do not. -/
theorem encChar_bytes {c : Nat} (hc : isScalar c) : ∃ a t, encChar c = a :: t ∧ isCont a = false ∧ ∀ x ∈ t, isCont x = true := by
  unfold isScalar at hc
  have hf : ∀ n, n < 256 → (n < 128 ∨ 191 < n) → isCont (UInt8.ofNat n) = false := by
    intro n h1 h2
    cases h : isCont (UInt8.ofNat n) with
    | false => rfl
    | true =>
      rw [isCont_iff, toNat_ofNat h1] at h
      omega
  have ht : ∀ n, n < 192 → 128 ≤ n → isCont (UInt8.ofNat n) = true := by
    intro n h1 h2
    rw [isCont_iff, toNat_ofNat (by omega)]
    omega
  unfold encChar
  by_cases h1 : c < 0x80
  · rw [if_pos h1]
    exact ⟨_, _, rfl, hf _ (by omega) (by omega), by simp⟩
  rw [if_neg h1]
  by_cases h2 : c < 0x800
  · rw [if_pos h2]
    refine ⟨_, _, rfl, hf _ (by omega) (by omega), ?_⟩
    intro x hx
    simp only [List.mem_cons, List.not_mem_nil, or_false] at hx
    subst hx
    exact ht _ (by omega) (by omega)
  rw [if_neg h2]
  by_cases h3 : c < 0x10000
  · rw [if_pos h3]
    refine ⟨_, _, rfl, hf _ (by omega) (by omega), ?_⟩
    intro x hx
    simp only [List.mem_cons, List.not_mem_nil, or_false] at hx
    rcases hx with rfl | rfl
    all_goals exact ht _ (by omega) (by omega)
  rw [if_neg h3]
  refine ⟨_, _, rfl, hf _ (by omega) (by omega), ?_⟩
  intro x hx
  simp only [List.mem_cons, List.not_mem_nil, or_false] at hx
  rcases hx with rfl | rfl | rfl
  all_goals exact ht _ (by omega) (by omega)

theorem isStr_nil : IsStr [] := ⟨[], by simp, rfl⟩

theorem isStr_append {a b : Bytes} (ha : IsStr a) (hb : IsStr b) : IsStr (a ++ b) := by
  obtain ⟨x, hx, rfl⟩ := ha
  obtain ⟨y, hy, rfl⟩ := hb
  refine ⟨x ++ y, ?_, encChars_append x y⟩
  intro c hc
  rcases List.mem_append.1 hc with h | h
  · exact hx c h
  · exact hy c h

theorem isStr_ascii {b : Bytes} (h : ∀ x ∈ b, x < 128) : IsStr b := by
  refine ⟨b.map UInt8.toNat, ?_, ?_⟩
  · intro c hc
    obtain ⟨x, hx, rfl⟩ := List.mem_map.1 hc
    have := (u8_ascii x).1 (h x hx)
    exact Or.inl (by omega)
  · induction b with
    | nil => rfl
    | cons x xs ih =>
      have hx := (u8_ascii x).1 (h x (by simp))
      rw [List.map_cons, encChars_cons, ih fun y hy => h y (by simp [hy])]
      unfold encChar
      rw [if_pos (by omega), UInt8.ofNat_toNat]
      rfl

/-- No string begins inside a character. -/
theorem isStr_start {b : Bytes} (h : IsStr b) : cutsChar b 0 = false := by
  obtain ⟨cs, h1, rfl⟩ := h
  cases cs with
  | nil => rfl
  | cons c cs =>
    obtain ⟨a, t, e, ha, -⟩ := encChar_bytes (h1 c (by simp))
    rw [encChars_cons, e]
    simpa [cutsChar] using ha

theorem cutsChar_drop (b : Bytes) (i j : Nat) : cutsChar (b.drop i) j = cutsChar b (i + j) := by
  unfold cutsChar
  rw [List.getElem?_drop]

/-- A place that does not cut a character divides a string into two strings. -/
theorem isStr_cut {b : Bytes} (h : IsStr b) : ∀ {i : Nat}, i ≤ b.length → cutsChar b i = false → IsStr (b.take i) ∧ IsStr (b.drop i) := by
  obtain ⟨cs, h1, rfl⟩ := h
  induction cs with
  | nil =>
    intro i _ _
    rw [encChars_nil, List.take_nil, List.drop_nil]
    exact ⟨isStr_nil, isStr_nil⟩
  | cons c cs ih =>
    intro i hi hc
    have hs := h1 c (by simp)
    have hcs : ∀ d ∈ cs, isScalar d := fun d hd => h1 d (by simp [hd])
    rw [encChars_cons] at hi hc ⊢
    by_cases h0 : i = 0
    · subst h0
      exact ⟨isStr_nil, c :: cs, h1, encChars_cons c cs⟩
    by_cases hl : i < (encChar c).length
    · exfalso
      obtain ⟨a, t, e, -, ht⟩ := encChar_bytes hs
      unfold cutsChar at hc
      rw [List.getElem?_append_left hl] at hc
      have hm : (encChar c)[i]'hl ∈ t := by
        obtain ⟨j, rfl⟩ : ∃ j, i = j + 1 := ⟨i - 1, by omega⟩
        have hl' : j < t.length := by rw [e] at hl; simpa using hl
        have : (encChar c)[j + 1]'hl = t[j]'hl' := by simp [e]
        rw [this]
        exact List.getElem_mem _
      rw [List.getElem?_eq_getElem hl] at hc
      simp [ht _ hm] at hc
    · have hle : (encChar c).length ≤ i := by omega
      rw [List.length_append] at hi
      obtain ⟨i1, i2⟩ := ih hcs (i := i - (encChar c).length) (by omega) (by
        unfold cutsChar at hc ⊢
        rwa [List.getElem?_append_right hle] at hc)
      rw [List.take_append, List.drop_append, List.take_of_length_le hle, List.drop_eq_nil_of_le hle, List.nil_append]
      refine ⟨isStr_append ⟨[c], ?_, by rw [encChars_cons, encChars_nil, List.append_nil]⟩ i1, i2⟩
      intro d hd
      rw [List.mem_singleton.1 hd]
      exact hs

/-- The places where a string may be cut are those that leave strings. -/
theorem isStr_cut_iff {b : Bytes} (h : IsStr b) {i : Nat} (hi : i ≤ b.length) :
    cutsChar b i = false ↔ IsStr (b.take i) ∧ IsStr (b.drop i) := by
  constructor
  · exact isStr_cut h hi
  · intro hd
    have := isStr_start hd.2
    rwa [cutsChar_drop] at this

/-- A one-byte character can be cut off on both sides. -/
theorem isStr_ascii_at {p t : Bytes} {x : UInt8} (h : IsStr (p ++ x :: t)) (hx : x < 128) : IsStr p ∧ IsStr t := by
  have hx' := (u8_ascii x).1 hx
  have h0 : cutsChar (p ++ x :: t) p.length = false := by
    unfold cutsChar
    rw [List.getElem?_append_right (by omega), Nat.sub_self]
    show isCont x = false
    cases hc : isCont x with
    | false => rfl
    | true =>
      rw [isCont_iff] at hc
      omega
  obtain ⟨h1, h2⟩ := isStr_cut h (by simp) h0
  rw [List.take_left'  rfl] at h1
  rw [List.drop_left' rfl] at h2
  refine ⟨h1, ?_⟩
  obtain ⟨cs, hcs, e⟩ := h2
  cases cs with
  | nil => simp [encChars_nil] at e
  | cons c cs =>
    rw [encChars_cons] at e
    have hd := decodeUtf8_enc (hcs c (by simp)) (encChars cs)
    rw [e, decodeUtf8_cons] at hd
    have hn : utf8Next x t = (some x.toNat, t) := by
      unfold utf8Next
      rw [if_pos hx']
    rw [hn] at hd
    injection hd with hd1 _
    injection hd1 with hd1
    have : encChar c = [x] := by
      rw [← hd1]
      unfold encChar
      rw [if_pos (by omega), UInt8.ofNat_toNat]
    rw [this] at e
    injection e with _ e
    exact ⟨cs, fun d hd => hcs d (by simp [hd]), e⟩

/-! ## Decoding parts -/

/-- What follows does not change the first step if it does not begin inside a character. -/
theorem utf8Next_append (a : UInt8) (r p : Bytes) (h : cutsChar p 0 = false) :
    utf8Next a (r ++ p) = ((utf8Next a r).1, (utf8Next a r).2 ++ p) := by
  have hp : p = [] ∨ ∃ x t, p = x :: t ∧ isCont x = false := by
    cases p with
    | nil => exact Or.inl rfl
    | cons x t => exact Or.inr ⟨x, t, rfl, by simpa [cutsChar] using h⟩
  rcases hp with rfl | ⟨x, t, rfl, hx⟩
  · rw [List.append_nil, List.append_nil]
  have h3 : second3 a x = false := by
    cases h3 : second3 a x with
    | false => rfl
    | true =>
      rw [second3_iff] at h3
      have := (isCont_iff x).2 ⟨h3.1, h3.2.1⟩
      rw [hx] at this
      exact this.symm
  have h4 : second4 a x = false := by
    cases h4 : second4 a x with
    | false => rfl
    | true =>
      rw [second4_iff] at h4
      have := (isCont_iff x).2 ⟨h4.1, h4.2.1⟩
      rw [hx] at this
      exact this.symm
  unfold utf8Next
  by_cases c1 : a.toNat < 128
  · rw [if_pos c1, if_pos c1]
  rw [if_neg c1, if_neg c1]
  by_cases c2 : a.toNat < 194
  · rw [if_pos c2, if_pos c2]
  rw [if_neg c2, if_neg c2]
  by_cases c3 : a.toNat < 224
  · rw [if_pos c3, if_pos c3]
    cases r with
    | nil => simp [hx]
    | cons b r => cases hb : isCont b <;> simp [hb]
  rw [if_neg c3, if_neg c3]
  by_cases c4 : a.toNat < 240
  · rw [if_pos c4, if_pos c4]
    cases r with
    | nil => simp [h3]
    | cons b r =>
      cases hb : second3 a b
      · simp [hb]
      · cases r with
        | nil => simp [hb, hx]
        | cons c r => cases hc : isCont c <;> simp [hb, hc]
  rw [if_neg c4, if_neg c4]
  by_cases c5 : a.toNat < 245
  · rw [if_pos c5, if_pos c5]
    cases r with
    | nil => simp [h4]
    | cons b r =>
      cases hb : second4 a b
      · simp [hb]
      · cases r with
        | nil => simp [hb, hx]
        | cons c r =>
          cases hc : isCont c
          · simp [hb, hc]
          · cases r with
            | nil => simp [hb, hc, hx]
            | cons d r => cases hd : isCont d <;> simp [hb, hc, hd]
  · rw [if_neg c5, if_neg c5]

/-- Two texts are decoded one after the other if the second does not begin inside a character. -/
theorem decodeUtf8_append (v p : Bytes) (h : cutsChar p 0 = false) : decodeUtf8 (v ++ p) = decodeUtf8 v ++ decodeUtf8 p := by
  suffices hs : ∀ n, ∀ v : Bytes, v.length ≤ n → decodeUtf8 (v ++ p) = decodeUtf8 v ++ decodeUtf8 p from hs _ v (Nat.le_refl _)
  intro n
  induction n with
  | zero =>
    intro v hv
    have : v = [] := List.eq_nil_of_length_eq_zero (by omega)
    subst this
    rfl
  | succ n ih =>
    intro v hv
    cases v with
    | nil => rfl
    | cons a r =>
      have hl := utf8Next_le a r
      simp only [List.length_cons] at hv
      rw [List.cons_append, decodeUtf8_cons, utf8Next_append a r p h, decodeUtf8_cons, ih _ (by omega)]
      rfl

/-- Every first part of the pieces comes from a first part of the text. -/
theorem decodeUtf8_split (v : Bytes) : ∀ {P Q : List (Option Nat)}, decodeUtf8 v = P ++ Q → ∃ a b, v = a ++ b ∧ decodeUtf8 b = Q := by
  suffices hs : ∀ n, ∀ v : Bytes, v.length ≤ n → ∀ P Q : List (Option Nat), decodeUtf8 v = P ++ Q → ∃ a b, v = a ++ b ∧ decodeUtf8 b = Q from
    fun {P Q} => hs _ v (Nat.le_refl _) P Q
  intro n
  induction n with
  | zero =>
    intro v hv P Q h
    have : v = [] := List.eq_nil_of_length_eq_zero (by omega)
    subst this
    rw [decodeUtf8_nil] at h
    have := List.append_eq_nil_iff.1 h.symm
    exact ⟨[], [], rfl, by rw [this.2, decodeUtf8_nil]⟩
  | succ n ih =>
    intro v hv P Q h
    cases P with
    | nil => exact ⟨[], v, rfl, h⟩
    | cons x P =>
      cases v with
      | nil => simp [decodeUtf8_nil] at h
      | cons a r =>
        have hl := utf8Next_le a r
        simp only [List.length_cons] at hv
        rw [decodeUtf8_cons, List.cons_append] at h
        injection h with _ h
        obtain ⟨a', b, h1, h2⟩ := ih _ (by omega) _ _ h
        have hsuf : ∃ t, a :: r = t ++ (utf8Next a r).2 := by
          suffices hx : ∃ t, r = t ++ (utf8Next a r).2 by
            obtain ⟨t, ht⟩ := hx
            exact ⟨a :: t, by rw [List.cons_append, ← ht]⟩
          unfold utf8Next
          repeat' split
          · exact ⟨[], rfl⟩
          · exact ⟨[], rfl⟩
          · exact ⟨[], rfl⟩
          · exact ⟨[_], rfl⟩
          · exact ⟨[], rfl⟩
          · exact ⟨[], rfl⟩
          · exact ⟨[_], rfl⟩
          · exact ⟨[_, _], rfl⟩
          · exact ⟨[_], rfl⟩
          · exact ⟨[], rfl⟩
          · exact ⟨[], rfl⟩
          · exact ⟨[_], rfl⟩
          · exact ⟨[_, _], rfl⟩
          · exact ⟨[_, _, _], rfl⟩
          · exact ⟨[_, _], rfl⟩
          · exact ⟨[_], rfl⟩
          · exact ⟨[], rfl⟩
          · exact ⟨[], rfl⟩
        obtain ⟨t, ht⟩ := hsuf
        exact ⟨t ++ a', b, by rw [ht, h1, List.append_assoc], h2⟩

/-- Pieces that are characters at the front come from those characters at the front. -/
theorem decodeUtf8_front : ∀ {cs : List Nat} {v : Bytes} {Q : List (Option Nat)}, decodeUtf8 v = cs.map some ++ Q →
    ∃ r, v = encChars cs ++ r ∧ decodeUtf8 r = Q
  | [], v, Q, h => ⟨v, rfl, h⟩
  | c :: cs, v, Q, h => by
    cases v with
    | nil => simp [decodeUtf8_nil] at h
    | cons a r =>
      rw [decodeUtf8_cons, List.map_cons, List.cons_append] at h
      injection h with h1 h2
      obtain ⟨r2, h3, h4⟩ := decodeUtf8_front h2
      have := utf8Next_some (a := a) (r := r) (c := c) (r' := (utf8Next a r).2) (by rw [← h1])
      exact ⟨r2, by rw [this.2, h3, encChars_cons, List.append_assoc], h4⟩

end Cdx
