import Verif.Props.Text

/-!
Parts of delimited values, prefixes and suffixes, byte ranges: C62, C63, C64.
-/

namespace Cdx

/-! ## C62: head and tail -/

theorem headLenLoop_spec (d : UInt8) (done rest : Bytes) (left : Nat) (hl : 0 < left) :
    headLenLoop (done ++ rest) d left rest = done ++ List.intercalate [d] ((sliceSplit d rest).take left) := by
  induction rest generalizing done left with
  | nil =>
    obtain ⟨k, rfl⟩ : ∃ k, left = k + 1 := ⟨left - 1, by omega⟩
    simp [headLenLoop, sliceSplit]
  | cons x xs ih =>
    unfold headLenLoop
    by_cases h : x = d
    · subst h
      simp only [if_true, sliceSplit]
      obtain ⟨k, rfl⟩ : ∃ k, left = k + 1 := ⟨left - 1, by omega⟩
      simp only [Nat.add_sub_cancel]
      by_cases hk : k = 0
      · subst hk
        simp
      · simp only [hk, if_false]
        have := ih (done ++ [x]) k (by omega)
        rw [List.append_assoc, List.singleton_append] at this
        rw [this, List.take_succ_cons]
        have hne : (sliceSplit x xs).take k ≠ [] := by
          simp [List.take_eq_nil_iff, hk, sliceSplit_ne_nil]
        rw [intercalate_cons_ne _ _ hne]
        simp
    · simp only [h, if_false]
      have := ih (done ++ [x]) left hl
      rw [List.append_assoc, List.singleton_append] at this
      rw [this]
      have hne := sliceSplit_ne_nil d xs
      cases hs : sliceSplit d xs with
      | nil => exact absurd hs hne
      | cons a t =>
        simp only [sliceSplit, h, if_false, hs]
        obtain ⟨k, rfl⟩ : ∃ k, left = k + 1 := ⟨left - 1, by omega⟩
        rw [List.take_succ_cons, List.take_succ_cons, intercalate_cons_head, List.append_assoc]
        rfl

/-- `head(n)` is the first `n` parts with the delimiters between them. -/
theorem C62_head (v : Bytes) (n : Nat) (d : UInt8) :
    headParts v n d = List.intercalate [d] ((sliceSplit d v).take n) := by
  unfold headParts
  by_cases h : n = 0
  · simp [h]
  · by_cases hv : v = []
    · subst hv
      obtain ⟨k, rfl⟩ : ∃ k, n = k + 1 := ⟨n - 1, by omega⟩
      simp [sliceSplit]
    · simp only [h, hv, or_self, if_false]
      have := headLenLoop_spec d [] v n (by omega)
      simpa using this

theorem tailLenLoop_spec (d : UInt8) (rev suf : Bytes) (k : Nat) (hs : (sliceSplit d suf).length = k + 1)
    (left : Nat) (hl : 0 < left) :
    (rev.reverse ++ suf).drop (tailLenLoop d left rev) =
      List.intercalate [d] ((sliceSplit d (rev.reverse ++ suf)).drop
        ((sliceSplit d (rev.reverse ++ suf)).length - (left + k))) := by
  induction rev generalizing suf k left with
  | nil =>
    simp only [tailLenLoop, List.reverse_nil, List.nil_append, List.drop_zero, hs]
    rw [show k + 1 - (left + k) = 0 by omega, List.drop_zero, intercalate_sliceSplit]
  | cons x xs ih =>
    unfold tailLenLoop
    have happ : (x :: xs).reverse ++ suf = xs.reverse ++ (x :: suf) := by simp
    by_cases h : x = d
    · subst h
      simp only [if_true]
      rw [happ]
      by_cases h1 : left - 1 = 0
      · simp only [h1, if_true]
        have hleft : left = 1 := by omega
        subst hleft
        have hd : (xs.reverse ++ x :: suf).drop (xs.length + 1) = suf := by
          rw [List.drop_append]; simp
        rw [hd]
        have key : ∀ a b : Bytes, sliceSplit x (a ++ x :: b) = sliceSplit x a ++ sliceSplit x b := by
          intro a b
          induction a with
          | nil => simp [sliceSplit]
          | cons y ys ih' =>
            by_cases hy : y = x
            · simp [sliceSplit, hy, ih']
            · simp only [List.cons_append, sliceSplit, hy, if_false, ih']
              cases hh : sliceSplit x ys with
              | nil => exact absurd hh (sliceSplit_ne_nil x ys)
              | cons p q => simp
        rw [key, List.length_append, hs]
        rw [show (sliceSplit x xs.reverse).length + (k + 1) - (1 + k) = (sliceSplit x xs.reverse).length by omega]
        rw [List.drop_left, intercalate_sliceSplit]
      · simp only [h1, if_false]
        have := ih (x :: suf) (k + 1) (by simp [sliceSplit, hs]) (left - 1) (by omega)
        rw [this, show left - 1 + (k + 1) = left + k by omega]
    · simp only [h, if_false]
      rw [happ]
      refine ih (x :: suf) k ?_ left hl
      simp only [sliceSplit, h, if_false]
      cases hh : sliceSplit d suf with
      | nil => exact absurd hh (sliceSplit_ne_nil d suf)
      | cons p q => rw [hh] at hs; simpa using hs

/-- `tail(n)` is the last `n` parts with the delimiters between them. -/
theorem C62_tail (v : Bytes) (n : Nat) (d : UInt8) :
    tailParts v n d = List.intercalate [d] ((sliceSplit d v).drop ((sliceSplit d v).length - n)) := by
  unfold tailParts tailLen
  by_cases h : n = 0
  · simp [h]
  · simp only [h, if_false]
    have := tailLenLoop_spec d v.reverse [] 0 (by simp [sliceSplit]) n (by omega)
    simpa using this

/-- `head_path`: a leading delimiter is kept and not counted. -/
theorem C62_head_path (v : Bytes) (n : Nat) (d : UInt8) :
    headPath (d :: v) n d = (if n = 0 then [] else d :: headParts v n d) ∧
      (v.head? ≠ some d → headPath v n d = headParts v n d) := by
  constructor
  · simp only [headPath, if_true]
    rw [C62_head, C62_head]
    simp only [sliceSplit, if_true, List.take_succ_cons]
    by_cases hn : n = 0
    · simp [hn]
    · have hne : (sliceSplit d v).take n ≠ [] := by simp [List.take_eq_nil_iff, hn, sliceSplit_ne_nil]
      rw [intercalate_cons_ne _ _ hne]
      simp [hn]
  · intro h
    cases v with
    | nil => simp [headPath, headParts]
    | cons x xs =>
      have : x ≠ d := by simpa using h
      simp [headPath, this]

theorem sliceSplit_snoc_delim (d : UInt8) (v : Bytes) : sliceSplit d (v ++ [d]) = sliceSplit d v ++ [[]] := by
  induction v with
  | nil => simp [sliceSplit]
  | cons y ys ih =>
    by_cases hy : y = d
    · simp [sliceSplit, hy, ih]
    · simp only [List.cons_append, sliceSplit, hy, if_false, ih]
      cases hh : sliceSplit d ys with
      | nil => exact absurd hh (sliceSplit_ne_nil d ys)
      | cons p q => simp

theorem intercalate_snoc_nil (d : UInt8) (l : List Bytes) (h : l ≠ []) :
    List.intercalate [d] (l ++ [[]]) = List.intercalate [d] l ++ [d] := by
  induction l with
  | nil => exact absurd rfl h
  | cons a t ih =>
    cases t with
    | nil => simp
    | cons b t =>
      rw [List.cons_append, intercalate_cons_ne _ _ (by simp), intercalate_cons_ne _ _ (by simp),
        ih (by simp)]
      simp

/-- `tail_path_u8`: a trailing delimiter is kept and not counted. -/
theorem C62_tail_path (v : Bytes) (n : Nat) (d : UInt8) :
    tailPath (v ++ [d]) n d = (if n = 0 then [] else tailParts v n d ++ [d]) ∧
      (v.getLast? ≠ some d → tailPath v n d = tailParts v n d) := by
  constructor
  · have : v ++ [d] ≠ [] := by simp
    simp only [tailPath, this, if_false, List.getLast?_append, List.getLast?_singleton, Option.some_or, if_true]
    rw [C62_tail, C62_tail, sliceSplit_snoc_delim, List.length_append]
    have hlen : 0 < (sliceSplit d v).length := List.length_pos_iff.2 (sliceSplit_ne_nil d v)
    by_cases hn : n = 0
    · subst hn; simp
    · have e : (sliceSplit d v).length + [([] : Bytes)].length - (n + 1) = (sliceSplit d v).length - n := by
        simp
      rw [e, List.drop_append_of_le_length (by omega), if_neg hn]
      apply intercalate_snoc_nil
      intro h
      have := List.drop_eq_nil_iff.1 h
      omega
  · intro h
    by_cases hv : v = []
    · subst hv
      simp [tailPath, tailParts]
    · simp [tailPath, hv, h]

example : headParts [97, 46, 98, 46, 99] 2 46 = [97, 46, 98] ∧ tailPath [97, 46, 98, 46] 1 46 = [98, 46] := by
  decide

/-! ## C63: prefix and suffix, case-blind -/

theorem bcasePrefix_iff (hay needle : Bytes) :
    bcasePrefix hay needle = true ↔ needle <+: lower hay := by
  induction hay generalizing needle with
  | nil => cases needle <;> simp [bcasePrefix, lower]
  | cons h hs ih =>
    cases needle with
    | nil => simp [bcasePrefix]
    | cons n ns =>
      simp only [bcasePrefix, lower, List.map_cons, List.cons_prefix_cons]
      by_cases e : lowerByte h = n
      · simpa [e, lower] using ih ns
      · simp [e, Ne.symm e]

/-- The case-blind prefix test. The matcher stores the pattern in lower case. -/
theorem C63_prefix (value pattern : Bytes) :
    bcasePrefix value (lower pattern) = true ↔ lower pattern <+: lower value :=
  bcasePrefix_iff _ _

/-- Full statement for suffixes. -/
def C63_statement : Prop :=
  ∀ value pattern : Bytes, bcaseSuffix value (lower pattern) = some (decide (lower pattern <:+ lower value))

/-- With an empty pattern the index arithmetic underflows. -/
theorem C63_refuted : ¬ C63_statement := by
  intro h
  exact absurd (h [97] []) (by decide)

/-- The case-blind suffix test for non-empty patterns. Missing: the empty pattern, which panics. -/
theorem C63_suffix_partial (value pattern : Bytes) (hp : pattern ≠ []) :
    bcaseSuffix value (lower pattern) = some (decide (lower pattern <:+ lower value)) := by
  have hl : lower pattern ≠ [] := by simpa [lower] using hp
  unfold bcaseSuffix
  by_cases h : (lower pattern).length > value.length
  · have : ¬ lower pattern <:+ lower value := by
      intro hs
      have := hs.length_le
      simp [lower] at this h; omega
    simp [h, this]
  · have hv : value ≠ [] := by
      rintro rfl
      simp at h
      exact hl h
    simp only [h, hl, hv, or_self, if_false, Option.some.injEq]
    rw [Bool.eq_iff_iff, bcasePrefix_iff, decide_eq_true_eq]
    have : lower value.reverse = (lower value).reverse := by simp [lower]
    rw [this, List.reverse_prefix]

theorem scasePrefixLoop_iff {α : Type} [DecidableEq α] (n h : List α) :
    scasePrefixLoop n h = true ↔ n <+: h := by
  induction n generalizing h with
  | nil => simp [scasePrefixLoop]
  | cons x xs ih =>
    cases h with
    | nil => simp [scasePrefixLoop]
    | cons y ys =>
      simp only [scasePrefixLoop, List.cons_prefix_cons]
      by_cases e : x = y <;> simp [e, ih]

/-- The character versions, for any lower-casing of characters. -/
theorem C63_chars {α : Type} [DecidableEq α] (low : α → List α) (value pattern : List α) :
    (scasePrefix low value (pattern.flatMap low) = true ↔ pattern.flatMap low <+: value.flatMap low) ∧
    (scaseSuffix low value (pattern.flatMap low) = true ↔ pattern.flatMap low <:+ value.flatMap low) := by
  refine ⟨scasePrefixLoop_iff _ _, ?_⟩
  unfold scaseSuffix
  simp only
  split
  · rename_i h
    simp only [Bool.false_eq_true, false_iff]
    intro hs
    have := hs.length_le
    omega
  · rename_i h
    rw [scasePrefixLoop_iff]
    constructor
    · intro hp
      have hlen : (List.drop ((value.flatMap low).length - (pattern.flatMap low).length) (value.flatMap low)).length
          = (pattern.flatMap low).length := by rw [List.length_drop]; omega
      have := hp.eq_of_length hlen.symm
      rw [this]
      exact List.drop_suffix ..
    · rintro ⟨t, ht⟩
      rw [← ht]
      simp

example : bcaseSuffix [65, 66] (lower [98]) = some true := by decide

/-! ## C64: byte ranges -/

/-- An item of the spec: one position or a range, as decimal digit strings. -/
structure ByteItem where
  lo : Bytes
  hi : Option Bytes

/-- The text of an item: `n` or `a-b`. -/
def ByteItem.text (i : ByteItem) : Bytes :=
  match i.hi with
  | none => i.lo
  | some h => i.lo ++ 45 :: h

/-- A digit string with a value below `lim`. -/
def DigitString (lim : Nat) (b : Bytes) : Prop := b ≠ [] ∧ (∀ c ∈ b, isDigit c = true) ∧ decVal b < lim

/-- The item is made of digit strings with values below `lim`. -/
def ByteItem.Numeric (lim : Nat) (i : ByteItem) : Prop :=
  DigitString lim i.lo ∧ ∀ h, i.hi = some h → DigitString lim h

/-- First and last position. -/
def ByteItem.first (i : ByteItem) : Nat := decVal i.lo
def ByteItem.last (i : ByteItem) : Nat := decVal (i.hi.getD i.lo)

/-- Acceptable: positive and in order. -/
def ByteItem.Valid (i : ByteItem) : Prop := 1 ≤ i.first ∧ i.first ≤ i.last

/-- Specification: the bytes at 1-based positions `a` to `b`, those that exist. -/
def bytesAt (a b : Nat) (src : Bytes) : Bytes :=
  (List.range' a (b + 1 - a)).filterMap fun i => src[i - 1]?

/-- Full statement: for every spec of numbers that fit the machine word. -/
def C64_statement : Prop :=
  ∀ (items : List ByteItem) (src : Bytes), items ≠ [] → (∀ i ∈ items, i.Numeric (2 ^ 64)) →
    ((∀ i ∈ items, i.Valid) → bytesTransSpec (List.intercalate [44] (items.map ByteItem.text)) src =
      .ok (items.flatMap fun i => bytesAt i.first i.last src)) ∧
    ((∃ i ∈ items, ¬ i.Valid) → bytesTransSpec (List.intercalate [44] (items.map ByteItem.text)) src = .err)

/-- Position 4294967297 selects byte 1: positions are truncated to 32 bits. -/
theorem C64_refuted : ¬ C64_statement := by
  intro h
  have := (h [⟨[52, 50, 57, 52, 57, 54, 55, 50, 57, 55], none⟩] [97, 98] (by simp)
    (by simp only [ByteItem.Numeric, DigitString, List.mem_singleton, forall_eq]
        decide)).1
    (by simp only [ByteItem.Valid, List.mem_singleton, forall_eq]; decide)
  exact absurd this (by decide)

theorem toUsizeWhole_digits (b : Bytes) (h : DigitString (2 ^ 32) b) : toUsizeWhole b = .ok (decVal b) := by
  rw [C39_whole]
  right
  refine ⟨[], b, [], Or.inl rfl, h.1, h.2.1, by simp, Or.inl ⟨rfl, rfl⟩, ?_⟩
  have := h.2.2
  have h2 : (2 : Nat) ^ 32 ≤ usizeMax := by decide
  omega

theorem splitOnce_none (d : UInt8) (a : Bytes) (h : d ∉ a) : splitOnce d a = none := by
  induction a with
  | nil => rfl
  | cons x xs ih =>
    simp only [List.mem_cons, not_or] at h
    simp [splitOnce, Ne.symm h.1, ih h.2]

theorem splitOnce_some (d : UInt8) (a b : Bytes) (h : d ∉ a) : splitOnce d (a ++ d :: b) = some (a, b) := by
  induction a with
  | nil => simp [splitOnce]
  | cons x xs ih =>
    simp only [List.mem_cons, not_or] at h
    simp [splitOnce, Ne.symm h.1, ih h.2]

theorem not_digit_mem {b : Bytes} {d : UInt8} (hd : isDigit d = false) (h : ∀ c ∈ b, isDigit c = true) : d ∉ b := by
  intro hm; rw [h d hm] at hd; simp at hd

theorem parse_item (i : ByteItem) (h : i.Numeric (2 ^ 32)) :
    (i.Valid → Slice.parse i.text = .ok ⟨i.first - 1, i.last⟩) ∧ (¬ i.Valid → Slice.parse i.text = .err) := by
  obtain ⟨lo, hi⟩ := i
  obtain ⟨h1, h2⟩ := h
  simp only at h1 h2
  have e1 : asU32 (decVal lo) = decVal lo := Nat.mod_eq_of_lt h1.2.2
  have hm := not_digit_mem (d := 45) (by decide) h1.2.1
  cases hi with
  | none =>
    simp only [Slice.parse, ByteItem.text, splitOnce_none 45 lo hm, toUsizeWhole_digits lo h1, e1, ByteItem.Valid,
      ByteItem.first, ByteItem.last, Option.getD_none, Nat.le_refl, and_true]
    constructor
    · intro h; rw [if_neg (by omega)]
    · intro h; rw [if_pos (by omega)]
  | some hi =>
    have h3 := h2 hi rfl
    have e2 : asU32 (decVal hi) = decVal hi := Nat.mod_eq_of_lt h3.2.2
    simp only [Slice.parse, ByteItem.text, splitOnce_some 45 lo hi hm, toUsizeWhole_digits lo h1,
      toUsizeWhole_digits hi h3, e1, e2, ByteItem.Valid, ByteItem.first, ByteItem.last, Option.getD_some]
    constructor
    · intro h; rw [if_neg (by omega), if_neg (by omega)]
    · intro h
      split
      · rfl
      · rw [if_pos (by omega)]

theorem bytesTransNew_spec (items : List ByteItem) (h : ∀ i ∈ items, i.Numeric (2 ^ 32)) :
    ((∀ i ∈ items, i.Valid) → bytesTransNew (items.map ByteItem.text) =
      .ok (items.map fun i => ⟨i.first - 1, i.last⟩)) ∧
    ((∃ i ∈ items, ¬ i.Valid) → bytesTransNew (items.map ByteItem.text) = .err) := by
  induction items with
  | nil => simp [bytesTransNew]
  | cons x xs ih =>
    have hx := parse_item x (h x (List.mem_cons_self ..))
    have ih := ih fun i hi => h i (List.mem_cons_of_mem _ hi)
    simp only [List.map_cons, bytesTransNew]
    by_cases hv : x.Valid
    · rw [hx.1 hv]
      simp only
      by_cases ha : ∀ i ∈ xs, i.Valid
      · rw [ih.1 ha]
        simp [hv]
        exact ha
      · have ha' : ∃ i ∈ xs, ¬ i.Valid := by
          apply Classical.byContradiction
          intro hn
          exact ha fun i hi => Classical.byContradiction fun hv => hn ⟨i, hi, hv⟩
        rw [ih.2 ha']
        simp [hv]
        obtain ⟨i, hi, hn⟩ := ha'
        exact ⟨i, hi, hn⟩
    · rw [hx.2 hv]
      simp [hv]

theorem getSafe_eq_bytesAt (a b : Nat) (ha : 1 ≤ a) (hb : a ≤ b) (src : Bytes) :
    (Slice.mk (a - 1) b).getSafe src = bytesAt a b src := by
  have key : ∀ (n s : Nat), (List.range' (s + 1) n).filterMap (fun i => src[i - 1]?) = (src.drop s).take n := by
    intro n
    induction n with
    | zero => intro s; simp
    | succ n ih =>
      intro s
      rw [List.range'_succ, List.filterMap_cons]
      simp only [Nat.add_sub_cancel]
      have := ih (s + 1)
      cases h : src[s]? with
      | none =>
        have hl : src.length ≤ s := List.getElem?_eq_none_iff.1 h
        simp only
        rw [this, List.drop_eq_nil_of_le (by omega), List.drop_eq_nil_of_le hl]
        simp
      | some v =>
        obtain ⟨hl, hv⟩ := List.getElem?_eq_some_iff.1 h
        simp only
        rw [this, List.drop_eq_getElem_cons hl, hv, List.take_succ_cons]
  unfold bytesAt Slice.getSafe
  obtain ⟨s, rfl⟩ : ∃ s, a = s + 1 := ⟨a - 1, by omega⟩
  rw [key, Nat.add_sub_cancel]
  simp only
  by_cases h1 : s ≤ src.length
  · rw [Nat.min_eq_left h1]
    by_cases h2 : b ≤ src.length
    · rw [Nat.min_eq_left h2, show b + 1 - (s + 1) = b - s by omega]
    · rw [Nat.min_eq_right (by omega), List.take_of_length_le (by simp), List.take_of_length_le (by simp; omega)]
  · have h3 : src.drop s = [] := List.drop_eq_nil_of_le (by omega)
    have h4 : min s src.length = src.length := by omega
    simp [h3, h4]

theorem item_free (i : ByteItem) (h : i.Numeric (2 ^ 32)) : (44 : UInt8) ∉ i.text := by
  obtain ⟨lo, hi⟩ := i
  have h1 := not_digit_mem (d := 44) (by decide) h.1.2.1
  cases hi with
  | none => exact h1
  | some hi =>
    have h2 := not_digit_mem (d := 44) (by decide) (h.2 hi rfl).2.1
    simp only [ByteItem.text, List.mem_append, List.mem_cons, not_or]
    exact ⟨h1, by decide, h2⟩

/-- Exact for positions below `2^32`. Missing: larger positions, where it is false. -/
theorem C64_byte_ranges_partial (items : List ByteItem) (src : Bytes) (hne : items ≠ [])
    (h : ∀ i ∈ items, i.Numeric (2 ^ 32)) :
    ((∀ i ∈ items, i.Valid) → bytesTransSpec (List.intercalate [44] (items.map ByteItem.text)) src =
      .ok (items.flatMap fun i => bytesAt i.first i.last src)) ∧
    ((∃ i ∈ items, ¬ i.Valid) →
      bytesTransSpec (List.intercalate [44] (items.map ByteItem.text)) src = .err) := by
  have hs : sliceSplit 44 (List.intercalate [44] (items.map ByteItem.text)) = items.map ByteItem.text :=
    sliceSplit_intercalate 44 _ (by simpa using hne) (by
      intro c hc
      obtain ⟨i, hi, rfl⟩ := List.mem_map.1 hc
      exact item_free i (h i hi))
  have hn := bytesTransNew_spec items h
  unfold bytesTransSpec
  rw [hs]
  constructor
  · intro hv
    rw [hn.1 hv]
    simp only [bytesTrans, List.flatMap_map]
    congr 1
    simp only [List.flatMap_def]
    congr 1
    apply List.map_congr_left
    intro i hi
    exact getSafe_eq_bytesAt _ _ (hv i hi).1 (hv i hi).2 src
  · intro hv
    rw [hn.2 hv]

example : bytesTransSpec [50, 45, 57, 44, 49] [97, 98, 99] = .ok [98, 99, 97] := by decide
example : ∃ i : ByteItem, i.Numeric (2 ^ 32) ∧ i.Valid ∧ i.hi ≠ none :=
  ⟨⟨[50], some [57]⟩, by unfold ByteItem.Numeric DigitString; simp; decide, by unfold ByteItem.Valid; decide, by simp⟩

end Cdx
