import Verif.Model.SelfComp
import Verif.Props.CompCache
import Verif.Props.Comp

/-!
Equality with a stored value (C169), packed items (C170) and their comparison (C171).
-/

namespace Cdx

/-! ## C169 -/

/-- The claim in full: a line is equal to the stored values exactly when every column has the value stored for it, in the
sense of its comparator. -/
def C169_statement : Prop :=
  ∀ (toF64 : Bytes → F64) (ks : List (CompKind × Nat × Bool)) (vs : List Bytes) (d : UInt8) (r : Bytes), vs.length = ks.length →
    (equalSelfParts toF64 (ks.map fun k => ⟨.col k.1 (fun _ => k.2.1), k.2.2, d⟩) vs r = true ↔
      ∀ p ∈ ks.zip vs, equalK toF64 p.1.1 p.2 (getCol r p.1.2.1 d) = true)

/-- The method `length` keeps 32 bits of the length: a value of 2^32 bytes is equal to an empty column. -/
theorem C169_refuted : ¬ C169_statement := by
  intro h
  obtain ⟨v, hv⟩ : ∃ v : Bytes, v.length = 4294967296 := ⟨List.replicate _ 97, List.length_replicate⟩
  have h1 := h (fun _ => 0) [(.length, 0, false)] [v] 9 [10] rfl
  have e : getCol [10] 0 9 = [] := by decide
  have h2 : equalSelfParts (fun _ => 0) [⟨.col .length (fun _ => 0), false, 9⟩] [v] [10] = true := by
    simp only [equalSelfParts, LineComp.equalSelf, equalSelfK, hv, e]
    decide
  have h3 := h1.1 h2 ((.length, 0, false), v) (by simp)
  simp only [equalK, hv, e, List.length_nil] at h3
  revert h3
  decide

theorem equalSelfK_iff (toF64 : Bytes → F64) (k : CompKind) (v b : Bytes) :
    equalSelfK toF64 k v b = true ↔ compSelfK toF64 k v b = .eq := by
  cases k with
  | plain => simp only [equalSelfK, compSelfK, beq_iff_eq]; exact lexCmp_eq.symm
  | lower =>
    have : lower (lower v) = lower v := by
      have hb : ∀ x : UInt8, lowerByte (lowerByte x) = lowerByte x := byte_forall (by decide +kernel)
      simp [lower, hb]
    simp only [equalSelfK, compSelfK, cmpInsensQuick_eq, equalInsens_eq, beq_iff_eq, cmpInsens_eq, this]
  | length => simp only [equalSelfK, compSelfK, beq_iff_eq]; exact Nat.compare_eq_eq.symm
  | ip => simp only [equalSelfK, compSelfK, beq_iff_eq]
  | numeric => simp only [equalSelfK, compSelfK, beq_iff_eq]
  | float => simp only [equalSelfK, compSelfK]; exact (F64.eq_false_gt_false _ _).symm
  | equal => simp [equalSelfK, compSelfK]

theorem rev_eq_iff (r : Bool) (o : Ordering) : rev r o = .eq ↔ o = .eq := by
  cases r <;> cases o <;> simp [rev, Ordering.swap]

theorem equalSelf_iff (toF64 : Bytes → F64) (c : LineComp) (v r : Bytes) :
    c.equalSelf toF64 v r = true ↔ c.compSelf toF64 v r = .eq := by
  unfold LineComp.equalSelf LineComp.compSelf
  rw [rev_eq_iff]
  cases c.kind with
  | whole k => exact equalSelfK_iff _ _ _ _
  | col k n => exact equalSelfK_iff _ _ _ _
  | expr e => exact (F64.eq_false_gt_false _ _).symm

theorem equalSelfCols_iff (toF64 : Bytes → F64) (c : LineComp) (v : Bytes) (r : TextLine) :
    c.equalSelfCols toF64 v r = true ↔ c.compSelfCols toF64 v r = .eq := by
  unfold LineComp.equalSelfCols LineComp.compSelfCols
  rw [rev_eq_iff]
  cases c.kind with
  | whole k => exact equalSelfK_iff _ _ _ _
  | col k n => exact equalSelfK_iff _ _ _ _
  | expr e => exact (F64.eq_false_gt_false _ _).symm

/-- Equality with the stored values is their comparison giving equal: for all comparators, reversed or not, whatever the
values and the line, and however the line is given. -/
theorem C169_as_compared (toF64 : Bytes → F64) (cs : List LineComp) (vs : List Bytes) :
    (∀ r, equalSelfParts toF64 cs vs r = true ↔ compSelfParts toF64 cs vs r = .eq) ∧
      ∀ r, equalSelfCols toF64 cs vs r = true ↔ compSelfCols toF64 cs vs r = .eq := by
  constructor
  · intro r
    induction cs generalizing vs with
    | nil => simp [equalSelfParts, compSelfParts]
    | cons c cs ih =>
      cases vs with
      | nil => simp [equalSelfParts, compSelfParts]
      | cons v vs =>
        have hk := equalSelf_iff toF64 c v r
        simp only [equalSelfParts, compSelfParts]
        by_cases hc : c.compSelf toF64 v r = .eq
        · simp [hk.2 hc, hc, ih vs]
        · have : c.equalSelf toF64 v r = false := by
            cases h : c.equalSelf toF64 v r
            · rfl
            · exact absurd (hk.1 h) hc
          simp [this, hc]
  · intro r
    induction cs generalizing vs with
    | nil => simp [equalSelfCols, compSelfCols]
    | cons c cs ih =>
      cases vs with
      | nil => simp [equalSelfCols, compSelfCols]
      | cons v vs =>
        have hk := equalSelfCols_iff toF64 c v r
        simp only [equalSelfCols, compSelfCols]
        by_cases hc : c.compSelfCols toF64 v r = .eq
        · simp [hk.2 hc, hc, ih vs]
        · have : c.equalSelfCols toF64 v r = false := by
            cases h : c.equalSelfCols toF64 v r
            · rfl
            · exact absurd (hk.1 h) hc
          simp [this, hc]

/-- The claim for values and columns shorter than 2^32 bytes. -/
theorem C169_values_partial (toF64 : Bytes → F64) (ks : List (CompKind × Nat × Bool)) (vs : List Bytes) (d : UInt8) (r : Bytes)
    (hn : vs.length = ks.length) (hv : ∀ v ∈ vs, v.length < 2 ^ 32) (hr : ∀ k ∈ ks, (getCol r k.2.1 d).length < 2 ^ 32) :
    equalSelfParts toF64 (ks.map fun k => ⟨.col k.1 (fun _ => k.2.1), k.2.2, d⟩) vs r = true ↔
      ∀ p ∈ ks.zip vs, equalK toF64 p.1.1 p.2 (getCol r p.1.2.1 d) = true := by
  induction ks generalizing vs with
  | nil => simp [equalSelfParts]
  | cons k ks ih =>
    cases vs with
    | nil => simp at hn
    | cons v vs =>
      have ih := ih vs (by simpa using hn) (fun x hx => hv x (by simp [hx])) (fun x hx => hr x (by simp [hx]))
      have hk : equalSelfK toF64 k.1 v (getCol r k.2.1 d) = true ↔ equalK toF64 k.1 v (getCol r k.2.1 d) = true := by
        rw [equalSelfK_iff, C22_equal_consistent, C22_stored toF64 _ _ _ (hv v (by simp)) (hr k (by simp))]
      simp only [List.map_cons, equalSelfParts, List.zip_cons_cons, List.mem_cons, forall_eq_or_imp, ← ih, ← hk,
        LineComp.equalSelf]
      by_cases hb : equalSelfK toF64 k.1 v (getCol r k.2.1 d) = true <;> simp [hb]

example : ([[97], [98]] : List Bytes).length = [(CompKind.plain, 0, false), (CompKind.lower, 1, true)].length ∧
    equalSelfParts (fun _ => 0) [⟨.col .plain (fun _ => 0), false, 9⟩, ⟨.col .lower (fun _ => 1), true, 9⟩] [[97], [98]]
      [97, 9, 66, 10] = true ∧
    equalSelfParts (fun _ => 0) [⟨.col .plain (fun _ => 0), false, 9⟩, ⟨.col .lower (fun _ => 1), true, 9⟩] [[97], [98]]
      [65, 9, 66, 10] = false := by decide

/-! ## C170 -/

/-- The claim in full: the item made for a line in a buffer of at most `MAX_DATA` (0xffffff00, `src/sort.rs` 338-347) bytes
gives back the line, and is not complete. -/
def C170_statement : Prop :=
  ∀ (i : PackedItem) (base : Bytes) (off nl : Nat), base.length ≤ 0xffffff00 → off ≤ nl → nl < base.length →
    (i.ofLine off nl).get base = some ((base.drop off).take (nl + 1 - off)) ∧ (i.ofLine off nl).complete = false

/-- A line of 2^31 bytes: its length needs the bit that tells complete items, the item is complete and empty. -/
theorem C170_refuted : ¬ C170_statement := by
  intro h
  obtain ⟨v, hv⟩ : ∃ v : Bytes, v.length = 2147483648 := ⟨List.replicate _ 97, List.length_replicate⟩
  have := (h ⟨0, 0, 0⟩ v 0 2147483647 (by omega) (by omega) (by omega)).2
  revert this
  decide

theorem low_bits (x : UInt32) : (x &&& 0x7fffffff).toNat = x.toNat % 2 ^ 31 := by
  rw [UInt32.toNat_and]
  exact Nat.and_two_pow_sub_one_eq_mod x.toNat 31

theorem or_high_low (x : UInt32) : (x ||| 0x80000000) &&& 0x7fffffff = x &&& 0x7fffffff := by
  apply UInt32.toNat_inj.1
  rw [UInt32.toNat_and, UInt32.toNat_and, UInt32.toNat_or, Nat.and_or_distrib_right]
  have : (0x80000000 : UInt32).toNat &&& (0x7fffffff : UInt32).toNat = 0 := by decide
  rw [this, Nat.or_zero]

theorem and_low_low (x : UInt32) : (x &&& 0x7fffffff) &&& 0x7fffffff = x &&& 0x7fffffff := by
  rw [UInt32.and_assoc]; rfl

theorem or_high_high (x : UInt32) : (x ||| 0x80000000) &&& 0x80000000 = 0x80000000 := by
  apply UInt32.toNat_inj.1
  rw [UInt32.toNat_and, UInt32.toNat_or, Nat.and_or_distrib_right, Nat.and_self]
  apply Nat.eq_of_testBit_eq
  intro j
  rw [Nat.testBit_or, Nat.testBit_and]
  cases Nat.testBit x.toNat j <;> simp

theorem and_low_high (x : UInt32) : (x &&& 0x7fffffff) &&& 0x80000000 = 0 := by
  rw [UInt32.and_assoc]
  have : (0x7fffffff : UInt32) &&& 0x80000000 = 0 := by decide
  rw [this, UInt32.and_zero]

theorem small_high (x : UInt32) (h : x.toNat < 2 ^ 31) : x &&& 0x80000000 = 0 := by
  have : x &&& 0x7fffffff = x := UInt32.toNat_inj.1 (by rw [low_bits, Nat.mod_eq_of_lt h])
  rw [← this, and_low_high]

/-- A line shorter than 2^31 bytes, its end of line included, is given back. -/
theorem C170_line_partial (i : PackedItem) (base : Bytes) (off nl : Nat) (hb : base.length ≤ 0xffffff00) (ho : off ≤ nl)
    (hn : nl < base.length) (hs : nl + 1 - off < 2 ^ 31) :
    (i.ofLine off nl).get base = some ((base.drop off).take (nl + 1 - off)) ∧ (i.ofLine off nl).complete = false ∧
      (i.ofLine off nl).begin = off ∧ (i.ofLine off nl).end = nl + 1 ∧ (i.ofLine off nl).cache = i.cache := by
  have e1 : (UInt32.ofNat off).toNat = off := by
    rw [UInt32.toNat_ofNat']; exact Nat.mod_eq_of_lt (by omega)
  have e2 : (UInt32.ofNat (nl - off + 1)).toNat = nl + 1 - off := by
    rw [UInt32.toNat_ofNat', Nat.mod_eq_of_lt (by omega)]; omega
  have e3 : (i.ofLine off nl).begin = off := e1
  have e4 : (i.ofLine off nl).size.toNat = nl + 1 - off := by
    show (UInt32.ofNat (nl - off + 1) &&& 0x7fffffff).toNat = _
    rw [low_bits, e2, Nat.mod_eq_of_lt hs]
  have e5 : (i.ofLine off nl).end = nl + 1 := by
    show (UInt32.ofNat off).toNat + (i.ofLine off nl).size.toNat = _
    rw [e1, e4]; omega
  refine ⟨?_, ?_, e3, e5, rfl⟩
  · unfold PackedItem.get
    rw [e3, e5, if_pos (show nl + 1 ≤ base.length by omega)]
  · show (UInt32.ofNat (nl - off + 1) &&& 0x80000000 != 0) = false
    rw [small_high _ (by rw [e2]; exact hs)]
    rfl

example : ([97, 10, 98, 99, 10] : Bytes).length ≤ 0xffffff00 ∧ (2 : Nat) ≤ 4 ∧ (4 : Nat) + 1 - 2 < 2 ^ 31 ∧
    ((⟨0, 0, 7⟩ : PackedItem).ofLine 2 4).get [97, 10, 98, 99, 10] = some [98, 99, 10] := by decide

/-- Marking an item as complete or not: the mark is as given, and text, place and key are as before. -/
theorem C170_mark (i : PackedItem) (tag : Bool) :
    (i.assignComplete tag).complete = tag ∧ (∀ base, (i.assignComplete tag).get base = i.get base) ∧
      (i.assignComplete tag).size = i.size ∧ (i.assignComplete tag).begin = i.begin ∧ (i.assignComplete tag).end = i.end ∧
      (i.assignComplete tag).cache = i.cache := by
  have hs : (i.assignComplete tag).size = i.size := by
    cases tag
    · exact and_low_low i.sizePlus
    · exact or_high_low i.sizePlus
  have ho : (i.assignComplete tag).offset = i.offset := by cases tag <;> rfl
  have hb : (i.assignComplete tag).begin = i.begin := by unfold PackedItem.begin; rw [ho]
  have he : (i.assignComplete tag).end = i.end := by unfold PackedItem.end; rw [ho, hs]
  refine ⟨?_, ?_, hs, hb, he, by cases tag <;> rfl⟩
  · cases tag
    · show (i.sizePlus &&& 0x7fffffff &&& 0x80000000 != 0) = false
      rw [and_low_high]; rfl
    · show ((i.sizePlus ||| 0x80000000) &&& 0x80000000 != 0) = true
      rw [or_high_high]; rfl
  · intro base
    unfold PackedItem.get
    rw [hb, he]

/-- The abstract item that a packed one stands for. -/
def PackedItem.abs (i : PackedItem) : Item := ⟨i.offset.toNat, i.size.toNat, i.complete, i.cache.toNat⟩

/-- Packed items are as the items of the other theorems (C25, C28 and C30): the text in the buffer and the key of the method
`plain` are the same. -/
theorem C170_refines (i : PackedItem) :
    (∀ base, (i.end ≤ base.length → i.get base = some (i.abs.get base)) ∧ (base.length < i.end → i.get base = none)) ∧
      (∀ toF64 v, (i.fillPlain v).abs = fillCache toF64 .plain i.abs v) := by
  refine ⟨fun base => ⟨fun h => ?_, fun h => ?_⟩, fun toF64 v => ?_⟩
  · unfold PackedItem.get
    rw [if_pos h]
    unfold Item.get PackedItem.abs PackedItem.begin PackedItem.end
    simp
  · unfold PackedItem.get
    rw [if_neg (by omega)]
  · have hm := C170_mark { i with cache := UInt64.ofNat (beVal (makeArray v)) } (decide (v.length ≤ 8))
    have hlt : beVal (makeArray v) < 2 ^ 64 := by
      have := beVal_lt (makeArray v)
      rw [makeArray_eq, padTo_length] at this
      rw [makeArray_eq]
      exact this
    unfold PackedItem.abs PackedItem.fillPlain fillCache
    simp only [hm.1, hm.2.2.1, hm.2.2.2.2.2]
    have ho : ({ i with cache := UInt64.ofNat (beVal (makeArray v)) }.assignComplete (decide (v.length ≤ 8))).offset = i.offset := by
      cases decide (v.length ≤ 8) <;> rfl
    rw [ho]
    congr 1
    rw [UInt64.toNat_ofNat', Nat.mod_eq_of_lt hlt]

/-! ## C171 -/

/-- The claim in full: two items with their keys filled in, whose texts are in the buffer, are equal exactly when the texts are,
and are ordered as the texts. -/
def C171_statement : Prop :=
  ∀ (a b : PackedItem) (base x y : Bytes), a.get base = some x → b.get base = some y →
    (a.fillPlain x).equal (b.fillPlain y) base = some (x == y) ∧
      (a.fillPlain x).compare (b.fillPlain y) base = some (lexCmp x y)

/-- "a" and "a\0" have the same key and both are complete. -/
theorem C171_refuted : ¬ C171_statement := by
  intro h
  have := (h ⟨0, 1, 0⟩ ⟨1, 2, 0⟩ [97, 97, 0] [97] [97, 0] (by decide) (by decide)).1
  revert this
  decide

theorem fillPlain_facts (i : PackedItem) (x : Bytes) :
    (i.fillPlain x).cache.toNat = beVal (padTo 8 x) ∧ (i.fillPlain x).complete = decide (x.length ≤ 8) ∧
      ∀ base, (i.fillPlain x).get base = i.get base := by
  have hm := C170_mark { i with cache := UInt64.ofNat (beVal (makeArray x)) } (decide (x.length ≤ 8))
  have hlt : beVal (makeArray x) < 2 ^ 64 := by
    have := beVal_lt (makeArray x)
    rw [makeArray_eq, padTo_length] at this
    rw [makeArray_eq]
    exact this
  refine ⟨?_, hm.1, hm.2.1⟩
  unfold PackedItem.fillPlain
  rw [hm.2.2.2.2.2, ← makeArray_eq]
  show (UInt64.ofNat (beVal (makeArray x))).toNat = _
  rw [UInt64.toNat_ofNat', Nat.mod_eq_of_lt hlt]

/-- The keys of NUL free texts: equal when the first 8 bytes are, otherwise ordered as the texts. -/
theorem key_cmp (x y : Bytes) (hx : 0 ∉ x) (hy : 0 ∉ y) :
    (x.take 8 = y.take 8 → beVal (padTo 8 x) = beVal (padTo 8 y)) ∧
      (x.take 8 ≠ y.take 8 → compare (beVal (padTo 8 x)) (beVal (padTo 8 y)) = lexCmp x y ∧ lexCmp x y ≠ .eq) := by
  have h := padTo_cmp 8 x y hx hy
  rw [← beVal_compare _ _ (by rw [padTo_length, padTo_length])] at h
  rw [← lexCmp_eq_listCmp] at h
  exact ⟨fun e => Nat.compare_eq_eq.1 (h.1 e), h.2⟩

/-- The claim for texts without the byte 0. -/
theorem C171_texts_partial (a b : PackedItem) (base x y : Bytes) (ha : a.get base = some x) (hb : b.get base = some y)
    (hx : 0 ∉ x) (hy : 0 ∉ y) :
    (a.fillPlain x).equal (b.fillPlain y) base = some (x == y) ∧
      (a.fillPlain x).compare (b.fillPlain y) base = some (lexCmp x y) := by
  obtain ⟨ca, ka, ga⟩ := fillPlain_facts a x
  obtain ⟨cb, kb, gb⟩ := fillPlain_facts b y
  have hk := key_cmp x y hx hy
  by_cases ht : x.take 8 = y.take 8
  · have hc : (a.fillPlain x).cache = (b.fillPlain y).cache := UInt64.toNat_inj.1 (by rw [ca, cb, hk.1 ht])
    have hirr : ¬ (b.fillPlain y).cache < (b.fillPlain y).cache := by rw [UInt64.lt_iff_toNat_lt]; omega
    have hbeq : ((b.fillPlain y).cache == (b.fillPlain y).cache) = true := beq_self_eq_true _
    by_cases hl : x.length ≤ 8 ∧ y.length ≤ 8
    · have hxy : x = y := short_complete 8 ht hl.1 hl.2
      have k1 : (a.fillPlain x).complete = true := by rw [ka]; exact decide_eq_true hl.1
      have k2 : (b.fillPlain y).complete = true := by rw [kb]; exact decide_eq_true hl.2
      constructor
      · unfold PackedItem.equal
        rw [hc, k1, k2]
        simp [hxy]
      · unfold PackedItem.compare PackedItem.compare2
        rw [hc, k1, k2, if_neg hirr, if_neg hirr, hbeq, hxy]
        simp only [Bool.and_self, if_true]
        rw [lexCmp_eq.2 rfl]
    · have k : ((a.fillPlain x).complete && (b.fillPlain y).complete) = false := by
        rw [ka, kb, ← Bool.decide_and]; exact decide_eq_false hl
      constructor
      · unfold PackedItem.equal
        rw [hc, k, ga, gb, ha, hb]
        simp
      · unfold PackedItem.compare PackedItem.compare2
        rw [Bool.and_assoc, k, hc, if_neg hirr, if_neg hirr, ga, gb, ha, hb]
        simp
  · obtain ⟨h1, h2⟩ := hk.2 ht
    have hne : beVal (padTo 8 x) ≠ beVal (padTo 8 y) := by
      intro e
      rw [e, Nat.compare_eq_eq.2 rfl] at h1
      exact h2 h1.symm
    have hxy : x ≠ y := fun e => ht (by rw [e])
    have hcne : (a.fillPlain x).cache ≠ (b.fillPlain y).cache := by
      intro e
      exact hne (by rw [← ca, ← cb, e])
    constructor
    · unfold PackedItem.equal
      rw [if_pos hcne]
      simp [hxy]
    · unfold PackedItem.compare PackedItem.compare2
      rw [← h1]
      simp only [gt_iff_lt, UInt64.lt_iff_toNat_lt, ca, cb]
      rcases Nat.lt_or_gt_of_ne hne with h | h
      · rw [if_pos h, Nat.compare_eq_lt.2 h]
      · rw [if_neg (by omega), if_pos h, Nat.compare_eq_gt.2 h]

example : (⟨0, 3, 0⟩ : PackedItem).get [97, 98, 10, 97, 99, 10] = some [97, 98, 10] ∧
    (⟨3, 3, 0⟩ : PackedItem).get [97, 98, 10, 97, 99, 10] = some [97, 99, 10] ∧ (0 : UInt8) ∉ ([97, 98, 10] : Bytes) := by decide

/-- The other order: when the keys differ `compare2` never asks it; when the keys are equal and an item is not complete it is
asked about the two texts. -/
theorem C171_other_order (a b : PackedItem) (base x y : Bytes) (cmp : Bytes → Bytes → Ordering) (ha : a.get base = some x)
    (hb : b.get base = some y) :
    a.compare2 b base cmp = some (if a.cache.toNat = b.cache.toNat ∧ ¬ (a.complete = true ∧ b.complete = true) then cmp x y
      else Ord.compare a.cache.toNat b.cache.toNat) := by
  unfold PackedItem.compare2
  simp only [gt_iff_lt, UInt64.lt_iff_toNat_lt]
  rcases Nat.lt_trichotomy a.cache.toNat b.cache.toNat with h | h | h
  · rw [if_pos h, if_neg (by omega), Nat.compare_eq_lt.2 h]
  · have e : a.cache = b.cache := UInt64.toNat_inj.1 h
    rw [if_neg (by omega), if_neg (by omega), e, ha, hb, Nat.compare_eq_eq.2 rfl]
    cases a.complete <;> cases b.complete <;> simp
  · rw [if_neg (by omega), if_pos h, if_neg (by omega), Nat.compare_eq_gt.2 h]

end Cdx
