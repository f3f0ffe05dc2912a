import Verif.Props.CompNum

/-!
C25 (comparison through cached keys agrees with direct comparison).
-/

namespace Cdx

/-! ## Keys of texts -/

theorem beVal_foldl (a : Bytes) (n : Nat) :
    a.foldl (fun n c => n * 256 + c.toNat) n = n * 256 ^ a.length + beVal a := by
  unfold beVal
  induction a generalizing n with
  | nil => simp
  | cons x xs ih =>
    simp only [List.foldl_cons, List.length_cons, Nat.pow_succ]
    rw [ih, ih (0 * 256 + x.toNat)]
    generalize xs.foldl (fun n c => n * 256 + c.toNat) 0 = F
    generalize 256 ^ xs.length = P
    rw [Nat.add_mul, Nat.zero_mul, Nat.zero_add, Nat.mul_assoc, Nat.mul_comm 256 P, Nat.add_assoc]

theorem beVal_cons (x : UInt8) (xs : Bytes) : beVal (x :: xs) = x.toNat * 256 ^ xs.length + beVal xs := by
  have := beVal_foldl xs x.toNat
  simpa [beVal] using this

theorem beVal_lt (a : Bytes) : beVal a < 256 ^ a.length := by
  induction a with
  | nil => simp [beVal]
  | cons x xs ih =>
    rw [beVal_cons, List.length_cons, Nat.pow_succ]
    have hx := x.toNat_lt
    have := Nat.mul_le_mul_right (256 ^ xs.length) (show x.toNat ≤ 255 by omega)
    omega

theorem beVal_compare (a b : Bytes) (hl : a.length = b.length) :
    compare (beVal a) (beVal b) = listCmp compare a b := by
  induction a generalizing b with
  | nil => cases b with | nil => rfl | cons => simp at hl
  | cons x xs ih =>
    cases b with
    | nil => simp at hl
    | cons y ys =>
      have hl : xs.length = ys.length := by simpa using hl
      have ih := ih ys hl
      have l1 := beVal_lt xs
      have l2 := beVal_lt ys
      rw [beVal_cons, beVal_cons]
      simp only [listCmp, compare_byte]
      rw [← ih]
      rw [← hl] at *
      generalize 256 ^ xs.length = P at *
      rcases Nat.lt_trichotomy x.toNat y.toNat with h | h | h
      · rw [Nat.compare_eq_lt.2 h]
        have : (x.toNat + 1) * P ≤ y.toNat * P := Nat.mul_le_mul_right P h
        rw [Nat.add_mul] at this
        exact Nat.compare_eq_lt.2 (by omega)
      · rw [h, Nat.compare_eq_eq.2 rfl]
        simp only [Ordering.then]
        rcases Nat.lt_trichotomy (beVal xs) (beVal ys) with h | h | h
        · rw [Nat.compare_eq_lt.2 h, Nat.compare_eq_lt.2 (by omega)]
        · rw [h, Nat.compare_eq_eq.2 rfl, Nat.compare_eq_eq.2 rfl]
        · rw [Nat.compare_eq_gt.2 h, Nat.compare_eq_gt.2 (by omega)]
      · rw [Nat.compare_eq_gt.2 h]
        have : (y.toNat + 1) * P ≤ x.toNat * P := Nat.mul_le_mul_right P h
        rw [Nat.add_mul] at this
        exact Nat.compare_eq_gt.2 (by omega)

/-- Cut or padded with zeros to `n` bytes. -/
def padTo : Nat → Bytes → Bytes
  | 0, _ => []
  | n + 1, [] => 0 :: padTo n []
  | n + 1, x :: xs => x :: padTo n xs

theorem padTo_length (n : Nat) (a : Bytes) : (padTo n a).length = n := by
  induction n generalizing a with
  | zero => rfl
  | succ n ih => cases a <;> simp [padTo, ih]

theorem take_replicate_pad (n m : Nat) (a : Bytes) (h : n ≤ m) : (a ++ List.replicate m 0).take n = padTo n a := by
  induction n generalizing a m with
  | zero => simp [padTo]
  | succ n ih =>
    cases a with
    | nil =>
      cases m with
      | zero => omega
      | succ m =>
        have := ih m [] (by omega)
        simp only [List.nil_append] at this ⊢
        simp [List.replicate_succ, padTo, this]
    | cons x xs =>
      have := ih m xs (by omega)
      simp [padTo, this]

theorem makeArray_eq (v : Bytes) : makeArray v = padTo 8 v := take_replicate_pad 8 8 v (Nat.le_refl 8)

theorem padTo_lower (n : Nat) (a : Bytes) : (padTo n a).map lowerByte = padTo n (a.map lowerByte) := by
  induction n generalizing a with
  | zero => rfl
  | succ n ih =>
    cases a with
    | nil =>
      have := ih []
      simp only [List.map_nil] at this
      simp only [padTo, List.map_cons, List.map_nil, this]
      congr 1
    | cons x xs => simp only [padTo, List.map_cons, ih xs]

theorem zero_lt_byte {y : UInt8} (h : y ≠ 0) : compare (0 : UInt8) y = .lt ∧ compare y (0 : UInt8) = .gt := by
  have : y.toNat ≠ 0 := fun e => h (UInt8.toNat_inj.1 e)
  rw [compare_byte, compare_byte]
  have e : (0 : UInt8).toNat = 0 := rfl
  rw [e]
  exact ⟨Nat.compare_eq_lt.2 (by omega), Nat.compare_eq_gt.2 (by omega)⟩

/-- NUL free texts: the padded ones are equal when the first `n` bytes are, otherwise ordered as the texts. -/
theorem padTo_cmp (n : Nat) (a b : Bytes) (ha : 0 ∉ a) (hb : 0 ∉ b) :
    (a.take n = b.take n → listCmp compare (padTo n a) (padTo n b) = .eq) ∧
      (a.take n ≠ b.take n → listCmp compare (padTo n a) (padTo n b) = listCmp compare a b ∧
        listCmp compare a b ≠ .eq) := by
  induction n generalizing a b with
  | zero => simp [padTo, listCmp]
  | succ n ih =>
    cases a with
    | nil =>
      cases b with
      | nil =>
        refine ⟨fun _ => ?_, fun h => absurd rfl h⟩
        exact (listCmp_preorder preorder_byte).refl _
      | cons y ys =>
        have hy : y ≠ 0 := fun e => hb (by simp [e])
        refine ⟨fun h => by simp at h, fun _ => ?_⟩
        simp [padTo, listCmp, (zero_lt_byte hy).1, Ordering.then]
    | cons x xs =>
      have hx : x ≠ 0 := fun e => ha (by simp [e])
      cases b with
      | nil =>
        refine ⟨fun h => by simp at h, fun _ => ?_⟩
        simp [padTo, listCmp, (zero_lt_byte hx).2, Ordering.then]
      | cons y ys =>
        have ih := ih xs ys (fun h => ha (by simp [h])) (fun h => hb (by simp [h]))
        simp only [List.take_succ_cons, padTo, listCmp]
        rcases byte_cases x y with ⟨hlt, e⟩ | ⟨hlt, e⟩ | ⟨hxy, e⟩
        · have : x ≠ y := by rintro rfl; rw [UInt8.lt_iff_toNat_lt] at hlt; omega
          simp [this, e, Ordering.then]
        · have : x ≠ y := by rintro rfl; rw [UInt8.lt_iff_toNat_lt] at hlt; omega
          simp [this, e, Ordering.then]
        · rw [e]
          subst hxy
          simp only [Ordering.then, ne_eq, List.cons.injEq, true_and]
          exact ih

/-! ## C25 -/

/-- The claim in full: for items whose keys were filled in from the buffer, comparing items is comparing their
lines, and items are equal when the lines are. -/
def C25_statement : Prop :=
  ∀ (toF64 : Bytes → F64) (c : LineComp) (base : Bytes) (l r : Item), l.complete = false → r.complete = false →
    c.compItems toF64 base (c.fillCacheLine toF64 l base) (c.fillCacheLine toF64 r base)
        = c.compLines toF64 0 0 (l.get base) (r.get base) ∧
    c.equalItems toF64 base (c.fillCacheLine toF64 l base) (c.fillCacheLine toF64 r base)
        = c.equalLines toF64 0 0 (l.get base) (r.get base)

/-- First column, plain method: "a" and "a\0" have equal keys. -/
theorem C25_refuted : ¬ C25_statement := by
  intro h
  have := (h (fun _ => 0) ⟨.col .plain (fun _ => 0), false, 9⟩ [97, 10, 97, 0, 10] ⟨0, 2, false, 0⟩ ⟨2, 3, false, 0⟩
    rfl rfl).1
  revert this
  decide

/-- The comparison of two texts through keys, as a function of the keys and of the direct comparison. -/
theorem compItems_shape (toF64 : Bytes → F64) (c : LineComp) (base : Bytes) (l r : Item) :
    c.compItems toF64 base l r = rev c.reverse ((compare l.cache r.cache).then
      (if l.complete && r.complete then .eq else rev c.reverse (c.inner toF64 0 0 (l.get base) (r.get base)))) := by
  unfold LineComp.compItems LineComp.compLines
  congr 1
  rcases Nat.lt_trichotomy l.cache r.cache with h | h | h
  · rw [if_pos h, Nat.compare_eq_lt.2 h]; rfl
  · rw [if_neg (by omega), if_neg (by omega), Nat.compare_eq_eq.2 h]; rfl
  · rw [if_neg (by omega), if_pos h, Nat.compare_eq_gt.2 h]; rfl

theorem fillCache_get (toF64 : Bytes → F64) (k : CompKind) (i : Item) (v base : Bytes) :
    (fillCache toF64 k i v).get base = i.get base := by
  cases k <;> rfl

theorem fillCacheLine_get (toF64 : Bytes → F64) (c : LineComp) (i : Item) (base : Bytes) :
    (c.fillCacheLine toF64 i base).get base = i.get base := by
  unfold LineComp.fillCacheLine
  cases c.kind with
  | whole k => exact fillCache_get _ _ _ _ _
  | col k n => exact fillCache_get _ _ _ _ _
  | expr e => rfl

/-- The key of a text for the plain and lower methods, as a text. -/
def keyText (k : CompKind) (v : Bytes) : Bytes := if k = .lower then lower v else v

theorem keyText_zero {k : CompKind} {v : Bytes} (h : 0 ∉ v) : 0 ∉ keyText k v := by
  unfold keyText
  split
  · intro hm
    unfold lower at hm
    obtain ⟨x, hx, he⟩ := List.mem_map.1 hm
    have : ∀ x : UInt8, lowerByte x = 0 → x = 0 := byte_forall (by decide +kernel)
    rw [this x he] at hx
    exact h hx
  · exact h

theorem lower_length (v : Bytes) : (lower v).length = v.length := by simp [lower]

theorem keyText_length (k : CompKind) (v : Bytes) : (keyText k v).length = v.length := by
  unfold keyText; split
  · exact lower_length v
  · rfl

theorem fillCache_text (toF64 : Bytes → F64) (k : CompKind) (hk : k = .plain ∨ k = .lower) (i : Item) (v : Bytes) :
    (fillCache toF64 k i v).cache = beVal (padTo 8 (keyText k v)) ∧
      (fillCache toF64 k i v).complete = decide (v.length ≤ 8) := by
  rcases hk with rfl | rfl
  · exact ⟨by rw [← makeArray_eq]; rfl, rfl⟩
  · refine ⟨?_, rfl⟩
    show beVal (lower (makeArray v)) = _
    rw [makeArray_eq]
    unfold lower
    rw [padTo_lower]
    rfl

theorem compK_text (toF64 : Bytes → F64) (k : CompKind) (hk : k = .plain ∨ k = .lower) (a b : Bytes) :
    compK toF64 k a b = listCmp compare (keyText k a) (keyText k b) := by
  rcases hk with rfl | rfl
  · exact lexCmp_eq_listCmp a b
  · rw [← lexCmp_eq_listCmp]; exact cmpInsens_eq a b

/-- The value of the key column of an item. -/
def itemCol (base : Bytes) (n : Nat) (d : UInt8) (i : Item) : Bytes := getCol (i.get base) n d

theorem short_complete {a b : Bytes} (n : Nat) (h : a.take n = b.take n) (ha : a.length ≤ n) (hb : b.length ≤ n) :
    a = b := by
  rwa [List.take_of_length_le ha, List.take_of_length_le hb] at h

/-- A column compared as bytes or without case: the claim holds for NUL free columns, unless the key is reversed, the
first 8 bytes are equal and a column is longer than that. -/
theorem C25_text_column_partial (toF64 : Bytes → F64) (k : CompKind) (hk : k = .plain ∨ k = .lower) (num : Nat → Nat)
    (rv : Bool) (d : UInt8) (base : Bytes) (l r : Item)
    (hl : 0 ∉ itemCol base (num 0) d l) (hr : 0 ∉ itemCol base (num 0) d r)
    (hrev : rv = false ∨ ((itemCol base (num 0) d l).length ≤ 8 ∧ (itemCol base (num 0) d r).length ≤ 8) ∨
      (keyText k (itemCol base (num 0) d l)).take 8 ≠ (keyText k (itemCol base (num 0) d r)).take 8) :
    LineComp.compItems toF64 ⟨.col k num, rv, d⟩ base
        (LineComp.fillCacheLine toF64 ⟨.col k num, rv, d⟩ l base)
        (LineComp.fillCacheLine toF64 ⟨.col k num, rv, d⟩ r base)
      = LineComp.compLines toF64 ⟨.col k num, rv, d⟩ 0 0 (l.get base) (r.get base) := by
  rw [compItems_shape, fillCacheLine_get, fillCacheLine_get]
  unfold LineComp.compLines LineComp.inner LineComp.fillCacheLine
  simp only
  have e1 : getCol (l.get base) (num 0) d = itemCol base (num 0) d l := rfl
  have e2 : getCol (r.get base) (num 0) d = itemCol base (num 0) d r := rfl
  rw [e1, e2]
  generalize itemCol base (num 0) d l = u at *
  generalize itemCol base (num 0) d r = v at *
  rw [(fillCache_text toF64 k hk l u).1, (fillCache_text toF64 k hk l u).2,
    (fillCache_text toF64 k hk r v).1, (fillCache_text toF64 k hk r v).2,
    beVal_compare _ _ (by rw [padTo_length, padTo_length]), compK_text toF64 k hk]
  have hp := padTo_cmp 8 (keyText k u) (keyText k v) (keyText_zero hl) (keyText_zero hr)
  have hlu := keyText_length k u
  have hlv := keyText_length k v
  congr 1
  by_cases ht : (keyText k u).take 8 = (keyText k v).take 8
  · rw [hp.1 ht]
    simp only [Ordering.then]
    by_cases hs : u.length ≤ 8 ∧ v.length ≤ 8
    · simp only [hs.1, hs.2, decide_true, Bool.and_self, if_true]
      have := short_complete 8 ht (by omega) (by omega)
      rw [this, (listCmp_preorder preorder_byte).refl]
    · have hf : (decide (u.length ≤ 8) && decide (v.length ≤ 8)) = false := by
        rw [Bool.and_eq_false_iff]
        by_cases h1 : u.length ≤ 8
        · right; simp; by_cases h2 : v.length ≤ 8
          · exact absurd ⟨h1, h2⟩ hs
          · omega
        · left; simp; omega
      rw [hf]
      rcases hrev with h | h | h
      · subst h; rfl
      · exact absurd h hs
      · exact absurd ht h
  · have := hp.2 ht
    rw [this.1]
    cases hc : listCmp compare (keyText k u) (keyText k v) <;> simp_all [Ordering.then]

/-- First columns "apple…" and "apricot" of two lines in a buffer. -/
example : 0 ∉ itemCol [97, 112, 9, 120, 10, 97, 112, 114, 10] 0 9 ⟨0, 5, false, 0⟩ ∧
    0 ∉ itemCol [97, 112, 9, 120, 10, 97, 112, 114, 10] 0 9 ⟨5, 4, false, 0⟩ ∧
    itemCol [97, 112, 9, 120, 10, 97, 112, 114, 10] 0 9 ⟨0, 5, false, 0⟩ = [97, 112] := by decide

/-- In the excepted case the reversal is lost: the items compare in the unreversed order. -/
theorem C25_reverse_lost (toF64 : Bytes → F64) (k : CompKind) (hk : k = .plain ∨ k = .lower) (num : Nat → Nat)
    (d : UInt8) (base : Bytes) (l r : Item)
    (hl : 0 ∉ itemCol base (num 0) d l) (hr : 0 ∉ itemCol base (num 0) d r)
    (hlong : 8 < (itemCol base (num 0) d l).length ∨ 8 < (itemCol base (num 0) d r).length)
    (ht : (keyText k (itemCol base (num 0) d l)).take 8 = (keyText k (itemCol base (num 0) d r)).take 8) :
    LineComp.compItems toF64 ⟨.col k num, true, d⟩ base
        (LineComp.fillCacheLine toF64 ⟨.col k num, true, d⟩ l base)
        (LineComp.fillCacheLine toF64 ⟨.col k num, true, d⟩ r base)
      = (LineComp.compLines toF64 ⟨.col k num, true, d⟩ 0 0 (l.get base) (r.get base)).swap := by
  rw [compItems_shape, fillCacheLine_get, fillCacheLine_get]
  unfold LineComp.compLines LineComp.inner LineComp.fillCacheLine
  simp only
  have e1 : getCol (l.get base) (num 0) d = itemCol base (num 0) d l := rfl
  have e2 : getCol (r.get base) (num 0) d = itemCol base (num 0) d r := rfl
  rw [e1, e2]
  generalize itemCol base (num 0) d l = u at *
  generalize itemCol base (num 0) d r = v at *
  rw [(fillCache_text toF64 k hk l u).1, (fillCache_text toF64 k hk l u).2,
    (fillCache_text toF64 k hk r v).1, (fillCache_text toF64 k hk r v).2,
    beVal_compare _ _ (by rw [padTo_length, padTo_length]),
    (padTo_cmp 8 (keyText k u) (keyText k v) (keyText_zero hl) (keyText_zero hr)).1 ht]
  have hf : (decide (u.length ≤ 8) && decide (v.length ≤ 8)) = false := by
    rw [Bool.and_eq_false_iff]
    rcases hlong with h | h
    · left; simp; omega
    · right; simp; omega
  rw [hf]
  cases compK toF64 k u v <;> rfl

example : 8 < (itemCol [49, 49, 49, 49, 49, 49, 49, 49, 50, 10] 0 9 ⟨0, 10, false, 0⟩).length := by decide

/-- A column compared by length, and the method that finds all equal: the claim without conditions. -/
theorem C25_length_column_partial (toF64 : Bytes → F64) (k : CompKind) (hk : k = .length ∨ k = .equal)
    (num : Nat → Nat) (rv : Bool) (d : UInt8) (base : Bytes) (l r : Item) :
    LineComp.compItems toF64 ⟨.col k num, rv, d⟩ base
        (LineComp.fillCacheLine toF64 ⟨.col k num, rv, d⟩ l base)
        (LineComp.fillCacheLine toF64 ⟨.col k num, rv, d⟩ r base)
      = LineComp.compLines toF64 ⟨.col k num, rv, d⟩ 0 0 (l.get base) (r.get base) := by
  rw [compItems_shape]
  unfold LineComp.compLines LineComp.inner LineComp.fillCacheLine
  have hthen : ∀ o : Ordering, o.then .eq = o := by intro o; cases o <;> rfl
  rcases hk with rfl | rfl
  · simp only [fillCache, Bool.and_self, if_true, compK, hthen]
  · simp [fillCache, compK, Ordering.then]

/-- A column compared as an IP address: the claim unless reversed. -/
theorem C25_ip_column_partial (toF64 : Bytes → F64) (num : Nat → Nat) (d : UInt8) (base : Bytes) (l r : Item) :
    LineComp.compItems toF64 ⟨.col .ip num, false, d⟩ base
        (LineComp.fillCacheLine toF64 ⟨.col .ip num, false, d⟩ l base)
        (LineComp.fillCacheLine toF64 ⟨.col .ip num, false, d⟩ r base)
      = LineComp.compLines toF64 ⟨.col .ip num, false, d⟩ 0 0 (l.get base) (r.get base) := by
  rw [compItems_shape, fillCacheLine_get, fillCacheLine_get]
  unfold LineComp.compLines LineComp.inner LineComp.fillCacheLine
  simp [fillCache, Ordering.then, rev]

/-- Reversed, IP columns are compared in the unreversed order. -/
theorem C25_ip_reverse_lost (toF64 : Bytes → F64) (num : Nat → Nat) (d : UInt8) (base : Bytes) (l r : Item) :
    LineComp.compItems toF64 ⟨.col .ip num, true, d⟩ base
        (LineComp.fillCacheLine toF64 ⟨.col .ip num, true, d⟩ l base)
        (LineComp.fillCacheLine toF64 ⟨.col .ip num, true, d⟩ r base)
      = (LineComp.compLines toF64 ⟨.col .ip num, true, d⟩ 0 0 (l.get base) (r.get base)).swap := by
  rw [compItems_shape, fillCacheLine_get, fillCacheLine_get]
  unfold LineComp.compLines LineComp.inner LineComp.fillCacheLine
  simp [fillCache, Ordering.then, rev]

/-- The float key of an item of a float column or expression. -/
def itemFloat (toF64 : Bytes → F64) (kind : LineKind) (base : Bytes) (d : UInt8) (i : Item) : F64 :=
  match kind with
  | .col _ num => toF64 (itemCol base (num 0) d i)
  | .expr eval => eval 0 (i.get base)
  | .whole _ => 0

/-- Float columns and expressions: the claim when neither value is a NaN, and not one is 0 and the other -0. -/
theorem C25_float_partial (toF64 : Bytes → F64) (kind : LineKind) (rv : Bool) (d : UInt8) (base : Bytes) (l r : Item)
    (hk : (∃ num, kind = .col .float num) ∨ ∃ eval, kind = .expr eval)
    (hl : (itemFloat toF64 kind base d l).isNaN = false) (hr : (itemFloat toF64 kind base d r).isNaN = false)
    (hz : ¬ ((itemFloat toF64 kind base d l).scaled = 0 ∧ (itemFloat toF64 kind base d r).scaled = 0) ∨
      itemFloat toF64 kind base d l = itemFloat toF64 kind base d r) :
    LineComp.compItems toF64 ⟨kind, rv, d⟩ base
        (LineComp.fillCacheLine toF64 ⟨kind, rv, d⟩ l base) (LineComp.fillCacheLine toF64 ⟨kind, rv, d⟩ r base)
      = LineComp.compLines toF64 ⟨kind, rv, d⟩ 0 0 (l.get base) (r.get base) := by
  have key := C26_key_order_partial _ _ hl hr hz
  have hthen : ∀ o : Ordering, o.then .eq = o := by intro o; cases o <;> rfl
  rw [compItems_shape, fillCacheLine_get, fillCacheLine_get]
  unfold LineComp.compLines LineComp.inner LineComp.fillCacheLine
  rcases hk with ⟨num, rfl⟩ | ⟨eval, rfl⟩
  · simp only [fillCache, Bool.and_self, if_true, hthen, compK]
    congr 1
  · simp only [Bool.and_self, if_true, hthen]
    congr 1

example : (itemFloat (fun v => if v = [49] then 0x3ff0000000000000 else 0xbff0000000000000) (.col .float (fun _ => 0))
    [49, 10] 9 ⟨0, 2, false, 0⟩).scaled ≠ 0 := by decide +kernel

/-- The numeric method: keys contradict the direct comparison whenever the conversion separates "1.5" from "1" (as it
does) and "1.5" is greater: directly the two are equal. -/
theorem C25_numeric_disagrees (toF64 : Bytes → F64) (d : UInt8) (hd : d ∉ ([49, 46, 53, 10] : Bytes))
    (h : (ulpToUlong (toF64 [49])).toNat < (ulpToUlong (toF64 [49, 46, 53])).toNat) :
    let c : LineComp := ⟨.col .numeric (fun _ => 0), false, d⟩
    let base : Bytes := [49, 10, 49, 46, 53, 10]
    let l : Item := ⟨0, 2, false, 0⟩
    let r : Item := ⟨2, 4, false, 0⟩
    c.compItems toF64 base (c.fillCacheLine toF64 l base) (c.fillCacheLine toF64 r base) = .lt ∧
      c.compLines toF64 0 0 (l.get base) (r.get base) = .eq := by
  simp only [List.mem_cons, List.not_mem_nil, or_false, not_or] at hd
  obtain ⟨h1, h2, h3, h4⟩ := hd
  have hl : Item.get ⟨0, 2, false, 0⟩ [49, 10, 49, 46, 53, 10] = [49, 10] := by decide
  have hr : Item.get ⟨2, 4, false, 0⟩ [49, 10, 49, 46, 53, 10] = [49, 46, 53, 10] := by decide
  have gl : getCol [49, 10] 0 d = [49] := by
    simp [getCol, sliceSplit, Ne.symm h1, Ne.symm h4]
  have gr : getCol [49, 46, 53, 10] 0 d = [49, 46, 53] := by
    simp [getCol, sliceSplit, Ne.symm h1, Ne.symm h2, Ne.symm h3, Ne.symm h4]
  constructor
  · rw [compItems_shape]
    simp only [LineComp.fillCacheLine, fillCache, hl, hr, gl, gr, Nat.compare_eq_lt.2 h]
    rfl
  · simp only [LineComp.compLines, LineComp.inner, hl, hr, gl, gr]
    show numCmpSigned [49] [49, 46, 53] = .eq
    decide

/-- Whole-line plain, lower, IP and numeric keys, in a buffer of more than 8 bytes: the claim unless reversed. The
keys of all lines are the same, so the direct comparison decides. -/
theorem C25_whole_line_partial (toF64 : Bytes → F64) (k : CompKind)
    (hk : k = .plain ∨ k = .lower ∨ k = .ip ∨ k = .numeric) (d : UInt8) (base : Bytes) (hb : 8 < base.length)
    (l r : Item) (hl : l.complete = false) :
    LineComp.compItems toF64 ⟨.whole k, false, d⟩ base
        (LineComp.fillCacheLine toF64 ⟨.whole k, false, d⟩ l base)
        (LineComp.fillCacheLine toF64 ⟨.whole k, false, d⟩ r base)
      = LineComp.compLines toF64 ⟨.whole k, false, d⟩ 0 0 (l.get base) (r.get base) := by
  rw [compItems_shape, fillCacheLine_get, fillCacheLine_get]
  unfold LineComp.compLines LineComp.fillCacheLine
  have hd : decide (base.length ≤ 8) = false := by simp; omega
  rcases hk with rfl | rfl | rfl | rfl <;>
    simp [fillCache, hd, hl, Ordering.then, rev]

example : 8 < ([49, 50, 51, 10, 49, 50, 10, 49, 50, 51, 10] : Bytes).length := by decide

/-- Whole-line length and float keys are computed from the buffer, not from the line: all lines compare equal. -/
theorem C25_whole_line_all_equal (toF64 : Bytes → F64) (k : CompKind) (hk : k = .length ∨ k = .float) (rv : Bool)
    (d : UInt8) (base : Bytes) (l r : Item) :
    LineComp.compItems toF64 ⟨.whole k, rv, d⟩ base
        (LineComp.fillCacheLine toF64 ⟨.whole k, rv, d⟩ l base)
        (LineComp.fillCacheLine toF64 ⟨.whole k, rv, d⟩ r base) = .eq ∧
    LineComp.equalItems toF64 ⟨.whole k, rv, d⟩ base
        (LineComp.fillCacheLine toF64 ⟨.whole k, rv, d⟩ l base)
        (LineComp.fillCacheLine toF64 ⟨.whole k, rv, d⟩ r base) = true := by
  rw [compItems_shape]
  unfold LineComp.equalItems LineComp.fillCacheLine
  rcases hk with rfl | rfl <;> cases rv <;> simp [fillCache, Ordering.then, rev]

/-- Equality of items: agrees with equality of lines for byte, caseless (NUL free), length, IP and numeric columns,
reversed or not. -/
theorem C25_equal_column_partial (toF64 : Bytes → F64) (k : CompKind) (num : Nat → Nat)
    (rv : Bool) (d : UInt8) (base : Bytes) (l r : Item) (hk : k ≠ .float) (hc : l.complete = false)
    (hl : k = .plain ∨ k = .lower → 0 ∉ itemCol base (num 0) d l)
    (hr : k = .plain ∨ k = .lower → 0 ∉ itemCol base (num 0) d r) :
    LineComp.equalItems toF64 ⟨.col k num, rv, d⟩ base
        (LineComp.fillCacheLine toF64 ⟨.col k num, rv, d⟩ l base)
        (LineComp.fillCacheLine toF64 ⟨.col k num, rv, d⟩ r base)
      = LineComp.equalLines toF64 ⟨.col k num, rv, d⟩ 0 0 (l.get base) (r.get base) := by
  have text : k = .plain ∨ k = .lower → LineComp.equalItems toF64 ⟨.col k num, rv, d⟩ base
        (LineComp.fillCacheLine toF64 ⟨.col k num, rv, d⟩ l base)
        (LineComp.fillCacheLine toF64 ⟨.col k num, rv, d⟩ r base)
      = LineComp.equalLines toF64 ⟨.col k num, rv, d⟩ 0 0 (l.get base) (r.get base) := by
    intro hk
    have hl := hl hk
    have hr := hr hk
    unfold LineComp.equalItems
    rw [fillCacheLine_get, fillCacheLine_get]
    unfold LineComp.equalLines LineComp.fillCacheLine
    simp only
    have e1 : getCol (l.get base) (num 0) d = itemCol base (num 0) d l := rfl
    have e2 : getCol (r.get base) (num 0) d = itemCol base (num 0) d r := rfl
    rw [e1, e2]
    generalize itemCol base (num 0) d l = u at *
    generalize itemCol base (num 0) d r = v at *
    rw [(fillCache_text toF64 k hk l u).1, (fillCache_text toF64 k hk l u).2,
      (fillCache_text toF64 k hk r v).1, (fillCache_text toF64 k hk r v).2]
    by_cases hs : u.length ≤ 8 ∧ v.length ≤ 8
    · simp only [hs.1, hs.2, decide_true, Bool.and_self, if_true]
      have hlu := keyText_length k u
      have hlv := keyText_length k v
      rw [Bool.eq_iff_iff, C22_equal_consistent, compK_text toF64 k hk, beq_iff_eq, ← Nat.compare_eq_eq,
        beVal_compare _ _ (by rw [padTo_length, padTo_length])]
      have hp := padTo_cmp 8 (keyText k u) (keyText k v) (keyText_zero hl) (keyText_zero hr)
      by_cases ht : (keyText k u).take 8 = (keyText k v).take 8
      · have := short_complete 8 ht (by omega) (by omega)
        rw [this]
        simp only [(listCmp_preorder preorder_byte).refl]
      · rw [(hp.2 ht).1]
    · have hf : (decide (u.length ≤ 8) && decide (v.length ≤ 8)) = false := by
        rw [Bool.and_eq_false_iff]
        by_cases h1 : u.length ≤ 8
        · right; simp; by_cases h2 : v.length ≤ 8
          · exact absurd ⟨h1, h2⟩ hs
          · omega
        · left; simp; omega
      rw [hf]
      rfl
  cases k with
  | plain => exact text (Or.inl rfl)
  | lower => exact text (Or.inr rfl)
  | length => rfl
  | ip => rfl
  | numeric =>
    unfold LineComp.equalItems
    rw [fillCacheLine_get, fillCacheLine_get]
    simp [LineComp.fillCacheLine, fillCache, hc]
  | float => exact absurd rfl hk
  | equal => rfl

example : CompKind.numeric ≠ .float ∧ (⟨0, 3, false, 0⟩ : Item).complete = false := by decide

/-- Equality of items for float columns and expressions: agrees when neither value is a NaN, and not one is 0 and the
other -0. -/
theorem C25_equal_float_partial (toF64 : Bytes → F64) (kind : LineKind) (rv : Bool) (d : UInt8) (base : Bytes)
    (l r : Item) (hk : (∃ num, kind = .col .float num) ∨ ∃ eval, kind = .expr eval)
    (hl : (itemFloat toF64 kind base d l).isNaN = false) (hr : (itemFloat toF64 kind base d r).isNaN = false)
    (hz : ¬ ((itemFloat toF64 kind base d l).scaled = 0 ∧ (itemFloat toF64 kind base d r).scaled = 0) ∨
      itemFloat toF64 kind base d l = itemFloat toF64 kind base d r) :
    LineComp.equalItems toF64 ⟨kind, rv, d⟩ base
        (LineComp.fillCacheLine toF64 ⟨kind, rv, d⟩ l base) (LineComp.fillCacheLine toF64 ⟨kind, rv, d⟩ r base)
      = LineComp.equalLines toF64 ⟨kind, rv, d⟩ 0 0 (l.get base) (r.get base) := by
  have key := C26_key_order_partial _ _ hl hr hz
  have key2 : ((ulpToUlong (itemFloat toF64 kind base d l)).toNat == (ulpToUlong (itemFloat toF64 kind base d r)).toNat)
      = F64.eq (itemFloat toF64 kind base d l) (itemFloat toF64 kind base d r) := by
    rw [Bool.eq_iff_iff, beq_iff_eq, ← Nat.compare_eq_eq, key, F64.eq_false_gt_false]
  unfold LineComp.equalItems LineComp.equalLines LineComp.fillCacheLine
  rcases hk with ⟨num, rfl⟩ | ⟨eval, rfl⟩
  · exact key2
  · exact key2

/-- A list of comparators: the first through its keys, the others directly; if the first agrees with its direct
comparison, so does the list. -/
theorem C25_list (toF64 : Bytes → F64) (c : LineComp) (cs : List LineComp) (base : Bytes) (l r : Item)
    (h : c.compItems toF64 base (c.fillCacheLine toF64 l base) (c.fillCacheLine toF64 r base)
      = c.compLines toF64 0 0 (l.get base) (r.get base)) :
    compItemsList toF64 (c :: cs) base (fillCacheList toF64 (c :: cs) l base) (fillCacheList toF64 (c :: cs) r base)
      = compLinesList toF64 (c :: cs) 0 0 (l.get base) (r.get base) := by
  simp only [compItemsList, fillCacheList, compLinesList, h, fillCacheLine_get]

end Cdx
