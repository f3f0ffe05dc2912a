import Verif.Lemmas.CompNum

/-!
C22 (comparators are total preorders), C26 (float keys preserve order), C27 (lists of comparators).
-/

namespace Cdx

/-! ## C22 -/

/-- The claim in full: every comparison method, reversed or not, whatever the conversion to floats. -/
def C22_statement : Prop :=
  ∀ (toF64 : Bytes → F64) (k : CompKind) (r : Bool), TotalPreorder fun a b => rev r (compK toF64 k a b)

/-- The numeric method is not transitive: "1.7" is not above "1", "1" not above "1.5", but "1.7" is above "1.5". -/
theorem C22_refuted : ¬ C22_statement := by
  intro h
  have := (h (fun _ => 0) .numeric false).trans [49, 46, 55] [49] [49, 46, 53]
  revert this
  decide

theorem rev_preorder {α : Type} {cmp : α → α → Ordering} (h : TotalPreorder cmp) (r : Bool) :
    TotalPreorder fun a b => rev r (cmp a b) := by
  cases r
  · exact h
  · exact h.reverse

/-- Every method except the numeric one is a total preorder, reversed or not; the float one when no text converts to
a NaN. Missing from the claim: the numeric method (see C24) and texts that are not a number. -/
theorem C22_preorder_partial (toF64 : Bytes → F64) (k : CompKind) (r : Bool) (hk : k ≠ .numeric)
    (hn : k = .float → ∀ a, (toF64 a).isNaN = false) : TotalPreorder fun a b => rev r (compK toF64 k a b) := by
  apply rev_preorder
  cases k with
  | plain => exact preorder_lex
  | lower =>
    have e : compK toF64 .lower = fun a b => lexCmp (lower a) (lower b) := by
      funext a b; exact cmpInsens_eq a b
    rw [e]
    exact preorder_lex.comap lower
  | length => exact preorder_nat.comap List.length
  | ip => exact preorder_ip
  | numeric => exact absurd rfl hk
  | float =>
    have e : compK toF64 .float = fun a b => compare (toF64 a).scaled (toF64 b).scaled := by
      funext a b; exact fcmp_eq (hn rfl _) (hn rfl _)
    rw [e]
    exact preorder_int.comap fun a => (toF64 a).scaled
  | equal => exact ⟨fun _ => rfl, fun _ _ => rfl, fun _ _ _ h _ => h⟩

example : CompKind.ip ≠ .numeric ∧ compK (fun _ => 0) .ip [49, 46, 50] [49, 46, 49, 48] = .lt := by decide
example : ∀ a : Bytes, ((fun _ => (0x3ff0000000000000 : F64)) a).isNaN = false :=
  fun _ => (by decide : F64.isNaN 0x3ff0000000000000 = false)

/-- A text that converts to a NaN is not equal to itself under the float method, whichever side it is on. -/
theorem C22_nan (toF64 : Bytes → F64) (a b : Bytes) (h : (toF64 a).isNaN = true) :
    compK toF64 .float a b = .lt ∧ compK toF64 .float b a = .lt := by
  simp [compK, fcmp, F64.eq, F64.gt, h]

example : F64.isNaN 0x7ff8000000000000 = true := by decide

/-- The methods ordered as their names say: bytes, lower case bytes, length, dot separated numbers. -/
theorem C22_meaning (toF64 : Bytes → F64) (a b : Bytes) :
    compK toF64 .plain a b = listCmp compare a b ∧
    compK toF64 .lower a b = listCmp compare (lower a) (lower b) ∧
    compK toF64 .length a b = compare a.length b.length ∧
    compK toF64 .ip a b =
      listCmp segCmp (ipSegs (a.dropWhile (· ≤ 32))) (ipSegs (b.dropWhile (· ≤ 32))) := by
  refine ⟨lexCmp_eq_listCmp a b, ?_, rfl, ipCmp_eq a b⟩
  rw [← lexCmp_eq_listCmp]; exact cmpInsens_eq a b

/-- Digit groups without leading zeros are ordered by value. -/
theorem C22_ip_value (a b : Bytes) (ha : ∀ c ∈ a, 48 ≤ c ∧ c ≤ 57) (hb : ∀ c ∈ b, 48 ≤ c ∧ c ≤ 57)
    (na : ∀ r, a ≠ 48 :: r) (nb : ∀ r, b ≠ 48 :: r) : segCmp a b = compare (decVal a) (decVal b) :=
  seg_eq_val a b (fun c hc => (isDigit_iff c).2 (ha c hc)) (fun c hc => (isDigit_iff c).2 (hb c hc)) na nb

example : (∀ c ∈ ([57, 57] : Bytes), 48 ≤ c ∧ c ≤ 57) ∧ (∀ c ∈ ([49, 48, 48] : Bytes), 48 ≤ c ∧ c ≤ 57) := by decide

/-- Equality of a method is its comparison giving equal, for every method. -/
theorem C22_equal_consistent (toF64 : Bytes → F64) (k : CompKind) (a b : Bytes) :
    equalK toF64 k a b = true ↔ compK toF64 k a b = .eq := by
  cases k with
  | plain => simp only [equalK, compK, beq_iff_eq]; exact lexCmp_eq.symm
  | lower => simp only [equalK, compK, equalInsens_eq, beq_iff_eq]
  | length => simp only [equalK, compK, beq_iff_eq]; exact Nat.compare_eq_eq.symm
  | ip => simp only [equalK, compK, beq_iff_eq]
  | numeric => simp only [equalK, compK, beq_iff_eq]
  | float => simp only [equalK, compK]; exact (F64.eq_false_gt_false _ _).symm
  | equal => simp [equalK, compK]

/-- Comparing with a stored value is comparing with the value (texts shorter than 2^32). -/
theorem C22_stored (toF64 : Bytes → F64) (k : CompKind) (v b : Bytes) (hv : v.length < 2 ^ 32)
    (hb : b.length < 2 ^ 32) : compSelfK toF64 k v b = compK toF64 k v b := by
  cases k with
  | plain => rfl
  | lower => exact cmpInsensQuick_eq v b
  | length => simp only [compSelfK, compK, Nat.mod_eq_of_lt hv, Nat.mod_eq_of_lt hb]
  | ip => rfl
  | numeric => rfl
  | float => rfl
  | equal => rfl

example : ([65] : Bytes).length < 2 ^ 32 ∧ compSelfK (fun _ => 0) .lower [66] [97] = .gt := by decide

/-! ## C26 -/

/-- The claim in full: the keys of non-NaN floats are ordered as the floats. -/
def C26_statement : Prop :=
  ∀ x y : F64, x.isNaN = false → y.isNaN = false → compare (ulpToUlong x).toNat (ulpToUlong y).toNat = fcmp x y

/-- The two zeros are equal but their keys differ. -/
theorem C26_refuted : ¬ C26_statement := by
  intro h
  have := h 0x8000000000000000 0
  revert this
  decide

/-- The claim for all pairs other than the two different zeros. -/
theorem C26_key_order_partial (x y : F64) (hx : x.isNaN = false) (hy : y.isNaN = false)
    (hz : ¬ (x.scaled = 0 ∧ y.scaled = 0) ∨ x = y) :
    compare (ulpToUlong x).toNat (ulpToUlong y).toNat = fcmp x y := by
  have lx := x.toNat_lt
  have ly := y.toNat_lt
  rw [fcmp_eq hx hy, compare_int]
  simp only [scaled_eq_iff, scaled_lt_iff]
  have z : ∀ w : F64, w.scaled = 0 ↔ rank w = 0 := fun w => by
    have := scaled_eq_iff w 0
    have e : F64.scaled 0 = 0 := by decide
    have e' : rank 0 = 0 := by decide
    rwa [e, e'] at this
  rw [z, z, ← UInt64.toNat_inj] at hz
  simp only [ulpToUlong_toNat]
  unfold rank at *
  by_cases h1 : 2 ^ 63 ≤ x.toNat <;> by_cases h2 : 2 ^ 63 ≤ y.toNat <;> simp only [h1, h2, if_true, if_false] at hz ⊢
  all_goals
    split
    · rw [Nat.compare_eq_eq]; omega
    · split
      · rw [Nat.compare_eq_gt]; omega
      · rw [Nat.compare_eq_lt]; omega

example : ¬ (F64.scaled 0x3ff0000000000000 = 0 ∧ F64.scaled 0xc000000000000000 = 0) ∧
    fcmp 0xc000000000000000 0x3ff0000000000000 = .lt := by decide +kernel

/-- For all pairs, a smaller number has a smaller key, and different patterns have different keys. -/
theorem C26_monotone (x y : F64) :
    (x.scaled < y.scaled → (ulpToUlong x).toNat < (ulpToUlong y).toNat) ∧
      ((ulpToUlong x).toNat = (ulpToUlong y).toNat → x = y) := by
  have lx := x.toNat_lt
  have ly := y.toNat_lt
  rw [scaled_lt_iff, ulpToUlong_toNat, ulpToUlong_toNat, ← UInt64.toNat_inj]
  unfold rank
  by_cases h1 : 2 ^ 63 ≤ x.toNat <;> by_cases h2 : 2 ^ 63 ≤ y.toNat <;> simp only [h1, h2, if_true, if_false]
  all_goals constructor <;> intro h <;> omega

/-! ## C27 -/

theorem compLinesList_foldr (toF64 : Bytes → F64) (cs : List LineComp) (lf rf : Nat) (l r : Bytes) :
    compLinesList toF64 cs lf rf l r = (cs.map fun c => c.compLines toF64 lf rf l r).foldr Ordering.then .eq := by
  induction cs with
  | nil => rfl
  | cons c cs ih =>
    simp only [compLinesList, List.map_cons, List.foldr_cons, ← ih]
    cases h : c.compLines toF64 lf rf l r <;> simp [Ordering.then]

/-- The first comparator that distinguishes two lines decides. -/
theorem C27_first_decides (toF64 : Bytes → F64) (pre post : List LineComp) (c : LineComp) (lf rf : Nat) (l r : Bytes)
    (hp : ∀ d ∈ pre, d.compLines toF64 lf rf l r = .eq) (hc : c.compLines toF64 lf rf l r ≠ .eq) :
    compLinesList toF64 (pre ++ c :: post) lf rf l r = c.compLines toF64 lf rf l r := by
  induction pre with
  | nil => simp only [List.nil_append, compLinesList, ne_eq, hc, not_false_eq_true, if_true]
  | cons d ds ih =>
    simp only [List.cons_append, compLinesList, hp d (by simp), ne_eq, not_true_eq_false, if_false]
    exact ih fun e he => hp e (by simp [he])

/-- Lines no comparator distinguishes are equal, and only those. -/
theorem C27_eq_iff (toF64 : Bytes → F64) (cs : List LineComp) (lf rf : Nat) (l r : Bytes) :
    compLinesList toF64 cs lf rf l r = .eq ↔ ∀ c ∈ cs, c.compLines toF64 lf rf l r = .eq := by
  induction cs with
  | nil => simp [compLinesList]
  | cons c cs ih =>
    simp only [compLinesList, List.mem_cons, forall_eq_or_imp, ← ih]
    by_cases h : c.compLines toF64 lf rf l r = .eq
    · simp [h]
    · simp [h]

/-- `equal_lines` of a list agrees with its comparison. -/
theorem C27_equal_agrees (toF64 : Bytes → F64) (cs : List LineComp) (lf rf : Nat) (l r : Bytes) :
    equalLinesList toF64 cs lf rf l r = true ↔ compLinesList toF64 cs lf rf l r = .eq := by
  rw [C27_eq_iff]
  have key : ∀ c : LineComp, c.equalLines toF64 lf rf l r = true ↔ c.compLines toF64 lf rf l r = .eq := by
    intro c
    have sw : ∀ o : Ordering, rev c.reverse o = .eq ↔ o = .eq := by
      intro o; cases c.reverse <;> cases o <;> simp [rev]
    rw [LineComp.compLines, sw, LineComp.equalLines, LineComp.inner]
    cases c.kind with
    | whole k => exact C22_equal_consistent _ _ _ _
    | col k n => exact C22_equal_consistent _ _ _ _
    | expr e => exact (F64.eq_false_gt_false _ _).symm
  induction cs with
  | nil => simp [equalLinesList]
  | cons c cs ih =>
    have hk := key c
    simp only [equalLinesList, List.mem_cons, forall_eq_or_imp, ← ih, ← hk]
    cases h : c.equalLines toF64 lf rf l r <;> simp

/-- If each comparator is a total preorder on the lines of all files, so is the list. -/
theorem C27_preorder (toF64 : Bytes → F64) (cs : List LineComp)
    (h : ∀ c ∈ cs, TotalPreorder fun x y : Nat × Bytes => c.compLines toF64 x.1 y.1 x.2 y.2) :
    TotalPreorder fun x y : Nat × Bytes => compLinesList toF64 cs x.1 y.1 x.2 y.2 := by
  induction cs with
  | nil => exact ⟨fun _ => rfl, fun _ _ => rfl, fun _ _ _ h _ => h⟩
  | cons c cs ih =>
    have h1 := h c (by simp)
    have h2 := ih fun d hd => h d (by simp [hd])
    have := h1.then h2
    simp only [compLinesList_foldr, List.map_cons, List.foldr_cons] at *
    exact this

/-- The hypothesis of `C27_preorder` holds for comparators built from the methods of C22. -/
theorem C27_preorder_methods (toF64 : Bytes → F64) (c : LineComp)
    (h : match c.kind with
      | .whole k => k ≠ .numeric ∧ k ≠ .float
      | .col k _ => k ≠ .numeric ∧ k ≠ .float
      | .expr eval => ∀ n l, (eval n l).isNaN = false) :
    TotalPreorder fun x y : Nat × Bytes => c.compLines toF64 x.1 y.1 x.2 y.2 := by
  unfold LineComp.compLines
  apply rev_preorder
  unfold LineComp.inner
  cases hk : c.kind with
  | whole k =>
    rw [hk] at h
    exact (C22_preorder_partial toF64 k false h.1 (fun e => absurd e h.2)).comap fun x : Nat × Bytes => x.2
  | col k n =>
    rw [hk] at h
    exact (C22_preorder_partial toF64 k false h.1 (fun e => absurd e h.2)).comap
      fun x : Nat × Bytes => getCol x.2 (n x.1) c.delim
  | expr e =>
    rw [hk] at h
    have := preorder_int.comap fun x : Nat × Bytes => (e x.1 x.2).scaled
    simpa only [fcmp_eq (h _ _) (h _ _)] using this

example : match (LineKind.col .ip (fun _ => 0)) with
      | .whole k => k ≠ .numeric ∧ k ≠ .float
      | .col k _ => k ≠ .numeric ∧ k ≠ .float
      | .expr eval => ∀ n l, (eval n l).isNaN = false := ⟨by decide, by decide⟩

/-- Reversing one key reverses only that key: pairs decided by other keys are not affected. -/
theorem C27_reverse_one (toF64 : Bytes → F64) (pre post : List LineComp) (c : LineComp) (lf rf : Nat) (l r : Bytes) :
    compLinesList toF64 (pre ++ { c with reverse := !c.reverse } :: post) lf rf l r =
      if (∀ d ∈ pre, d.compLines toF64 lf rf l r = .eq) ∧ c.compLines toF64 lf rf l r ≠ .eq
      then (compLinesList toF64 (pre ++ c :: post) lf rf l r).swap
      else compLinesList toF64 (pre ++ c :: post) lf rf l r := by
  have hsw : LineComp.compLines toF64 { c with reverse := !c.reverse } lf rf l r
      = (c.compLines toF64 lf rf l r).swap := by
    unfold LineComp.compLines LineComp.inner
    cases c.reverse <;> simp [rev]
  induction pre with
  | nil =>
    simp only [List.nil_append, compLinesList, hsw, List.not_mem_nil, false_implies, implies_true, true_and]
    cases h : c.compLines toF64 lf rf l r <;> simp
  | cons d ds ih =>
    simp only [List.cons_append, compLinesList, List.mem_cons, forall_eq_or_imp]
    by_cases hd : d.compLines toF64 lf rf l r = .eq
    · simp only [hd, ne_eq, not_true_eq_false, if_false, true_and, ih]
    · simp [hd]

/-- Comparing stored values with a line (`set` and `comp_self_line`): if the values are the columns of a line, the
answer is the comparison of that line with the other one. -/
theorem C27_stored (toF64 : Bytes → F64) (ks : List (CompKind × Nat × Bool)) (d : UInt8) (l r : Bytes)
    (hl : ∀ k ∈ ks, (getCol l k.2.1 d).length < 2 ^ 32 ∧ (getCol r k.2.1 d).length < 2 ^ 32) :
    compSelfParts toF64 (ks.map fun k => ⟨.col k.1 (fun _ => k.2.1), k.2.2, d⟩) (ks.map fun k => getCol l k.2.1 d) r
      = compLinesList toF64 (ks.map fun k => ⟨.col k.1 (fun _ => k.2.1), k.2.2, d⟩) 0 0 l r := by
  induction ks with
  | nil => rfl
  | cons k ks ih =>
    have hk := hl k (by simp)
    have ih := ih fun j hj => hl j (by simp [hj])
    simp only [List.map_cons, compSelfParts, compLinesList, ih]
    have : LineComp.compSelf toF64 ⟨.col k.1 (fun _ => k.2.1), k.2.2, d⟩ (getCol l k.2.1 d) r
        = LineComp.compLines toF64 ⟨.col k.1 (fun _ => k.2.1), k.2.2, d⟩ 0 0 l r := by
      simp only [LineComp.compSelf, LineComp.compLines, LineComp.inner]
      rw [C22_stored toF64 _ _ _ hk.1 hk.2]
    rw [this]

example : ∀ k ∈ [(CompKind.plain, 0, false), (CompKind.ip, 1, true)],
    (getCol [97, 9, 98, 10] k.2.1 9).length < 2 ^ 32 ∧ (getCol [97, 9, 99, 10] k.2.1 9).length < 2 ^ 32 := by decide

/-- `set` gives each comparator its own value, for values without the delimiter. -/
theorem C27_set (d : UInt8) (vs : List Bytes) (hne : vs ≠ []) (h : ∀ v ∈ vs, d ∉ v) :
    setParts vs.length (List.intercalate [d] vs) d = .ok vs := by
  unfold setParts
  rw [sliceSplit_intercalate d vs hne h]
  split
  · rename_i h1
    match vs, h1 with
    | [v], _ => simp [List.intercalate]
  · simp

example : ([[97], [98, 99]] : List Bytes) ≠ [] ∧ ∀ v ∈ ([[97], [98, 99]] : List Bytes), (44 : UInt8) ∉ v := by decide

/-- For a single comparator the text is taken whole, even if it has delimiters. -/
theorem C27_set_single (d : UInt8) (v : Bytes) : setParts 1 v d = .ok [v] := by simp [setParts]

/-- `set` rejects any other number of values. -/
theorem C27_set_count (n : Nat) (d : UInt8) (vs : List Bytes) (hne : vs ≠ []) (h : ∀ v ∈ vs, d ∉ v) (hn : n ≠ 1)
    (hc : vs.length ≠ n) : setParts n (List.intercalate [d] vs) d = .err := by
  unfold setParts
  rw [sliceSplit_intercalate d vs hne h, if_neg hn, if_pos hc]

end Cdx
