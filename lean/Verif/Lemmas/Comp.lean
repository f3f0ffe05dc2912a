import Verif.Model.Comp
import Verif.Spec.Comp
import Verif.Lemmas.Column

/-!
Lemmas on orderings and comparators.
-/

namespace Cdx

/-! ## Preorders -/

theorem TotalPreorder.comap {α β : Type} {cmp : β → β → Ordering} (h : TotalPreorder cmp) (f : α → β) :
    TotalPreorder fun a b => cmp (f a) (f b) :=
  ⟨fun a => h.refl _, fun a b => h.swap _ _, fun a b c => h.trans _ _ _⟩

theorem TotalPreorder.reverse {α : Type} {cmp : α → α → Ordering} (h : TotalPreorder cmp) :
    TotalPreorder fun a b => (cmp a b).swap := by
  refine ⟨fun a => by simp [h.refl], fun a b => by rw [h.swap a b], ?_⟩
  intro a b c h1 h2
  have e : ∀ x y, (cmp x y).swap = cmp y x := fun x y => (h.swap x y).symm
  simp only [e] at *
  exact h.trans c b a h2 h1

theorem compare_nat_trans (a b c : Nat) (h1 : compare a b ≠ .gt) (h2 : compare b c ≠ .gt) : compare a c ≠ .gt := by
  rw [Nat.compare_ne_gt] at *
  omega

theorem preorder_nat : TotalPreorder (fun a b : Nat => compare a b) :=
  ⟨fun a => Nat.compare_eq_eq.2 rfl, fun a b => (Nat.compare_swap a b).symm, compare_nat_trans⟩

theorem compare_byte (x y : UInt8) : compare x y = compare x.toNat y.toNat := by
  simp only [compare, compareOfLessAndEq, UInt8.lt_iff_toNat_lt, ← UInt8.toNat_inj]

theorem preorder_byte : TotalPreorder (fun a b : UInt8 => compare a b) := by
  have := preorder_nat.comap UInt8.toNat
  simpa only [← compare_byte] using this

theorem TotalPreorder.then {α : Type} {c1 c2 : α → α → Ordering} (h1 : TotalPreorder c1) (h2 : TotalPreorder c2) :
    TotalPreorder fun a b => (c1 a b).then (c2 a b) := by
  refine ⟨fun a => by simp [h1.refl, h2.refl], fun a b => ?_, ?_⟩
  · simp only [h1.swap a b, h2.swap a b]
    cases c1 a b <;> rfl
  · intro a b c hab hbc
    have t1 := h1.trans a b c
    have t2 := h2.trans a b c
    have r1 := h1.trans c a b
    have r2 := h1.trans b c a
    have s1 := h1.swap a c
    have s2 := h1.swap b c
    have s3 := h1.swap a b
    cases e1 : c1 a b <;> cases e2 : c1 b c <;> cases e3 : c1 a c <;> simp_all [Ordering.then]

theorem listCmp_preorder {α : Type} {cmp : α → α → Ordering} (h : TotalPreorder cmp) :
    TotalPreorder (listCmp cmp) := by
  refine ⟨?_, ?_, ?_⟩
  · intro a
    induction a with
    | nil => rfl
    | cons x xs ih => simp [listCmp, h.refl, ih]
  · intro a
    induction a with
    | nil => intro b; cases b <;> rfl
    | cons x xs ih =>
      intro b
      cases b with
      | nil => rfl
      | cons y ys =>
        simp only [listCmp, h.swap x y, ih ys]
        cases cmp x y <;> rfl
  · intro a
    induction a with
    | nil => intro b c _ _; cases c <;> simp [listCmp]
    | cons x xs ih =>
      intro b c hab hbc
      cases b with
      | nil => simp [listCmp] at hab
      | cons y ys =>
        cases c with
        | nil => simp [listCmp] at hbc
        | cons z zs =>
          simp only [listCmp] at *
          have t1 := h.trans x y z
          have r1 := h.trans z x y
          have r2 := h.trans y z x
          have s1 := h.swap x z
          have s2 := h.swap y z
          have s3 := h.swap x y
          have ih := ih ys zs
          cases e1 : cmp x y <;> cases e2 : cmp y z <;> cases e3 : cmp x z <;> simp_all [Ordering.then]

/-! ## Bytes -/

theorem byte_cases (x y : UInt8) : (x < y ∧ compare x y = .lt) ∨ (y < x ∧ compare x y = .gt) ∨
    (x = y ∧ compare x y = .eq) := by
  simp only [compare_byte, UInt8.lt_iff_toNat_lt, Nat.compare_eq_lt, Nat.compare_eq_gt, Nat.compare_eq_eq,
    ← UInt8.toNat_inj]
  omega

theorem lexCmp_eq_listCmp (a b : Bytes) : lexCmp a b = listCmp compare a b := by
  induction a generalizing b with
  | nil => cases b <;> rfl
  | cons x xs ih =>
    cases b with
    | nil => rfl
    | cons y ys =>
      simp only [lexCmp, listCmp, ih]
      rcases byte_cases x y with ⟨h, e⟩ | ⟨h, e⟩ | ⟨h, e⟩
      · rw [if_pos h, e]; rfl
      · have : ¬ x < y := by rw [UInt8.lt_iff_toNat_lt] at *; omega
        rw [if_neg this, if_pos h, e]; rfl
      · subst h
        have : ¬ x < x := by rw [UInt8.lt_iff_toNat_lt]; omega
        rw [if_neg this, if_neg this, e]; rfl

theorem preorder_lex : TotalPreorder lexCmp := by
  have := listCmp_preorder preorder_byte
  have e : lexCmp = listCmp (fun a b : UInt8 => compare a b) := by
    funext a b; exact lexCmp_eq_listCmp a b
  rw [e]; exact this

theorem listCmp_byte_eq {a b : Bytes} (h : listCmp compare a b = .eq) : a = b := by
  induction a generalizing b with
  | nil => cases b with | nil => rfl | cons => simp [listCmp] at h
  | cons x xs ih =>
    cases b with
    | nil => simp [listCmp] at h
    | cons y ys =>
      simp only [listCmp] at h
      rcases byte_cases x y with ⟨_, e⟩ | ⟨_, e⟩ | ⟨hx, e⟩
      · rw [e] at h; simp [Ordering.then] at h
      · rw [e] at h; simp [Ordering.then] at h
      · rw [e] at h
        rw [hx, ih h]

theorem lexCmp_eq {a b : Bytes} : lexCmp a b = .eq ↔ a = b := by
  constructor
  · intro h; rw [lexCmp_eq_listCmp] at h; exact listCmp_byte_eq h
  · rintro rfl; exact preorder_lex.refl a

theorem cmpInsens_eq (a b : Bytes) : cmpInsens a b = lexCmp (lower a) (lower b) := by
  unfold cmpInsens lower
  induction a generalizing b with
  | nil =>
    cases b with
    | nil => rfl
    | cons y ys => simp [insensLoop, lexCmp, Nat.compare_eq_lt]
  | cons x xs ih =>
    cases b with
    | nil => simp [insensLoop, lexCmp, Nat.compare_eq_gt]
    | cons y ys =>
      simp only [insensLoop, List.map_cons, lexCmp]
      split
      · rfl
      · split
        · rfl
        · rw [← ih ys]
          congr 1
          simp [compare, compareOfLessAndEq]

theorem insensQuick_eq (v b : Bytes) : insensQuickLoop (lower v) b = insensLoop v b := by
  induction v generalizing b with
  | nil => cases b <;> rfl
  | cons x xs ih =>
    cases b with
    | nil => rfl
    | cons y ys => simp only [lower, List.map_cons, insensQuickLoop, insensLoop] at *; rw [ih]

theorem cmpInsensQuick_eq (v b : Bytes) : cmpInsensQuick (lower v) b = cmpInsens v b := by
  unfold cmpInsensQuick cmpInsens
  rw [insensQuick_eq]
  simp [lower]

theorem equalInsens_eq (a b : Bytes) : equalInsens a b = (cmpInsens a b == .eq) := by
  rw [cmpInsens_eq, equalInsens]
  rw [Bool.eq_iff_iff, beq_iff_eq, beq_iff_eq, lexCmp_eq]

/-! ## IP -/

theorem takeWhile_digit_cons (x : UInt8) (xs : Bytes) (h : isDigit x = true) :
    (x :: xs).takeWhile isDigit = x :: xs.takeWhile isDigit := by simp [List.takeWhile_cons, h]

/-- Segments: the first group, and the rest after a point. -/
def ipRest : Bytes → List Bytes
  | 46 :: r => ipSegs r
  | _ => []

theorem digit_ne_dot {x : UInt8} (h : isDigit x = true) : x ≠ 46 := by
  rintro rfl; revert h; decide

theorem ipSegs_eq (a : Bytes) : ipSegs a = a.takeWhile isDigit :: ipRest (a.dropWhile isDigit) := by
  induction a with
  | nil => rfl
  | cons x xs ih =>
    by_cases h : isDigit x = true
    · have h' := (isDigit_iff x).1 h
      simp only [ipSegs, List.takeWhile_cons, List.dropWhile_cons, h, if_true]
      rw [if_pos h', ih]
    · have h' : ¬ (48 ≤ x ∧ x ≤ 57) := fun hd => h ((isDigit_iff x).2 hd)
      simp only [ipSegs, List.takeWhile_cons, List.dropWhile_cons, h]
      rw [if_neg h']
      by_cases h46 : x = 46
      · subst h46; rfl
      · rw [if_neg h46]
        simp only [Bool.false_eq_true, if_false, List.cons.injEq, true_and]
        unfold ipRest
        split
        · rename_i heq
          simp only [List.cons.injEq] at heq
          exact absurd heq.1 h46
        · rfl

theorem groupDiff_eq (a b : Bytes) (h : a.length = b.length) :
    (groupDiff a b).getD .eq = listCmp compare a b ∧ (groupDiff a b = none → listCmp compare a b = .eq) ∧
      (∀ o, groupDiff a b = some o → o ≠ .eq) := by
  induction a generalizing b with
  | nil =>
    cases b with
    | nil => simp [groupDiff, listCmp]
    | cons y ys => simp at h
  | cons x xs ih =>
    cases b with
    | nil => simp at h
    | cons y ys =>
      simp only [List.length_cons, Nat.add_right_cancel_iff] at h
      have ih := ih ys h
      simp only [groupDiff, listCmp]
      rcases byte_cases x y with ⟨hlt, e⟩ | ⟨hlt, e⟩ | ⟨hx, e⟩
      · have : x ≠ y := by rintro rfl; rw [UInt8.lt_iff_toNat_lt] at hlt; omega
        simp [this, e, Ordering.then]
      · have : x ≠ y := by rintro rfl; rw [UInt8.lt_iff_toNat_lt] at hlt; omega
        simp [this, e, Ordering.then]
      · simp only [hx, ne_eq, not_true_eq_false, if_false]
        rw [hx] at e
        rw [e]
        exact ih

theorem ipRest_length (a r : Bytes) (h : a.dropWhile isDigit = 46 :: r) : r.length < a.length := by
  have := (List.dropWhile_suffix (l := a) isDigit).length_le
  rw [h] at this
  simp at this
  omega

theorem ipRest_nondot (l : Bytes) (h : ∀ r, l ≠ 46 :: r) : ipRest l = [] := by
  unfold ipRest
  split
  · rename_i r; exact absurd rfl (h r)
  · rfl

theorem ipSegs_ne_nil (a : Bytes) : ipSegs a ≠ [] := by rw [ipSegs_eq]; simp

theorem ipLoop_eq (n : Nat) (a b : Bytes) (h : a.length < n) :
    ipLoop n a b = listCmp segCmp (ipSegs a) (ipSegs b) := by
  induction n generalizing a b with
  | zero => omega
  | succ n ih =>
    rw [ipSegs_eq a, ipSegs_eq b]
    simp only [ipLoop, listCmp]
    generalize ha : a.takeWhile isDigit = ga
    generalize hb : b.takeWhile isDigit = gb
    by_cases hl : ga.length = gb.length
    · have hc : compare ga.length gb.length = .eq := Nat.compare_eq_eq.2 hl
      have hg := groupDiff_eq ga gb hl
      simp only [hl, ne_eq, not_true_eq_false, if_false]
      have hs : segCmp ga gb = listCmp compare ga gb := by rw [segCmp, hc]; rfl
      rw [hs, ← hg.1]
      cases hgd : groupDiff ga gb with
      | some o =>
        have := hg.2.2 o hgd
        cases o <;> simp_all [Ordering.then]
      | none =>
        simp only [Option.getD_none, Ordering.then]
        split
        · rename_i ra rb h1 h2
          rw [h1, h2]
          simp only [ipRest]
          exact ih ra rb (by have := ipRest_length a ra h1; omega)
        · rename_i ra h1 h2
          rw [h1, ipRest_nondot _ (fun r hr => h2 r hr)]
          simp only [ipRest]
          cases he : ipSegs ra with
          | nil => exact absurd he (ipSegs_ne_nil ra)
          | cons => rfl
        · rename_i rb h1 h2
          rw [h1, ipRest_nondot _ (fun r hr => h2 r hr)]
          simp only [ipRest]
          cases he : ipSegs rb with
          | nil => exact absurd he (ipSegs_ne_nil rb)
          | cons => rfl
        · rename_i h1 h2 h3
          rw [ipRest_nondot _ (fun r hr => h1 r hr), ipRest_nondot _ (fun r hr => h2 r hr)]
          rfl
    · have : compare ga.length gb.length ≠ .eq := fun hc => hl (Nat.compare_eq_eq.1 hc)
      rw [if_pos hl, segCmp]
      cases hc : compare ga.length gb.length <;> simp_all [Ordering.then]

theorem ipCmp_eq (a b : Bytes) :
    ipCmp a b = listCmp segCmp (ipSegs (trimwStart a)) (ipSegs (trimwStart b)) :=
  ipLoop_eq _ _ _ (by omega)

theorem preorder_seg : TotalPreorder segCmp :=
  (preorder_nat.comap List.length).then (listCmp_preorder preorder_byte)

theorem preorder_ip : TotalPreorder ipCmp := by
  have := (listCmp_preorder preorder_seg).comap (fun a => ipSegs (trimwStart a))
  have e : ipCmp = fun a b => listCmp segCmp (ipSegs (trimwStart a)) (ipSegs (trimwStart b)) := by
    funext a b; exact ipCmp_eq a b
  rw [e]; exact this

end Cdx
