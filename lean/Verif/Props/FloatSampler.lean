import Verif.Lemmas.FloatNear
import Verif.Props.Ops
import Verif.Props.Sampler

/-!
C32, C69: the sampler with doubles. The integers of `Model/Sampler` are the positions that the doubles give.
-/

namespace Cdx

/-! ## Rounding and scaling -/

theorem roundMag_scale (a b c : Nat) (hb : 0 < b) (hc : 0 < c) : roundMag (a * c) (b * c) = roundMag a b := by
  have hbc : 0 < b * c := Nat.mul_pos hb hc
  have e : a * c * b = a * (b * c) := by rw [Nat.mul_assoc, Nat.mul_comm c b]
  exact Nat.le_antisymm (roundMag_mono hbc hb (Nat.le_of_eq e)) (roundMag_mono hb hbc (Nat.le_of_eq e.symm))

/-- The value of what is rounded. -/
theorem roundMag_val (a b k : Nat) (hk : k = (a / b).log2 - 52) (hf : roundMag a b < infMag) :
    magVal (roundMag a b) = roundHE a (b * 2 ^ k) * 2 ^ k := by
  obtain ⟨f1, f2⟩ := roundMag_frame a b k hk
  have hrm : roundMag a b = k * 2 ^ 52 + roundHE a (b * 2 ^ k) := by
    unfold roundMag at hf ⊢
    simp only at hf ⊢
    rw [← hk] at hf ⊢
    rcases Nat.le_total (k * 2 ^ 52 + roundHE a (b * 2 ^ k)) infMag with h | h
    · exact Nat.min_eq_left h
    · rw [Nat.min_eq_right h] at hf
      exact absurd hf (Nat.lt_irrefl _)
  have h1 := roundHE_le a (b * 2 ^ k)
  have h2 := le_roundHE a (b * 2 ^ k)
  rw [hrm] at hf ⊢
  exact magVal_parts k _ (by rcases f2 with f2 | f2; exact .inl f2; exact .inr (Nat.le_trans f2 h2)) (by omega) (Nat.lt_trans hf infMag_lt)

theorem log2_of {n k : Nat} (h1 : 2 ^ k ≤ n) (h2 : n < 2 ^ (k + 1)) : n.log2 = k := by
  have hne : n ≠ 0 := Nat.ne_of_gt (Nat.lt_of_lt_of_le (Nat.two_pow_pos k) h1)
  have a := (Nat.le_log2 hne).2 h1
  have b := (Nat.log2_lt hne).2 h2
  omega

theorem log2_shift (n k : Nat) (h : n ≠ 0) : (n * 2 ^ k).log2 = n.log2 + k := by
  apply log2_of
  · rw [Nat.pow_add]
    exact Nat.mul_le_mul_right _ (Nat.log2_self_le h)
  · rw [show n.log2 + k + 1 = n.log2 + 1 + k by omega, Nat.pow_add]
    exact Nat.mul_lt_mul_of_pos_right Nat.lt_log2_self (Nat.two_pow_pos k)

/-! ## The ratio -/

theorem ofNat_exact {n : Nat} (h : n ≤ 2 ^ 53) : NN (F64.ofNat n) ∧ (F64.ofNat n).toNat < infMag ∧ (F64.ofNat n).abs = n * 2 ^ 1074 := by
  have hi := is_ofNat h
  refine ⟨nn_ofNat n, ((nn_ofNat n).fin).1 hi.fin, ?_⟩
  rw [hi.abs, Int.natAbs_natCast]

theorem div_nn {x y : F64} (hx : NN x) (hy : NN y) (hxf : x.toNat < infMag) (hyf : y.toNat < infMag) (h0 : y.abs ≠ 0) :
    x.div y = F64.make false (roundMag (x.abs * 2 ^ 1074) y.abs) := by
  rw [div_fin (hx.fin.2 hxf) (hy.fin.2 hyf) h0, hx.isNeg, hy.isNeg]
  rfl

theorem ratio_eq {a b : Nat} (hb : 0 < b) (ha : a ≤ 2 ^ 53) (hb2 : b ≤ 2 ^ 53) : ratioF a b = F64.make false (roundMag (a * 2 ^ 1074) b) := by
  obtain ⟨a1, a2, a3⟩ := ofNat_exact ha
  obtain ⟨b1, b2, b3⟩ := ofNat_exact hb2
  unfold ratioF
  rw [div_nn a1 b1 a2 b2 (by rw [b3]; exact Nat.ne_of_gt (Nat.mul_pos hb pow1074_pos)), a3, b3, roundMag_scale _ _ _ hb pow1074_pos]

theorem ratio_abs {a b : Nat} (hb : 0 < b) (hba : b ≤ a) (hab : a ≤ 2 * b) (ha : a ≤ 2 ^ 53) :
    NN (ratioF a b) ∧ (ratioF a b).toNat < infMag ∧ (ratioF a b).abs = f64Ratio a b * 2 ^ 1022 := by
  rw [ratio_eq hb ha (Nat.le_trans hba ha)]
  have hfin : roundMag (a * 2 ^ 1074) b < infMag := by
    refine round_finite _ _ hb ?_
    have h1 : a * 2 ^ 1074 ≤ 2 * b * 2 ^ 1074 := Nat.mul_le_mul_right _ hab
    have h2 : 2 * b * 2 ^ 1074 = 2 ^ 1075 * b := by rw [Nat.mul_right_comm, Nat.mul_comm 2 (2 ^ 1074), ← Nat.pow_succ 2 1074]
    have h3 : 2 ^ 1075 * b ≤ 2 ^ 2097 * b := Nat.mul_le_mul_right _ (Nat.pow_le_pow_right (by decide) (by decide))
    rw [h2] at h1
    exact Nat.le_trans h1 h3
  have hnn := nn_make (roundMag_le_inf (a * 2 ^ 1074) b)
  refine ⟨hnn, by rw [make_false_toNat (roundMag_le_inf _ _)]; exact hfin, ?_⟩
  rw [hnn.abs, make_false_toNat (roundMag_le_inf _ _)]
  unfold f64Ratio
  by_cases h2 : a = 2 * b
  · subst h2
    have e : 2 * b * 2 ^ 1074 = 2 ^ 53 * 2 ^ 1022 * b := by
      rw [← Nat.pow_add 2 53 1022, Nat.mul_right_comm, Nat.mul_comm 2 (2 ^ 1074), ← Nat.pow_succ 2 1074]
    have hrep : Rep (2 ^ 53 * 2 ^ 1022) := rep_le 1022 (2 ^ 53) (Nat.le_refl _) (by decide)
    obtain ⟨_, r2⟩ := hrep.round (a := 2 * b * 2 ^ 1074) hb e
    rw [r2]
    have e2 : 2 * b * 2 ^ 52 = 2 ^ 53 * b := by
      rw [Nat.mul_right_comm, Nat.mul_comm 2 (2 ^ 52), ← Nat.pow_succ 2 52]
    rw [e2, roundHE_exact _ _ hb]
  · have hq1 : 2 ^ 1074 ≤ a * 2 ^ 1074 / b := by
      rw [Nat.le_div_iff_mul_le hb, Nat.mul_comm]
      exact Nat.mul_le_mul_right _ hba
    have hq2 : a * 2 ^ 1074 / b < 2 ^ (1074 + 1) := by
      rw [Nat.div_lt_iff_lt_mul hb, Nat.pow_succ 2 1074, Nat.mul_assoc, Nat.mul_comm a]
      exact Nat.mul_lt_mul_of_pos_left (by omega) pow1074_pos
    have hlog := log2_of hq1 hq2
    rw [roundMag_val (a * 2 ^ 1074) b 1022 (by rw [hlog]) hfin]
    rw [show a * 2 ^ 1074 = a * 2 ^ 52 * 2 ^ 1022 by rw [Nat.mul_assoc, ← Nat.pow_add 2 52 1022], roundHE_scale _ _ _ (Nat.two_pow_pos _)]

/-! ## The positions -/

theorem pos_eq {a b i : Nat} (hb : 0 < b) (hba : b ≤ a) (hab : a ≤ 2 * b) (ha : a ≤ 2 ^ 53) (hi : i ≤ 2 ^ 53) :
    posF i (ratioF a b) = f64MulFloor i (f64Ratio a b) := by
  obtain ⟨r1, r2, r3⟩ := ratio_abs hb hba hab ha
  obtain ⟨i1, i2, i3⟩ := ofNat_exact hi
  have hr1 : 2 ^ 52 ≤ f64Ratio a b := by
    unfold f64Ratio
    refine Nat.le_trans ?_ (le_roundHE _ _)
    rw [Nat.le_div_iff_mul_le hb, Nat.mul_comm]
    exact Nat.mul_le_mul_right _ hba
  have hr2 : f64Ratio a b ≤ 2 ^ 53 + 1 := by
    unfold f64Ratio
    refine Nat.le_trans (roundHE_le _ _) (Nat.succ_le_succ ?_)
    have h1 : a * 2 ^ 52 ≤ 2 ^ 53 * b := by omega
    exact Nat.div_le_of_le_mul (by rw [Nat.mul_comm b]; exact h1)
  generalize f64Ratio a b = r at *
  generalize ratioF a b = ratio at *
  unfold posF
  rw [mul_nn i1 r1 i2 r2, i3, r3]
  have e0 : i * 2 ^ 1074 * (r * 2 ^ 1022) = i * r * 2 ^ 1022 * 2 ^ 1074 := by
    generalize 2 ^ 1074 = P
    generalize 2 ^ 1022 = Q
    rw [Nat.mul_assoc, Nat.mul_left_comm P, Nat.mul_comm P Q, ← Nat.mul_assoc, ← Nat.mul_assoc]
  rw [e0]
  have e1 : roundMag (i * r * 2 ^ 1022 * 2 ^ 1074) (2 ^ 1074) = roundMag (i * r * 2 ^ 1022) 1 := by
    have := roundMag_scale (i * r * 2 ^ 1022) 1 (2 ^ 1074) (by decide) pow1074_pos
    rwa [Nat.one_mul] at this
  rw [e1]
  have hir : i * r ≤ 2 ^ 108 := by
    have h1 : i * r ≤ 2 ^ 53 * (2 ^ 53 + 1) := Nat.mul_le_mul hi hr2
    exact Nat.le_trans h1 (by decide)
  have hfin : roundMag (i * r * 2 ^ 1022) 1 < infMag := by
    refine round_finite _ _ (by decide) ?_
    rw [Nat.mul_one]
    have h1 : i * r * 2 ^ 1022 ≤ 2 ^ 108 * 2 ^ 1022 := Nat.mul_le_mul_right _ hir
    have h2 : 2 ^ 108 * 2 ^ 1022 ≤ 2 ^ 2097 := by
      rw [← Nat.pow_add 2 108 1022]
      exact Nat.pow_le_pow_right (by decide) (by decide)
    exact Nat.le_trans h1 h2
  have hnn := nn_make (roundMag_le_inf (i * r * 2 ^ 1022) 1)
  have habs : (F64.make false (roundMag (i * r * 2 ^ 1022) 1)).abs = roundHE (i * r) (2 ^ ((i * r).log2 - 52)) * 2 ^ ((i * r).log2 - 52) * 2 ^ 1022 := by
    rw [hnn.abs, make_false_toNat (roundMag_le_inf _ _)]
    by_cases h0 : i = 0
    · subst h0
      rw [Nat.zero_mul, Nat.zero_mul]
      decide +kernel
    · have hpos : 2 ^ 52 ≤ i * r := Nat.le_trans hr1 (Nat.le_mul_of_pos_left r (Nat.pos_of_ne_zero h0))
      have hne : i * r ≠ 0 := by omega
      have hl : 52 ≤ (i * r).log2 := (Nat.le_log2 hne).2 hpos
      rw [roundMag_val (i * r * 2 ^ 1022) 1 ((i * r).log2 - 52 + 1022) (by rw [Nat.div_one, log2_shift _ _ hne]; omega) hfin]
      rw [Nat.one_mul, Nat.pow_add, roundHE_scale _ _ _ (Nat.two_pow_pos _), Nat.mul_assoc]
  unfold F64.toUsize
  rw [hnn.isNaN, hnn.isNeg, habs]
  simp only [Bool.or_false, Bool.false_eq_true, if_false]
  unfold f64MulFloor
  simp only
  generalize hE : (i * r).log2 - 52 = e
  have hq : roundHE (i * r) (2 ^ e) * 2 ^ e * 2 ^ 1022 / 2 ^ 1074 = roundHE (i * r) (2 ^ e) * 2 ^ e / 2 ^ 52 := by
    rw [show 2 ^ 1074 = 2 ^ 52 * 2 ^ 1022 by rw [← Nat.pow_add 2 52 1022]]
    exact Nat.mul_div_mul_right _ _ (Nat.two_pow_pos _)
  rw [hq]
  have hbound : roundHE (i * r) (2 ^ e) * 2 ^ e / 2 ^ 52 ≤ 2 ^ 64 - 1 := by
    have h1 := roundHE_le (i * r) (2 ^ e)
    have h2 : roundHE (i * r) (2 ^ e) * 2 ^ e ≤ (i * r / 2 ^ e + 1) * 2 ^ e := Nat.mul_le_mul_right _ h1
    rw [Nat.add_mul, Nat.one_mul] at h2
    have h3 : i * r / 2 ^ e * 2 ^ e ≤ i * r := Nat.div_mul_le_self _ _
    have h4 : 2 ^ e ≤ 2 ^ 57 := Nat.pow_le_pow_right (by decide) (by
      by_cases h0 : i * r = 0
      · rw [h0] at hE
        simp at hE
        omega
      · have := (Nat.log2_lt h0).2 (Nat.lt_of_le_of_lt hir (show 2 ^ 108 < 2 ^ 109 by decide))
        omega)
    have h5 : i * r ≤ 2 ^ 53 * (2 ^ 53 + 1) := Nat.mul_le_mul hi hr2
    generalize roundHE (i * r) (2 ^ e) * 2 ^ e = X at *
    generalize i * r / 2 ^ e * 2 ^ e = Y at *
    omega
  exact Nat.min_eq_left hbound

variable {α : Type}

theorem collapseLoopF_eq {a b : Nat} (hb : 0 < b) (hba : b ≤ a) (hab : a ≤ 2 * b) (ha : a ≤ 2 ^ 53) :
    ∀ (n i : Nat) (data : List α), i + n ≤ 2 ^ 53 → collapseLoopF (ratioF a b) n i data = collapseLoop (f64Ratio a b) n i data
  | 0, _, _, _ => rfl
  | n + 1, i, data, h => by
    rw [collapseLoopF, collapseLoop, pos_eq hb hba hab ha (by omega)]
    congr 1
    funext d
    exact collapseLoopF_eq hb hba hab ha n (i + 1) d (by omega)

/-- What every sampler keeps. -/
def Smooth.Sized (s : Smooth α) : Prop := s.large = s.small * 2 - 2 ∧ 2 ≤ s.small ∧ s.small ≤ 2 ^ 51

theorem collapseF_eq {s : Smooth α} (h : s.Sized) : s.collapseF = s.collapse := by
  obtain ⟨h1, h2, h3⟩ := h
  unfold Smooth.collapseF Smooth.collapse
  split
  · rfl
  · next hv =>
    split
    · rfl
    · next hs =>
      split
      · rfl
      · next h2' =>
        have hl : s.size ≤ s.large := by
          simp only [Smooth.verify, Bool.not_eq_false, decide_eq_true_eq] at hv
          exact hv.2
        rw [collapseLoopF_eq (by omega) (by omega) (by omega) (by omega) _ _ _ (by omega)]

theorem collapse_sized {s t : Smooth α} (h : s.Sized) (e : s.collapse = .ok t) : t.Sized := by
  unfold Smooth.collapse at e
  split at e
  · exact absurd e (by simp)
  · split at e
    · cases e; exact h
    · split at e
      · obtain ⟨d, _, e⟩ := Res.bind_eq_ok e
        cases e
        exact h
      · obtain ⟨d, _, e⟩ := Res.bind_eq_ok e
        obtain ⟨d', _, e⟩ := Res.bind_eq_ok e
        cases e
        exact h

theorem addF_eq {s : Smooth α} (h : s.Sized) (x : α) : s.addF x = s.add x := by
  unfold Smooth.addF Smooth.add
  have h' : ({ s with jump := s.jump * 2 } : Smooth α).Sized := h
  rw [collapseF_eq h']

theorem add_sized {s t : Smooth α} (h : s.Sized) {x : α} (e : s.add x = .ok t) : t.Sized := by
  unfold Smooth.add at e
  split at e
  · exact absurd e (by simp)
  · split at e
    · obtain ⟨u, hu, e⟩ := Res.bind_eq_ok e
      have hus : u.Sized := by
        split at hu
        · exact collapse_sized (s := { s with jump := s.jump * 2 }) h hu
        · cases hu; exact h
      obtain ⟨d, _, e⟩ := Res.bind_eq_ok e
      cases e
      exact hus
    · split at e
      · exact absurd e (by simp)
      · obtain ⟨d, _, e⟩ := Res.bind_eq_ok e
        cases e
        exact h

theorem addAllF_eq : ∀ (xs : List α) (s : Smooth α), s.Sized → Smooth.addAllF xs s = Smooth.addAll xs s ∧
    ∀ t, Smooth.addAll xs s = .ok t → t.Sized
  | [], s, h => ⟨rfl, fun t e => by cases e; exact h⟩
  | x :: xs, s, h => by
    rw [Smooth.addAllF, Smooth.addAll, addF_eq h]
    cases he : s.add x with
    | ok u =>
      simp only [Res.bind_ok]
      exact addAllF_eq xs u (add_sized h he)
    | err => simp
    | panic => simp

theorem new_sized (z : α) (n : Nat) (hn : n ≤ 2 ^ 51) : (Smooth.new z n).Sized := by
  have h1 : max n 2 ≤ 2 ^ 51 := Nat.max_le.2 ⟨hn, by decide⟩
  have h2 : 2 ≤ max n 2 := Nat.le_max_right _ _
  unfold Smooth.Sized Smooth.new
  generalize max n 2 = m at *
  exact ⟨rfl, h2, h1⟩

theorem runF_eq (input : List α) (s0 : Smooth α) (hs : s0.Sized) (g : Smooth α → Res (List α)) :
    ((Smooth.addAllF input s0).bind fun s => s.collapseF.bind g) = (Smooth.addAll input s0).bind fun s => s.collapse.bind g := by
  obtain ⟨h1, h2⟩ := addAllF_eq input _ hs
  rw [h1]
  cases he : Smooth.addAll input s0 with
  | ok t =>
    rw [Res.bind_ok, Res.bind_ok, collapseF_eq (h2 t he)]
  | err => rw [Res.bind_err, Res.bind_err]
  | panic => rw [Res.bind_panic, Res.bind_panic]

theorem smoothF_eq (z : α) (n : Nat) (hn : n ≤ 2 ^ 51) (input : List α) : smoothF z n input = smooth z n input :=
  runF_eq input _ (new_sized z n hn) _

/-- C32 with doubles. What is missing is what `C32_smooth_partial` leaves out. -/
theorem C32_doubles_partial (z : α) (n : Nat) (h3 : 3 ≤ n) (h4 : n ≤ 2 ^ 24) (input : List α) :
    ∃ out, smoothF z n input = .ok out ∧ out.Sublist input ∧ out.length = min n input.length ∧
      out.head? = input.head? ∧ out.getLast? = input.getLast? ∧ (input.length ≤ n → out = input) := by
  rw [smoothF_eq z n (Nat.le_trans h4 (by decide))]
  exact C32_smooth_partial z n h3 h4 input

/-- C69 with doubles: a sample is even also with the positions that the doubles give. -/
theorem C69_doubles (z : α) (n : Nat) (h3 : 3 ≤ n) (h4 : n ≤ 2 ^ 24) (input : List α) (hn : n ≤ input.length) :
    ∃ idx : List Nat, smoothF z n input = .ok (idx.map fun i => input.getD i z) ∧ idx.Pairwise (· < ·) ∧
      idx.head? = some 0 ∧ idx.getLast? = some (input.length - 1) ∧ idx.length = n ∧
      ∀ k x y, idx[k]? = some x → idx[k + 1]? = some y → (y - x) * (n - 1) ≤ 2 * (input.length - 1) := by
  rw [smoothF_eq z n (Nat.le_trans h4 (by decide))]
  exact C69_even z n h3 h4 input hn

example : smoothF (0 : Nat) 4 [1, 2, 3, 4, 5, 6, 7, 8, 9, 10] = .ok [1, 5, 8, 10] := by decide +kernel

end Cdx
