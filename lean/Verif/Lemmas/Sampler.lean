import Verif.Model.Sampler

/-!
Lemmas on smooth sampling.
-/

namespace Cdx

/-! ## Floating point positions -/

theorem roundHE_bounds (n d : Nat) (hd : 0 < d) :
    2 * (roundHE n d * d) ≤ 2 * n + d ∧ 2 * n ≤ 2 * (roundHE n d * d) + d := by
  have h1 := Nat.div_add_mod n d
  have h2 := Nat.mod_lt n hd
  have e1 : n / d * d = d * (n / d) := Nat.mul_comm _ _
  have e2 : (n / d + 1) * d = d * (n / d) + d := by rw [Nat.add_mul, Nat.one_mul, e1]
  unfold roundHE
  split
  · rw [e1]; omega
  · split
    · rw [e2]; omega
    · split
      · rw [e1]; omega
      · rw [e2]; omega

theorem roundHE_exact (k d : Nat) (hd : 0 < d) : roundHE (k * d) d = k := by
  unfold roundHE
  rw [Nat.mul_mod_left, Nat.mul_div_cancel _ hd]
  simp [hd]

/-- What is needed of the positions: they come within `2^24` units of the exact product. -/
theorem f64MulFloor_near (i r : Nat) (hi : i ≤ 2 ^ 24) (hr : r ≤ 2 ^ 53) :
    ∃ q, f64MulFloor i r = q / 2 ^ 52 ∧ q ≤ i * r + 2 ^ 24 ∧ i * r ≤ q + 2 ^ 24 := by
  have hp : i * r ≤ 2 ^ 24 * 2 ^ 53 := Nat.mul_le_mul hi hr
  have he : (i * r).log2 - 52 ≤ 25 := by
    have : (i * r).log2 ≤ 77 := by
      by_cases h0 : i * r = 0
      · rw [h0]; decide
      · have := Nat.log2_self_le h0
        by_cases h : (i * r).log2 ≤ 77
        · exact h
        · have h2 : 2 ^ 78 ≤ 2 ^ (i * r).log2 := Nat.pow_le_pow_right (by decide) (by omega)
          omega
    omega
  have hpow : 2 ^ ((i * r).log2 - 52) ≤ 2 ^ 25 := Nat.pow_le_pow_right (by decide) he
  have hb := roundHE_bounds (i * r) (2 ^ ((i * r).log2 - 52)) (Nat.pow_pos (by decide))
  refine ⟨roundHE (i * r) (2 ^ ((i * r).log2 - 52)) * 2 ^ ((i * r).log2 - 52), rfl, ?_, ?_⟩ <;> omega

/-- With twice as many old entries the positions are exact. -/
theorem f64_double (b i : Nat) (hb : 0 < b) (hi : i ≤ 2 ^ 24) : f64MulFloor i (f64Ratio (2 * b) b) = 2 * i := by
  have e : f64Ratio (2 * b) b = 2 ^ 53 := by
    unfold f64Ratio
    rw [show 2 * b * 2 ^ 52 = 2 ^ 53 * b by omega]
    exact roundHE_exact _ _ hb
  rw [e]
  unfold f64MulFloor
  have he : (i * 2 ^ 53).log2 - 52 ≤ 25 := by
    have : (i * 2 ^ 53).log2 ≤ 77 := by
      by_cases h0 : i * 2 ^ 53 = 0
      · rw [h0]; decide
      · have := Nat.log2_self_le h0
        by_cases h : (i * 2 ^ 53).log2 ≤ 77
        · exact h
        · have h2 : 2 ^ 78 ≤ 2 ^ (i * 2 ^ 53).log2 := Nat.pow_le_pow_right (by decide) (by omega)
          omega
    omega
  generalize (i * 2 ^ 53).log2 - 52 = k at he
  have : i * 2 ^ 53 = i * 2 ^ (53 - k) * 2 ^ k := by
    rw [Nat.mul_assoc, ← Nat.pow_add, Nat.sub_add_cancel (by omega)]
  (try dsimp only)
  rw [this, roundHE_exact _ _ (Nat.pow_pos (by decide)), ← this]
  omega

/-- The positions used by `collapse`: increasing, between 1 and `old - 2`, never more than 2 apart. -/
structure Positions (old new : Nat) (f : Nat → Nat) : Prop where
  zero : f 0 = 0
  strict : ∀ i, i + 1 ≤ new - 2 → f i < f (i + 1)
  step : ∀ i, i + 1 ≤ new - 2 → f (i + 1) ≤ f i + 2
  top : f (new - 2) ≤ old - 2
  near : old - 3 ≤ f (new - 2)
  exact : old = 2 * new - 2 → f (new - 2) = old - 2

theorem f64_positions (old new : Nat) (h1 : new < old) (h2 : old ≤ 2 * new - 2) (h3 : 3 ≤ new) (h4 : new ≤ 2 ^ 24) :
    Positions old new fun i => f64MulFloor i (f64Ratio (old - 2) (new - 2)) := by
  obtain ⟨b, rfl⟩ : ∃ b, new = b + 2 := ⟨new - 2, by omega⟩
  obtain ⟨a, rfl⟩ : ∃ a, old = a + 2 := ⟨old - 2, by omega⟩
  simp only [Nat.add_sub_cancel]
  by_cases hab : a = 2 * b
  · subst hab
    have key : ∀ i, i ≤ b → f64MulFloor i (f64Ratio (2 * b) b) = 2 * i := fun i hi => f64_double b i (by omega) (by omega)
    refine ⟨by rw [key 0 (by omega)], ?_, ?_, ?_, ?_, ?_⟩
    · intro i hi; rw [key i (by omega), key (i + 1) (by omega)]; omega
    · intro i hi; rw [key i (by omega), key (i + 1) (by omega)]; omega
    · simp only [Nat.add_sub_cancel]; rw [key b (by omega)]; omega
    · simp only [Nat.add_sub_cancel]; rw [key b (by omega)]; omega
    · intro _; simp only [Nat.add_sub_cancel]; rw [key b (by omega)]
  · have hb : 0 < b := by omega
    have hlo : b + 1 ≤ a := by omega
    have hhi : a + 1 ≤ 2 * b := by omega
    have hr := roundHE_bounds (a * 2 ^ 52) b hb
    change 2 * (f64Ratio a b * b) ≤ _ ∧ _ ≤ 2 * (f64Ratio a b * b) + b at hr
    generalize f64Ratio a b = r at hr
    -- bounds on the ratio
    have hr1 : 2 ^ 52 + 2 ^ 26 ≤ r := by
      by_cases h : 2 ^ 52 + 2 ^ 26 ≤ r
      · exact h
      · have : r * b ≤ (2 ^ 52 + 2 ^ 26) * b := Nat.mul_le_mul_right b (by omega)
        have e : (2 ^ 52 + 2 ^ 26) * b = b * 2 ^ 52 + b * 2 ^ 26 := by rw [Nat.add_mul, Nat.mul_comm, Nat.mul_comm b (2 ^ 26)]
        have : b * 2 ^ 26 ≤ 2 ^ 24 * 2 ^ 26 := Nat.mul_le_mul_right _ (by omega)
        omega
    have hr2 : r + 2 ^ 26 ≤ 2 ^ 53 := by
      by_cases h : r + 2 ^ 26 ≤ 2 ^ 53
      · exact h
      · have : (2 ^ 53 - 2 ^ 26) * b ≤ r * b := Nat.mul_le_mul_right b (by omega)
        have e : (2 ^ 53 - 2 ^ 26) * b = b * 2 ^ 53 - b * 2 ^ 26 := by
          rw [Nat.sub_mul, Nat.mul_comm, Nat.mul_comm b (2 ^ 26)]
        have : b * 2 ^ 26 ≤ 2 ^ 24 * 2 ^ 26 := Nat.mul_le_mul_right _ (by omega)
        omega
    have hnear := fun i (hi : i ≤ b) => f64MulFloor_near i r (by omega) (by omega)
    have hmul : ∀ i, (i + 1) * r = i * r + r := fun i => by rw [Nat.add_mul, Nat.one_mul]
    have htop : b * r = r * b := Nat.mul_comm _ _
    refine ⟨?_, ?_, ?_, ?_, ?_, fun h => absurd h (by omega)⟩
    · simp [f64MulFloor, roundHE]
    · intro i hi
      obtain ⟨q, e1, e2, e3⟩ := hnear i (by omega)
      obtain ⟨q', e1', e2', e3'⟩ := hnear (i + 1) (by omega)
      rw [hmul] at e2' e3'
      rw [e1, e1']
      omega
    · intro i hi
      obtain ⟨q, e1, e2, e3⟩ := hnear i (by omega)
      obtain ⟨q', e1', e2', e3'⟩ := hnear (i + 1) (by omega)
      rw [hmul] at e2' e3'
      rw [e1, e1']
      omega
    · simp only [Nat.add_sub_cancel]
      obtain ⟨q, e1, e2, e3⟩ := hnear b (by omega)
      rw [htop] at e2 e3
      rw [e1]
      omega
    · simp only [Nat.add_sub_cancel]
      obtain ⟨q, e1, e2, e3⟩ := hnear b (by omega)
      rw [htop] at e2 e3
      rw [e1]
      omega

/-! ## Swapping -/

variable {α : Type}

theorem swapAt_spec (l : List α) (i j : Nat) (hi : i < l.length) (hj : j < l.length) :
    ∃ d, swapAt l i j = .ok d ∧ d.length = l.length ∧ d[i]? = l[j]? ∧ d[j]? = l[i]? ∧
      ∀ m, m ≠ i → m ≠ j → d[m]? = l[m]? := by
  refine ⟨(l.set i l[j]).set j l[i], ?_, by simp, ?_, ?_, ?_⟩
  · simp [swapAt, List.getElem?_eq_getElem hi, List.getElem?_eq_getElem hj]
  · by_cases h : j = i
    · subst h; simp [List.getElem?_set, hi]
    · simp [List.getElem?_set, hi, hj, h]
  · simp [List.getElem?_set, hi, hj]
  · intro m h1 h2
    simp [List.getElem?_set, Ne.symm h1, Ne.symm h2]

theorem collapseLoop_spec (r : Nat) : ∀ (n i : Nat) (l : List α),
    (∀ j, i ≤ j → j < i + n → j ≤ f64MulFloor j r ∧ f64MulFloor j r < l.length) →
    (∀ j, i ≤ j → j + 1 < i + n → f64MulFloor j r < f64MulFloor (j + 1) r) →
    ∃ d, collapseLoop r n i l = .ok d ∧ d.length = l.length ∧
      (∀ j, i ≤ j → j < i + n → d[j]? = l[f64MulFloor j r]?) ∧ (∀ j, j < i → d[j]? = l[j]?) ∧
      ∀ m, i + n ≤ m → (∀ j, i ≤ j → j < i + n → m ≠ f64MulFloor j r) → d[m]? = l[m]? := by
  intro n
  induction n with
  | zero => intro i l _ _; exact ⟨l, rfl, rfl, fun j _ _ => by omega, fun _ _ => rfl, fun _ _ _ => rfl⟩
  | succ n ih =>
    intro i l hb hs
    obtain ⟨h1, h2⟩ := hb i (Nat.le_refl _) (by omega)
    obtain ⟨d, e, hl, hdi, hdj, hd⟩ := swapAt_spec l i (f64MulFloor i r) (by omega) h2
    have hmono : ∀ k, i + 1 ≤ k → k < i + (n + 1) → f64MulFloor i r < f64MulFloor k r := by
      intro k
      induction k with
      | zero => intro h; omega
      | succ k ihk =>
        intro a b
        by_cases hk : k = i
        · subst hk; exact hs k (Nat.le_refl _) b
        · exact Nat.lt_trans (ihk (by omega) (by omega)) (hs k (by omega) b)
    obtain ⟨d', e', hl', a1, a2, a3⟩ := ih (i + 1) d (fun j x y => by rw [hl]; exact hb j (by omega) (by omega))
      (fun j x y => hs j (by omega) (by omega))
    refine ⟨d', by rw [collapseLoop, e]; exact e', hl'.trans hl, ?_, ?_, ?_⟩
    · intro j x y
      by_cases hj : j = i
      · subst hj; rw [a2 j (by omega), hdi]
      · rw [a1 j (by omega) (by omega)]
        have := hmono j (by omega) y
        exact hd _ (by omega) (by omega)
    · intro j x
      rw [a2 j (by omega), hd j (by omega) (by omega)]
    · intro m x y
      rw [a3 m (by omega) (fun j p q => y j (by omega) (by omega))]
      exact hd m (by omega) (y i (Nat.le_refl _) (by omega))

/-- Where the entries left by `collapse` come from. -/
def keepPos (old new i : Nat) : Nat :=
  if i = new - 1 then old - 1 else f64MulFloor i (f64Ratio (old - 2) (new - 2))

theorem Positions.ge {old new : Nat} {f : Nat → Nat} (h : Positions old new f) : ∀ i, i ≤ new - 2 → i ≤ f i
  | 0, _ => by omega
  | i + 1, hi => by
    have := h.ge i (by omega)
    have := h.strict i hi
    omega

theorem Positions.le_top {old new : Nat} {f : Nat → Nat} (h : Positions old new f) :
    ∀ n i, i + n = new - 2 → f i ≤ old - 2
  | 0, i, hi => by rw [show i = new - 2 by omega]; exact h.top
  | n + 1, i, hi => by
    have := h.le_top n (i + 1) (by omega)
    have := h.strict i (by omega)
    omega

theorem collapse_spec (s : Smooth α) (hv : s.data.length = s.large) (hsz : s.size ≤ s.large)
    (hl : s.large = 2 * s.small - 2) (h3 : 3 ≤ s.small) (h4 : s.small ≤ 2 ^ 24) (hbig : s.small < s.size) :
    ∃ d, s.collapse = .ok { s with data := d, size := s.small } ∧ d.length = s.data.length ∧
      ∀ i, i < s.small → d[i]? = s.data[keepPos s.size s.small i]? := by
  have hp := f64_positions s.size s.small hbig (by omega) h3 h4
  obtain ⟨d, e, hd, a1, a2, a3⟩ := collapseLoop_spec (f64Ratio (s.size - 2) (s.small - 2)) (s.small - 2) 1 s.data
    (fun j x y => ⟨hp.ge j (by omega), by have := hp.le_top (s.small - 2 - j) j (by omega); omega⟩)
    (fun j x y => hp.strict j (by omega))
  obtain ⟨d', e', hd', b1, b2, b3⟩ := swapAt_spec d (s.small - 1) (s.size - 1) (by omega) (by omega)
  have hver : s.verify = true := by simp [Smooth.verify, hv]; omega
  refine ⟨d', ?_, hd'.trans hd, ?_⟩
  · rw [Smooth.collapse, if_neg (by simp [hver]), if_neg (by omega), if_neg (by omega), e]
    show (swapAt d (s.small - 1) (s.size - 1)).bind _ = _
    rw [e']; rfl
  · intro i hi
    unfold keepPos
    split
    · next h =>
      rw [h, b1]
      refine a3 _ (by omega) fun j x y => ?_
      have := hp.le_top (s.small - 2 - j) j (by omega)
      omega
    · next h =>
      rw [b3 i h (by omega)]
      by_cases h0 : i = 0
      · subst h0; rw [a2 0 (by omega)]
        have := hp.zero
        (try dsimp only at this)
        rw [this]
      · exact a1 i (by omega) (by omega)

/-! ## The invariant -/

/-- How long the last gap may grow (`limit` in `add`). -/
def Smooth.limit (s : Smooth α) : Nat := if s.size = s.large then 2 * s.jump else s.jump

/-- What holds after the line numbers `0, …, N - 1` were added: `v` gives the numbers kept, `f` bounds the last gap. -/
structure SmoothInv (n N : Nat) (s : Smooth Nat) (v : Nat → Nat) (f : Nat) : Prop where
  small : s.small = n
  large : s.large = 2 * n - 2
  len : s.data.length = 2 * n - 2
  size : s.size ≤ 2 * n - 2
  vals : ∀ k, k < s.size → s.data[k]? = some (v k)
  pos : 0 < N → 0 < s.size
  first : 0 < N → v 0 = 0
  last : 0 < N → v (s.size - 1) + 1 = N
  strict : ∀ k, k + 1 < s.size → v k < v (k + 1)
  gap : ∀ k, k + 2 < s.size → v (k + 1) ≤ v k + s.jump
  lastGap : ∀ k, k + 2 = s.size → v (k + 1) ≤ v k + f
  phase : (s.jump = 1 ∧ s.pos = 0 ∧ s.size = N ∧ f = 1 ∧ ∀ k, k < s.size → v k = k) ∨
    (2 ≤ s.jump ∧ n + 1 ≤ s.size ∧ N = s.jump * (s.size - 2) + f ∧ 1 ≤ f ∧
      ((s.pos = f ∧ f < s.limit) ∨ (s.pos = 0 ∧ f = s.limit)))

theorem SmoothInv.new (z n : Nat) (h : 3 ≤ n) : SmoothInv n 0 (Smooth.new z n) id 1 := by
  have e : max n 2 = n := by omega
  refine ⟨e, ?_, ?_, ?_, ?_, ?_, ?_, ?_, ?_, ?_, ?_, Or.inl ⟨rfl, rfl, rfl, rfl, fun _ _ => rfl⟩⟩ <;>
    simp [Smooth.new, e, Nat.mul_comm]

theorem setAt_ok (l : List α) (i : Nat) (x : α) (h : i < l.length) : setAt l i x = .ok (l.set i x) := by
  simp [setAt, h]

/-- Appending one number, where the last gap starts anew. -/
theorem SmoothInv.push {n N : Nat} {s : Smooth Nat} {v : Nat → Nat} (h3 : 3 ≤ n) (hN : 0 < N)
    (small : s.small = n) (large : s.large = 2 * n - 2) (len : s.data.length = 2 * n - 2) (size : s.size < 2 * n - 2)
    (vals : ∀ k, k < s.size → s.data[k]? = some (v k)) (pos : s.pos = 0) (hpos : 0 < s.size) (first : v 0 = 0)
    (last : v (s.size - 1) + 1 = N) (strict : ∀ k, k + 1 < s.size → v k < v (k + 1))
    (gap : ∀ k, k + 1 < s.size → v (k + 1) ≤ v k + s.jump) (jump : 2 ≤ s.jump) (hs : n ≤ s.size)
    (hcount : N = s.jump * (s.size - 1)) :
    SmoothInv n (N + 1) { s with data := s.data.set s.size N, size := s.size + 1, pos := if s.jump > 1 then s.pos + 1 else s.pos }
      (fun k => if k = s.size then N else v k) 1 := by
  refine ⟨small, large, by simp [len], by simp; omega, ?_, by simp, ?_, by simp, ?_, ?_, ?_, Or.inr ⟨jump, ?_, ?_, Nat.le_refl _, ?_⟩⟩
  · intro k hk
    (try dsimp only at hk ⊢)
    by_cases e : k = s.size
    · subst e; simp [len, size]
    · simp [List.getElem?_set, Ne.symm e, e, vals k (by omega)]
  · intro _
    (try dsimp only)
    rw [if_neg (by omega)]; exact first
  · intro k hk
    (try dsimp only at hk ⊢)
    rw [if_neg (by omega)]
    by_cases e : k + 1 = s.size
    · rw [if_pos e]
      have : s.size - 1 = k := by omega
      rw [this] at last; omega
    · rw [if_neg e]; exact strict k (by omega)
  · intro k hk
    (try dsimp only at hk ⊢)
    rw [if_neg (by omega), if_neg (by omega)]
    exact gap k (by omega)
  · intro k hk
    (try dsimp only at hk ⊢)
    rw [if_pos (by omega), if_neg (by omega)]
    have : s.size - 1 = k := by omega
    rw [this] at last; omega
  · (try dsimp only); omega
  · simp only
    rw [show s.size + 1 - 2 = s.size - 1 by omega, ← hcount]
  · left
    simp only [Smooth.limit]
    refine ⟨by simp [pos]; omega, ?_⟩
    split <;> omega

theorem SmoothInv.add {n N : Nat} {s : Smooth Nat} {v : Nat → Nat} {f : Nat} (h3 : 3 ≤ n) (h4 : n ≤ 2 ^ 24)
    (h : SmoothInv n N s v f) : ∃ s' v' f', s.add N = .ok s' ∧ SmoothInv n (N + 1) s' v' f' := by
  have hver : s.verify = true := by
    simp [Smooth.verify, h.len, h.large]; exact h.size
  by_cases hp : s.pos = 0
  · by_cases hfull : s.size ≥ s.large
    · -- full: collapse, then append
      have hlarge := h.large
      have hsize : s.size = 2 * n - 2 := by have := h.size; omega
      obtain ⟨d, e, hd, hk⟩ := collapse_spec ({ s with jump := s.jump * 2 } : Smooth Nat) (by rw [h.len, h.large])
        (by rw [h.large]; exact h.size) (by show s.large = 2 * s.small - 2; rw [h.large, h.small])
        (by show 3 ≤ s.small; rw [h.small]; exact h3) (by show s.small ≤ _; rw [h.small]; exact h4)
        (by show s.small < s.size; rw [h.small, hsize]; omega)
      simp only [hsize, h.small] at hk
      have hN : 0 < N := by
        rcases h.phase with ⟨_, _, c, _⟩ | ⟨_, _, c, d, _⟩ <;> omega
      have hkeep : ∀ i, i < n → keepPos (2 * n - 2) n i = if i = n - 1 then 2 * n - 3 else 2 * i := by
        intro i hi
        unfold keepPos
        by_cases hi' : i = n - 1
        · rw [if_pos hi', if_pos hi']; omega
        · rw [if_neg hi', if_neg hi', show 2 * n - 2 - 2 = 2 * (n - 2) by omega]
          exact f64_double (n - 2) i (by omega) (by omega)
      have hgapf : f ≤ s.jump * 2 ∧ N = s.jump * 2 * (n - 1) := by
        rcases h.phase with ⟨a, b, c, d, _⟩ | ⟨a, b, c, d, x | x⟩
        · rw [a]; omega
        · omega
        · have : s.limit = 2 * s.jump := by simp [Smooth.limit]; omega
          refine ⟨by omega, ?_⟩
          rw [c, x.2, this, hsize, Nat.mul_assoc, show 2 * (n - 1) = (2 * n - 2 - 2) + 2 by omega, Nat.mul_add]
          omega
      have hjump : 2 ≤ s.jump * 2 := by
        rcases h.phase with ⟨a, _⟩ | ⟨a, _⟩ <;> omega
      have hpush := SmoothInv.push (n := n) (N := N) (v := fun i => v (keepPos (2 * n - 2) n i))
        (s := { s with jump := s.jump * 2, data := d, size := n }) h3 hN h.small h.large
        (by show d.length = _; rw [hd]; exact h.len) (by show n < _; omega)
        (by intro k hk'; (try dsimp only at hk' ⊢); rw [hk k hk', h.vals]; rw [hkeep k hk', hsize]; split <;> omega)
        hp (by show 0 < n; omega)
        (by (try dsimp only); rw [hkeep 0 (by omega), if_neg (by omega)]; exact h.first hN)
        (by (try dsimp only); rw [hkeep _ (by omega), if_pos rfl]
            have := h.last hN
            rwa [hsize, show 2 * n - 2 - 1 = 2 * n - 3 by omega] at this)
        (by
          intro k hk'
          (try dsimp only at hk' ⊢)
          rw [hkeep k (by omega), hkeep (k + 1) (by omega), if_neg (by omega)]
          have s1 := h.strict (2 * k) (by omega)
          split
          · rw [show 2 * n - 3 = 2 * k + 1 by omega]; exact s1
          · have s2 := h.strict (2 * k + 1) (by omega)
            rw [show 2 * (k + 1) = 2 * k + 1 + 1 by omega]; omega)
        (by
          intro k hk'
          (try dsimp only at hk' ⊢)
          rw [hkeep k (by omega), hkeep (k + 1) (by omega), if_neg (show ¬k = n - 1 by omega)]
          split
          · have := h.lastGap (2 * k) (by omega)
            rw [show 2 * n - 3 = 2 * k + 1 by omega]; omega
          · have s1 := h.gap (2 * k) (by omega)
            have s2 := h.gap (2 * k + 1) (by omega)
            rw [show 2 * (k + 1) = 2 * k + 1 + 1 by omega]; omega)
        hjump (Nat.le_refl _) hgapf.2
      refine ⟨_, _, _, ?_, hpush⟩
      rw [Smooth.add, if_neg (by simp [hver]), if_pos hp, if_pos hfull, e]
      show (setAt d s.small N).bind _ = _
      rw [h.small]
      show (setAt d n N).bind _ = _
      rw [setAt_ok _ _ _ (by rw [hd]; show n < s.data.length; rw [h.len]; omega)]
      rfl
    · -- room: append
      have hlarge := h.large
      have hadd : s.add N = .ok { s with data := s.data.set s.size N, size := s.size + 1, pos := if s.jump > 1 then s.pos + 1 else s.pos } := by
        rw [Smooth.add, if_neg (by simp [hver]), if_pos hp, if_neg hfull]
        show (setAt s.data s.size N).bind _ = _
        rw [setAt_ok _ _ _ (by rw [h.len]; omega)]
        rfl
      rcases h.phase with ⟨a, b, c, d, hv⟩ | ⟨a, b, c, d, x | x⟩
      · refine ⟨_, id, 1, hadd, ?_⟩
        refine ⟨h.small, h.large, by simp [h.len], by simp; omega, ?_, by simp, by simp, by simp [c], ?_, ?_, ?_,
          Or.inl ⟨a, by simp [a, b], by simp [c], rfl, fun _ _ => rfl⟩⟩
        · intro k hk
          (try dsimp only at hk ⊢)
          by_cases e : k = s.size
          · subst e
            rw [List.getElem?_set_self (by rw [h.len]; omega), c]
            rfl
          · rw [List.getElem?_set_ne (Ne.symm e), h.vals k (by omega), hv k (by omega)]
            rfl
        · intro k _; simp
        · intro k _; simp [a]
        · intro k _; simp
      · omega
      · have hlim : s.limit = s.jump := by simp [Smooth.limit]; omega
        refine ⟨_, _, _, hadd, SmoothInv.push h3 (by omega) h.small h.large h.len (by omega) h.vals hp
          (by omega) (h.first (by omega)) (h.last (by omega)) h.strict ?_ a (by omega) ?_⟩
        · intro k hk
          by_cases hk' : k + 2 < s.size
          · exact h.gap k hk'
          · have := h.lastGap k (by omega)
            omega
        · rw [c, x.2, hlim, show s.size - 1 = (s.size - 2) + 1 by omega, Nat.mul_add, Nat.mul_one]
  · -- the last entry moves on
    rcases h.phase with ⟨a, b, c⟩ | ⟨a, b, c, d, x | x⟩
    · exact absurd b hp
    · have hadd : s.add N = .ok { s with data := s.data.set (s.size - 1) N, pos := if s.pos + 1 ≥ s.limit then 0 else s.pos + 1 } := by
        rw [Smooth.add, if_neg (by simp [hver]), if_neg hp, if_neg (by omega),
          setAt_ok _ _ _ (by rw [h.len]; have := h.size; omega)]
        rfl
      refine ⟨_, fun k => if k = s.size - 1 then N else v k, f + 1, hadd, ?_⟩
      have hN : 0 < N := by omega
      have hlast := h.last hN
      have hsz := h.size
      refine ⟨h.small, h.large, by simp [h.len], h.size, ?_, fun _ => h.pos hN, ?_, by simp, ?_, ?_, ?_,
        Or.inr ⟨a, b, by (try dsimp only); omega, by omega, ?_⟩⟩
      · intro k hk
        (try dsimp only at hk ⊢)
        by_cases e : k = s.size - 1
        · subst e
          rw [List.getElem?_set_self (by rw [h.len]; omega)]
          simp
        · rw [List.getElem?_set_ne (Ne.symm e), if_neg e, h.vals k hk]
      · intro _
        (try dsimp only)
        rw [if_neg (by omega)]; exact h.first hN
      · intro k hk
        (try dsimp only at hk ⊢)
        rw [if_neg (by omega)]
        have s1 := h.strict k hk
        split
        · next e => rw [e] at s1; omega
        · exact s1
      · intro k hk
        (try dsimp only at hk ⊢)
        rw [if_neg (by omega), if_neg (by omega)]
        exact h.gap k hk
      · intro k hk
        (try dsimp only at hk ⊢)
        have e : k + 1 = s.size - 1 := by omega
        rw [if_pos e, if_neg (by omega)]
        have s1 := h.lastGap k hk
        rw [e] at s1
        omega
      · have e : ({ s with data := s.data.set (s.size - 1) N, pos := if s.pos + 1 ≥ s.limit then 0 else s.pos + 1 } : Smooth Nat).limit = s.limit := rfl
        rw [e]
        (try dsimp only)
        by_cases hl : s.pos + 1 ≥ s.limit
        · right; rw [if_pos hl]; omega
        · left; rw [if_neg hl]; omega
    · exact absurd x.1 hp

theorem smooth_addAll {n : Nat} (h3 : 3 ≤ n) (h4 : n ≤ 2 ^ 24) : ∀ (M N : Nat) (s : Smooth Nat) (v : Nat → Nat) (f : Nat),
    SmoothInv n N s v f → ∃ s' v' f', Smooth.addAll (List.range' N M) s = .ok s' ∧ SmoothInv n (N + M) s' v' f'
  | 0, N, s, v, f, h => ⟨s, v, f, rfl, h⟩
  | M + 1, N, s, v, f, h => by
    obtain ⟨s1, v1, f1, e1, h1⟩ := h.add h3 h4
    obtain ⟨s2, v2, f2, e2, h2⟩ := smooth_addAll h3 h4 M (N + 1) s1 v1 f1 h1
    refine ⟨s2, v2, f2, ?_, by rw [show N + (M + 1) = N + 1 + M by omega]; exact h2⟩
    rw [List.range'_succ, Smooth.addAll, e1]
    exact e2

/-- The line numbers sampled. -/
structure SmoothOut (n N : Nat) (out : List Nat) : Prop where
  length : out.length = min n N
  first : 0 < N → out[0]? = some 0
  last : 0 < N → out[out.length - 1]? = some (N - 1)
  strict : ∀ k x y, out[k]? = some x → out[k + 1]? = some y → x < y
  even : n ≤ N → ∀ k x y, out[k]? = some x → out[k + 1]? = some y → (y - x) * (n - 1) ≤ 2 * (N - 1)

theorem getElem?_take_map (l : List Nat) (v : Nat → Nat) (m : Nat) (h : ∀ k, k < m → l[k]? = some (v k)) :
    l.take m = (List.range m).map v := by
  apply List.ext_getElem?
  intro k
  by_cases hk : k < m
  · rw [List.getElem?_take_of_lt hk, h k hk]; simp [hk]
  · rw [List.getElem?_eq_none (by simp; omega), List.getElem?_eq_none (by simp; omega)]

theorem smooth_range (z : Nat) {n : Nat} (h3 : 3 ≤ n) (h4 : n ≤ 2 ^ 24) (N : Nat) :
    ∃ out, smooth z n (List.range N) = .ok out ∧ SmoothOut n N out := by
  obtain ⟨s, v, f, e, h⟩ := smooth_addAll h3 h4 N 0 _ _ _ (SmoothInv.new z n h3)
  rw [Nat.zero_add] at h
  rw [← List.range_eq_range'] at e
  by_cases hbig : s.size ≤ n
  · -- nothing to thin out
    rcases h.phase with ⟨a, b, c, d, hv⟩ | ⟨a, b, _⟩
    · have hcol : s.collapse = .ok s := by
        rw [Smooth.collapse, if_neg (by simp [Smooth.verify, h.len, h.large]; exact h.size),
          if_pos (by rw [h.small]; exact hbig)]
      have htake : s.data.take s.size = List.range N := by
        rw [getElem?_take_map _ v _ h.vals, c]
        conv => rhs; rw [← List.map_id (List.range N)]
        exact List.map_congr_left fun k hk => hv k (by rw [c]; simpa using hk)
      refine ⟨List.range N, ?_, ?_, ?_, ?_, ?_, ?_⟩
      · rw [smooth, e]
        show s.collapse.bind _ = _
        rw [hcol]
        show (if s.size ≤ s.data.length then Res.ok (s.data.take s.size) else .panic) = _
        rw [if_pos (by rw [h.len]; exact h.size), htake]
      · simp; omega
      · intro hN; simp [hN]
      · intro hN; rw [List.length_range, List.getElem?_range (by omega)]
      · intro k x y hx hy
        rw [List.getElem?_eq_some_iff] at hx hy
        obtain ⟨_, rfl⟩ := hx; obtain ⟨_, rfl⟩ := hy
        simp
      · intro hn k x y hx hy
        rw [List.getElem?_eq_some_iff] at hx hy
        obtain ⟨_, rfl⟩ := hx; obtain ⟨_, rfl⟩ := hy
        simp
        omega
    · omega
  · have hlt : n < s.size := by omega
    obtain ⟨d, ec, hd, hk⟩ := collapse_spec s (by rw [h.len, h.large]) (by rw [h.large]; exact h.size)
      (by rw [h.large, h.small]) (by rw [h.small]; exact h3) (by rw [h.small]; exact h4) (by rw [h.small]; exact hlt)
    rw [h.small] at ec hk
    have hsz := h.size
    have hN : 0 < N := by
      rcases h.phase with ⟨_, _, c, _⟩ | ⟨_, _, c, d, _⟩ <;> omega
    have hpos := f64_positions s.size n hlt hsz h3 h4
    have hkp : ∀ i, i < n - 1 → keepPos s.size n i = f64MulFloor i (f64Ratio (s.size - 2) (n - 2)) := by
      intro i hi; unfold keepPos; rw [if_neg (by omega)]
    have hkl : keepPos s.size n (n - 1) = s.size - 1 := by unfold keepPos; rw [if_pos rfl]
    generalize hfd : (fun i => f64MulFloor i (f64Ratio (s.size - 2) (n - 2))) = g at hpos
    have hkg : ∀ i, i < n - 1 → keepPos s.size n i = g i := by
      intro i hi; rw [hkp i hi, ← hfd]
    have hle : ∀ i, i < n - 1 → g i ≤ s.size - 2 := fun i hi => hpos.le_top (n - 2 - i) i (by omega)
    have hin : ∀ i, i < n → keepPos s.size n i < s.size := by
      intro i hi
      by_cases hi' : i = n - 1
      · subst hi'; omega
      · rw [hkg i (by omega)]; have := hle i (by omega); omega
    have htake : d.take n = (List.range n).map fun i => v (keepPos s.size n i) :=
      getElem?_take_map _ (fun i => v (keepPos s.size n i)) _ fun k hk' => by
        rw [hk k hk', h.vals _ (hin k hk')]
    -- a stretch of at most two entries is at most `2 * jump` long
    have hfl : f ≤ 2 * s.jump ∧ (s.size ≠ 2 * n - 2 → f ≤ s.jump) ∧ s.jump * (n - 1) + 1 ≤ N := by
      rcases h.phase with ⟨a, b, c, d, _⟩ | ⟨a, b, c, d, x⟩
      · rw [a, d]; omega
      · have hm : s.jump * (n - 1) ≤ s.jump * (s.size - 2) := Nat.mul_le_mul_left _ (by omega)
        have hlim : s.limit ≤ 2 * s.jump ∧ (s.size ≠ 2 * n - 2 → s.limit = s.jump) := by
          simp only [Smooth.limit, h.large]
          split <;> omega
        omega
    have hgap1 : ∀ k, k + 2 < s.size → v (k + 1) ≤ v k + s.jump := h.gap
    have hsteps : ∀ i, i + 1 < n → v (keepPos s.size n i) < v (keepPos s.size n (i + 1)) ∧
        v (keepPos s.size n (i + 1)) ≤ v (keepPos s.size n i) + 2 * s.jump := by
      intro i hi
      by_cases hi' : i + 1 = n - 1
      · rw [hi', hkl, hkg i (by omega)]
        have e1 : i = n - 2 := by omega
        have t1 := hpos.top
        have t2 := hpos.near
        rw [← e1] at t1 t2
        have t3 := hpos.exact
        rw [← e1] at t3
        by_cases hg : g i = s.size - 2
        · have l1 := h.lastGap (g i) (by omega)
          have l2 := h.strict (g i) (by omega)
          rw [show s.size - 1 = g i + 1 by omega]; omega
        · have l0 := h.gap (g i) (by omega)
          have l1 := h.lastGap (g i + 1) (by omega)
          have l2 := h.strict (g i) (by omega)
          have l3 := h.strict (g i + 1) (by omega)
          have := hfl.2.1 (by omega)
          rw [show s.size - 1 = g i + 1 + 1 by omega]; omega
      · rw [hkg i (by omega), hkg (i + 1) (by omega)]
        have s1 := hpos.strict i (by omega)
        have s2 := hpos.step i (by omega)
        have s3 := hle (i + 1) (by omega)
        have l0 := h.gap (g i) (by omega)
        have l1 := h.strict (g i) (by omega)
        by_cases hg : g (i + 1) = g i + 1
        · rw [hg]; omega
        · rw [show g (i + 1) = g i + 1 + 1 by omega]
          have l2 := h.gap (g i + 1) (by omega)
          have l3 := h.strict (g i + 1) (by omega)
          omega
    refine ⟨(List.range n).map fun i => v (keepPos s.size n i), ?_, ?_, ?_, ?_, ?_, ?_⟩
    · rw [smooth, e]
      show s.collapse.bind _ = _
      rw [ec]
      show (if n ≤ d.length then Res.ok (d.take n) else .panic) = _
      rw [if_pos (by rw [hd, h.len]; omega), htake]
    · have : s.jump * (n - 1) ≥ n - 1 := Nat.le_mul_of_pos_left _ (by
        rcases h.phase with ⟨a, _⟩ | ⟨a, _⟩ <;> omega)
      simp; omega
    · intro _
      have := hpos.zero
      have e0 : (List.range n)[0]? = some 0 := List.getElem?_range (by omega)
      simp [e0, hkg 0 (by omega), this, h.first hN]
    · intro _
      have := h.last hN
      simp only [List.length_map, List.length_range, List.getElem?_map]
      rw [List.getElem?_range (by omega)]
      simp [hkl]; omega
    · intro k x y hx hy
      simp only [List.getElem?_map, Option.map_eq_some_iff] at hx hy
      obtain ⟨a, ha, rfl⟩ := hx; obtain ⟨b, hb, rfl⟩ := hy
      rw [List.getElem?_eq_some_iff] at ha hb
      obtain ⟨_, rfl⟩ := ha; obtain ⟨hb, rfl⟩ := hb
      simp only [List.getElem_range]
      exact (hsteps k (by simpa using hb)).1
    · intro _ k x y hx hy
      simp only [List.getElem?_map, Option.map_eq_some_iff] at hx hy
      obtain ⟨a, ha, rfl⟩ := hx; obtain ⟨b, hb, rfl⟩ := hy
      rw [List.getElem?_eq_some_iff] at ha hb
      obtain ⟨_, rfl⟩ := ha; obtain ⟨hb, rfl⟩ := hb
      simp only [List.getElem_range]
      have := (hsteps k (by simpa using hb)).2
      refine Nat.le_trans (Nat.mul_le_mul_right (n - 1) (m := 2 * s.jump) (by omega)) ?_
      rw [Nat.mul_assoc]
      omega

/-! ## The sampler does not look at the lines -/

variable {β : Type}

def Smooth.map (g : α → β) (s : Smooth α) : Smooth β := ⟨s.small, s.large, s.data.map g, s.jump, s.pos, s.size⟩

theorem swapAt_map (g : α → β) (l : List α) (i j : Nat) :
    swapAt (l.map g) i j = (swapAt l i j).map' (List.map g) := by
  unfold swapAt
  simp only [List.getElem?_map]
  cases l[i]? <;> cases l[j]? <;> simp [Res.map', List.map_set]

theorem setAt_map (g : α → β) (l : List α) (i : Nat) (x : α) :
    setAt (l.map g) i (g x) = (setAt l i x).map' (List.map g) := by
  unfold setAt
  simp only [List.length_map]
  split <;> simp [Res.map', List.map_set]

theorem collapseLoop_map (g : α → β) (r : Nat) : ∀ (n i : Nat) (l : List α),
    collapseLoop r n i (l.map g) = (collapseLoop r n i l).map' (List.map g)
  | 0, _, _ => rfl
  | n + 1, i, l => by
    rw [collapseLoop, collapseLoop, swapAt_map]
    cases swapAt l i (f64MulFloor i r) with
    | ok d => exact collapseLoop_map g r n (i + 1) d
    | panic => rfl
    | err => rfl

theorem collapse_map (g : α → β) (s : Smooth α) : (s.map g).collapse = s.collapse.map' (Smooth.map g) := by
  have hv : (s.map g).verify = s.verify := by simp [Smooth.verify, Smooth.map]
  rw [Smooth.collapse, Smooth.collapse, hv]
  show (if s.verify = false then Res.panic else if s.size ≤ s.small then .ok (s.map g) else if s.small = 2 then _ else _) = _
  by_cases h1 : s.verify = false
  · rw [if_pos h1, if_pos h1]; rfl
  · rw [if_neg h1, if_neg h1]
    by_cases h2 : s.size ≤ s.small
    · rw [if_pos h2, if_pos h2]; rfl
    · rw [if_neg h2, if_neg h2]
      by_cases h3 : s.small = 2
      · rw [if_pos h3, if_pos h3]
        show (swapAt (s.data.map g) 1 (s.size - 1)).bind _ = _
        rw [swapAt_map]
        cases swapAt s.data 1 (s.size - 1) <;> rfl
      · rw [if_neg h3, if_neg h3]
        show (collapseLoop (f64Ratio (s.size - 2) (s.small - 2)) (s.small - 2) 1 (s.data.map g)).bind _ = _
        rw [collapseLoop_map]
        cases collapseLoop (f64Ratio (s.size - 2) (s.small - 2)) (s.small - 2) 1 s.data with
        | ok d =>
          show (swapAt (d.map g) (s.small - 1) (s.size - 1)).bind _ = Res.map' _ ((swapAt d (s.small - 1) (s.size - 1)).bind _)
          rw [swapAt_map]
          cases swapAt d (s.small - 1) (s.size - 1) <;> rfl
        | panic => rfl
        | err => rfl

theorem add_map (g : α → β) (s : Smooth α) (x : α) : (s.map g).add (g x) = (s.add x).map' (Smooth.map g) := by
  have hv : (s.map g).verify = s.verify := by simp [Smooth.verify, Smooth.map]
  rw [Smooth.add, Smooth.add, hv]
  by_cases h1 : s.verify = false
  · rw [if_pos h1, if_pos h1]; rfl
  · rw [if_neg h1, if_neg h1]
    by_cases h2 : s.pos = 0
    · rw [if_pos h2, if_pos (show (s.map g).pos = 0 from h2)]
      have key : (if (s.map g).size ≥ (s.map g).large then ({ s.map g with jump := (s.map g).jump * 2 } : Smooth β).collapse
          else .ok (s.map g)) =
          (if s.size ≥ s.large then ({ s with jump := s.jump * 2 } : Smooth α).collapse else .ok s).map' (Smooth.map g) := by
        by_cases h3 : s.size ≥ s.large
        · rw [if_pos h3, if_pos (show (s.map g).size ≥ (s.map g).large from h3)]
          exact collapse_map g { s with jump := s.jump * 2 }
        · rw [if_neg h3, if_neg (show ¬(s.map g).size ≥ (s.map g).large from h3)]; rfl
      rw [key]
      cases (if s.size ≥ s.large then ({ s with jump := s.jump * 2 } : Smooth α).collapse else .ok s) with
      | ok t =>
        show (setAt (t.data.map g) t.size (g x)).bind _ = Res.map' _ ((setAt t.data t.size x).bind _)
        rw [setAt_map]
        cases setAt t.data t.size x <;> rfl
      | panic => rfl
      | err => rfl
    · rw [if_neg h2, if_neg (show ¬(s.map g).pos = 0 from h2)]
      by_cases h3 : s.size = 0
      · rw [if_pos h3, if_pos (show (s.map g).size = 0 from h3)]; rfl
      · rw [if_neg h3, if_neg (show ¬(s.map g).size = 0 from h3)]
        show (setAt (s.data.map g) (s.size - 1) (g x)).bind _ = Res.map' _ ((setAt s.data (s.size - 1) x).bind _)
        rw [setAt_map]
        cases setAt s.data (s.size - 1) x <;> rfl

theorem addAll_map (g : α → β) : ∀ (xs : List α) (s : Smooth α),
    Smooth.addAll (xs.map g) (s.map g) = (Smooth.addAll xs s).map' (Smooth.map g)
  | [], _ => rfl
  | x :: xs, s => by
    rw [List.map_cons, Smooth.addAll, Smooth.addAll, add_map]
    cases s.add x with
    | ok t => exact addAll_map g xs t
    | panic => rfl
    | err => rfl

theorem smooth_map (g : α → β) (z : α) (n : Nat) (xs : List α) :
    smooth (g z) n (xs.map g) = (smooth z n xs).map' (List.map g) := by
  rw [smooth, smooth]
  have : Smooth.new (g z) n = (Smooth.new z n).map g := by simp [Smooth.new, Smooth.map]
  rw [this, addAll_map]
  cases Smooth.addAll xs (Smooth.new z n) with
  | ok s =>
    show (s.map g).collapse.bind _ = Res.map' _ (s.collapse.bind _)
    rw [collapse_map]
    cases s.collapse with
    | ok t =>
      show (if t.size ≤ (t.data.map g).length then Res.ok ((t.data.map g).take t.size) else .panic) =
        Res.map' _ (if t.size ≤ t.data.length then Res.ok (t.data.take t.size) else .panic)
      rw [List.length_map]
      split <;> simp [Res.map', List.map_take]
    | panic => rfl
    | err => rfl
  | panic => rfl
  | err => rfl

/-! ## Increasing numbers -/

theorem sublist_range' : ∀ (l : List Nat) (a m : Nat), l.Pairwise (· < ·) → (∀ x ∈ l, a ≤ x ∧ x < a + m) →
    l.Sublist (List.range' a m)
  | [], _, _, _, _ => List.nil_sublist _
  | x :: l, a, 0, _, h => by have := h x (by simp); omega
  | x :: l, a, m + 1, hp, h => by
    rw [List.range'_succ]
    have hp' := List.pairwise_cons.1 hp
    by_cases hx : x = a
    · subst hx
      refine List.Sublist.cons_cons x (sublist_range' l (x + 1) m hp'.2 fun y hy => ?_)
      have := hp'.1 y hy
      have := h y (by simp [hy])
      omega
    · refine List.Sublist.cons a (sublist_range' (x :: l) (a + 1) m hp fun y hy => ?_)
      have h1 := h y hy
      have h2 := h x (by simp)
      rcases List.mem_cons.1 hy with rfl | hy'
      · omega
      · have := hp'.1 y hy'
        omega

theorem SmoothOut.mono {n N : Nat} {out : List Nat} (h : SmoothOut n N out) :
    ∀ k j x y, out[k]? = some x → out[k + 1 + j]? = some y → x < y
  | k, 0, x, y, hx, hy => h.strict k x y hx hy
  | k, j + 1, x, y, hx, hy => by
    have hlt : k + 1 + j < out.length := by
      have := (List.getElem?_eq_some_iff.1 hy).1
      omega
    have := h.mono k j x _ hx (List.getElem?_eq_getElem hlt)
    have := h.strict (k + 1 + j) _ y (List.getElem?_eq_getElem hlt) hy
    omega

theorem SmoothOut.sublist {n N : Nat} {out : List Nat} (h : SmoothOut n N out) : out.Sublist (List.range N) := by
  rw [List.range_eq_range']
  apply sublist_range'
  · rw [List.pairwise_iff_getElem]
    intro i j hi hj hij
    obtain ⟨d, rfl⟩ : ∃ d, j = i + 1 + d := ⟨j - i - 1, by omega⟩
    exact h.mono i d _ _ (List.getElem?_eq_getElem hi) (List.getElem?_eq_getElem hj)
  · intro x hx
    obtain ⟨k, hk, rfl⟩ := List.getElem_of_mem hx
    have hN : 0 < N := by have := h.length; omega
    have hl := h.last hN
    by_cases e : k = out.length - 1
    · subst e
      rw [List.getElem?_eq_getElem hk] at hl
      simp only [Option.some.injEq] at hl
      omega
    · have := h.mono k (out.length - 1 - (k + 1)) _ _ (List.getElem?_eq_getElem hk)
        (show out[k + 1 + (out.length - 1 - (k + 1))]? = some (N - 1) by
          rw [show k + 1 + (out.length - 1 - (k + 1)) = out.length - 1 by omega]; exact hl)
      omega

end Cdx
