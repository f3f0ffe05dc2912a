import Verif.Lemmas.Sampler

/-!
Properties of smooth sampling: C32 and C69.
-/

namespace Cdx

variable {α : Type}

/-- The line numbers (counted from 0) sampled from `N` lines, and the sample in terms of them. -/
theorem smooth_indices (z : α) (n : Nat) (h3 : 3 ≤ n) (h4 : n ≤ 2 ^ 24) (input : List α) :
    ∃ idx, SmoothOut n input.length idx ∧ smooth z n input = .ok (idx.map fun i => input.getD i z) := by
  obtain ⟨idx, e, h⟩ := smooth_range input.length h3 h4 input.length
  refine ⟨idx, h, ?_⟩
  have hm := smooth_map (fun i => input.getD i z) input.length n (List.range input.length)
  rw [e] at hm
  have h1 : input.getD input.length z = z := by simp
  have h2 : ((List.range input.length).map fun i => input.getD i z) = input := by
    apply List.ext_getElem (by simp)
    intro i _ h2
    simp [h2]
  rw [h1, h2] at hm
  exact hm

/-! ## C32: smooth sampling -/

/-- C32 as stated: any sample size from 2 on. -/
def C32_statement : Prop := ∀ (n : Nat) (input : List Bytes), 2 ≤ n →
  ∃ out, smooth [] n input = .ok out ∧ out.Sublist input ∧ out.length ≤ n ∧ out.head? = input.head? ∧
    out.getLast? = input.getLast? ∧ (input.length ≤ n → out = input)

/-- Sampling 2 of 3 lines panics: the buffer has 2 places and the third line is put into a third one. -/
theorem C32_refuted : ¬C32_statement := by
  intro h
  obtain ⟨out, e, _⟩ := h 2 [[97], [98], [99]] (by decide)
  have : smooth [] 2 [[97], [98], [99]] = (Res.panic : Res (List Bytes)) := by decide +kernel
  rw [this] at e
  exact absurd e (by simp)

/-- A sample of `n` lines, `3 ≤ n ≤ 2^24`: never a panic, exactly `min n (number of lines)` lines in their order, the
first and the last line among them, hence the whole input if that has at most `n` lines. Missing: `n = 2`, which panics
from the third line on (`C32_two`), and sizes beyond `2^24`, where the rounding of positions is not bounded here. -/
theorem C32_smooth_partial (z : α) (n : Nat) (h3 : 3 ≤ n) (h4 : n ≤ 2 ^ 24) (input : List α) :
    ∃ out, smooth z n input = .ok out ∧ out.Sublist input ∧ out.length = min n input.length ∧
      out.head? = input.head? ∧ out.getLast? = input.getLast? ∧ (input.length ≤ n → out = input) := by
  obtain ⟨idx, h, e⟩ := smooth_indices z n h3 h4 input
  have hsub : (idx.map fun i => input.getD i z).Sublist input := by
    have := h.sublist.map fun i => input.getD i z
    have h2 : ((List.range input.length).map fun i => input.getD i z) = input := by
      apply List.ext_getElem (by simp)
      intro i _ h2
      simp [h2]
    rwa [h2] at this
  refine ⟨_, e, hsub, by simpa using h.length, ?_, ?_, ?_⟩
  · rcases Nat.eq_zero_or_pos input.length with h0 | h0
    · have h1 := h.length
      rw [h0, Nat.min_zero] at h1
      rw [List.eq_nil_of_length_eq_zero h1, List.eq_nil_of_length_eq_zero h0]; rfl
    · have := h.first h0
      rw [List.head?_eq_getElem?, List.head?_eq_getElem?, List.getElem?_map, this]
      simp [h0]
  · rcases Nat.eq_zero_or_pos input.length with h0 | h0
    · have h1 := h.length
      rw [h0, Nat.min_zero] at h1
      rw [List.eq_nil_of_length_eq_zero h1, List.eq_nil_of_length_eq_zero h0]; rfl
    · have := h.last h0
      rw [List.getLast?_eq_getElem?, List.getLast?_eq_getElem?, List.getElem?_map, List.length_map, this]
      have : input.length - 1 < input.length := by omega
      simp [this]
  · intro hle
    exact hsub.eq_of_length (by rw [List.length_map, h.length]; omega)

/-- The case left out: a sample of 2 (or fewer, which is taken as 2) works up to two lines and panics on more. -/
theorem C32_two (z : α) (n : Nat) (hn : n ≤ 2) (a b c : α) (more : List α) :
    smooth z n [] = .ok [] ∧ smooth z n [a] = .ok [a] ∧ smooth z n [a, b] = .ok [a, b] ∧
      smooth z n (a :: b :: c :: more) = .panic := by
  have hm : max n 2 = 2 := by omega
  have e : Smooth.new z n = ⟨2, 2, [z, z], 1, 0, 0⟩ := by simp [Smooth.new, hm, List.replicate]
  refine ⟨?_, ?_, ?_, ?_⟩ <;> rw [smooth, e] <;> rfl

/-- Ten lines, a sample of four: the first, the last and two in between. -/
example : smooth (0 : Nat) 4 [1, 2, 3, 4, 5, 6, 7, 8, 9, 10] = .ok [1, 5, 8, 10] := by decide +kernel
example : smooth ([] : Bytes) 3 [[97], [98], [99], [100], [101]] = .ok [[97], [100], [101]] := by decide +kernel

/-! ## C69: the sample is even -/

/-- C69: no two neighbours in a sample of `n` lines are further apart than twice the ideal distance
`(N - 1) / (n - 1)`, `N` being the number of lines. The sample is named by line numbers `idx`, counted from 0. -/
theorem C69_even (z : α) (n : Nat) (h3 : 3 ≤ n) (h4 : n ≤ 2 ^ 24) (input : List α) (hn : n ≤ input.length) :
    ∃ idx : List Nat, smooth z n input = .ok (idx.map fun i => input.getD i z) ∧ idx.Pairwise (· < ·) ∧
      idx.head? = some 0 ∧ idx.getLast? = some (input.length - 1) ∧ idx.length = n ∧
      ∀ k x y, idx[k]? = some x → idx[k + 1]? = some y → (y - x) * (n - 1) ≤ 2 * (input.length - 1) := by
  obtain ⟨idx, h, e⟩ := smooth_indices z n h3 h4 input
  refine ⟨idx, e, List.Pairwise.sublist h.sublist List.pairwise_lt_range, ?_, ?_, ?_, h.even hn⟩
  · rw [List.head?_eq_getElem?]; exact h.first (by omega)
  · rw [List.getLast?_eq_getElem?]; exact h.last (by omega)
  · have := h.length; omega

/-- The bound is reached: 5 of 17 lines may leave a gap of 8 where 4 is ideal. -/
example : smooth (99 : Nat) 5 (List.range 17) = .ok [0, 4, 7, 15, 16] := by decide +kernel

end Cdx
