import Verif.Model.Binsearch
import Verif.Spec.Binsearch

/-!
Lemmas on lines of a buffer and on the stepping functions.
-/

namespace Cdx

/-- A list of lines that can be the lines of a buffer. -/
def WF : List Bytes → Prop
  | [] => True
  | l :: ls => l ≠ [] ∧ ((∃ body, (10 : UInt8) ∉ body ∧ l = body ++ [10]) ∨ ((10 : UInt8) ∉ l ∧ ls = [])) ∧ WF ls

theorem cutLines_wf (data : Bytes) : WF (cutLines data) := by
  induction data with
  | nil => simp [cutLines, WF]
  | cons c cs ih =>
    simp only [cutLines]
    split
    · exact ⟨by simp, Or.inl ⟨[], by simp, rfl⟩, ih⟩
    · rename_i hc
      cases h : cutLines cs with
      | nil => exact ⟨by simp, Or.inr ⟨by simp [Ne.symm hc], rfl⟩, trivial⟩
      | cons l ls =>
        rw [h] at ih
        obtain ⟨h1, h2, h3⟩ := ih
        refine ⟨by simp, ?_, h3⟩
        rcases h2 with ⟨body, hb, rfl⟩ | ⟨h2, rfl⟩
        · exact Or.inl ⟨c :: body, by simp [hb, Ne.symm hc], rfl⟩
        · exact Or.inr ⟨by simp [h2, Ne.symm hc], rfl⟩

theorem cutLines_flatten (data : Bytes) : (cutLines data).flatten = data := by
  induction data with
  | nil => rfl
  | cons c cs ih =>
    simp only [cutLines]
    split
    · rename_i h; simp [ih, h]
    · cases h : cutLines cs with
      | nil => rw [h] at ih; simp at ih; simp [← ih]
      | cons l ls => rw [h] at ih; simp at ih; simp [← ih]

/-- A line and what surrounds it. -/
theorem WF.at {ls : List Bytes} (h : WF ls) {k : Nat} (hk : k < ls.length) :
    ∃ pre line post, ls.flatten = pre ++ line ++ post ∧ pre.length = lineStart ls k ∧ ls[k]? = some line ∧
      lineStart ls (k + 1) = lineStart ls k + line.length ∧ line ≠ [] ∧
      (pre = [] ∨ ∃ p, pre = p ++ [10]) ∧
      ((∃ body, (10 : UInt8) ∉ body ∧ line = body ++ [10]) ∨ ((10 : UInt8) ∉ line ∧ post = [])) := by
  induction ls generalizing k with
  | nil => simp at hk
  | cons l ls ih =>
    obtain ⟨h1, h2, h3⟩ := h
    cases k with
    | zero =>
      refine ⟨[], l, ls.flatten, by simp, by simp [lineStart], by simp, by simp [lineStart], h1, Or.inl rfl, ?_⟩
      rcases h2 with h2 | ⟨h2, rfl⟩
      · exact Or.inl h2
      · exact Or.inr ⟨h2, rfl⟩
    | succ k =>
      obtain ⟨pre, line, post, e1, e2, e3, e4, e5, e6, e7⟩ := ih h3 (by simpa using hk)
      refine ⟨l ++ pre, line, post, by simp [e1], ?_, by simpa using e3, ?_, e5, ?_, e7⟩
      · simp [lineStart] at e2 ⊢; omega
      · simp [lineStart] at e4 ⊢; omega
      · right
        have hl : ∃ body, (10 : UInt8) ∉ body ∧ l = body ++ [10] := by
          rcases h2 with h2 | ⟨_, rfl⟩
          · exact h2
          · simp at hk
        obtain ⟨body, _, rfl⟩ := hl
        rcases e6 with rfl | ⟨p, rfl⟩
        · exact ⟨body, by simp⟩
        · exact ⟨body ++ 10 :: p, by simp⟩

theorem lineStart_lt {ls : List Bytes} (h : WF ls) {k : Nat} (hk : k < ls.length) :
    lineStart ls k < lineStart ls (k + 1) := by
  obtain ⟨_, line, _, _, _, _, e, hne, _, _⟩ := h.at hk
  have := List.length_pos_iff.2 hne
  omega

theorem lineStart_mono {ls : List Bytes} (h : WF ls) {i j : Nat} (hij : i < j) (hj : j ≤ ls.length) :
    lineStart ls i < lineStart ls j := by
  induction j with
  | zero => omega
  | succ j ih =>
    have h1 := lineStart_lt h (show j < ls.length by omega)
    by_cases h2 : i = j
    · subst h2; exact h1
    · have := ih (by omega) (by omega); omega

theorem lineStart_le {ls : List Bytes} (h : WF ls) {i j : Nat} (hij : i ≤ j) (hj : j ≤ ls.length) :
    lineStart ls i ≤ lineStart ls j := by
  by_cases h2 : i = j
  · subst h2; exact Nat.le_refl _
  · exact Nat.le_of_lt (lineStart_mono h (by omega) hj)

theorem lineStart_inj {ls : List Bytes} (h : WF ls) {i j : Nat} (hi : i ≤ ls.length) (hj : j ≤ ls.length)
    (e : lineStart ls i = lineStart ls j) : i = j := by
  by_cases h1 : i < j
  · have := lineStart_mono h h1 hj; omega
  · by_cases h2 : j < i
    · have := lineStart_mono h h2 hi; omega
    · omega

theorem lineStart_length (ls : List Bytes) : lineStart ls ls.length = ls.flatten.length := by
  simp [lineStart]

@[simp] theorem lineStart_zero (ls : List Bytes) : lineStart ls 0 = 0 := by simp [lineStart]

/-- The line that contains a position. -/
theorem locate {ls : List Bytes} (i j m : Nat) (h1 : lineStart ls i ≤ m) (h2 : m < lineStart ls j)
    (hij : i ≤ j) : ∃ k, i ≤ k ∧ k < j ∧ lineStart ls k ≤ m ∧ m < lineStart ls (k + 1) := by
  induction j with
  | zero => simp at h2
  | succ j ih =>
    by_cases h : lineStart ls j ≤ m
    · by_cases hi : i = j + 1
      · subst hi; omega
      · exact ⟨j, by omega, by omega, h, h2⟩
    · by_cases hi : i = j + 1
      · subst hi; omega
      · obtain ⟨k, a, b, c, d⟩ := ih (by omega) (by omega)
        exact ⟨k, a, by omega, c, d⟩

theorem findEndLoop_nl (body post : Bytes) (p : Nat) (h : (10 : UInt8) ∉ body) :
    findEndLoop (body ++ 10 :: post) p = p + body.length + 1 := by
  induction body generalizing p with
  | nil => simp [findEndLoop]
  | cons c cs ih =>
    simp only [List.mem_cons, not_or] at h
    simp [findEndLoop, Ne.symm h.1, ih _ h.2]
    omega

theorem findEndLoop_no (body : Bytes) (p : Nat) (h : (10 : UInt8) ∉ body) :
    findEndLoop body p = p + body.length := by
  induction body generalizing p with
  | nil => simp [findEndLoop]
  | cons c cs ih =>
    simp only [List.mem_cons, not_or] at h
    simp [findEndLoop, Ne.symm h.1, ih _ h.2]
    omega

/-- From inside line `k`, `findEnd` goes to the start of the next line. -/
theorem findEnd_in {ls : List Bytes} (h : WF ls) {k m : Nat} (hk : k < ls.length) (h1 : lineStart ls k ≤ m)
    (h2 : m < lineStart ls (k + 1)) : findEnd ls.flatten m = lineStart ls (k + 1) := by
  obtain ⟨pre, line, post, e1, e2, _, e4, _, _, e7⟩ := h.at hk
  obtain ⟨d, rfl⟩ : ∃ d, m = pre.length + d := ⟨m - pre.length, by omega⟩
  have hd : d < line.length := by omega
  have e : ls.flatten.drop (pre.length + d) = line.drop d ++ post := by
    rw [e1, List.append_assoc, ← List.drop_drop, List.drop_left, List.drop_append_of_le_length (by omega)]
  unfold findEnd
  rw [e]
  rcases e7 with ⟨body, hb, rfl⟩ | ⟨hb, rfl⟩
  · simp only [List.length_append, List.length_singleton] at hd e4
    rw [List.drop_append_of_le_length (by omega), List.append_assoc, List.singleton_append,
      findEndLoop_nl _ _ _ (fun hm => hb (List.mem_of_mem_drop hm)), List.length_drop]
    omega
  · rw [List.append_nil, findEndLoop_no _ _ (fun hm => hb (List.mem_of_mem_drop hm)), List.length_drop]
    omega

theorem findStart_back (data : Bytes) (L m : Nat) (hm : L ≤ m)
    (hin : ∀ x, L ≤ x → x ≤ m → ∃ c, data[x]? = some c ∧ c ≠ 10) (hL : L = 0 ∨ data[L - 1]? = some 10) :
    findStart data m = some L := by
  induction m with
  | zero =>
    obtain ⟨c, h1, h2⟩ := hin 0 hm (Nat.le_refl _)
    simp [findStart, h1, h2]; omega
  | succ m ih =>
    obtain ⟨c, h1, h2⟩ := hin (m + 1) hm (Nat.le_refl _)
    simp only [findStart, h1, h2, if_false]
    by_cases h : L = m + 1
    · subst h
      rcases hL with hL | hL
      · omega
      · simp only [Nat.add_sub_cancel] at hL
        cases m with
        | zero => simp [findStart, hL]
        | succ m => simp [findStart, hL]
    · exact ih (by omega) (fun x a b => hin x a (by omega))

/-- From inside line `k`, `findStart` goes to the start of that line, unless it stands on the newline. -/
theorem findStart_in {ls : List Bytes} (h : WF ls) {k m : Nat} (hk : k < ls.length) (h1 : lineStart ls k ≤ m)
    (h2 : m < lineStart ls (k + 1)) :
    (findStart ls.flatten m = some (lineStart ls k) ∧ ls.flatten[m]? ≠ some 10) ∨
      (findStart ls.flatten m = some (m + 1) ∧ ls.flatten[m]? = some 10 ∧ m + 1 = lineStart ls (k + 1)) := by
  obtain ⟨pre, line, post, e1, e2, _, e4, hne, e6, e7⟩ := h.at hk
  have hget : ∀ x, pre.length ≤ x → x < pre.length + line.length → ls.flatten[x]? = line[x - pre.length]? := by
    intro x a b
    rw [e1, List.append_assoc, List.getElem?_append_right a, List.getElem?_append_left (by omega)]
  have hpre : pre.length = 0 ∨ ls.flatten[pre.length - 1]? = some 10 := by
    rcases e6 with rfl | ⟨p, rfl⟩
    · exact Or.inl rfl
    · right; rw [e1]; simp
  by_cases hc : ls.flatten[m]? = some 10
  · right
    refine ⟨?_, hc, ?_⟩
    · cases m <;> simp [findStart, hc]
    · rw [hget m (by omega) (by omega)] at hc
      rcases e7 with ⟨body, hb, rfl⟩ | ⟨hb, rfl⟩
      · simp only [List.length_append, List.length_singleton] at *
        by_cases hlt : m - pre.length < body.length
        · rw [List.getElem?_append_left hlt] at hc
          exact absurd (List.mem_of_getElem? hc) hb
        · omega
      · exact absurd (List.mem_of_getElem? hc) hb
  · left
    refine ⟨?_, hc⟩
    rw [← e2]
    refine findStart_back _ _ _ (by omega) ?_ hpre
    intro x a b
    rw [hget x a (by omega)]
    have hxl : x - pre.length < line.length := by omega
    refine ⟨line[x - pre.length], List.getElem?_eq_getElem hxl, ?_⟩
    intro hx
    rcases e7 with ⟨body, hb, rfl⟩ | ⟨hb, rfl⟩
    · simp only [List.length_append, List.length_singleton] at *
      by_cases hlt : x - pre.length < body.length
      · rw [List.getElem_append_left hlt] at hx
        exact hb (hx ▸ List.getElem_mem _)
      · have : x = m := by omega
        subst this
        apply hc
        rw [hget x a (by omega), List.getElem?_eq_getElem (by simp; omega), hx]
    · exact hb (hx ▸ List.getElem_mem _)

theorem slice_lines {ls : List Bytes} (h : WF ls) {k : Nat} (hk : k < ls.length) :
    ∃ line, ls[k]? = some line ∧ slice ls.flatten (lineStart ls k) (lineStart ls (k + 1)) = some line := by
  obtain ⟨pre, line, post, e1, e2, e3, e4, _, _, _⟩ := h.at hk
  refine ⟨line, e3, ?_⟩
  unfold slice
  rw [e4, ← e2, if_pos (by rw [e1]; simp), e1]
  simp

/-- What the loops look at: a whole line between the bounds, or, when the range is one empty line, the empty
slice after it. -/
theorem pickLine_spec {ls : List Bytes} (h : WF ls) {i j : Nat} (hij : i < j) (hj : j ≤ ls.length) (tr : Bool) :
    (∃ k, i ≤ k ∧ k < j ∧ (tr = true → k = i) ∧
      pickLine ls.flatten (lineStart ls i) (lineStart ls j) tr = some (lineStart ls k, lineStart ls (k + 1))) ∨
    (tr = false ∧ j = i + 1 ∧ ls[i]? = some [10] ∧
      pickLine ls.flatten (lineStart ls i) (lineStart ls j) tr = some (lineStart ls j, lineStart ls j)) := by
  have hlt := lineStart_mono h hij hj
  cases tr with
  | true =>
    left
    refine ⟨i, Nat.le_refl _, hij, fun _ => rfl, ?_⟩
    unfold pickLine
    simp only [if_true]
    rw [if_neg (by omega), findEnd_in h (by omega) (Nat.le_refl _) (lineStart_lt h (by omega))]
  | false =>
    generalize hm : (lineStart ls j + lineStart ls i - 1) / 2 = m
    obtain ⟨k, k1, k2, k3, k4⟩ := locate (ls := ls) i j m (by omega) (by omega) (by omega)
    have hfe := findEnd_in h (show k < ls.length by omega) k3 k4
    unfold pickLine
    simp only [Bool.false_eq_true, if_false, hm, hfe]
    by_cases hkj : k + 1 = j
    · subst hkj
      simp only [if_true]
      rcases findStart_in h (show k < ls.length by omega) k3 k4 with ⟨hs, _⟩ | ⟨hs, hc, hm1⟩
      · left
        exact ⟨k, k1, k2, by simp, by simp [hs]⟩
      · right
        have hl : lineStart ls (k + 1) = lineStart ls i + 1 := by omega
        have hik : i = k := by
          have := lineStart_lt h (show k < ls.length by omega)
          exact lineStart_inj h (by omega) (by omega) (by
            have := lineStart_le h k1 (by omega); omega)
        subst hik
        refine ⟨trivial, rfl, ?_, by simp [hs, hm1]⟩
        obtain ⟨pre, line, post, e1, e2, e3, e4, _, _, _⟩ := h.at (show i < ls.length by omega)
        have hll : line.length = 1 := by omega
        obtain ⟨c, rfl⟩ := List.length_eq_one_iff.1 hll
        rw [e1, show m = pre.length by omega] at hc
        simp at hc
        rw [e3, hc]
    · left
      refine ⟨k + 1, by omega, by omega, by simp, ?_⟩
      have hlt2 := lineStart_mono h (show k + 1 < j by omega) hj
      rw [if_neg (by omega), findEnd_in h (by omega) (Nat.le_refl _) (lineStart_lt h (by omega))]

end Cdx
