import Verif.Model.Reader

namespace Cdx

/-! ## `readUntil` -/

theorem readUntil_append (b : UInt8) (f : Bytes) : (readUntil b f).1 ++ (readUntil b f).2 = f := by
  induction f with
  | nil => rfl
  | cons x xs ih =>
    by_cases h : x = b
    · simp [readUntil, h]
    · simp [readUntil, h, ih]

theorem readUntil_nil_iff (b : UInt8) (f : Bytes) : (readUntil b f).1 = [] ↔ f = [] := by
  cases f with
  | nil => simp [readUntil]
  | cons x xs => by_cases h : x = b <;> simp [readUntil, h]

/-- The read chunk is either terminated, with no terminator inside, or it is the rest of the file and
has no terminator. -/
theorem readUntil_cases (b : UInt8) (f : Bytes) :
    (∃ a, (readUntil b f).1 = a ++ [b] ∧ b ∉ a) ∨
      (b ∉ (readUntil b f).1 ∧ (readUntil b f).2 = []) := by
  induction f with
  | nil => right; simp [readUntil]
  | cons x xs ih =>
    by_cases h : x = b
    · left; exact ⟨[], by simp [readUntil, h]⟩
    · rcases ih with ⟨a, ha, hb⟩ | ⟨h1, h2⟩
      · left; refine ⟨x :: a, ?_, ?_⟩
        · simp [readUntil, h, ha]
        · simp [hb, Ne.symm h]
      · right; simp [readUntil, h, h1, h2, Ne.symm h]

theorem readUntil_last (b : UInt8) (f : Bytes) (h : (readUntil b f).1.getLast? ≠ some b) :
    (readUntil b f).2 = [] := by
  rcases readUntil_cases b f with ⟨a, ha, _⟩ | ⟨_, h2⟩
  · simp [ha] at h
  · exact h2

theorem readUntil_length (b : UInt8) (f : Bytes) :
    (readUntil b f).1.length + (readUntil b f).2.length = f.length := by
  rw [← List.length_append, readUntil_append]

/-! ## Quote parity -/

/-- Whether a text has an odd number of quote characters. -/
def oddQ (l : Bytes) : Bool := l.count QUOTE % 2 == 1

theorem toggle_eq (w : Bool) (l : Bytes) : toggle w l = (w ^^ oddQ l) := by
  induction l generalizing w with
  | nil => simp [toggle, oddQ]
  | cons x xs ih =>
    have h1 : toggle w (x :: xs) = toggle (if x = QUOTE then !w else w) xs := rfl
    rw [h1, ih]
    by_cases h : x = QUOTE
    · subst h
      simp only [oddQ, if_true, List.count_cons_self]
      rcases Nat.mod_two_eq_zero_or_one (List.count QUOTE xs) with h0 | h0
      · have : (List.count QUOTE xs + 1) % 2 = 1 := by omega
        simp [h0, this]
      · have : (List.count QUOTE xs + 1) % 2 = 0 := by omega
        simp [h0, this]
    · simp [oddQ, h, List.count_cons_of_ne (Ne.symm (Ne.symm h))]

theorem toggle_append (w : Bool) (a b : Bytes) : toggle w (a ++ b) = toggle (toggle w a) b := by
  simp [toggle]

/-- What one line read in any mode is, in terms of the bytes `c` consumed. -/
structure LineSpec (eol : UInt8) (quote : Bool) (c rest : Bytes) : Prop where
  ne : c ≠ []
  last : c.getLast? ≠ some eol → rest = []
  plain : quote = false → eol ∉ c.dropLast
  even : quote = true → rest ≠ [] → oddQ c = false
  minimal : quote = true → ∀ p s, c = p ++ eol :: s → s ≠ [] → oddQ (p ++ [eol]) = true

theorem snoc_split {α : Type} {a p s : List α} {x e : α} (h : a ++ [x] = p ++ e :: s) (hs : s ≠ []) :
    e ∈ a := by
  rcases List.eq_nil_or_concat s with rfl | ⟨t, y, rfl⟩
  · exact absurd rfl hs
  · have h' : a ++ [x] = (p ++ e :: t) ++ [y] := by simpa using h
    have := (List.append_inj' h' rfl).1
    rw [this]; simp

/-- Splits at a terminator inside a chunk read by `readUntil` only occur at its end. -/
theorem readUntil_split (b : UInt8) (f p s : Bytes) (h : (readUntil b f).1 = p ++ b :: s) : s = [] := by
  rcases readUntil_cases b f with ⟨a, ha, hb⟩ | ⟨h1, _⟩
  · by_cases hs : s = []
    · exact hs
    · rw [ha] at h; exact absurd (snoc_split h hs) hb
  · rw [h] at h1; simp at h1

theorem readQuoteLoop_spec (eol : UInt8) (fuel : Nat) (line₀ chunk rest : Bytes) (w : Bool)
    (hfuel : rest.length < fuel) (hw : w = oddQ line₀)
    (hline : line₀ ++ chunk ≠ []) (hlast : (line₀ ++ chunk).getLast? ≠ some eol → rest = [])
    (hmin : ∀ p s, line₀ ++ chunk = p ++ eol :: s → s ≠ [] → oddQ (p ++ [eol]) = true) :
    ∃ c rest', readQuoteLoop eol fuel w (line₀ ++ chunk) chunk rest = (ensureEof eol c, rest') ∧
      line₀ ++ chunk ++ rest = c ++ rest' ∧ LineSpec eol true c rest' := by
  induction fuel generalizing line₀ chunk rest w with
  | zero => omega
  | succ fuel ih =>
    have ht : toggle w chunk = oddQ (line₀ ++ chunk) := by
      have : toggle false (line₀ ++ chunk) = toggle w chunk := by
        rw [toggle_append, hw]; congr 1; rw [toggle_eq]; simp
      rw [← this, toggle_eq]; simp
    unfold readQuoteLoop
    by_cases h1 : toggle w chunk = false
    · simp only [h1, if_true]
      exact ⟨_, _, rfl, rfl, hline, hlast, by simp, fun _ _ => by rw [← ht, h1], fun _ => hmin⟩
    · have h1' : toggle w chunk = true := by simpa using h1
      simp only [h1', Bool.true_eq_false, if_false]
      by_cases h2 : (readUntil eol rest).1 = []
      · have hr : rest = [] := (readUntil_nil_iff eol rest).1 h2
        simp only [h2, if_true]
        exact ⟨_, _, rfl, rfl, hline, hlast, by simp, fun _ h => absurd hr h, fun _ => hmin⟩
      · simp only [h2, if_false]
        have hlen := readUntil_length eol rest
        have hpos : 0 < (readUntil eol rest).1.length := List.length_pos_iff.2 h2
        obtain ⟨c, rest', e1, e2, e3⟩ := ih (line₀ ++ chunk) (readUntil eol rest).1 (readUntil eol rest).2
          true (by omega) (by rw [← ht, h1']) (by simp [h2])
          (by
            intro h
            apply readUntil_last
            simpa [List.getLast?_append, List.getLast?_eq_some_getLast h2] using h)
          (by
            intro p s h hs
            rcases List.append_eq_append_iff.1 h with ⟨a', ha, hb⟩ | ⟨c', ha, hb⟩
            · exact absurd (readUntil_split eol rest a' s hb) hs
            · -- p = ... shorter: line₀ ++ chunk = p ++ c', eol :: s = c' ++ chunk'
              cases c' with
              | nil =>
                exfalso
                exact hs (readUntil_split eol rest [] s (by simpa using hb.symm))
              | cons x t =>
                simp only [List.cons_append, List.cons.injEq] at hb
                obtain ⟨rfl, hb⟩ := hb
                by_cases ht0 : t = []
                · subst ht0
                  rw [← ha, ← ht]
                  simpa using h1
                · exact hmin p t ha ht0)
        refine ⟨c, rest', e1, ?_, e3⟩
        rw [← e2, List.append_assoc (line₀ ++ chunk), readUntil_append]

theorem readLine_none_iff (mode : QuoteMode) (eol : UInt8) (f : Bytes) :
    readLine mode eol f = none ↔ f = [] := by
  unfold readLine
  by_cases h : (readUntil eol f).1 = []
  · have := (readUntil_nil_iff eol f).1 h
    subst this; simp [readUntil]
  · have : f ≠ [] := fun e => h ((readUntil_nil_iff eol f).2 e)
    simp only [h, if_false, this, iff_false]
    split <;> simp

theorem readLine_some (mode : QuoteMode) (eol : UInt8) (f l rest : Bytes)
    (h : readLine mode eol f = some (l, rest)) :
    ∃ c, l = ensureEof eol c ∧ f = c ++ rest ∧ LineSpec eol (mode == .quote) c rest := by
  unfold readLine at h
  by_cases h0 : (readUntil eol f).1 = []
  · simp [h0] at h
  simp only [h0, if_false] at h
  by_cases hm : mode = .quote
  · subst hm
    simp only [ne_eq, not_true_eq_false, if_false, Option.some.injEq] at h
    obtain ⟨c, rest', e1, e2, e3⟩ := readQuoteLoop_spec eol ((readUntil eol f).2.length + 1) []
      (readUntil eol f).1 (readUntil eol f).2 false (by omega) (by simp [oddQ]) (by simpa using h0)
      (by simpa using readUntil_last eol f)
      (by intro p s h hs; exact absurd (readUntil_split eol f p s (by simpa using h)) hs)
    simp only [List.nil_append] at e1 e2
    rw [h] at e1
    obtain ⟨rfl, rfl⟩ := Prod.mk.injEq .. ▸ e1
    exact ⟨c, rfl, by rw [← e2, readUntil_append], e3⟩
  · simp only [ne_eq, hm, not_false_eq_true, if_true, Option.some.injEq, Prod.mk.injEq] at h
    obtain ⟨rfl, rfl⟩ := h
    have hq : (mode == QuoteMode.quote) = false := by cases mode <;> simp_all
    refine ⟨_, rfl, (readUntil_append eol f).symm, h0, readUntil_last eol f, ?_, ?_, ?_⟩
    · intro _
      rcases readUntil_cases eol f with ⟨a, ha, hb⟩ | ⟨h1, _⟩
      · rw [ha]; simpa using hb
      · exact fun h => h1 (List.dropLast_subset _ h)
    · simp [hq]
    · simp [hq]

theorem readLine_shorter (mode : QuoteMode) (eol : UInt8) (f l rest : Bytes)
    (h : readLine mode eol f = some (l, rest)) : rest.length < f.length := by
  obtain ⟨c, _, h2, h3⟩ := readLine_some mode eol f l rest h
  have := List.length_pos_iff.2 h3.ne
  rw [h2]; simp; omega

theorem readLinesFuel_enough (mode : QuoteMode) (eol : UInt8) (n m : Nat) (f : Bytes)
    (hn : f.length ≤ n) (hm : f.length ≤ m) :
    readLinesFuel mode eol n f = readLinesFuel mode eol m f := by
  induction n generalizing m f with
  | zero =>
    have : f = [] := List.length_eq_zero_iff.1 (by omega)
    subst this
    cases m with
    | zero => rfl
    | succ m => simp [readLinesFuel, (readLine_none_iff mode eol []).2 rfl]
  | succ n ih =>
    cases m with
    | zero =>
      have : f = [] := List.length_eq_zero_iff.1 (by omega)
      subst this
      simp [readLinesFuel, (readLine_none_iff mode eol []).2 rfl]
    | succ m =>
      unfold readLinesFuel
      cases h : readLine mode eol f with
      | none => rfl
      | some p =>
        obtain ⟨l, rest⟩ := p
        have := readLine_shorter mode eol f l rest h
        simp only
        rw [ih m rest (by omega) (by omega)]

theorem readLines_nil (mode : QuoteMode) (eol : UInt8) : readLines mode eol [] = [] := rfl

/-- `readLines` unfolds one line at a time. -/
theorem readLines_some (mode : QuoteMode) (eol : UInt8) (f l rest : Bytes)
    (h : readLine mode eol f = some (l, rest)) :
    readLines mode eol f = l :: readLines mode eol rest := by
  have hs := readLine_shorter mode eol f l rest h
  unfold readLines
  obtain ⟨k, hk⟩ : ∃ k, f.length = k + 1 := ⟨f.length - 1, by omega⟩
  rw [hk]
  simp only [readLinesFuel, h]
  rw [readLinesFuel_enough mode eol k rest.length rest (by omega) (by omega)]

/-- Induction along the lines of a file. -/
theorem readLines_induction (mode : QuoteMode) (eol : UInt8) (P : Bytes → Prop) (h0 : P [])
    (h1 : ∀ f l rest, readLine mode eol f = some (l, rest) → P rest → P f) (f : Bytes) : P f := by
  generalize hn : f.length = n
  induction n using Nat.strongRecOn generalizing f with
  | ind n ih =>
    cases h : readLine mode eol f with
    | none => rw [(readLine_none_iff mode eol f).1 h]; exact h0
    | some p =>
      obtain ⟨l, rest⟩ := p
      have := readLine_shorter mode eol f l rest h
      exact h1 f l rest h (ih rest.length (by omega) rest rfl)

theorem readLines_eq_nil (mode : QuoteMode) (eol : UInt8) (f : Bytes) :
    readLines mode eol f = [] ↔ f = [] := by
  constructor
  · intro h
    cases h' : readLine mode eol f with
    | none => exact (readLine_none_iff mode eol f).1 h'
    | some p => rw [readLines_some mode eol f p.1 p.2 h'] at h; simp at h
  · rintro rfl; rfl

end Cdx
