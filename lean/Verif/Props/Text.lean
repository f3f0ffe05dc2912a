import Verif.Model.Text
import Verif.Spec.Text
import Verif.Lemmas.TextLine

/-!
Brackets and numbers: C15, C38, C39.
-/

namespace Cdx

/-! ## C15: brackets -/

/-- Specification: excess of opening over closing brackets. -/
def excess (opn close : UInt8) (l : Bytes) : Int := (l.count opn : Int) - l.count close

theorem excess_cons (opn close x : UInt8) (l : Bytes) (hne : opn ≠ close) :
    excess opn close (x :: l) =
      (if x = opn then 1 else if x = close then -1 else 0) + excess opn close l := by
  unfold excess
  by_cases h : x = opn
  · subst h
    simp [List.count_cons, hne]; omega
  · by_cases h2 : x = close
    · subst h2; simp [List.count_cons, h]; omega
    · simp [List.count_cons, h, h2]

theorem findCloseLoop_spec (opn close : UInt8) (hne : opn ≠ close) (l : Bytes) (i : Nat) (d : Int) :
    match findCloseLoop opn close l i d with
    | none => ∀ k, 1 ≤ k → k ≤ l.length → d + excess opn close (l.take k) ≠ 0
    | some n => ∃ k, n = i + k ∧ 1 ≤ k ∧ k ≤ l.length ∧ d + excess opn close (l.take k) = 0 ∧
        ∀ j, 1 ≤ j → j < k → d + excess opn close (l.take j) ≠ 0 := by
  induction l generalizing i d with
  | nil => intro k h1 h2; simp at h2; omega
  | cons x xs ih =>
    have e0 : excess opn close [] = 0 := rfl
    have estep : ∀ k, d + excess opn close ((x :: xs).take (k + 1)) =
        (if x = opn then d + 1 else if x = close then d - 1 else d) + excess opn close (xs.take k) := by
      intro k
      rw [List.take_succ_cons, excess_cons _ _ _ _ hne]
      split
      · omega
      · split <;> omega
    unfold findCloseLoop
    simp only
    generalize hd : (if x = opn then d + 1 else if x = close then d - 1 else d) = d' at *
    by_cases h0 : d' = 0
    · simp only [h0, if_true]
      refine ⟨1, rfl, by omega, by simp, ?_, by omega⟩
      rw [estep 0]; simp [h0, e0]
    · simp only [h0, if_false]
      have := ih (i + 1) d'
      split
      · rename_i heq
        rw [heq] at this
        simp only at this
        intro k h1 h2
        obtain ⟨k, rfl⟩ : ∃ m, k = m + 1 := ⟨k - 1, by omega⟩
        rw [estep]
        cases k with
        | zero => simpa [e0] using h0
        | succ k => exact this (k + 1) (by omega) (by simp at h2; omega)
      · rename_i n heq
        rw [heq] at this
        obtain ⟨k, h1, h2, h3, h4, h5⟩ := this
        refine ⟨k + 1, by omega, by omega, by simp; omega, by rw [estep]; exact h4, ?_⟩
        intro j hj1 hj2
        obtain ⟨j, rfl⟩ : ∃ m, j = m + 1 := ⟨j - 1, by omega⟩
        rw [estep]
        cases j with
        | zero => simpa [e0] using h0
        | succ j => exact h5 (j + 1) (by omega) (by omega)

/-- The four kinds of brackets. -/
def bracketPairs : List (UInt8 × UInt8) := [(40, 41), (123, 125), (91, 93), (60, 62)]

theorem closer_iff (o c : UInt8) : closer o = some c ↔ (o, c) ∈ bracketPairs := by
  unfold closer bracketPairs
  constructor
  · intro h
    repeat' split at h
    all_goals simp_all
  · intro h
    simp only [List.mem_cons, Prod.mk.injEq, List.not_mem_nil, or_false] at h
    rcases h with ⟨rfl, rfl⟩ | ⟨rfl, rfl⟩ | ⟨rfl, rfl⟩ | ⟨rfl, rfl⟩ <;> decide

/-- `find_close` returns the length of the shortest non-empty balanced prefix. -/
theorem C15_find_close (spec : Bytes) (n : Nat) :
    findClose spec = some n ↔
      ∃ o c, spec.head? = some o ∧ (o, c) ∈ bracketPairs ∧ 1 ≤ n ∧ n ≤ spec.length ∧
        (spec.take n).count o = (spec.take n).count c ∧
        ∀ j, 1 ≤ j → j < n → (spec.take j).count o ≠ (spec.take j).count c := by
  cases spec with
  | nil => simp [findClose]
  | cons x xs =>
    have hc := closer_iff x
    simp only [findClose, List.head?_cons, Option.some.injEq]
    cases hcl : closer x with
    | none =>
      simp only [reduceCtorEq, false_iff]
      rintro ⟨o, c, rfl, hp, _⟩
      rw [(hc c).2 hp] at hcl; simp at hcl
    | some c =>
      have hp := (hc c).1 hcl
      have hne : x ≠ c := by
        simp only [bracketPairs, List.mem_cons, Prod.mk.injEq, List.not_mem_nil, or_false] at hp
        rcases hp with ⟨rfl, rfl⟩ | ⟨rfl, rfl⟩ | ⟨rfl, rfl⟩ | ⟨rfl, rfl⟩ <;> decide
      have key := findCloseLoop_spec x c hne (x :: xs) 0 0
      have hex : ∀ k, (0 + excess x c ((x :: xs).take k) = 0 ↔
          ((x :: xs).take k).count x = ((x :: xs).take k).count c) := by
        intro k; unfold excess; omega
      simp only [ne_eq, hex] at key
      constructor
      · intro h
        simp only at h
        rw [h] at key
        obtain ⟨k, h1, h2, h3, h4, h5⟩ := key
        have : n = k := by omega
        subst this
        exact ⟨x, c, rfl, hp, h2, h3, h4, h5⟩
      · rintro ⟨o, c', rfl, hp', h1, h2, h3, h4⟩
        have : c' = c := by
          have := (hc c').2 hp'
          rw [hcl] at this; simpa using this.symm
        subst this
        simp only
        split at key
        · exact absurd h3 (key n h1 h2)
        · rename_i m heq
          obtain ⟨k, e, g2, g3, g4, g5⟩ := key
          rw [heq]
          have : m = k := by omega
          subst this
          rcases Nat.lt_trichotomy n m with h | h | h
          · exact absurd h3 (g5 n h1 h)
          · rw [h]
          · exact absurd g4 (h4 m g2 h)

/-- `find_close` fails exactly when the first character is no opening bracket or no prefix is balanced. -/
theorem C15_find_close_fails (spec : Bytes) :
    findClose spec = none ↔
      ∀ o c, spec.head? = some o → (o, c) ∈ bracketPairs → ∀ n, 1 ≤ n → n ≤ spec.length →
        (spec.take n).count o ≠ (spec.take n).count c := by
  constructor
  · intro h o c ho hp n h1 h2 h3
    -- the least balanced prefix would have been found
    have : ∃ m, 1 ≤ m ∧ m ≤ n ∧ (spec.take m).count o = (spec.take m).count c ∧
        ∀ j, 1 ≤ j → j < m → (spec.take j).count o ≠ (spec.take j).count c := by
      induction n using Nat.strongRecOn with
      | ind n ih =>
        by_cases hj : ∃ j, 1 ≤ j ∧ j < n ∧ (spec.take j).count o = (spec.take j).count c
        · obtain ⟨j, j1, j2, j3⟩ := hj
          obtain ⟨m, m1, m2, m3, m4⟩ := ih j j2 j1 (by omega) j3
          exact ⟨m, m1, by omega, m3, m4⟩
        · exact ⟨n, h1, Nat.le_refl _, h3, fun j j1 j2 j3 => hj ⟨j, j1, j2, j3⟩⟩
    obtain ⟨m, m1, m2, m3, m4⟩ := this
    have := (C15_find_close spec m).2 ⟨o, c, ho, hp, m1, by omega, m3, m4⟩
    rw [h] at this; simp at this
  · intro h
    cases hf : findClose spec with
    | none => rfl
    | some n =>
      obtain ⟨o, c, h1, h2, h3, h4, h5, _⟩ := (C15_find_close spec n).1 hf
      exact absurd h5 (h o c h1 h2 n h3 h4)

example : findClose [40, 97, 40, 41, 41, 98] = some 5 ∧ findClose [40, 40, 41] = none := by decide

/-! ## C38: size suffixes -/

/-- The letters and the powers they stand for. -/
def suffixPowers : List (UInt8 × Nat) :=
  [(75, 1024 ^ 1), (77, 1024 ^ 2), (71, 1024 ^ 3), (84, 1024 ^ 4), (80, 1024 ^ 5), (69, 1024 ^ 6),
   (107, 1000 ^ 1), (109, 1000 ^ 2), (103, 1000 ^ 3), (116, 1000 ^ 4), (112, 1000 ^ 5), (101, 1000 ^ 6)]

/-- Full statement. -/
def C38_statement : Prop := ∀ p ∈ suffixPowers, suffixValU p.1 = some p.2 ∧ suffixValF p.1 = some p.2

/-- Integer suffix `M` means 1026: the tables use exclusive or for exponentiation. -/
theorem C38_refuted : ¬ C38_statement := by
  intro h
  have := (h (77, 1024 ^ 2) (by simp [suffixPowers])).1
  exact absurd this (by decide)

/-- For floating point numbers the suffixes are right, and for integers only `K` and `k` are. -/
theorem C38_suffixes_partial :
    (∀ p ∈ suffixPowers, suffixValF p.1 = some p.2) ∧
      ∀ p ∈ suffixPowers, suffixValU p.1 = some p.2 ↔ p.1 = 75 ∨ p.1 = 107 := by
  constructor <;> decide

/-! ## C39: unsigned integers -/

theorem digitLoop_spec (lim r : Nat) (hr : r ≤ lim) (ds rest : Bytes) (hds : ∀ c ∈ ds, isDigit c = true)
    (hrest : ∀ c, rest.head? = some c → isDigit c = false) :
    digitLoop lim r (ds ++ rest) =
      if r * 10 ^ ds.length + decVal ds ≤ lim then some (r * 10 ^ ds.length + decVal ds, rest) else none := by
  induction ds generalizing r with
  | nil =>
    simp only [List.nil_append, List.length_nil, Nat.pow_zero, Nat.mul_one, decVal, Nat.add_zero, hr, if_true]
    cases rest with
    | nil => rfl
    | cons c cs => simp [digitLoop, hrest c rfl]
  | cons d ds ih =>
    have hd := hds d (List.mem_cons_self ..)
    have hpos : 0 < 10 ^ ds.length := Nat.pow_pos (by decide)
    have e : r * 10 ^ (d :: ds).length + decVal (d :: ds) =
        (r * 10 + (d.toNat - 48)) * 10 ^ ds.length + decVal ds := by
      simp only [List.length_cons, decVal, Nat.pow_succ, Nat.add_mul]
      rw [Nat.mul_assoc r 10, Nat.mul_comm 10]
      omega
    have hge : r * 10 + (d.toNat - 48) ≤ (r * 10 + (d.toNat - 48)) * 10 ^ ds.length :=
      Nat.le_mul_of_pos_right _ hpos
    rw [e]
    simp only [List.cons_append, digitLoop, hd, if_true]
    by_cases h1 : r * 10 + (d.toNat - 48) > lim
    · rw [if_neg (show ¬ (r * 10 + (d.toNat - 48)) * 10 ^ ds.length + decVal ds ≤ lim by omega)]
      split
      · rfl
      · simp
    · rw [if_neg (by omega), if_neg (by omega)]
      exact ih _ (by omega) (fun c hc => hds c (List.mem_cons_of_mem _ hc))

theorem suffixValU_pos (c : UInt8) (m : Nat) (h : suffixValU c = some m) : 1 ≤ m := by
  have key : ∀ (ls : Bytes) (vs : List Nat), (∀ v ∈ vs, 1 ≤ v) → ∀ m, tableFind c ls vs = some m → 1 ≤ m := by
    intro ls
    induction ls with
    | nil => intro vs _ m h; simp [tableFind] at h
    | cons l ls ih =>
      intro vs hv m h
      cases vs with
      | nil => simp [tableFind] at h
      | cons v vs =>
        simp only [tableFind] at h
        split at h
        · simp only [Option.some.injEq] at h; rw [← h]; exact hv v (List.mem_cons_self ..)
        · exact ih vs (fun v hv' => hv v (List.mem_cons_of_mem _ hv')) m h
  unfold suffixValU at h
  split at h
  · rename_i v hv
    simp only [Option.some.injEq] at h
    rw [← h]
    exact key _ _ (by decide) v hv
  · exact key _ _ (by decide) m h

/-- The suffix of a number: its multiplier and the text after it. -/
def takeSuffix : Bytes → Nat × Bytes
  | [] => (1, [])
  | c :: cs => match suffixValU c with
    | none => (1, c :: cs)
    | some m => (m, cs)

/-- Parsing consumes an optional plus sign, the longest run of digits and one suffix letter. The value is
the decimal value of the digits times that of the suffix; if it does not fit, there is an overflow. A text
not starting like this gives zero and is left alone. -/
theorem C39_to_usize (sign ds rest : Bytes) (hsign : sign = [] ∨ sign = [43])
    (hds : ∀ c ∈ ds, isDigit c = true) (hrest : ∀ c, rest.head? = some c → isDigit c = false)
    (hplus : sign = [] → ds = [] → rest.head? ≠ some 43) :
    toUsize (sign ++ ds ++ rest) =
      if ds = [] then some (0, sign ++ ds ++ rest)
      else if decVal ds * (takeSuffix rest).1 ≤ usizeMax
        then some (decVal ds * (takeSuffix rest).1, (takeSuffix rest).2) else none := by
  have hcurr : dropPlus (sign ++ ds ++ rest) = ds ++ rest := by
    rcases hsign with rfl | rfl
    · cases ds with
      | nil =>
        cases rest with
        | nil => rfl
        | cons c cs =>
          have : c ≠ 43 := by simpa using hplus rfl rfl
          simp [dropPlus, this]
      | cons d ds =>
        have := hds d (List.mem_cons_self ..)
        have : d ≠ 43 := by rintro rfl; exact absurd this (by decide)
        simp [dropPlus, this]
    · simp [dropPlus]
  unfold toUsize
  simp only [hcurr]
  cases ds with
  | nil =>
    simp only [List.nil_append, if_true]
    cases rest with
    | nil => rfl
    | cons c cs => simp [hrest c rfl]
  | cons d ds =>
    have hd := hds d (List.mem_cons_self ..)
    simp only [List.cons_append, hd, Bool.true_eq_false, if_false, List.cons_ne_nil]
    rw [show d :: (ds ++ rest) = (d :: ds) ++ rest from rfl,
      digitLoop_spec usizeMax 0 (Nat.zero_le _) (d :: ds) rest hds hrest]
    simp only [Nat.zero_mul, Nat.zero_add]
    by_cases hv : decVal (d :: ds) ≤ usizeMax
    · rw [if_pos hv]
      cases rest with
      | nil => simp [takeSuffix, hv]
      | cons s rest' =>
        cases hs : suffixValU s with
        | none => simp [takeSuffix, hs, hv]
        | some m =>
          simp only [takeSuffix, hs]
          by_cases h : decVal (d :: ds) * m > usizeMax
          · rw [if_pos h, if_neg (by omega)]
          · rw [if_neg h, if_pos (by omega)]
    · have hm : 1 ≤ (takeSuffix rest).1 := by
        cases rest with
        | nil => simp [takeSuffix]
        | cons s rest' =>
          cases hs : suffixValU s with
          | none => simp [takeSuffix, hs]
          | some m => simpa [takeSuffix, hs] using suffixValU_pos s m hs
      have : decVal (d :: ds) ≤ decVal (d :: ds) * (takeSuffix rest).1 := Nat.le_mul_of_pos_right _ hm
      rw [if_neg hv, if_neg (by omega)]

/-- Every text has the form required by `C39_to_usize`. -/
theorem C39_decompose (t : Bytes) : ∃ sign ds rest, t = sign ++ ds ++ rest ∧
    (sign = [] ∨ sign = [43]) ∧ (∀ c ∈ ds, isDigit c = true) ∧
    (∀ c, rest.head? = some c → isDigit c = false) ∧
    (sign = [] → ds = [] → rest.head? ≠ some 43) := by
  have span : ∀ u : Bytes, ∃ ds rest, u = ds ++ rest ∧ (∀ c ∈ ds, isDigit c = true) ∧
      (∀ c, rest.head? = some c → isDigit c = false) := by
    intro u
    refine ⟨u.takeWhile isDigit, u.dropWhile isDigit, (List.takeWhile_append_dropWhile ..).symm,
      fun c hc => ?_, fun c hc => ?_⟩
    · have := List.all_takeWhile (p := isDigit) (l := u)
      rw [List.all_eq_true] at this
      exact this c hc
    · have := List.head?_dropWhile_not isDigit u
      rw [hc] at this
      simpa using this
  cases t with
  | nil => exact ⟨[], [], [], rfl, Or.inl rfl, by simp, by simp, by simp⟩
  | cons c cs =>
    by_cases h : c = 43
    · subst h
      obtain ⟨ds, rest, e, h1, h2⟩ := span cs
      exact ⟨[43], ds, rest, by simp [e], Or.inr rfl, h1, h2, by simp⟩
    · obtain ⟨ds, rest, e, h1, h2⟩ := span (c :: cs)
      refine ⟨[], ds, rest, by simpa using e, Or.inl rfl, h1, h2, ?_⟩
      rintro _ rfl
      simp only [List.nil_append] at e
      rw [← e]; simpa using h

/-- A whole-text parse accepts exactly numbers (with optional sign and suffix) and the empty text. -/
theorem C39_whole (t : Bytes) (v : Nat) :
    toUsizeWhole t = .ok v ↔
      (t = [] ∧ v = 0) ∨
        ∃ sign ds suf, (sign = [] ∨ sign = [43]) ∧ ds ≠ [] ∧ (∀ c ∈ ds, isDigit c = true) ∧
          t = sign ++ ds ++ suf ∧
          ((suf = [] ∧ v = decVal ds) ∨
            ∃ c m, suf = [c] ∧ isDigit c = false ∧ suffixValU c = some m ∧ v = decVal ds * m) ∧
          v ≤ usizeMax := by
  constructor
  · obtain ⟨sign, ds, rest, rfl, hsign, hds, hrest, hplus⟩ := C39_decompose t
    unfold toUsizeWhole
    rw [C39_to_usize sign ds rest hsign hds hrest hplus]
    by_cases hne : ds = []
    · subst hne
      simp only [if_true]
      intro h
      by_cases h0 : sign ++ [] ++ rest = []
      · simp only [h0] at h ⊢
        left
        simp at h; exact ⟨trivial, h.symm⟩
      · simp only [h0, ne_eq, not_false_eq_true, if_true] at h
        simp at h
    · simp only [hne, if_false]
      by_cases hle : decVal ds * (takeSuffix rest).1 ≤ usizeMax
      · simp only [hle, if_true]
        intro h
        by_cases hr : (takeSuffix rest).2 = []
        · simp only [hr, ne_eq, not_true_eq_false, if_false, Res.ok.injEq] at h
          right
          refine ⟨sign, ds, rest, hsign, hne, hds, rfl, ?_, by omega⟩
          cases rest with
          | nil => left; simp [takeSuffix] at h; exact ⟨rfl, h.symm⟩
          | cons c cs =>
            right
            cases hs : suffixValU c with
            | none => simp [takeSuffix, hs] at hr
            | some m =>
              simp only [takeSuffix, hs] at hr h
              subst hr
              exact ⟨c, m, rfl, hrest c rfl, hs, h.symm⟩
        · simp [hr] at h
      · simp [hle]
  · rintro (⟨rfl, rfl⟩ | ⟨sign, ds, suf, hsign, hne, hds, rfl, hsuf, hv⟩)
    · rfl
    · have hrest : ∀ c, suf.head? = some c → isDigit c = false := by
        rcases hsuf with ⟨rfl, _⟩ | ⟨c, m, rfl, hc, _⟩
        · simp
        · simpa using hc
      unfold toUsizeWhole
      rw [C39_to_usize sign ds suf hsign hds hrest (fun _ h => absurd h hne)]
      simp only [hne, if_false]
      rcases hsuf with ⟨rfl, rfl⟩ | ⟨c, m, rfl, hc, hm, rfl⟩
      · simp [takeSuffix, hv]
      · simp [takeSuffix, hm, hv]

example : toUsizeWhole [43, 49, 50, 75] = .ok (12 * 1024) ∧ toUsize [49, 120] = some (1, [120]) := by decide

end Cdx
