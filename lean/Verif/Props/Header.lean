import Verif.Model.Header

/-!
Property C12: the header policy over a sequence of files.
-/

namespace Cdx

/-- Specification (documentation of `HeaderMode`): which first lines are output, `Option.none` if the
sequence is to be rejected. A line is a header when it starts with the CDX tag. -/
def headerPolicy (mode : HeaderMode) (lines : List Bytes) : Option (List Bool) :=
  -- a header is written once, as the first line of the output; data lines are always written
  let once := match lines with
    | [] => []
    | _ :: ls => true :: ls.map (fun l => !isCdx l)
  match mode with
  | .matching =>
    if (∀ l ∈ lines, isCdx l = true ∧ some l = lines.head?) ∨ (∀ l ∈ lines, isCdx l = false)
    then some once else Option.none
  | .require => if ∀ l ∈ lines, isCdx l = true ∧ some l = lines.head? then some once else Option.none
  | .strip => some (lines.map fun l => !isCdx l)
  | .none => if ∀ l ∈ lines, isCdx l = false then some (lines.map fun _ => true) else Option.none
  | .trust => some once
  | .ignore => some (lines.map fun _ => true)

/-- A line usable as the first line of a file under `mode`: non-empty, and if it carries the CDX tag then
it is newline terminated and passes the validity test. -/
def FirstLineOk (nameOk : Bytes → Bool) (mode : HeaderMode) (l : Bytes) : Prop :=
  l ≠ [] ∧ (isCdx l = true → l.getLast? = some NL) ∧ isValidCdx nameOk mode l ≠ Option.none

/-- Full statement: the checker implements the documented policy. -/
def C12_statement : Prop :=
  ∀ (nameOk : Bytes → Bool) (mode : HeaderMode) (lines : List Bytes),
    (∀ l ∈ lines, FirstLineOk nameOk mode l) →
    (HeaderChecker.fromMode mode).checkAll nameOk lines = headerPolicy mode lines

/-- ` CDX\ta\n` -/
private def hdrA : Bytes := [32, 67, 68, 88, 9, 97, NL]
/-- ` CDX\tb\n` -/
private def hdrB : Bytes := [32, 67, 68, 88, 9, 98, NL]

/-- None: a header in the first file is accepted and written. -/
theorem C12_refuted : ¬ C12_statement := by
  intro h
  have := h (fun _ => true) .none [hdrA] (by unfold FirstLineOk; decide)
  exact absurd this (by decide)

/-- Strip: a header in the first file is an error instead of being removed. -/
theorem C12_refuted_strip : (HeaderChecker.fromMode .strip).checkAll (fun _ => true) [hdrA] ≠
    headerPolicy .strip [hdrA] := by decide

/-- Require: headers that differ are accepted. -/
theorem C12_refuted_require : (HeaderChecker.fromMode .require).checkAll (fun _ => true) [hdrA, hdrB] ≠
    headerPolicy .require [hdrA, hdrB] := by decide

/-! ### What holds -/

theorem isValidCdx_eq {nameOk : Bytes → Bool} {mode : HeaderMode} {l : Bytes}
    (h : isValidCdx nameOk mode l ≠ Option.none) :
    isValidCdx nameOk mode l = some (if mode = .ignore then false else isCdx l) := by
  unfold isValidCdx at h ⊢
  by_cases h1 : mode = .ignore
  · simp [h1]
  · simp only [h1, if_false] at h ⊢
    by_cases h2 : isCdx l = false
    · simp [h2]
    · have h2' : isCdx l = true := by simpa using h2
      grind

/-- `check` on an acceptable line, after the first file. -/
theorem check_later {nameOk : Bytes → Bool} {c : HeaderChecker} {l : Bytes}
    (hs : c.sawOne = true) (h : FirstLineOk nameOk c.mode l) :
    c.check nameOk l =
      match c.mode with
      | .matching =>
        if isCdx l = true then (if c.head ≠ [] ∧ l = c.head then some (c, false) else Option.none)
        else (if c.head = [] then some (c, true) else Option.none)
      | .require => if isCdx l = true then some (c, false) else Option.none
      | .strip | .trust => some (c, !isCdx l)
      | .none => if isCdx l = true then Option.none else some (c, true)
      | .ignore => some (c, true) := by
  obtain ⟨h1, h2, h3⟩ := h
  unfold HeaderChecker.check
  rw [isValidCdx_eq h3]
  cases hm : c.mode <;> cases hc : isCdx l <;> simp_all
  by_cases h : c.head = [] <;> by_cases h' : l = c.head <;> simp_all

/-- `check` on an acceptable first line. -/
theorem check_first {nameOk : Bytes → Bool} {mode : HeaderMode} {l : Bytes}
    (h : FirstLineOk nameOk mode l) :
    (HeaderChecker.fromMode mode).check nameOk l =
      if isCdx l = true then
        if mode = .strip then Option.none
        else if mode = .ignore then some (⟨mode, [], true⟩, true)
        else some (⟨mode, l, true⟩, true)
      else if mode = .require then Option.none else some (⟨mode, [], true⟩, true) := by
  obtain ⟨h1, h2, h3⟩ := h
  unfold HeaderChecker.check
  have : (HeaderChecker.fromMode mode).mode = mode := rfl
  rw [this, isValidCdx_eq h3]
  cases mode <;> cases hc : isCdx l <;> simp_all [HeaderChecker.fromMode]

/-- What happens after the first file. -/
theorem checkAll_later (nameOk : Bytes → Bool) (c : HeaderChecker) (hs : c.sawOne = true)
    (lines : List Bytes) (h : ∀ l ∈ lines, FirstLineOk nameOk c.mode l) :
    c.checkAll nameOk lines =
      match c.mode with
      | .matching =>
        if (c.head = [] ∧ ∀ l ∈ lines, isCdx l = false) ∨
          (c.head ≠ [] ∧ ∀ l ∈ lines, isCdx l = true ∧ l = c.head)
        then some (lines.map fun l => !isCdx l) else Option.none
      | .require =>
        if ∀ l ∈ lines, isCdx l = true then some (lines.map fun _ => false) else Option.none
      | .strip | .trust => some (lines.map fun l => !isCdx l)
      | .none =>
        if ∀ l ∈ lines, isCdx l = false then some (lines.map fun _ => true) else Option.none
      | .ignore => some (lines.map fun _ => true) := by
  induction lines with
  | nil =>
    cases hm : c.mode <;> simp [HeaderChecker.checkAll]
  | cons l ls ih =>
    have ih := ih (fun x hx => h x (List.mem_cons_of_mem _ hx))
    unfold HeaderChecker.checkAll
    rw [check_later hs (h l (List.mem_cons_self ..))]
    cases hm : c.mode <;> simp only [hm] at ih ⊢
    · cases hc : isCdx l
      · by_cases hh : c.head = []
        · by_cases ha : ∀ x ∈ ls, isCdx x = false
          · simp_all
          · simp_all
        · simp_all
      · by_cases hh : c.head ≠ [] ∧ l = c.head
        · by_cases ha : ∀ x ∈ ls, isCdx x = true ∧ x = c.head
          · simp_all
          · have : ¬ ∀ x ∈ l :: ls, isCdx x = true ∧ x = c.head := fun h =>
              ha fun x hx => h x (List.mem_cons_of_mem _ hx)
            simp [hh.1, ha] at ih
            simp [hh.1, ha, ih, hh.2]
        · by_cases h0 : c.head = []
          · simp_all
          · simp_all
    · cases hc : isCdx l <;> by_cases ha : ∀ x ∈ ls, isCdx x = true <;> simp_all
    · simp_all
    · cases hc : isCdx l <;> by_cases ha : ∀ x ∈ ls, isCdx x = false <;> simp_all
    · simp_all
    · simp_all

/-- The situations in which the code departs from the documented policy: Strip with a header in
the first file, None with a header in the first file only, Require with headers that are not all the same. -/
def PolicyException (mode : HeaderMode) (lines : List Bytes) : Prop :=
  match mode with
  | .strip => ∃ l, lines.head? = some l ∧ isCdx l = true
  | .none => (∃ l, lines.head? = some l ∧ isCdx l = true) ∧ ∀ l ∈ lines.tail, isCdx l = false
  | .require => (∀ l ∈ lines, isCdx l = true) ∧ ∃ l ∈ lines, some l ≠ lines.head?
  | _ => False

/-- Outside the exceptions the documented policy is implemented, for every sequence of first lines.
Missing from the full statement: exactly the exceptions, where it is false. -/
theorem C12_policy_partial (nameOk : Bytes → Bool) (mode : HeaderMode) (lines : List Bytes)
    (hok : ∀ l ∈ lines, FirstLineOk nameOk mode l) (hex : ¬ PolicyException mode lines) :
    (HeaderChecker.fromMode mode).checkAll nameOk lines = headerPolicy mode lines := by
  cases lines with
  | nil => cases mode <;> simp [HeaderChecker.checkAll, headerPolicy]
  | cons l ls =>
    have h1 := hok l (List.mem_cons_self ..)
    have h2 : ∀ x ∈ ls, FirstLineOk nameOk mode x := fun x hx => hok x (List.mem_cons_of_mem _ hx)
    have hl : l ≠ [] := h1.1
    unfold HeaderChecker.checkAll
    rw [check_first h1]
    have later := fun hd => checkAll_later nameOk ⟨mode, hd, true⟩ rfl ls h2
    cases mode <;> cases hc : isCdx l <;> simp only [PolicyException] at hex <;>
      simp [headerPolicy, later, hc, hl]
    case require.true =>
      by_cases ha : ∀ x ∈ ls, isCdx x = true
      · have hb : ∀ x ∈ ls, x = l := by
          simp [hc] at hex
          exact hex ha
        have hab : ∀ x ∈ ls, isCdx x = true ∧ x = l := fun x hx => ⟨ha x hx, hb x hx⟩
        rw [if_pos ha, if_pos hab]
        simpa using ha
      · have : ¬ ∀ x ∈ ls, isCdx x = true ∧ x = l := fun h => ha fun x hx => (h x hx).1
        rw [if_neg ha, if_neg this]
    case strip.true => simp [hc] at hex
    case none.true => simpa [hc] using hex
    all_goals grind

/-- In the exceptional situations the code's answer always differs from the documented one, so the
condition in `C12_policy_partial` cannot be weakened. -/
theorem C12_exceptions_exact (nameOk : Bytes → Bool) (mode : HeaderMode) (lines : List Bytes)
    (hok : ∀ l ∈ lines, FirstLineOk nameOk mode l) (hex : PolicyException mode lines) :
    (HeaderChecker.fromMode mode).checkAll nameOk lines ≠ headerPolicy mode lines := by
  cases lines with
  | nil => cases mode <;> simp [PolicyException] at hex
  | cons l ls =>
    have h1 := hok l (List.mem_cons_self ..)
    have h2 : ∀ x ∈ ls, FirstLineOk nameOk mode x := fun x hx => hok x (List.mem_cons_of_mem _ hx)
    have hl : l ≠ [] := h1.1
    unfold HeaderChecker.checkAll
    rw [check_first h1]
    have later := fun hd => checkAll_later nameOk ⟨mode, hd, true⟩ rfl ls h2
    cases mode <;> cases hc : isCdx l <;>
      simp [headerPolicy, later, PolicyException, hc] at hex ⊢
    · obtain ⟨ha, y, hy, hne⟩ := hex
      have : ¬ ∀ x ∈ ls, isCdx x = true ∧ x = l := fun h => hne (h y hy).2
      rw [if_pos ha, if_neg this]; simp
    · exact hex

/-- A malformed header anywhere makes the run fail under Match, Require and Trust. -/
theorem C12_malformed_rejected (nameOk : Bytes → Bool) (c : HeaderChecker) (lines : List Bytes)
    (l : Bytes) (hm : c.mode = .matching ∨ c.mode = .require ∨ c.mode = .trust) (hl : l ∈ lines)
    (hbad : isValidCdx nameOk c.mode l = Option.none) :
    c.checkAll nameOk lines = Option.none := by
  induction lines generalizing c with
  | nil => simp at hl
  | cons x xs ih =>
    unfold HeaderChecker.checkAll
    rcases List.mem_cons.1 hl with rfl | hx
    · simp [HeaderChecker.check, hbad]
    · cases h : c.check nameOk x with
      | none => rfl
      | some p =>
        obtain ⟨c', b⟩ := p
        have hmode : c'.mode = c.mode := by
          unfold HeaderChecker.check at h
          grind
        simp only
        rw [ih c' (by rw [hmode]; exact hm) hx (by rw [hmode]; exact hbad)]
        rfl

example : FirstLineOk (fun n => n ≠ []) .matching hdrA ∧ FirstLineOk (fun n => n ≠ []) .matching [97, NL] ∧
    ¬ PolicyException .require [hdrA, hdrA] ∧ isValidCdx (fun n => n ≠ []) .trust [32, 67, 68, 88, 9, NL] = Option.none := by
  unfold FirstLineOk PolicyException; decide

end Cdx
