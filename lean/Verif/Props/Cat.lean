import Verif.Model.Cat
import Verif.Props.Header
import Verif.Props.Uniq

/-!
C52: `cat` writes all lines of all files.
-/

namespace Cdx

/-! ## Copying -/

/-- The first line of a file, as it is. -/
def firstLine (f : Bytes) : Bytes := (readUntil NL f).1

/-- The lines of a file, each ended with a newline. -/
abbrev termLines (f : Bytes) : List Bytes := readLines .plain NL f

/-- What is to be written for files, given which first lines are to be. -/
def catText : List Bytes → List Bool → Bytes
  | f :: fs, b :: bs => (if b then termLines f else (termLines f).tail).flatten ++ catText fs bs
  | _, _ => []

/-- The files with content. -/
def nonEmpty (files : List Bytes) : List Bytes := files.filter fun f => !f.isEmpty

/-- Full statement: files are copied, the first lines as the header policy says, each line ended with a newline. -/
def C52_statement : Prop :=
  ∀ (nameOk : Bytes → Bool) (mode : HeaderMode) (files : List Bytes),
    (∀ f ∈ nonEmpty files, FirstLineOk nameOk mode (firstLine f)) → ∀ flags,
    headerPolicy mode ((nonEmpty files).map firstLine) = some flags →
    ¬ PolicyException mode ((nonEmpty files).map firstLine) →
    catFast nameOk .all (.fromMode mode) true files = some (catText (nonEmpty files) flags)

/-- The second line of the first file, not ended, runs into the next file. -/
theorem C52_refuted : ¬ C52_statement := by
  intro h
  have := h (fun _ => true) .matching [ascii "a\nb", ascii "c\n"]
    (by unfold FirstLineOk; decide +kernel) [true, true] (by decide +kernel) (by simp [PolicyException])
  exact absurd this (by decide +kernel)

theorem C52_refuted_joined :
    catFast (fun _ => true) .all (.fromMode .matching) true [ascii "a\nb", ascii "c\n"] = some (ascii "a\nbc\n") := by
  decide +kernel

/-- A first line that is not written is a header and ends with a newline. -/
theorem check_dropped {nameOk : Bytes → Bool} {c c' : HeaderChecker} {l : Bytes} (hl : l ≠ [])
    (h : c.check nameOk l = some (c', false)) : l.getLast? = some NL := by
  unfold HeaderChecker.check at h
  cases hv : isValidCdx nameOk c.mode l with
  | none => simp [hv] at h
  | some cdx =>
    simp only [hv, hl, if_false] at h
    by_cases hn : l.getLast? = some NL
    · exact hn
    · exfalso
      cases cdx with
      | true => simp [hn] at h
      | false =>
        simp only [Bool.false_eq_true, and_false, if_false] at h
        cases hs : c.sawOne with
        | false => simp [hs] at h
        | true =>
          simp only [hs, if_true] at h
          cases hm : c.mode <;> simp [hm] at h

theorem readUntil_rest (b : UInt8) (f : Bytes) (h : (readUntil b f).2 ≠ []) : (readUntil b f).1.getLast? = some b := by
  induction f with
  | nil => simp [readUntil] at h
  | cons x xs ih =>
    unfold readUntil at h ⊢
    split
    · rename_i hx
      simp [hx]
    · rename_i hx
      rw [if_neg hx] at h
      simp only at h
      have := ih h
      rw [List.getLast?_cons, this]
      simp

theorem termLines_eq (f : Bytes) (hf : f ≠ []) :
    termLines f = ensureEof NL (firstLine f) :: termLines (readUntil NL f).2 := by
  have h1 : (readUntil NL f).1 ≠ [] := by
    cases f with
    | nil => exact absurd rfl hf
    | cons x xs => unfold readUntil; split <;> simp
  exact readLines_some .plain NL f _ _ (by simp [readLine, h1, firstLine])

theorem termLines_flatten (f : Bytes) (hf : f.getLast? = some NL ∨ f = []) : (termLines f).flatten = f := by
  rw [termLines, C09_lossless]
  unfold withFinalEol
  rcases hf with hf | hf <;> simp [hf]

/-- What a file has to be like to be copied well: its last line is ended, or is its only line. -/
def EndedOrShort (f : Bytes) : Prop := f.getLast? = some NL ∨ (readUntil NL f).2 = []

theorem catFast_checkAll (nameOk : Bytes → Bool) (pad : PadMode) (files : List Bytes) :
    ∀ (c : HeaderChecker) (flags : List Bool), c.checkAll nameOk ((nonEmpty files).map firstLine) = some flags →
      (∀ f ∈ nonEmpty files, f.getLast? = some NL ∨ (pad = .all ∧ (readUntil NL f).2 = [])) →
      catFast nameOk pad c true files = some (catText (nonEmpty files) flags) := by
  induction files with
  | nil =>
    intro c flags h _
    simp [nonEmpty, catFast, catText]
  | cons f fs ih =>
    intro c flags h he
    by_cases hf : f = []
    · subst hf
      simp only [nonEmpty, List.filter_cons, List.isEmpty_nil, Bool.not_true, Bool.false_eq_true, if_false] at h he ⊢
      rw [catFast]
      exact ih c flags h he
    · have hne : nonEmpty (f :: fs) = f :: nonEmpty fs := by
        simp [nonEmpty, hf]
      rw [hne] at h he ⊢
      have h1 : firstLine f ≠ [] := by
        cases f with
        | nil => exact absurd rfl hf
        | cons x xs => unfold firstLine readUntil; split <;> simp
      simp only [List.map_cons, HeaderChecker.checkAll] at h
      cases hc : c.check nameOk (firstLine f) with
      | none => simp [hc] at h
      | some p =>
        obtain ⟨c', b⟩ := p
        simp only [hc, Option.map_eq_some_iff] at h
        obtain ⟨bs, hbs, rfl⟩ := h
        have ih := ih c' bs hbs fun g hg => he g (by simp [hg])
        have hsplit : firstLine f ++ (readUntil NL f).2 = f := readUntil_append NL f
        have hr1 : (readUntil NL f).1 = firstLine f := rfl
        rw [catFast]
        simp only [hr1, h1, if_false, hc]
        simp only [catText, termLines_eq f hf, List.tail_cons]
        have hlast : (if (readUntil NL f).2 = [] then (if b then (firstLine f).getLast? == some NL else true)
            else (firstLine f).getLast? == some NL) =
            ((firstLine f).getLast? == some NL || !b) := by
          by_cases hr : (readUntil NL f).2 = []
          · cases b <;> simp [hr]
          · simp [hr, readUntil_rest NL f hr, firstLine]
        have hdrop : b = false → (firstLine f).getLast? = some NL := by
          intro hb
          subst hb
          exact check_dropped h1 hc
        have hnl : ((firstLine f).getLast? == some NL || !b) = ((firstLine f).getLast? == some NL) := by
          cases b with
          | true => simp
          | false => simp [hdrop rfl]
        rw [hlast, hnl]
        by_cases hn : (firstLine f).getLast? = some NL
        · have hrest : (termLines (readUntil NL f).2).flatten = (readUntil NL f).2 := by
            refine termLines_flatten _ ?_
            rcases he f (by simp) with h | ⟨_, h⟩
            · rw [← hsplit, List.getLast?_append] at h
              cases hx : (readUntil NL f).2 with
              | nil => exact Or.inr rfl
              | cons y ys =>
                rw [hx] at h
                obtain ⟨z, hz⟩ : ∃ z, (y :: ys).getLast? = some z := ⟨_, List.getLast?_eq_some_getLast (by simp)⟩
                rw [hz] at h ⊢
                simp only [Option.some_or, Option.some.injEq] at h
                rw [h]
                exact Or.inl rfl
            · exact Or.inr h
          simp [hn, ih, ensureEof, hrest]
          cases b <;> simp [hrest]
        · have hb : b = true := by
            cases b with
            | true => rfl
            | false => exact absurd (hdrop rfl) hn
          have hr : (readUntil NL f).2 = [] := by
            cases hx : (readUntil NL f).2 with
            | nil => rfl
            | cons y ys => exact absurd (readUntil_rest NL f (by rw [hx]; simp)) hn
          have hp : pad = .all := by
            rcases he f (by simp) with h | ⟨h, _⟩
            · rw [← hsplit, hr, List.append_nil] at h
              exact absurd h hn
            · exact h
          rw [hp] at ih
          simp [hn, hb, hr, hp, ih, ensureEof, readLines_nil]

/-- Files whose last line is ended with a newline, or is the only one, are copied whole: the first lines as the header
policy says, each line ended with a newline. -/
theorem C52_copy_partial (nameOk : Bytes → Bool) (mode : HeaderMode) (files : List Bytes)
    (hok : ∀ f ∈ nonEmpty files, FirstLineOk nameOk mode (firstLine f)) (flags : List Bool)
    (hp : headerPolicy mode ((nonEmpty files).map firstLine) = some flags)
    (hx : ¬ PolicyException mode ((nonEmpty files).map firstLine)) (he : ∀ f ∈ nonEmpty files, EndedOrShort f) :
    catFast nameOk .all (.fromMode mode) true files = some (catText (nonEmpty files) flags) := by
  refine catFast_checkAll nameOk .all files _ flags ?_ fun f hf => ?_
  · rw [← hp]
    refine C12_policy_partial nameOk mode _ ?_ hx
    intro l hl
    obtain ⟨f, hf, rfl⟩ := List.mem_map.1 hl
    exact hok f hf
  · rcases he f hf with h | h
    · exact Or.inl h
    · exact Or.inr ⟨rfl, h⟩

/-- When each file ends with a newline the padding makes no difference. -/
theorem C52_copy_any_pad_partial (nameOk : Bytes → Bool) (pad : PadMode) (mode : HeaderMode) (files : List Bytes)
    (hok : ∀ f ∈ nonEmpty files, FirstLineOk nameOk mode (firstLine f)) (flags : List Bool)
    (hp : headerPolicy mode ((nonEmpty files).map firstLine) = some flags)
    (hx : ¬ PolicyException mode ((nonEmpty files).map firstLine)) (he : ∀ f ∈ nonEmpty files, f.getLast? = some NL) :
    catFast nameOk pad (.fromMode mode) true files = some (catText (nonEmpty files) flags) := by
  refine catFast_checkAll nameOk pad files _ flags ?_ fun f hf => Or.inl (he f hf)
  rw [← hp]
  refine C12_policy_partial nameOk mode _ ?_ hx
  intro l hl
  obtain ⟨f, hf, rfl⟩ := List.mem_map.1 hl
  exact hok f hf

/-- The condition on the last line is needed: a longer file without a final newline is not given one. -/
theorem C52_pad_missing (nameOk : Bytes → Bool) (pad : PadMode) (f : Bytes) (c c' : HeaderChecker) (b : Bool)
    (hc : c.check nameOk (firstLine f) = some (c', b)) (hr : (readUntil NL f).2 ≠ []) (hn : f.getLast? ≠ some NL) :
    catFast nameOk pad c true [f] = some ((if b then firstLine f else []) ++ (readUntil NL f).2) ∧
      (((if b then firstLine f else []) ++ (readUntil NL f).2).getLast? ≠ some NL) := by
  have h1 : firstLine f ≠ [] := by
    cases f with
    | nil => simp [readUntil] at hr
    | cons x xs => unfold firstLine readUntil; split <;> simp
  have hl : (firstLine f).getLast? = some NL := readUntil_rest NL f hr
  constructor
  · have hr1 : (readUntil NL f).1 = firstLine f := rfl
    rw [catFast]
    simp only [hr1, h1, if_false, hc, hl, hr]
    simp [catFast]
  · have hsplit : firstLine f ++ (readUntil NL f).2 = f := readUntil_append NL f
    rw [← hsplit, List.getLast?_append] at hn
    rw [List.getLast?_append]
    obtain ⟨z, hz⟩ : ∃ z, (readUntil NL f).2.getLast? = some z := ⟨_, List.getLast?_eq_some_getLast hr⟩
    rw [hz] at hn ⊢
    simpa using hn

example : catFast (fun _ => true) .all (.fromMode .matching) true
    [ascii " CDX\tx\na\n", [], ascii " CDX\tx\n", ascii " CDX\tx\nb\n"] = some (ascii " CDX\tx\na\nb\n") := by
  decide +kernel
example : catFast (fun _ => true) .all (.fromMode .matching) true [ascii "a", ascii "b\nc\n"] = some (ascii "a\nb\nc\n") := by
  decide +kernel
example : ∀ f ∈ nonEmpty [ascii " CDX\tx\na\n", [], ascii " CDX\tx\n"],
    FirstLineOk (fun _ => true) .matching (firstLine f) ∧ f.getLast? = some NL := by
  unfold FirstLineOk; decide +kernel

end Cdx
