import Verif.Model.Text
import Verif.Spec.Text

/-!
Glob matching: C13, C14.
-/

namespace Cdx

section
variable {α : Type} [DecidableEq α] (ce : α → α → Bool) (star : α)

theorem globTail_iff (w : List α) : globTail star w = true ↔ GlobMatch ce star w [] := by
  induction w with
  | nil => simp [globTail, GlobMatch.nil]
  | cons x xs ih =>
    by_cases h : x = star
    · subst h
      simp only [globTail, if_true, ih]
      constructor
      · exact GlobMatch.starSkip xs []
      · intro h; cases h; assumption
    · simp only [globTail, h, if_false, Bool.false_eq_true, false_iff]
      intro h'; cases h'; exact h rfl

/-- A star matches whatever a suffix of the text makes the rest match. -/
theorem GlobMatch.star_suffix {ps ts us : List α} (h : us <:+ ts) (hm : GlobMatch ce star ps us) :
    GlobMatch ce star (star :: ps) ts := by
  induction ts with
  | nil =>
    rw [List.suffix_nil.1 h] at hm
    exact .starSkip _ _ hm
  | cons t ts ih =>
    rcases List.suffix_cons_iff.1 h with rfl | h'
    · exact .starSkip _ _ hm
    · exact .starEat _ _ _ (ih h')

theorem globHead_spec (text pat : List α) :
    match globHead ce star text pat with
    | none => ¬ GlobMatch ce star pat text
    | some (b, w) => (GlobMatch ce star w b ↔ GlobMatch ce star pat text) ∧
        (b = [] ∨ w = [] ∨ ∃ ws, w = star :: ws) ∧ (star ∉ pat → star ∉ w) := by
  induction text generalizing pat with
  | nil => simp [globHead]
  | cons t ts ih =>
    cases pat with
    | nil => simp [globHead]
    | cons p ps =>
      unfold globHead
      by_cases h : p = star
      · subst h; simp
      · simp only [h, if_false]
        by_cases hc : ce p t = true
        · simp only [hc, if_true]
          have := ih ps
          have hiff : GlobMatch ce star (p :: ps) (t :: ts) ↔ GlobMatch ce star ps ts := by
            constructor
            · intro h'; cases h' <;> simp_all
            · exact .char p ps t ts h hc
          split at this
          · rename_i heq; simp only [heq, hiff]; exact this
          · rename_i b w heq
            simp only [heq, hiff]
            refine ⟨this.1, this.2.1, fun hs => this.2.2 ?_⟩
            simp only [List.mem_cons, not_or] at hs; exact hs.2
        · simp only [hc]
          intro h'; cases h' <;> simp_all

/-- Soundness of the main loop. -/
theorem globLoop_sound (G : Prop) (fuel : Nat) (buff wild cp mp : List α)
    (h1 : GlobMatch ce star wild buff → G)
    (h2 : buff = [] ∨ (∃ ws, wild = star :: ws) ∨ ∀ t, t <:+ cp → GlobMatch ce star mp t → G)
    (h : globLoop ce star fuel buff wild cp mp = .yes) : G := by
  induction fuel generalizing buff wild cp mp with
  | zero => simp [globLoop] at h
  | succ fuel ih =>
    cases buff with
    | nil =>
      simp only [globLoop, GlobRes.ofBool] at h
      split at h
      · rename_i ht; exact h1 ((globTail_iff ce star wild).1 ht)
      · simp at h
    | cons b bs =>
      have back : (∀ ws, wild ≠ star :: ws) → ∀ c cs, cp = c :: cs →
          globLoop ce star fuel cs mp cs mp = .yes → G := by
        intro hns c cs hcp hl
        have h3 : ∀ t, t <:+ cp → GlobMatch ce star mp t → G := by
          rcases h2 with h2 | ⟨ws, hw⟩ | h2
          · simp at h2
          · exact absurd hw (hns ws)
          · exact h2
        subst hcp
        refine ih cs mp cs mp (fun hm => h3 cs (List.suffix_cons ..) hm) ?_ hl
        exact Or.inr (Or.inr fun t ht hm => h3 t (ht.trans (List.suffix_cons ..)) hm)
      cases wild with
      | nil =>
        simp only [globLoop] at h
        cases cp with
        | nil => simp at h
        | cons c cs => exact back (by simp) c cs rfl h
      | cons w ws =>
        simp only [globLoop] at h
        by_cases hw : w = star
        · subst hw
          simp only [if_true] at h
          have hstar : ∀ t, t <:+ b :: bs → GlobMatch ce w ws t → G := fun t ht hm =>
            h1 (GlobMatch.star_suffix ce w ht hm)
          by_cases hws : ws = []
          · subst hws
            exact hstar [] (List.nil_suffix ..) .nil
          · simp only [hws, if_false] at h
            refine ih (b :: bs) ws bs ws (fun hm => hstar _ (List.suffix_refl _) hm) ?_ h
            exact Or.inr (Or.inr fun t ht hm => hstar t (ht.trans (List.suffix_cons ..)) hm)
        · simp only [hw, if_false] at h
          by_cases hc : ce w b = true
          · simp only [hc, if_true] at h
            refine ih bs ws cp mp (fun hm => h1 (.char w ws b bs hw hc hm)) ?_ h
            rcases h2 with h2 | ⟨ws', h2⟩ | h2
            · simp at h2
            · simp only [List.cons.injEq] at h2; exact absurd h2.1 hw
            · exact Or.inr (Or.inr h2)
          · simp only [hc] at h
            cases cp with
            | nil => simp at h
            | cons c cs =>
              exact back (by intro ws' hh; simp only [List.cons.injEq] at hh; exact hw hh.1) c cs rfl h

/-- Soundness: a reported match is a match, for any notion of character equality. -/
theorem C14_glob_sound (text pat : List α) (h : glob ce star text pat = .yes) :
    GlobMatch ce star pat text := by
  unfold glob at h
  have hs := globHead_spec ce star text pat
  split at h
  · simp at h
  · rename_i buff wild heq
    rw [heq] at hs
    simp only at hs
    split at h
    · simp at h
    · rename_i hne
      refine globLoop_sound ce star _ _ buff wild [] [] hs.1.1 ?_ h
      rcases hs.2.1 with hb | hw | hw
      · exact Or.inl hb
      · left
        by_cases hb : buff = []
        · exact hb
        · exact absurd ⟨hw, hb⟩ hne
      · exact Or.inr (Or.inl hw)

/-- Without a star in the pattern the answer is exact (and there is no panic). -/
theorem C14_glob_exact_no_star (text pat : List α) (hp : star ∉ pat) :
    (glob ce star text pat = .yes ↔ GlobMatch ce star pat text) ∧
      (glob ce star text pat = .no ↔ ¬ GlobMatch ce star pat text) := by
  unfold glob
  have hs := globHead_spec ce star text pat
  split
  · rename_i heq; rw [heq] at hs; simp only at hs; simp [hs]
  · rename_i buff wild heq
    rw [heq] at hs
    simp only at hs
    have hnw := hs.2.2 hp
    by_cases h : wild = [] ∧ buff ≠ []
    · rw [if_pos h]
      have : ¬ GlobMatch ce star pat text := by
        rw [← hs.1, h.1]
        intro hm; cases hm; exact h.2 rfl
      simp [this]
    · simp only [h, if_false]
      have hb : buff = [] := by
        rcases hs.2.1 with hb | hw | ⟨ws, hw⟩
        · exact hb
        · by_cases hb : buff = []
          · exact hb
          · exact absurd ⟨hw, hb⟩ h
        · rw [hw] at hnw; simp at hnw
      subst hb
      simp only [globLoop, GlobRes.ofBool]
      have := globTail_iff ce star wild
      rw [hs.1] at this
      by_cases ht : globTail star wild = true
      · simp [ht, this.1 ht]
      · have hn : ¬ GlobMatch ce star pat text := fun hm => ht (this.2 hm)
        simp [ht, hn]

/-- The loop always finishes: the fuel given in the model is enough. -/
theorem globLoop_fuel (N P K : Nat) (hP : N ≤ P) (hK : N * P < K) (fuel : Nat)
    (buff wild cp mp : List α)
    (hb : buff.length ≤ N) (hc : cp.length ≤ N) (hw : wild.length ≤ mp.length)
    (hf : mp.length * K + cp.length * P + buff.length < fuel) :
    globLoop ce star fuel buff wild cp mp ≠ .noFuel := by
  induction fuel generalizing buff wild cp mp with
  | zero => omega
  | succ fuel ih =>
    cases buff with
    | nil =>
      simp only [globLoop, GlobRes.ofBool]
      split <;> simp
    | cons b bs =>
      simp only [List.length_cons] at hb hf
      have back : ∀ c cs, cp = c :: cs → globLoop ce star fuel cs mp cs mp ≠ .noFuel := by
        rintro c cs rfl
        simp only [List.length_cons] at hc hf
        refine ih cs mp cs mp (by omega) (by omega) (Nat.le_refl _) ?_
        rw [Nat.add_mul cs.length] at hf
        omega
      cases wild with
      | nil =>
        simp only [globLoop]
        cases cp with
        | nil => simp
        | cons c cs => exact back c cs rfl
      | cons w ws =>
        simp only [List.length_cons] at hw
        simp only [globLoop]
        split
        · split
          · simp
          · refine ih (b :: bs) ws bs ws (by simpa using hb) (by omega) (Nat.le_refl _) ?_
            have h0 : (ws.length + 1) * K ≤ mp.length * K := Nat.mul_le_mul_right _ hw
            rw [Nat.add_mul] at h0
            have h1 : bs.length * P ≤ N * P := Nat.mul_le_mul_right _ (by omega)
            simp only [List.length_cons]
            omega
        · split
          · exact ih bs ws cp mp (by omega) hc (by omega) (by omega)
          · cases cp with
            | nil => simp
            | cons c cs => exact back c cs rfl

end

/-- Full statement C13: the answer is exact. -/
def C13_statement : Prop :=
  ∀ (insens : Bool) (text pat : Bytes),
    (globU8 text pat insens = .yes ↔ GlobMatch (charsEqual insens) 42 pat text) ∧
      globU8 text pat insens ≠ .panic

/-- `f.txt` is not matched by `*.txt`. -/
theorem C13_refuted : ¬ C13_statement := by
  intro h
  have h1 : GlobMatch (charsEqual false) 42 [42, 46, 116, 120, 116] [102, 46, 116, 120, 116] :=
    .starEat _ _ _ (.starSkip _ _ (.char _ _ _ _ (by decide) (by decide)
      (.char _ _ _ _ (by decide) (by decide) (.char _ _ _ _ (by decide) (by decide)
        (.char _ _ _ _ (by decide) (by decide) .nil)))))
  have := (h false [102, 46, 116, 120, 116] [42, 46, 116, 120, 116]).1.2 h1
  exact absurd this (by decide)

/-- Matching `a` against `*b` panics. -/
theorem C13_refuted_panic : globU8 [97] [42, 98] false = .panic := by decide

/-- The answer is exact when the pattern has no star, or its only star is the last character. Missing
from the full statement: stars followed by other characters, where it is false in general; there a reported
match is still right (`C14_glob_sound`). -/
theorem C13_glob_exact_partial {α : Type} [DecidableEq α] (ce : α → α → Bool) (star : α)
    (text lit : List α) (hl : star ∉ lit) (pat : List α) (hp : pat = lit ∨ pat = lit ++ [star]) :
    (glob ce star text pat = .yes ↔ GlobMatch ce star pat text) ∧ glob ce star text pat ≠ .panic ∧
      glob ce star text pat ≠ .noFuel := by
  rcases hp with rfl | rfl
  · have := C14_glob_exact_no_star ce star text pat hl
    refine ⟨this.1, ?_⟩
    by_cases hm : GlobMatch ce star pat text
    · simp [this.1.2 hm]
    · simp [this.2.2 hm]
  · have key : ∀ (text lit : List α), star ∉ lit →
        match globHead ce star text (lit ++ [star]) with
        | none => True
        | some (b, w) => b = [] ∨ w = [star] := by
      intro text
      induction text with
      | nil => intro lit _; simp [globHead]
      | cons t ts ih =>
        intro lit hl
        cases lit with
        | nil => simp [globHead]
        | cons p ps =>
          simp only [List.mem_cons, not_or] at hl
          simp only [List.cons_append, globHead, Ne.symm hl.1, if_false]
          by_cases hc : ce p t = true
          · simp only [hc, if_true]; exact ih ps hl.2
          · simp [hc]
    have hs := globHead_spec ce star text (lit ++ [star])
    have hk := key text lit hl
    unfold glob
    split
    · rename_i heq; rw [heq] at hs; simp only at hs; simp [hs]
    · rename_i buff wild heq
      rw [heq] at hs hk
      simp only at hs hk
      rw [← hs.1]
      by_cases hb : buff = []
      · subst hb
        simp only [ne_eq, not_true_eq_false, and_false, if_false, globLoop, GlobRes.ofBool]
        rw [← globTail_iff ce star wild]
        cases globTail star wild <;> simp
      · have hw : wild = [star] := by
          rcases hk with h | h
          · exact absurd h hb
          · exact h
        subst hw
        cases buff with
        | nil => exact absurd rfl hb
        | cons b bs =>
          simp only [List.cons_ne_nil, false_and, if_false, globLoop, if_true]
          refine ⟨⟨fun _ => ?_, fun _ => trivial⟩, by simp, by simp⟩
          exact GlobMatch.star_suffix ce star (List.nil_suffix ..) .nil

/-- The loop of the model never runs out of fuel, so a `no` answer or a panic is the real outcome. -/
theorem C14_glob_terminates {α : Type} [DecidableEq α] (ce : α → α → Bool) (star : α)
    (text pat : List α) : glob ce star text pat ≠ .noFuel := by
  unfold glob
  split
  · simp
  · rename_i buff wild heq
    split
    · simp
    · rename_i hne
      cases hb : buff with
      | nil =>
        simp only [globLoop, GlobRes.ofBool]
        split <;> simp
      | cons b bs =>
        have hs := globHead_spec ce star text pat
        rw [heq, hb] at hs
        simp only at hs
        rcases hs.2.1 with h | h | ⟨ws, h⟩
        · simp at h
        · exact absurd ⟨h, by simp [hb]⟩ hne
        · subst h
          simp only [globLoop, if_true]
          split
          · simp
          · refine globLoop_fuel ce star (bs.length + 1) (bs.length + 3)
              ((bs.length + 3) * (bs.length + 3)) (by omega) ?_ _ _ _ _ _ (by simp) (by omega)
              (Nat.le_refl _) ?_
            · exact Nat.mul_lt_mul_of_pos_right (by omega) (by omega)
            · simp only [List.length_cons]
              have h1 : bs.length * (bs.length + 3) + (bs.length + 3) =
                  (bs.length + 1) * (bs.length + 3) := by rw [Nat.add_mul]; omega
              have h2 : (bs.length + 1) * (bs.length + 3) + 2 * (bs.length + 3) =
                  (bs.length + 3) * (bs.length + 3) := by rw [← Nat.add_mul]
              rw [show bs.length + 1 + 2 = bs.length + 3 from rfl, Nat.mul_assoc, Nat.add_mul (ws.length + 1),
                Nat.add_mul ws.length]
              omega

example : (42 : UInt8) ∉ ([97, 63] : Bytes) ∧ globU8 [97, 98, 99] [97, 63, 42] false = .yes ∧
    globU8 [65, 98] [97, 66] true = .yes ∧ globU8 [65, 98] [97, 66] false = .no := by decide

/-- Single characters: `?` matches every byte, another pattern byte itself, and without regard to case also the other
case of an ASCII letter. The letters are given here by their codes: 65-90 and 97-122. -/
theorem C14_single_characters (insens : Bool) (p t : UInt8) :
    charsEqual insens p t = true ↔
      p = 63 ∨ p = t ∨ (insens = true ∧ ((65 ≤ p ∧ p ≤ 90 ∧ t = p + 32) ∨ (65 ≤ t ∧ t ≤ 90 ∧ p = t + 32))) := by
  have hl : ∀ c : UInt8, (lowerByte c).toNat = if 65 ≤ c.toNat ∧ c.toNat ≤ 90 then c.toNat + 32 else c.toNat := by
    intro c
    unfold lowerByte
    have e1 : (65 : UInt8).toNat = 65 := rfl
    have e2 : (90 : UInt8).toNat = 90 := rfl
    have e3 : (32 : UInt8).toNat = 32 := rfl
    simp only [UInt8.le_iff_toNat_le, e1, e2]
    split
    · rw [UInt8.toNat_add, e3]; omega
    · rfl
  have hp := p.toNat_lt
  have ht := t.toNat_lt
  unfold charsEqual
  have e : ∀ a b : UInt8, a = b ↔ a.toNat = b.toNat := fun a b => UInt8.toNat_inj.symm
  by_cases h1 : p = t
  · simp [h1]
  · rw [if_neg h1]
    by_cases h2 : p = 63
    · simp [h2]
    · rw [if_neg h2]
      cases insens
      · simp [h1, h2]
      · simp only [Bool.true_eq_false, if_false, decide_eq_true_eq, h1, h2, false_or, true_and]
        have e1 : (65 : UInt8).toNat = 65 := rfl
        have e2 : (90 : UInt8).toNat = 90 := rfl
        have e3 : (32 : UInt8).toNat = 32 := rfl
        rw [e] at h1
        simp only [e, hl, UInt8.le_iff_toNat_le, e1, e2, UInt8.toNat_add, e3]
        split <;> split <;> omega

end Cdx
