import Verif.Props.Verbose

/-!
C174: making a matcher again.
-/

namespace Cdx

/-- Making a matcher again changes no flag, but for the methods that skip blanks: they turn on that and the acceptance of empty texts. What the
matcher was before does not matter, and a new matcher with the flags of a method becomes the matcher of this method. -/
theorem C174_remake (env : MEnv) (m : Matcher) (pattern : Bytes) :
    (∀ r, m.remake env pattern = .ok r →
      r.flags = if m.flags.ctype ∈ [ascii "blank", ascii "comment", ascii "hash", ascii "slash"] then { m.flags with trim := true, empty := true } else m.flags) ∧
    (∀ old, ({ m with body := old } : Matcher).remake env pattern = m.remake env pattern) ∧
    ∀ method, (MFlags.ofMethod method).multi = none → Matcher.make2 env method pattern = ({ m with flags := MFlags.ofMethod method } : Matcher).remake env pattern := by
  refine ⟨fun r h => ?_, fun _ => rfl, fun method h1 => ?_⟩
  · obtain ⟨k, hk, hk2⟩ := Res.bind_eq_ok h
    simp only [Res.ok.injEq] at hk2
    subst hk2
    show k.1 = _
    have d : ∀ n ∈ ["prefix", "float", "integer", "number", "ip", "regex", "range", "file-exact", "exact", "length", "yes", "suffix", "infix", "glob", "empty"],
        ascii n ∉ [ascii "blank", ascii "comment", ascii "hash", ascii "slash"] := by decide +kernel
    have hp : ∀ x : MKind, (.ok (m.flags, x) : Res (MFlags × MKind)) = .ok k → k.1 = m.flags := by
      intro x hx
      simp only [Res.ok.injEq] at hx
      rw [← hx]
    have hs : ∀ x : MKind, (.ok ({ m.flags with trim := true, empty := true }, x) : Res (MFlags × MKind)) = .ok k →
        k.1 = { m.flags with trim := true, empty := true } := by
      intro x hx
      simp only [Res.ok.injEq] at hx
      rw [← hx]
    have hb : ∀ {α : Type} (r : Res α) (g : α → MKind), (r.bind fun a => (.ok (m.flags, g a) : Res (MFlags × MKind))) = .ok k → k.1 = m.flags := by
      intro α r g hx
      obtain ⟨a, -, ha⟩ := Res.bind_eq_ok hx
      exact hp _ ha
    unfold makeKind at hk
    dsimp only at hk
    by_cases c : m.flags.ctype = ascii "prefix"
    · rw [if_neg (by rw [c]; exact d "prefix" (by decide))]
      rw [if_pos c] at hk
      exact hp _ hk
    rw [if_neg c] at hk
    clear c
    by_cases c : m.flags.ctype = ascii "float"
    · rw [if_neg (by rw [c]; exact d "float" (by decide))]
      rw [if_pos c] at hk
      exact hp _ hk
    rw [if_neg c] at hk
    clear c
    by_cases c : m.flags.ctype = ascii "integer"
    · rw [if_neg (by rw [c]; exact d "integer" (by decide))]
      rw [if_pos c] at hk
      exact hp _ hk
    rw [if_neg c] at hk
    clear c
    by_cases c : m.flags.ctype = ascii "number"
    · rw [if_neg (by rw [c]; exact d "number" (by decide))]
      rw [if_pos c] at hk
      exact hp _ hk
    rw [if_neg c] at hk
    clear c
    by_cases c : m.flags.ctype = ascii "ip"
    · rw [if_neg (by rw [c]; exact d "ip" (by decide))]
      rw [if_pos c] at hk
      exact hp _ hk
    rw [if_neg c] at hk
    clear c
    by_cases c : m.flags.ctype = ascii "regex"
    · rw [if_neg (by rw [c]; exact d "regex" (by decide))]
      rw [if_pos c] at hk
      exact hb _ _ hk
    rw [if_neg c] at hk
    clear c
    by_cases c : m.flags.ctype = ascii "range"
    · rw [if_neg (by rw [c]; exact d "range" (by decide))]
      rw [if_pos c] at hk
      exact hb _ _ hk
    rw [if_neg c] at hk
    clear c
    by_cases c : m.flags.ctype = ascii "file-exact"
    · rw [if_neg (by rw [c]; exact d "file-exact" (by decide))]
      rw [if_pos c] at hk
      obtain ⟨t, -, ht⟩ := Res.bind_eq_ok hk
      split at ht
      · exact hb _ _ ht
      · exact hp _ ht
    rw [if_neg c] at hk
    clear c
    by_cases c : m.flags.ctype = ascii "exact"
    · rw [if_neg (by rw [c]; exact d "exact" (by decide))]
      rw [if_pos c] at hk
      exact hp _ hk
    rw [if_neg c] at hk
    clear c
    by_cases c : m.flags.ctype = ascii "length"
    · rw [if_neg (by rw [c]; exact d "length" (by decide))]
      rw [if_pos c] at hk
      exact hb _ _ hk
    rw [if_neg c] at hk
    clear c
    by_cases c : m.flags.ctype = ascii "yes"
    · rw [if_neg (by rw [c]; exact d "yes" (by decide))]
      rw [if_pos c] at hk
      exact hp _ hk
    rw [if_neg c] at hk
    clear c
    by_cases c : m.flags.ctype = ascii "suffix"
    · rw [if_neg (by rw [c]; exact d "suffix" (by decide))]
      rw [if_pos c] at hk
      exact hp _ hk
    rw [if_neg c] at hk
    clear c
    by_cases c : m.flags.ctype = ascii "infix"
    · rw [if_neg (by rw [c]; exact d "infix" (by decide))]
      rw [if_pos c] at hk
      exact hp _ hk
    rw [if_neg c] at hk
    clear c
    by_cases c : m.flags.ctype = ascii "glob"
    · rw [if_neg (by rw [c]; exact d "glob" (by decide))]
      rw [if_pos c] at hk
      exact hp _ hk
    rw [if_neg c] at hk
    clear c
    by_cases c : m.flags.ctype = ascii "empty"
    · rw [if_neg (by rw [c]; exact d "empty" (by decide))]
      rw [if_pos c] at hk
      exact hp _ hk
    rw [if_neg c] at hk
    clear c
    by_cases c : m.flags.ctype = ascii "blank"
    · rw [if_pos (by rw [c]; decide)]
      rw [if_pos c] at hk
      exact hs _ hk
    rw [if_neg c] at hk
    clear c
    by_cases c : m.flags.ctype = ascii "comment"
    · rw [if_pos (by rw [c]; decide)]
      rw [if_pos c] at hk
      exact hs _ hk
    rw [if_neg c] at hk
    clear c
    by_cases c : m.flags.ctype = ascii "hash"
    · rw [if_pos (by rw [c]; decide)]
      rw [if_pos c] at hk
      exact hs _ hk
    rw [if_neg c] at hk
    clear c
    by_cases c : m.flags.ctype = ascii "slash"
    · rw [if_pos (by rw [c]; decide)]
      rw [if_pos c] at hk
      exact hs _ hk
    rw [if_neg c] at hk
    clear c
    cases hk
  · unfold Matcher.make2
    simp only [h1]
    rfl

/-- A matcher of texts that begin with a slash, made again, ignores blanks. -/
example : (⟨⟨ascii "slash", false, false, true, false, false, none⟩, .one .yes⟩ : Matcher).remake MEnv.trivial [] =
    .ok ⟨⟨ascii "slash", false, false, true, true, true, none⟩, .one (.pre (ascii "//"))⟩ := by rfl

end Cdx
