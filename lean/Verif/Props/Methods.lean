import Verif.Props.Match
import Verif.Props.Regex
import Verif.Props.Transpose

/-!
C76 methods, C78 matching against the lines of a file.
-/

namespace Cdx

/-! ## Helpers -/

theorem hasInfix_iff (p v : Bytes) : hasInfix p v = true ↔ p <:+: v := by
  induction v with
  | nil => simp [hasInfix]
  | cons x xs ih => simp [hasInfix, List.infix_cons_iff, ih]

theorem dropWhile_prefix_of_head {s : UInt8 → Bool} {p r : Bytes} (hp : ∃ c t, p = c :: t ∧ s c = false) :
    (p ++ r).dropWhile s = p ++ r := by
  obtain ⟨c, t, rfl, hc⟩ := hp
  simp [hc]

theorem dropWhile_skip {s : UInt8 → Bool} {a : Bytes} (h : ∀ c ∈ a, s c = true) (r : Bytes) :
    (a ++ r).dropWhile s = r.dropWhile s := by
  induction a with
  | nil => rfl
  | cons x a ih =>
    rw [List.cons_append, List.dropWhile_cons_of_pos (h x (by simp))]
    exact ih fun c hc => h c (by simp [hc])

theorem dropWhile_append_stop {s : UInt8 → Bool} (r : Bytes) {q : Bytes} (hq : ∃ c t, q = c :: t ∧ s c = false) :
    ∃ t, (r ++ q).dropWhile s = t ++ q := by
  induction r with
  | nil => exact ⟨[], by simpa using dropWhile_prefix_of_head (r := []) hq⟩
  | cons x r ih =>
    by_cases hx : s x = true
    · rw [List.cons_append, List.dropWhile_cons_of_pos hx]
      exact ih
    · rw [List.cons_append, List.dropWhile_cons_of_neg hx]
      exact ⟨x :: r, rfl⟩

theorem dropWhile_split (s : UInt8 → Bool) (v : Bytes) :
    ∃ a, v = a ++ v.dropWhile s ∧ ∀ c ∈ a, s c = true := by
  refine ⟨v.takeWhile s, List.takeWhile_append_dropWhile.symm, ?_⟩
  intro c hc
  have : ∀ v : Bytes, ∀ c ∈ v.takeWhile s, s c = true := by
    intro v
    induction v with
    | nil => simp
    | cons x v ih =>
      intro c hc
      by_cases hx : s x = true
      · rw [List.takeWhile_cons_of_pos hx, List.mem_cons] at hc
        exact hc.elim (fun h => h ▸ hx) (ih c)
      · rw [List.takeWhile_cons_of_neg hx] at hc
        simp at hc
  exact this v c hc

/-- What is left after trimming, with what was cut off. -/
theorem trimw_split (v : Bytes) : ∃ a b, v = a ++ trimw v ++ b ∧ BlankText a ∧ BlankText b := by
  obtain ⟨a, h1, h2⟩ := dropWhile_split (· ≤ 32) v
  obtain ⟨b, h3, h4⟩ := dropWhile_split (· ≤ 32) (v.dropWhile (· ≤ 32)).reverse
  refine ⟨a, b.reverse, ?_, ?_, ?_⟩
  · have : v.dropWhile (· ≤ 32) = trimw v ++ b.reverse := by
      rw [trimw, ← List.reverse_append, ← h3, List.reverse_reverse]
    rw [List.append_assoc, ← this]
    exact h1
  · intro c hc
    simpa using h2 c hc
  · intro c hc
    simpa using h4 c (by simpa using hc)

theorem trimw_eq_nil (v : Bytes) : trimw v = [] ↔ BlankText v := by
  constructor
  · intro h
    obtain ⟨a, b, h1, h2, h3⟩ := trimw_split v
    rw [h] at h1
    intro c hc
    rw [h1] at hc
    simp only [List.append_nil, List.mem_append] at hc
    exact hc.elim (h2 c) (h3 c)
  · intro h
    have := dropWhile_skip (s := (· ≤ 32)) (a := v) (fun c hc => by simpa using h c hc) []
    rw [List.append_nil] at this
    rw [trimw, this]
    rfl

/-- The pattern neither starts nor ends with a blank. -/
def Solid (p : Bytes) : Prop := (∃ c t, p = c :: t ∧ 32 < c) ∧ (∃ c t, p = t ++ [c] ∧ 32 < c)

theorem trimw_prefix (p v : Bytes) (hp : Solid p) : p <+: trimw v ↔ CommentText p v := by
  constructor
  · rintro ⟨r, h⟩
    obtain ⟨a, b, h1, h2, _⟩ := trimw_split v
    exact ⟨a, r ++ b, by rw [h1, ← h]; simp, h2⟩
  · rintro ⟨w, r, rfl, hw⟩
    obtain ⟨⟨c, t, e1, hc⟩, ⟨c', t', e2, hc'⟩⟩ := hp
    have n1 : decide (c ≤ 32) = false := by simpa using hc
    have n2 : decide (c' ≤ 32) = false := by simpa using hc'
    rw [trimw, List.append_assoc, dropWhile_skip (fun c hc => by simpa using hw c hc),
      dropWhile_prefix_of_head ⟨c, t, e1, n1⟩, List.reverse_append]
    obtain ⟨t2, h⟩ := dropWhile_append_stop (s := (· ≤ 32)) r.reverse (q := p.reverse)
      ⟨c', t'.reverse, by rw [e2]; simp, n2⟩
    rw [h]
    exact ⟨t2.reverse, by simp⟩

theorem dropWhile_dropWhile (s : UInt8 → Bool) (v : Bytes) : (v.dropWhile s).dropWhile s = v.dropWhile s := by
  induction v with
  | nil => rfl
  | cons x v ih =>
    by_cases hx : s x = true
    · rw [List.dropWhile_cons_of_pos hx, ih]
    · rw [List.dropWhile_cons_of_neg hx, List.dropWhile_cons_of_neg hx]

theorem trimw_trimw (v : Bytes) : trimw (trimw v) = trimw v := by
  generalize hs : (fun c : UInt8 => decide (c ≤ 32)) = s
  have e : ∀ w, trimw w = ((w.dropWhile s).reverse.dropWhile s).reverse := by
    intro w
    rw [← hs]
    rfl
  rw [e v]
  generalize hu : v.dropWhile s = u
  have hus : u.dropWhile s = u := by rw [← hu, dropWhile_dropWhile]
  rw [e]
  -- the front of what is left is the front of `u`
  have h1 : ((u.reverse.dropWhile s).reverse).dropWhile s = (u.reverse.dropWhile s).reverse := by
    cases hw : (u.reverse.dropWhile s).reverse with
    | nil => rfl
    | cons c w =>
      obtain ⟨a, h2, _⟩ := dropWhile_split s u.reverse
      have h3 : u = (u.reverse.dropWhile s).reverse ++ a.reverse := by
        rw [← List.reverse_append, ← h2, List.reverse_reverse]
      rw [hw] at h3
      have hc : s c = false := by
        cases hsc : s c with
        | false => rfl
        | true =>
          exfalso
          have h4 := dropWhile_skip (s := s) (a := [c]) (fun x hx => by
            rw [List.mem_singleton.1 hx]; exact hsc) (w ++ a.reverse)
          have h5 : u = c :: (w ++ a.reverse) := by rw [h3]; rfl
          have h6 : ([c] ++ (w ++ a.reverse)) = u := by rw [h5]; rfl
          rw [h6, hus] at h4
          have h7 := congrArg List.length h4
          have h8 : ((w ++ a.reverse).dropWhile s).length ≤ (w ++ a.reverse).length :=
            (List.dropWhile_suffix s).length_le
          rw [h5] at h7
          simp only [List.length_cons] at h7
          omega
      rw [List.dropWhile_cons_of_neg (by simp [hc])]
  rw [h1, List.reverse_reverse, dropWhile_dropWhile]

/-! ## C76 -/

/-- The matcher exists, and its decisions are the given ones. -/
def Decides (env : MEnv) (method pattern : Bytes) (accepts : Bytes → Prop) : Prop :=
  ∃ m, Matcher.make2 env method pattern = .ok m ∧
    ∀ v, ∃ b, m.doMatch env v = .ok b ∧ m.doMatchSafe env v = .ok b ∧ (b = true ↔ accepts v)

theorem Decides.congr {env : MEnv} {M p : Bytes} {a b : Bytes → Prop} (h : Decides env M p a) (hab : ∀ v, a v ↔ b v) :
    Decides env M p b := by
  obtain ⟨m, h1, h2⟩ := h
  refine ⟨m, h1, fun v => ?_⟩
  obtain ⟨x, h3, h4, h5⟩ := h2 v
  exact ⟨x, h3, h4, h5.trans (hab v)⟩

theorem decides_one {env : MEnv} {M p : Bytes} {k : MKind} {f : MFlags} {t : Bytes → Bool}
    (h : Matcher.make2 env M p = .ok ⟨f, .one k⟩) (hs : f.string = false) (hu : ∀ w, k.umatch env w = .ok (t w)) :
    Decides env M p fun v => let w := if f.trim then trimw v else v; (f.empty = true ∧ w = []) ∨ t w = true := by
  refine ⟨_, h, fun v => ?_⟩
  simp only [Matcher.doMatch, Matcher.doMatchSafe, hs, Bool.false_eq_true, if_false, Matcher.umatch, MFlags.apply, hu]
  generalize (if f.trim = true then trimw v else v) = w
  by_cases hc : (f.empty && w == []) = true
  · refine ⟨true, by rw [if_pos hc], by rw [if_pos hc], ?_⟩
    simp only [Bool.and_eq_true, beq_iff_eq] at hc
    simp [hc]
  · refine ⟨t w, by rw [if_neg hc], by rw [if_neg hc], ?_⟩
    simp only [Bool.and_eq_true, beq_iff_eq] at hc
    simp [hc]

theorem decides_hard {env : MEnv} {M p : Bytes} {k : MKind} {f : MFlags} {t : Bytes → Bool}
    (h : Matcher.make2 env M p = .ok ⟨f, .one k⟩) (hs : f.string = false ∧ f.trim = false ∧ f.empty = false)
    (hu : ∀ w, k.umatch env w = .ok (t w)) : Decides env M p fun v => t v = true := by
  refine (decides_one h hs.1 hu).congr fun v => ?_
  simp [hs.2.1, hs.2.2]

theorem decides_soft {env : MEnv} {M p : Bytes} {k : MKind} {f : MFlags} {t : Bytes → Bool}
    (h : Matcher.make2 env M p = .ok ⟨f, .one k⟩) (hs : f.string = false ∧ f.trim = true ∧ f.empty = true)
    (hu : ∀ w, k.umatch env w = .ok (t w)) : Decides env M p fun v => BlankText v ∨ t (trimw v) = true := by
  refine (decides_one h hs.1 hu).congr fun v => ?_
  simp [hs.2.1, hs.2.2, trimw_eq_nil]

/-- The methods without modifiers accept exactly what they are named for. -/
theorem C76_plain (env : MEnv) : ∀ x ∈ plainMethods, ∀ p, Decides env x.1 p (x.2 p) := by
  intro x hx p
  simp only [plainMethods, List.mem_cons, List.not_mem_nil, or_false] at hx
  rcases hx with rfl | rfl | rfl | rfl | rfl | rfl | rfl | rfl | rfl
  · exact (decides_hard (k := .pre p) (t := fun w => p.isPrefixOf w) rfl ⟨rfl, rfl, rfl⟩ fun _ => rfl).congr fun v => by
      simp
  · exact (decides_hard (k := .suf p) (t := fun w => p.isSuffixOf w) rfl ⟨rfl, rfl, rfl⟩ fun _ => rfl).congr fun v => by
      simp
  · exact (decides_hard (k := .inf p) (t := hasInfix p) rfl ⟨rfl, rfl, rfl⟩ fun _ => rfl).congr fun v => by
      simp [hasInfix_iff]
  · exact (decides_hard (k := .inf p) (t := hasInfix p) rfl ⟨rfl, rfl, rfl⟩ fun _ => rfl).congr fun v => by
      simp [hasInfix_iff]
  · exact (decides_hard (k := .inf p) (t := hasInfix p) rfl ⟨rfl, rfl, rfl⟩ fun _ => rfl).congr fun v => by
      simp [hasInfix_iff]
  · exact (decides_hard (k := .exact p) (t := fun w => p == w) rfl ⟨rfl, rfl, rfl⟩ fun _ => rfl).congr fun v => by
      simp only [beq_iff_eq]
      exact eq_comm
  · exact (decides_hard (k := .yes) (t := fun _ => true) rfl ⟨rfl, rfl, rfl⟩ fun _ => rfl).congr fun v => by
      simp
  · exact (decides_hard (k := .length 0 (some 0)) (t := fun w => lengthOk 0 (some 0) w.length) rfl ⟨rfl, rfl, rfl⟩ fun _ => rfl).congr fun v => by
      simp [lengthOk]
  · exact (decides_soft (k := .no) (t := fun _ => false) rfl ⟨rfl, rfl, rfl⟩ fun _ => rfl).congr fun v => by
      simp

/-- C76 in full. -/
def C76_statement : Prop :=
  ∀ env : MEnv, (∀ x ∈ plainMethods ++ caseMethods, ∀ p, Decides env x.1 p (x.2 p)) ∧
    (∀ p, Solid p → Decides env (ascii "comment") p (CommentText p)) ∧
    Decides env (ascii "hash") [] (CommentText (ascii "#")) ∧ Decides env (ascii "slash") [] (CommentText (ascii "//"))

/-- A case-blind suffix with an empty pattern panics. -/
theorem C76_refuted : ¬ C76_statement := by
  intro h
  obtain ⟨m, h1, h2⟩ := (h MEnv.trivial).1 _ (List.mem_append.2 (.inr (.tail _ (.head _)))) []
  obtain ⟨b, h3, -, -⟩ := h2 [97]
  injection h1 with h1
  rw [← h1] at h3
  exact absurd h3 (by cases b <;> decide)

/-- `comment,#` accepts the empty value. -/
theorem C76_comment_refuted : ¬ Decides MEnv.trivial (ascii "comment") (ascii "#") (CommentText (ascii "#")) := by
  rintro ⟨m, h1, h2⟩
  obtain ⟨b, h3, -, h4⟩ := h2 []
  injection h1 with h1
  rw [← h1] at h3
  have hb : b = true := by
    cases b with
    | true => rfl
    | false => exact absurd h3 (by decide)
  obtain ⟨w, r, h5, -⟩ := h4.1 hb
  have := congrArg List.length h5
  have e : (ascii "#").length = 1 := by decide
  simp only [List.length_append, List.length_nil, e] at this
  omega

/-- `exact.utf8.case,A` does not accept `A`. -/
theorem C76_exact_utf8_refuted : ∃ m, Matcher.make2 MEnv.trivial (ascii "exact.utf8.case") (ascii "A") = .ok m ∧
    m.doMatch MEnv.trivial (ascii "A") = .ok false ∧ m.doMatch MEnv.trivial (ascii "a") = .ok true :=
  ⟨_, rfl, by decide, by decide⟩

/-- Ignoring case, the methods accept exactly what they are named for. Missing from the full statement: an empty pattern
for `suffix` (`C76_refuted`), and strings instead of bytes, where `exact` is wrong (`C76_exact_utf8_refuted`). -/
theorem C76_case_partial (env : MEnv) : ∀ x ∈ caseMethods, ∀ p, p ≠ [] → Decides env x.1 p (x.2 p) := by
  intro x hx p hp
  simp only [caseMethods, List.mem_cons, List.not_mem_nil, or_false] at hx
  rcases hx with rfl | rfl | rfl | rfl
  · exact (decides_hard (k := .preC p) (t := fun w => bcasePrefix w (lower p)) rfl ⟨rfl, rfl, rfl⟩ fun _ => rfl).congr
      fun v => C63_prefix v p
  · refine (decides_hard (k := .sufC p) (t := fun w => decide (lower p <:+ lower w)) rfl ⟨rfl, rfl, rfl⟩ fun w => ?_).congr
      fun v => by simp
    simp only [MKind.umatch, C63_suffix_partial w p hp]
  · exact (decides_hard (k := .infC p) (t := fun w => hasInfix (lower p) (lower w)) rfl ⟨rfl, rfl, rfl⟩
      fun _ => rfl).congr fun v => hasInfix_iff _ _
  · refine (decides_hard (k := .exactC p) (t := fun w => eqIgnoreCase w (lower p)) rfl ⟨rfl, rfl, rfl⟩
      fun _ => rfl).congr fun v => ?_
    simp only [eqIgnoreCase, beq_iff_eq]
    have : lower (lower p) = lower p := by
      simp only [lower, List.map_map]
      exact List.map_congr_left fun c _ => byte_forall (P := fun c => lowerByte (lowerByte c) = lowerByte c)
        (by decide +kernel) c
    rw [this]

/-- `comment`, `hash` and `slash` accept white space followed by the pattern, and blank values. Missing from the full
statement: blank values should not be accepted (`C76_comment_refuted`). -/
theorem C76_comment_partial (env : MEnv) :
    (∀ p, Solid p → Decides env (ascii "comment") p fun v => BlankText v ∨ CommentText p v) ∧
    (∀ p, Decides env (ascii "hash") p fun v => BlankText v ∨ CommentText (ascii "#") v) ∧
    (∀ p, Decides env (ascii "slash") p fun v => BlankText v ∨ CommentText (ascii "//") v) := by
  refine ⟨fun p hp => ?_, fun p => ?_, fun p => ?_⟩
  · exact (decides_soft (k := .pre p) (t := fun w => p.isPrefixOf w) rfl ⟨rfl, rfl, rfl⟩ fun _ => rfl).congr fun v => by
      rw [List.isPrefixOf_iff_prefix, trimw_prefix _ _ hp]
  · refine (decides_soft (k := .pre (ascii "#")) (t := fun w => (ascii "#").isPrefixOf w) rfl ⟨rfl, rfl, rfl⟩
      fun _ => rfl).congr fun v => ?_
    rw [List.isPrefixOf_iff_prefix, trimw_prefix (ascii "#") v ⟨⟨35, [], rfl, by decide⟩, ⟨35, [], rfl, by decide⟩⟩]
  · refine (decides_soft (k := .pre (ascii "//")) (t := fun w => (ascii "//").isPrefixOf w) rfl ⟨rfl, rfl, rfl⟩
      fun _ => rfl).congr fun v => ?_
    rw [List.isPrefixOf_iff_prefix, trimw_prefix (ascii "//") v ⟨⟨47, [47], rfl, by decide⟩, ⟨47, [47], rfl, by decide⟩⟩]

/-- The `length` method: at least the first number of bytes, and at most the second if there is one. -/
theorem C76_length (env : MEnv) (a b : Bytes) (n m : Nat) (ha : toUsizeWhole a = .ok n) (hb : toUsizeWhole b = .ok m)
    (ca : 44 ∉ a) (cb : 44 ∉ b) :
    (a ≠ [] → Decides env (ascii "length") a fun v => n ≤ v.length) ∧
    Decides env (ascii "length") (a ++ 44 :: b) fun v => n ≤ v.length ∧ v.length ≤ m := by
  have hk : ∀ p k, mkLength p = .ok k → ∃ f, Matcher.make2 env (ascii "length") p = .ok ⟨f, .one k⟩ ∧
      f.string = false ∧ f.trim = false ∧ f.empty = false := by
    intro p k h
    refine ⟨MFlags.ofMethod (ascii "length"), ?_, rfl, rfl, rfl⟩
    show ((mkLength p).bind fun k => .ok (MFlags.ofMethod (ascii "length"), k)).bind _ = _
    rw [h]
    rfl
  constructor
  · intro h0
    obtain ⟨f, h1, h2⟩ := hk a (.length n none) (by simp [mkLength, h0, sliceSplit_free 44 a ca, ha])
    refine (decides_hard (t := fun w => lengthOk n none w.length) h1 h2 fun _ => rfl).congr fun v => ?_
    simp only [lengthOk]
    split <;> simp <;> omega
  · have hsp : sliceSplit 44 (a ++ 44 :: b) = [a, b] := by
      have := sliceSplit_intercalate 44 [a, b] (by simp) (by simp [ca, cb])
      simpa [List.intercalate] using this
    obtain ⟨f, h1, h2⟩ := hk (a ++ 44 :: b) (.length n (some m)) (by simp [mkLength, hsp, ha, hb])
    refine (decides_hard (t := fun w => lengthOk n (some m) w.length) h1 h2 fun _ => rfl).congr fun v => ?_
    simp only [lengthOk]
    split <;> simp <;> omega

/-- The `glob` method reports only true matches, and is exact for patterns whose only star, if any, is the last
character. Missing: exactness for other patterns (C13). -/
theorem C76_glob_partial (env : MEnv) (p : Bytes) : ∃ m, Matcher.make2 env (ascii "glob") p = .ok m ∧
    (∀ v, m.doMatch env v = .ok true → GlobMatch (charsEqual false) 42 p v) ∧
    (∀ lit, 42 ∉ lit → (p = lit ∨ p = lit ++ [42]) → Decides env (ascii "glob") p (GlobMatch (charsEqual false) 42 p)) := by
  refine ⟨_, rfl, ?_, ?_⟩
  · intro v h
    refine C14_glob_sound _ _ v p ?_
    have h' : (globU8 v p false).toRes = .ok true := h
    cases hg : globU8 v p false with
    | yes => exact hg
    | no => rw [hg] at h'; simp [GlobRes.toRes] at h'
    | panic => rw [hg] at h'; simp [GlobRes.toRes] at h'
    | noFuel => rw [hg] at h'; simp [GlobRes.toRes] at h'
  · intro lit hl hp
    refine (decides_hard (k := .glob p false) (t := fun w => globU8 w p false == .yes) rfl ⟨rfl, rfl, rfl⟩
      fun w => ?_).congr fun v => ?_
    · have := C13_glob_exact_partial (charsEqual false) 42 w lit hl p hp
      simp only [MKind.umatch]
      have e : globU8 w p false = Cdx.glob (charsEqual false) 42 w p := rfl
      rw [e]
      cases hg : Cdx.glob (charsEqual false) 42 w p with
      | yes => rfl
      | no => rfl
      | panic => exact absurd hg this.2.1
      | noFuel => exact absurd hg this.2.2
    · have := C13_glob_exact_partial (charsEqual false) 42 v lit hl p hp
      rw [← this.1]
      simp only [beq_iff_eq]
      rfl

/-- The number-like methods accept the texts of `C77`. -/
theorem C76_numbers (env : MEnv) (p : Bytes) :
    Decides env (ascii "integer") p IntegerText ∧ Decides env (ascii "number") p NumberText ∧
    Decides env (ascii "float") p FloatText ∧ Decides env (ascii "ip") p IpText := by
  refine ⟨?_, ?_, ?_, ?_⟩
  · exact (decides_hard (k := .re integerRE) (t := integerRE.isMatch) rfl ⟨rfl, rfl, rfl⟩ fun _ => rfl).congr C77_integer
  · exact (decides_hard (k := .re numberRE) (t := numberRE.isMatch) rfl ⟨rfl, rfl, rfl⟩ fun _ => rfl).congr C77_number
  · exact (decides_hard (k := .re floatRE) (t := floatRE.isMatch) rfl ⟨rfl, rfl, rfl⟩ fun _ => rfl).congr C77_float
  · exact (decides_hard (k := .re ipRE) (t := ipRE.isMatch) rfl ⟨rfl, rfl, rfl⟩ fun _ => rfl).congr C77_ip

example : Solid (ascii "a b") ∧ toUsizeWhole (ascii "12") = .ok 12 ∧ 44 ∉ ascii "12" ∧ 42 ∉ ascii "ab?" ∧
    CommentText (ascii "#") (ascii "  # x") :=
  ⟨⟨⟨97, _, rfl, by decide⟩, ⟨98, [97, 32], by decide, by decide⟩⟩, by decide, by decide, by decide,
    ⟨[32, 32], [32, 120], by decide, by unfold BlankText; decide⟩⟩

/-! ## C78 -/

theorem readLines_split (t : Bytes) :
    sliceSplit NL (withFinalEol NL t) = (readLines .plain NL t).map List.dropLast ++ [[]] := by
  rw [← C09_lossless .plain NL t]
  have h := C09_each_line .plain NL t
  revert h
  generalize readLines .plain NL t = ls
  intro h
  induction ls with
  | nil => rfl
  | cons l ls ih =>
    obtain ⟨body, rfl, hb⟩ := h _ List.mem_cons_self
    obtain ⟨hd, tl, h1, h2⟩ := sliceSplit_append_free NL body ([NL] ++ ls.flatten) (hb (by decide))
    have h3 : sliceSplit NL ([NL] ++ ls.flatten) = [] :: sliceSplit NL ls.flatten := by simp [sliceSplit]
    rw [h3] at h1
    injection h1 with h4 h5
    rw [List.flatten_cons, List.append_assoc, h2, ← h4, ← h5, ih fun l hl => h l (List.mem_cons_of_mem _ hl)]
    simp

theorem mem_lines (t v : Bytes) (hv : v ≠ []) :
    v ∈ sliceSplit NL t ↔ ∃ l ∈ readLines .plain NL t, l.dropLast = v := by
  have h := readLines_split t
  have key : v ∈ sliceSplit NL (withFinalEol NL t) ↔ v ∈ sliceSplit NL t := by
    unfold withFinalEol
    split
    · rfl
    · rw [sliceSplit_snoc_delim]
      simp [hv]
  rw [← key, h]
  simp [hv]

theorem openReader_plain (t : Bytes) (h : isCdx t = false) : (openReader t).lines = readLines .plain NL t := by
  unfold openReader
  by_cases ht : t = []
  · subst ht
    rfl
  · simp only [readHeader, ht, if_false, TextMode.default, h, Bool.false_eq_true]
    cases readLines .plain NL t <;> rfl

theorem openReader_cdx (t : Bytes) (h : isCdx t = true) :
    (openReader t).lines = readLines .plain NL (readUntil NL t).2 := by
  have ht : t ≠ [] := by
    rintro rfl
    exact absurd h (by decide)
  have h1 : (readUntil NL t).1 ≠ [] := by rw [ne_eq, readUntil_nil_iff]; exact ht
  have h2 : readLine .plain NL t = some (ensureEof NL (readUntil NL t).1, (readUntil NL t).2) := by
    simp [readLine, h1]
  have h3 : ensureEof NL (readUntil NL t).1 ≠ [] := by
    unfold ensureEof
    split
    · exact h1
    · simp
  simp only [openReader, readHeader, ht, if_false, TextMode.default, h, if_true, h2, ne_eq, h3, not_false_eq_true]

theorem openReader_lines (t : Bytes) :
    (openReader t).lines = readLines .plain NL (if isCdx t then (readUntil NL t).2 else t) := by
  cases hc : isCdx t with
  | false => exact openReader_plain t hc
  | true => exact openReader_cdx t hc

/-- C78 in full: `file-exact` accepts the lines of the file. -/
def C78_statement : Prop :=
  ∀ (env : MEnv) (name t : Bytes), env.file name = .ok t →
    Decides env (ascii "file-exact") name fun v => v ++ [NL] ∈ readLines .plain NL t

/-- An empty line is not accepted. -/
theorem C78_refuted : ¬ C78_statement := by
  intro h
  obtain ⟨m, h1, h2⟩ := h { MEnv.trivial with file := fun _ => .ok (ascii "a\n\nb\n") } [] _ rfl
  obtain ⟨b, h3, -, h4⟩ := h2 []
  injection h1 with h1
  rw [← h1] at h3
  have hb : b = false := by
    cases b with
    | false => rfl
    | true => exact absurd h3 (by decide)
  have := h4.2 (by decide)
  rw [hb] at this
  exact absurd this (by decide)

/-- `file-exact` accepts exactly the non-empty lines after the header, if there is one; the last line need not be ended.
Missing from the full statement: empty lines (`C78_refuted`). -/
theorem C78_file_exact_partial (env : MEnv) (name t : Bytes) (h : env.file name = .ok t) :
    Decides env (ascii "file-exact") name fun v =>
      v ≠ [] ∧ v ∈ sliceSplit NL (if isCdx t then (readUntil NL t).2 else t) := by
  have hm : Matcher.make2 env (ascii "file-exact") name =
      .ok ⟨MFlags.ofMethod (ascii "file-exact"), .one (.file (loadSet t))⟩ := by
    show ((env.file name).bind _).bind _ = _
    rw [h]
    rfl
  refine (decides_hard (t := fun w => (loadSet t).contains w) hm ⟨rfl, rfl, rfl⟩ fun _ => rfl).congr fun v => ?_
  rw [List.contains_iff_mem, loadSet, openReader_lines]
  generalize (if isCdx t then (readUntil NL t).2 else t) = u
  by_cases hv : v = []
  · subst hv
    simp only [ne_eq, not_true_eq_false, false_and, iff_false, List.mem_map, List.mem_filter, decide_eq_true_eq]
    rintro ⟨l, ⟨h1, h2⟩, h3⟩
    have := congrArg List.length h3
    simp at this
    omega
  · rw [mem_lines u v hv]
    simp only [ne_eq, hv, not_false_eq_true, true_and, List.mem_map, List.mem_filter, decide_eq_true_eq]
    constructor
    · rintro ⟨l, ⟨h1, -⟩, h3⟩
      exact ⟨l, h1, h3⟩
    · rintro ⟨l, h1, h3⟩
      refine ⟨l, ⟨h1, ?_⟩, h3⟩
      have : 0 < v.length := List.length_pos_iff.2 hv
      rw [← h3, List.length_dropLast] at this
      omega

/-- The same ignoring case. -/
theorem C78_file_case_partial (env : MEnv) (name t : Bytes) (h : env.file name = .ok t) :
    Decides env (ascii "file-exact.case") name fun v =>
      v ≠ [] ∧ ∃ l ∈ sliceSplit NL (if isCdx t then (readUntil NL t).2 else t), lower l = lower v := by
  have hm : Matcher.make2 env (ascii "file-exact.case") name =
      .ok ⟨MFlags.ofMethod (ascii "file-exact.case"), .one (.fileC
        ((((openReader t).lines.filter fun l => l.length > 1).map
          fun l => if l.getLast? = some NL then l.dropLast else l).map lower))⟩ := by
    show ((env.file name).bind _).bind _ = _
    rw [h]
    rfl
  refine (decides_hard (t := fun w => ((((openReader t).lines.filter fun l => l.length > 1).map
          fun l => if l.getLast? = some NL then l.dropLast else l).map lower).contains (lower w)) hm ⟨rfl, rfl, rfl⟩
    fun _ => rfl).congr fun v => ?_
  have hl := C09_each_line .plain NL (if isCdx t then (readUntil NL t).2 else t)
  rw [List.contains_iff_mem, openReader_lines]
  generalize (if isCdx t then (readUntil NL t).2 else t) = u at hl ⊢
  have hlen : ∀ x : Bytes, (lower x).length = x.length := by simp [lower]
  simp only [List.map_map, List.mem_map, List.mem_filter, decide_eq_true_eq, Function.comp]
  constructor
  · rintro ⟨l, ⟨h1, h2⟩, h3⟩
    obtain ⟨b, rfl, hb⟩ := hl l h1
    simp only [List.getLast?_append, List.getLast?_singleton, Option.or, if_true, List.dropLast_concat] at h3
    have hb0 : b ≠ [] := by
      rintro rfl
      simp at h2
    refine ⟨?_, b, (mem_lines u b hb0).2 ⟨_, h1, by simp⟩, h3⟩
    rintro rfl
    have := hlen b
    rw [h3] at this
    exact hb0 (List.eq_nil_of_length_eq_zero this.symm)
  · rintro ⟨hv, b, h1, h2⟩
    have hb0 : b ≠ [] := by
      rintro rfl
      have := hlen v
      rw [← h2] at this
      exact hv (List.eq_nil_of_length_eq_zero this.symm)
    obtain ⟨l, h3, h4⟩ := (mem_lines u b hb0).1 h1
    obtain ⟨b', rfl, -⟩ := hl l h3
    rw [List.dropLast_concat] at h4
    subst h4
    refine ⟨_, ⟨h3, ?_⟩, ?_⟩
    · have := List.length_pos_iff.2 hb0
      simp only [List.length_append, List.length_cons, List.length_nil]
      omega
    · simpa using h2

example : sliceSplit NL (ascii "a\n\nb\n") = [ascii "a", [], ascii "b", []] ∧ isCdx (ascii "a\n\nb\n") = false := by
  decide

end Cdx
