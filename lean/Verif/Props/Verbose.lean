import Verif.Model.Verbose
import Verif.Props.Match
import Verif.Props.GrepMain

/-!
Explanations of failed matches (C172 and C173), clones of matchers (C174), copying (C175) and the words for header modes (C176).
-/

namespace Cdx

/-! ## C172 -/

/-- The claim in full: whenever the quiet form has an answer, the verbose one has the same, and writes something exactly when the
answer is no. -/
def C172_statement : Prop :=
  ∀ (env : MEnv) (shown : LineTest → Bytes) (c : Combiner) (ts : List LineTest) (line : TextLine) (num : Nat) (fname : Bytes) (b : Bool),
    lineListOk env c ts line = .ok b →
      ∃ w, lineListOkVerbose env shown c ts line num fname = .ok (b, w) ∧ (w = [] ↔ b = true)

/-- "a" has not 5 columns: the quiet form says so and is done, the verbose one goes on to the glob "*b", which panics (see C13). -/
theorem C172_refuted : ¬ C172_statement := by
  intro h
  obtain ⟨w, hw, _⟩ := h MEnv.trivial (fun _ => []) .and [.count 5, .whole ⟨.default, .one (.glob [42, 98] false)⟩]
    ⟨[97, 10], [⟨0, 1⟩], []⟩ 1 [] false (by rfl)
  have e : lineListOkVerbose MEnv.trivial (fun _ => []) .and [.count 5, .whole ⟨.default, .one (.glob [42, 98] false)⟩]
    ⟨[97, 10], [⟨0, 1⟩], []⟩ 1 [] = .panic := by rfl
  rw [e] at hw
  cases hw

/-- What is to be written about one line that fails a test. -/
def complaint (shown : LineTest → Bytes) (line : TextLine) (num : Nat) (fname : Bytes) : LineTest → Bytes
  | .count n => ascii "Line " ++ decText num ++ ascii " of " ++ fname ++ ascii " had " ++ decText line.len
      ++ ascii " columns where " ++ decText n ++ ascii " were expected.\n"
  | t => ascii "Line " ++ decText num ++ ascii " of " ++ fname ++ ascii " failed to " ++ shown t ++ ascii "\n"

theorem okVerbose_answer (env : MEnv) (shown : LineTest → Bytes) (line : TextLine) (num : Nat) (fname : Bytes) (t : LineTest) (b : Bool)
    (h : t.ok env line = .ok b) :
    t.okVerbose env shown line num fname = .ok (b, if b then [] else complaint shown line num fname t) := by
  have nl : ascii "\n" = [NL] := by decide
  have we : ascii " were expected.\n" = ascii " were expected." ++ [NL] := by decide
  unfold LineTest.okVerbose
  rw [h]
  cases b
  · cases t <;>
      simp only [Res.bind_ok, Bool.not_false, if_true, complaint, failMessage, countMessage, nl, we, List.append_assoc, Bool.false_eq_true,
        if_false]
  · simp

/-- If every test has an answer for the line. With And: the answer is that of the quiet form, and one complaint is written for every
test that fails, in the order of the tests. With Or: one complaint if none of the tests says yes. -/
theorem C172_answers_partial (env : MEnv) (shown : LineTest → Bytes) (ts : List LineTest) (line : TextLine) (num : Nat) (fname : Bytes)
    (answer : LineTest → Bool) (h : ∀ t ∈ ts, t.ok env line = .ok (answer t)) :
    lineListOkVerbose env shown .and ts line num fname =
        .ok (ts.all answer, (ts.filter fun t => !answer t).flatMap (complaint shown line num fname)) ∧
      lineListOkVerbose env shown .or ts line num fname =
        .ok (ts.any answer, if ts.any answer then [] else
          ascii "Line " ++ decText num ++ ascii " of " ++ fname ++ ascii " failed to match OR matcher\n") := by
  constructor
  · have key : ∀ ret, okVerboseAnd env shown line num fname ret ts =
        .ok (ret && ts.all answer, (ts.filter fun t => !answer t).flatMap (complaint shown line num fname)) := by
      induction ts with
      | nil => intro ret; simp [okVerboseAnd]
      | cons t ts ih =>
        intro ret
        have ih := ih fun x hx => h x (by simp [hx])
        simp only [okVerboseAnd, okVerbose_answer env shown line num fname t _ (h t (by simp)), Res.bind_ok, ih]
        cases ha : answer t <;> simp [ha]
    have := key true
    rw [Bool.true_and] at this
    exact this
  · have fm : ascii " failed to match OR matcher\n" = ascii " failed to match OR matcher" ++ [NL] := by decide
    show okVerboseOr env line num fname ts = _
    induction ts with
    | nil => simp [okVerboseOr, orMessage, fm]
    | cons t ts ih =>
      have ih := ih fun x hx => h x (by simp [hx])
      simp only [okVerboseOr, h t (by simp), Res.bind_ok]
      cases ha : answer t
      · simp only [Bool.false_eq_true, if_false, ih, List.any_cons, ha, Bool.false_or]
      · simp [ha]

/-- The same as lines of the output: if neither the name of the file nor the texts of the matchers have line breaks, And writes as many
lines as tests fail, Or writes one line or none. -/
theorem C172_count_partial (env : MEnv) (shown : LineTest → Bytes) (c : Combiner) (ts : List LineTest) (line : TextLine) (num : Nat)
    (fname : Bytes) (answer : LineTest → Bool) (h : ∀ t ∈ ts, t.ok env line = .ok (answer t)) (hf : NL ∉ fname)
    (hs : ∀ t, NL ∉ shown t) :
    ∃ b w, lineListOkVerbose env shown c ts line num fname = .ok (b, w) ∧ lineListOk env c ts line = .ok b ∧ (w = [] ↔ b = true) ∧
      w.count NL = (match c with
        | .and => (ts.filter fun t => !answer t).length
        | .or => if b then 0 else 1) := by
  have hd : ∀ n, (decText n).count NL = 0 := fun n => List.count_eq_zero.2 (decText_free n NL (by decide))
  have hf' : fname.count NL = 0 := List.count_eq_zero.2 hf
  have one : ∀ t, (complaint shown line num fname t).count NL = 1 := by
    intro t
    have a1 : (ascii "Line ").count NL = 0 := by decide
    have a2 : (ascii " of ").count NL = 0 := by decide
    have a3 : (ascii " had ").count NL = 0 := by decide
    have a4 : (ascii " columns where ").count NL = 0 := by decide
    have a5 : (ascii " were expected.\n").count NL = 1 := by decide
    have a6 : (ascii " failed to ").count NL = 0 := by decide
    have a7 : (ascii "\n").count NL = 1 := by decide
    have a8 : (shown t).count NL = 0 := List.count_eq_zero.2 (hs t)
    cases t <;> simp only [complaint, List.count_append, hd, hf', a1, a2, a3, a4, a5, a6, a7, a8]
  have nonempty : ∀ t, complaint shown line num fname t ≠ [] := by
    intro t e
    have := one t
    rw [e] at this
    simp at this
  have hv := C172_answers_partial env shown ts line num fname answer h
  have hq := C57_lines env ts line answer h
  cases c with
  | and =>
    refine ⟨_, _, hv.1, ?_, ?_, ?_⟩
    · obtain ⟨b, hb⟩ := hq.2.2.2 .and
      rw [hb]
      congr 1
      rw [hb] at hq
      have := hq.1
      simp only [Res.ok.injEq] at this
      rw [Bool.eq_iff_iff, this, List.all_eq_true]
    · constructor
      · intro e
        rw [List.all_eq_true]
        intro t ht
        cases ha : answer t
        · have hm : t ∈ ts.filter fun t => !answer t := by simp [ht, ha]
          exact absurd (List.flatMap_eq_nil_iff.1 e t hm) (nonempty t)
        · rfl
      · intro e
        rw [List.all_eq_true] at e
        have : (ts.filter fun t => !answer t) = [] := by
          rw [List.filter_eq_nil_iff]
          intro t ht
          simp [e t ht]
        rw [this]
        rfl
    · clear hv hq h
      induction ts with
      | nil => rfl
      | cons t ts ih =>
        cases ha : answer t
        · rw [List.filter_cons_of_pos (by simp [ha]), List.flatMap_cons, List.count_append, one, ih, List.length_cons]
          exact Nat.add_comm _ _
        · rw [List.filter_cons_of_neg (by simp [ha])]
          exact ih
  | or =>
    refine ⟨_, _, hv.2, ?_, ?_, ?_⟩
    · obtain ⟨b, hb⟩ := hq.2.2.2 .or
      rw [hb]
      congr 1
      rw [hb] at hq
      have := hq.2.1
      simp only [Res.ok.injEq] at this
      rw [Bool.eq_iff_iff, this, List.any_eq_true]
    · cases ts.any answer
      · have : ascii "Line " ≠ [] := by decide
        simp [this]
      · simp
    · cases ts.any answer
      · have a1 : (ascii "Line ").count NL = 0 := by decide
        have a2 : (ascii " of ").count NL = 0 := by decide
        have a3 : (ascii " failed to match OR matcher\n").count NL = 1 := by decide
        simp only [Bool.false_eq_true, if_false, List.count_append, hd, hf', a1, a2, a3]
      · simp

example : (∀ t ∈ [LineTest.count 2, .count 3], t.ok MEnv.trivial (mergeLine (ascii "a\tb\n")) = .ok (match t with | .count n => n == 2 | _ => false)) ∧
    lineListOkVerbose MEnv.trivial (fun _ => []) .and [.count 2, .count 3] (mergeLine (ascii "a\tb\n")) 7 (ascii "f") =
      .ok (false, ascii "Line 7 of f had 2 columns where 3 were expected.\n") := by
  refine ⟨?_, ?_⟩
  · intro t ht
    simp only [List.mem_cons, List.not_mem_nil, or_false] at ht
    rcases ht with rfl | rfl <;> rfl
  · rfl

/-! ## C173 -/

/-- The claim in full ("print to stderr if fail"): something is written exactly when the match fails, that is when a match that is
wanted is not there, or one that is not wanted is. -/
def C173_statement : Prop :=
  ∀ (res negate : Bool) (buff shown : Bytes), (verboseMatch res negate buff shown).2 ≠ [] ↔ res = negate

/-- A wanted match that is there is reported as a failure. -/
theorem C173_refuted : ¬ C173_statement := by
  intro h
  have := (h true false [] []).1 (by decide)
  revert this
  decide

/-- What happens instead: always the wrong way round. The answer itself is the one of the quiet form. -/
theorem C173_inverted_partial (res negate : Bool) (buff shown : Bytes) :
    (verboseMatch res negate buff shown).1 = res ∧
      ((verboseMatch res negate buff shown).2 ≠ [] ↔ res ≠ negate) ∧
      (res ≠ negate → (verboseMatch res negate buff shown).2 =
        ascii (if negate then "Failed to not-match " else "Failed to match ") ++ buff ++ ascii " against " ++ shown ++ ascii "\n") := by
  have e1 : ascii "Failed to not-match " = ascii "Failed to " ++ ascii "not-" ++ ascii "match " := by decide
  have e2 : ascii "Failed to match " = ascii "Failed to " ++ ascii "match " := by decide
  have e3 : ascii "\n" = [NL] := by decide
  have e4 : ascii "Failed to " ≠ [] := by decide
  refine ⟨rfl, ?_, ?_⟩
  · cases res <;> cases negate <;> simp [verboseMatch, e4]
  · cases res <;> cases negate <;> simp [verboseMatch, notStr, e1, e2, e3]

example : (verboseMatch true false (ascii "x") (ascii "y")).2 = ascii "Failed to match x against y\n" := by decide

/-! ## C174 -/

/-- The claim in full: a clone gives the answers of the original. -/
def C174_statement : Prop :=
  ∀ (env : MEnv) (m : Matcher) (v : Bytes), m.clone.umatch env v = m.umatch env v

/-- The clone of an exact match for "a" accepts "b". -/
theorem C174_refuted : ¬ C174_statement := by
  intro h
  have := h MEnv.trivial ⟨.default, .one (.exact [97])⟩ [98]
  revert this
  decide

/-- A clone accepts every text, whatever the original is. -/
theorem C174_accepts_partial (env : MEnv) (m : Matcher) (v : Bytes) :
    m.clone.umatch env v = .ok true ∧ m.clone.smatch env v = .ok true ∧ m.clone.flags = m.flags := by
  refine ⟨?_, ?_, rfl⟩
  · unfold Matcher.umatch Matcher.clone MFlags.apply
    simp [MKind.umatch]
  · unfold Matcher.smatch Matcher.clone MFlags.apply
    simp [MKind.smatch]

theorem soft_again (env : MEnv) (f : MFlags) (p : Bytes) (c : Bytes) (hc : f.ctype = c)
    (hm : c = ascii "blank" ∨ c = ascii "comment" ∨ c = ascii "hash" ∨ c = ascii "slash") :
    makeKind env { f with trim := true, empty := true } p = makeKind env f p := by
  obtain ⟨ct, _, _, _, _, _, _⟩ := f
  cases hc
  rcases hm with h | h | h | h <;> (simp only at h; subst h; rfl)

/-- The makers set no more than two flags, and made again with the flags set they give the same. -/
theorem makeKind_again (env : MEnv) (f : MFlags) (p : Bytes) (k : MFlags × MKind) (h : makeKind env f p = .ok k) :
    makeKind env k.1 p = .ok k := by
  by_cases hs : k.1 = f
  · rw [hs]; exact h
  · have h0 := h
    unfold makeKind at h
    have hb : ∀ {α : Type} (x : Res α) (g : α → Res (MFlags × MKind)), (∀ a, g a = .ok k → False) → x.bind g = .ok k → False := by
      intro α x g hg hx
      cases x with
      | ok a => exact hg a hx
      | err => simp at hx
      | panic => simp at hx
    have ho : ∀ g : MKind, (.ok (f, g) : Res (MFlags × MKind)) = .ok k → False := by
      intro g hx
      simp only [Res.ok.injEq] at hx
      exact hs (by rw [← hx])
    have hsoft : ∀ (g : MKind) (c : Bytes), f.ctype = c →
        (c = ascii "blank" ∨ c = ascii "comment" ∨ c = ascii "hash" ∨ c = ascii "slash") →
        (.ok ({ f with trim := true, empty := true }, g) : Res (MFlags × MKind)) = .ok k → makeKind env k.1 p = .ok k := by
      intro g c hc hm hx
      simp only [Res.ok.injEq] at hx
      have : k.1 = { f with trim := true, empty := true } := by rw [← hx]
      rw [this, soft_again env f p c hc hm]
      exact h0
    dsimp only at h
    by_cases c0 : f.ctype = ascii "prefix"
    · rw [if_pos c0] at h
      exact (ho _ h).elim
    rw [if_neg c0] at h
    by_cases c1 : f.ctype = ascii "float"
    · rw [if_pos c1] at h
      exact (ho _ h).elim
    rw [if_neg c1] at h
    by_cases c2 : f.ctype = ascii "integer"
    · rw [if_pos c2] at h
      exact (ho _ h).elim
    rw [if_neg c2] at h
    by_cases c3 : f.ctype = ascii "number"
    · rw [if_pos c3] at h
      exact (ho _ h).elim
    rw [if_neg c3] at h
    by_cases c4 : f.ctype = ascii "ip"
    · rw [if_pos c4] at h
      exact (ho _ h).elim
    rw [if_neg c4] at h
    by_cases c5 : f.ctype = ascii "regex"
    · rw [if_pos c5] at h
      exact (hb _ _ (fun _ => ho _) h).elim
    rw [if_neg c5] at h
    by_cases c6 : f.ctype = ascii "range"
    · rw [if_pos c6] at h
      exact (hb _ _ (fun _ => ho _) h).elim
    rw [if_neg c6] at h
    by_cases c7 : f.ctype = ascii "file-exact"
    · rw [if_pos c7] at h
      refine (hb _ _ (fun t ht => ?_) h).elim
      cases hi : f.insens
      · rw [hi, if_neg (by decide)] at ht
        exact ho _ ht
      · rw [hi, if_pos rfl] at ht
        exact hb _ _ (fun _ => ho _) ht
    rw [if_neg c7] at h
    by_cases c8 : f.ctype = ascii "exact"
    · rw [if_pos c8] at h
      exact (ho _ h).elim
    rw [if_neg c8] at h
    by_cases c9 : f.ctype = ascii "length"
    · rw [if_pos c9] at h
      exact (hb _ _ (fun _ => ho _) h).elim
    rw [if_neg c9] at h
    by_cases c10 : f.ctype = ascii "yes"
    · rw [if_pos c10] at h
      exact (ho _ h).elim
    rw [if_neg c10] at h
    by_cases c11 : f.ctype = ascii "suffix"
    · rw [if_pos c11] at h
      exact (ho _ h).elim
    rw [if_neg c11] at h
    by_cases c12 : f.ctype = ascii "infix"
    · rw [if_pos c12] at h
      exact (ho _ h).elim
    rw [if_neg c12] at h
    by_cases c13 : f.ctype = ascii "glob"
    · rw [if_pos c13] at h
      exact (ho _ h).elim
    rw [if_neg c13] at h
    by_cases c14 : f.ctype = ascii "empty"
    · rw [if_pos c14] at h
      exact (ho _ h).elim
    rw [if_neg c14] at h
    by_cases c15 : f.ctype = ascii "blank"
    · rw [if_pos c15] at h
      exact hsoft _ _ c15 (.inl rfl) h
    rw [if_neg c15] at h
    by_cases c16 : f.ctype = ascii "comment"
    · rw [if_pos c16] at h
      exact hsoft _ _ c16 (.inr (.inl rfl)) h
    rw [if_neg c16] at h
    by_cases c17 : f.ctype = ascii "hash"
    · rw [if_pos c17] at h
      exact hsoft _ _ c17 (.inr (.inr (.inl rfl))) h
    rw [if_neg c17] at h
    by_cases c18 : f.ctype = ascii "slash"
    · rw [if_pos c18] at h
      exact hsoft _ _ c18 (.inr (.inr (.inr rfl))) h
    rw [if_neg c18] at h
    cases h

/-- A clone made again with the pattern is the original, for every matcher of one pattern. -/
theorem C174_remade_partial (env : MEnv) (method pattern : Bytes) (m : Matcher) (hm : Matcher.make2 env method pattern = .ok m)
    (h1 : (MFlags.ofMethod method).multi = none) : m.clone.remake env pattern = .ok m := by
  unfold Matcher.make2 at hm
  simp only [h1] at hm
  obtain ⟨k, hk, hk2⟩ := Res.bind_eq_ok hm
  simp only [Res.ok.injEq] at hk2
  subst hk2
  show (makeKind env k.1 pattern).bind _ = _
  rw [makeKind_again env _ _ _ hk]
  rfl

example : Matcher.make2 MEnv.trivial (ascii "hash") [] = .ok ⟨⟨ascii "hash", false, false, false, true, true, none⟩, .one (.pre (ascii "#"))⟩ ∧
    (MFlags.ofMethod (ascii "hash")).multi = none := ⟨by rfl, by rfl⟩

/-! ## C175 -/

/-- Everything read is written, in order: whatever the sizes of the reads, if there is no error. -/
theorem C175_copied (data : Bytes) (reads : List Bytes) (hr : ∀ c ∈ reads, c ≠ [] ∧ c.length ≤ 16 * 1024) (hd : reads.flatten = data) :
    copyAll (reads.map some) = (data, true) ∧ copyAll (reads.map some ++ [some []]) = (data, true) := by
  have key : ∀ (reads : List Bytes) (buff : Bytes) (tail : List (Option Bytes)), (∀ c ∈ reads, c ≠ []) →
      (∀ b, copyLoop b tail = ([], true)) → copyLoop buff (reads.map some ++ tail) = (reads.flatten, true) := by
    intro reads
    induction reads with
    | nil => intro buff tail _ ht; exact ht buff
    | cons c cs ih =>
      intro buff tail hc ht
      have hne : ¬ c.length = 0 := fun e => hc c (by simp) (List.length_eq_zero_iff.1 e)
      have ih := ih (c ++ buff.drop c.length) tail (fun x hx => hc x (by simp [hx])) ht
      simp only [List.map_cons, List.cons_append, copyLoop, if_neg hne, ih, List.flatten_cons]
      simp
  have hn : ∀ c ∈ reads, c ≠ [] := fun c hc => (hr c hc).1
  subst hd
  constructor
  · have := key reads (List.replicate (16 * 1024) 0) [] hn (fun _ => rfl)
    rwa [List.append_nil] at this
  · exact key reads (List.replicate (16 * 1024) 0) [some []] hn (fun _ => rfl)

example : (∀ c ∈ ([[1, 2], [3]] : List Bytes), c ≠ [] ∧ c.length ≤ 16 * 1024) ∧ ([[1, 2], [3]] : List Bytes).flatten = [1, 2, 3] := by decide

/-- If a read fails, the copy says so, and what came before it has been written. -/
theorem C175_error (reads : List Bytes) (tail : List (Option Bytes)) (hr : ∀ c ∈ reads, c ≠ [] ∧ c.length ≤ 16 * 1024) :
    copyAll (reads.map some ++ none :: tail) = (reads.flatten, false) := by
  have key : ∀ (reads : List Bytes) (buff : Bytes), (∀ c ∈ reads, c ≠ []) →
      copyLoop buff (reads.map some ++ none :: tail) = (reads.flatten, false) := by
    intro reads
    induction reads with
    | nil => intro buff _; rfl
    | cons c cs ih =>
      intro buff hc
      have hne : ¬ c.length = 0 := fun e => hc c (by simp) (List.length_eq_zero_iff.1 e)
      have ih := ih (c ++ buff.drop c.length) (fun x hx => hc x (by simp [hx]))
      simp only [List.map_cons, List.cons_append, copyLoop, if_neg hne, ih, List.flatten_cons]
      simp
  exact key reads _ fun c hc => (hr c hc).1

/-! ## C176 -/

/-- The word for a header mode. -/
def HeaderMode.word : HeaderMode → Bytes
  | .matching => ascii "match"
  | .require => ascii "require"
  | .strip => ascii "strip"
  | .none => ascii "none"
  | .trust => ascii "trust"
  | .ignore => ascii "ignore"

/-- A text means a header mode exactly when it is its word, in capital or small letters; any other text is an error. -/
theorem C176_words (spec : Bytes) :
    (∀ m, HeaderMode.fromStr spec = .ok m ↔ lower spec = m.word) ∧
      ((∀ m : HeaderMode, lower spec ≠ m.word) → HeaderMode.fromStr spec = .err) := by
  have d : ∀ m n : HeaderMode, m.word = n.word → m = n := by
    intro m n; cases m <;> cases n <;> decide
  have h2 : (∀ m : HeaderMode, lower spec ≠ m.word) → HeaderMode.fromStr spec = .err := by
    intro h
    unfold HeaderMode.fromStr
    rw [if_neg (show ¬ lower spec = ascii "match" from h .matching), if_neg (show ¬ lower spec = ascii "require" from h .require),
      if_neg (show ¬ lower spec = ascii "strip" from h .strip), if_neg (show ¬ lower spec = ascii "none" from h .none),
      if_neg (show ¬ lower spec = ascii "trust" from h .trust), if_neg (show ¬ lower spec = ascii "ignore" from h .ignore)]
  have h1 : ∀ m : HeaderMode, lower spec = m.word → HeaderMode.fromStr spec = .ok m := by
    intro m e
    unfold HeaderMode.fromStr
    rw [e]
    cases m <;> rfl
  refine ⟨fun m => ⟨fun h => ?_, h1 m⟩, h2⟩
  by_cases hex : ∃ n : HeaderMode, lower spec = n.word
  · obtain ⟨n, hn⟩ := hex
    have := h1 n hn
    rw [h] at this
    simp only [Res.ok.injEq] at this
    rw [this]; exact hn
  · have := h2 fun n hn => hex ⟨n, hn⟩
    rw [h] at this
    cases this

example : HeaderMode.fromStr (ascii "ReQuire") = .ok .require ∧ HeaderMode.fromStr (ascii "cdx") = .err := by decide

end Cdx
