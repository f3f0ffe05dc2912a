import Verif.Model.ToolTest
import Verif.Props.Methods
import Verif.Props.Options
import Verif.Props.Join
import Verif.Lemmas.Sorter

/-! C161 to C165: test files, verdicts of tests, tests after one another, the report and the words of the command. -/

namespace Cdx

/-! ## C161: test files -/

/-- What some output should be: a text, or whatever a matcher accepts. -/
inductive Hoped
  | text (b : Bytes)
  | spec (s : Bytes)

/-- A part of a test file. -/
inductive Sect
  | command (c : Bytes)
  | stdin (b : Bytes)
  | stdout (w : Hoped)
  | stderr (w : Hoped)
  | status (s : Sign) (n : Nat)
  | infile (name b : Bytes)
  | outfile (name : Bytes) (w : Hoped)
  | comment (c : Bytes)

/-- The lines of a text, the last one marked if it has no newline. -/
def bodyText (b : Bytes) : Bytes := if b = [] ∨ b.getLast? = some NL then b else b ++ ascii "\n#nonewline\n"

def Hoped.body : Hoped → Bytes
  | .text b => bodyText b
  | .spec _ => []

def Hoped.arg : Hoped → Bytes
  | .text _ => []
  | .spec s => 32 :: s

/-- The first line of a part, without newline. -/
def Sect.header : Sect → Bytes
  | .command c => ascii "#command " ++ c
  | .stdin _ => ascii "#stdin"
  | .stdout w => ascii "#stdout" ++ w.arg
  | .stderr w => ascii "#stderr" ++ w.arg
  | .status s n => ascii "#status " ++ (s.text ++ decText n)
  | .infile n _ => ascii "#infile " ++ n
  | .outfile n w => ascii "#outfile " ++ (n ++ w.arg)
  | .comment c => ascii "# " ++ c

/-- The other lines of a part. -/
def Sect.body : Sect → Bytes
  | .stdin b => bodyText b
  | .stdout w => w.body
  | .stderr w => w.body
  | .infile _ b => bodyText b
  | .outfile _ w => w.body
  | _ => []

def Sect.render (s : Sect) : Bytes := s.header ++ NL :: s.body

/-- No line begins with a hash. -/
def HashFree (b : Bytes) : Prop := ¬ [35] <+: b ∧ ¬ [NL, 35] <:+: b

/-- The text does not begin with white space. -/
def Starts (b : Bytes) : Prop := ∀ c, b.head? = some c → 32 < c

/-- A text for `exact`, or a matcher that can be made. -/
def Hoped.Fits (env : MEnv) : Hoped → Prop
  | .text b => HashFree b ∧ env.str.valid b = true
  | .spec s => s ≠ [] ∧ Starts s ∧ NL ∉ s ∧ env.str.valid s = true ∧ ∃ m, Matcher.make env s = .ok m

/-- What can be written in a test file. -/
def Sect.Fits (env : MEnv) : Sect → Prop
  | .command c => Starts c ∧ NL ∉ c
  | .stdin b => HashFree b
  | .stdout w => w.Fits env
  | .stderr w => w.Fits env
  | .status s n => -2 ^ 31 ≤ s.value * n ∧ s.value * n < 2 ^ 31
  | .infile n b => Starts n ∧ NL ∉ n ∧ env.str.valid n = true ∧ HashFree b
  | .outfile n w => n ≠ [] ∧ (∀ c ∈ n, 32 < c) ∧ env.str.valid (32 :: (n ++ w.arg)) = true ∧ w.Fits env
  | .comment c => NL ∉ c

/-- The output is tested for what is wanted. -/
def Expects (env : MEnv) (o : OutSpec) : Hoped → Prop
  | .text b => ∀ v, o.matcher.doMatchSafe env v = .ok (decide (v = b))
  | .spec s => Matcher.make env s = .ok o.matcher

def Sect.command? : Sect → Option Bytes
  | .command c => some c
  | _ => none
def Sect.stdin? : Sect → Option Bytes
  | .stdin b => some b
  | _ => none
def Sect.stdout? : Sect → Option Hoped
  | .stdout w => some w
  | _ => none
def Sect.stderr? : Sect → Option Hoped
  | .stderr w => some w
  | _ => none
def Sect.status? : Sect → Option Int
  | .status s n => some (s.value * n)
  | _ => none
def Sect.infile? : Sect → Option (Bytes × Bytes)
  | .infile n b => some (n, b)
  | _ => none
def Sect.outfile? : Sect → Option (Bytes × Hoped)
  | .outfile n w => some (n, w)
  | _ => none

/-! ### Proof -/

theorem startsWith_append (p x : Bytes) : startsWith (p ++ x) p = true := by simp [startsWith]

theorem startsWith_ne (p x q : Bytes) (h : p.take q.length ≠ q.take p.length) : startsWith (p ++ x) q = false := by
  simp only [startsWith, beq_eq_false_iff_ne]
  intro e
  apply h
  have := congrArg (List.take p.length) e
  rw [List.take_take] at this
  rw [← this]
  rcases Nat.le_total p.length q.length with hl | hl
  · rw [Nat.min_eq_left hl, List.take_left, List.take_of_length_le hl]
  · rw [Nat.min_eq_right hl, List.take_append_of_le_length hl]

theorem starts_trimw (b : Bytes) (h : Starts b) : trimwStart b = b := by
  cases b with
  | nil => rfl
  | cons c cs =>
    have := h c rfl
    simp [trimwStart, List.dropWhile, UInt8.not_le.2 this]

theorem starts_trimw_space (b : Bytes) (h : Starts b) : trimwStart (32 :: b) = b := by
  have := starts_trimw b h
  unfold trimwStart at *
  rw [List.dropWhile_cons_of_pos (by decide), this]

/-- Going on with the next line. -/
def goOn (env : MEnv) (fuel : Nat) (t : ToolTest) (text : Bytes) : Res ToolTest :=
  if (readUntil NL text).1 = [] then .ok t else testLoop env fuel t (readUntil NL text).1 (readUntil NL text).2

theorem testLoop_succ (env : MEnv) (fuel : Nat) (t t' : ToolTest) (line rest : Bytes) (g : Grabbed)
    (h : testLine env t line rest = .ok (t', g)) :
    testLoop env (fuel + 1) t line rest = if g.needRead then goOn env fuel t' g.rest else testLoop env fuel t' g.line g.rest := by
  rw [testLoop, h]
  rfl

/-- The rest of the file is nothing or another part. -/
def PartStart (r : Bytes) : Prop := r = [] ∨ (startsWith r (ascii "#") = true ∧ startsWith r (ascii "#nonewline") = false ∧ NL ∈ r)

/-- `g` goes on with `r`. -/
def Left (g : Grabbed) (r : Bytes) : Prop :=
  (g.needRead = true ∧ g.rest = r) ∨ (g.needRead = false ∧ g.line ≠ [] ∧ readUntil NL r = (g.line, g.rest))

theorem testLoop_left (env : MEnv) (fuel : Nat) (t t' : ToolTest) (line rest r : Bytes) (g : Grabbed)
    (h : testLine env t line rest = .ok (t', g)) (hl : Left g r ∨ (g.needRead = true ∧ g.rest = [] ∧ r = [])) :
    testLoop env (fuel + 1) t line rest = goOn env fuel t' r := by
  rw [testLoop_succ env fuel t t' line rest g h]
  rcases hl with (⟨h1, h2⟩ | ⟨h1, h2, h3⟩) | ⟨h1, h2, h3⟩
  · rw [h1, h2]; rfl
  · have : goOn env fuel t' r = testLoop env fuel t' g.line g.rest := by simp [goOn, h3, h2]
    rw [h1, this]; rfl
  · rw [h1, h2, h3]; rfl

theorem grabLoop_lines (ls : List Bytes) (h : ∀ l ∈ ls, IsLine l ∧ l.head? ≠ some 35) (fuel : Nat) (buff r : Bytes) :
    grabLoop (ls.length + fuel) buff (ls.flatten ++ r) = grabLoop fuel (buff ++ ls.flatten) r := by
  induction ls generalizing buff with
  | nil => simp
  | cons l ls ih =>
    obtain ⟨⟨b, rfl, hb⟩, hh⟩ := h l (by simp)
    have e : ((b ++ [NL]) :: ls).length + fuel = (ls.length + fuel) + 1 := by simp; omega
    rw [e, grabLoop]
    have hr : readUntil NL (((b ++ [NL]) :: ls).flatten ++ r) = (b ++ [NL], ls.flatten ++ r) := by
      have := readUntil_line NL b (ls.flatten ++ r) hb
      simpa using this
    simp only [hr]
    have hs : startsWith (b ++ [NL]) (ascii "#") = false := by
      cases b with
      | nil => decide +kernel
      | cons c cs =>
        have : c ≠ 35 := fun e => hh (by simp [e])
        simp [startsWith, ascii, this]
    rw [if_neg (by simp), hs]
    simp only [Bool.false_eq_true, if_false]
    rw [ih (fun l hl => h l (by simp [hl]))]
    simp

theorem hashFree_lines (b : Bytes) (h : HashFree b) : ∀ l ∈ readLines .plain NL b, IsLine l ∧ l.head? ≠ some 35 := by
  intro l hl
  refine ⟨readLines_isLine b l hl, fun e => ?_⟩
  obtain ⟨pre, post, hp⟩ := List.append_of_mem hl
  have hf := C09_lossless .plain NL b
  rw [hp] at hf
  obtain ⟨l', rfl⟩ : ∃ l', l = 35 :: l' := by
    cases l with
    | nil => simp at e
    | cons c cs => exact ⟨cs, by simpa using e⟩
  have hll := readLines_isLine b _ hl
  have hne : l' ≠ [] := by
    obtain ⟨body, hb, _⟩ := hll
    rintro rfl
    cases body with
    | nil => exact absurd hb (by decide)
    | cons x xs => simp at hb
  -- without the last newline
  have hfin : ∃ s, b = pre.flatten ++ 35 :: s := by
    unfold withFinalEol at hf
    split at hf
    · exact ⟨l' ++ post.flatten, by rw [← hf]; simp⟩
    · have := congrArg List.dropLast hf
      rw [List.dropLast_concat] at this
      refine ⟨(l' ++ post.flatten).dropLast, ?_⟩
      rw [← this]
      have hx : (pre ++ (35 :: l') :: post).flatten = pre.flatten ++ 35 :: (l' ++ post.flatten) := by simp
      rw [hx, List.dropLast_append_of_ne_nil (by simp), List.dropLast_cons_of_ne_nil (by simp [hne])]
  obtain ⟨s, hs⟩ := hfin
  by_cases hpre : pre = []
  · subst hpre
    exact h.1 ⟨s, by rw [hs]; rfl⟩
  · obtain ⟨p, q, rfl⟩ : ∃ p q, pre = p ++ [q] := ⟨pre.dropLast, pre.getLast hpre, (List.dropLast_concat_getLast hpre).symm⟩
    obtain ⟨body, rfl, _⟩ := readLines_isLine b q (by rw [hp]; simp)
    exact h.2 ⟨p.flatten ++ body, s, by rw [hs]; simp⟩

theorem lines_len (ls : List Bytes) (h : ∀ l ∈ ls, IsLine l) : ls.length ≤ ls.flatten.length := by
  induction ls with
  | nil => simp
  | cons l ls ih =>
    have := ih fun l hl => h l (by simp [hl])
    have h2 := List.length_pos_iff.2 (h l (by simp)).ne
    simp only [List.length_cons, List.flatten_cons, List.length_append]
    omega

theorem readUntil_ne (b : UInt8) (r : Bytes) (h : r ≠ []) : (readUntil b r).1 ≠ [] := by
  cases r with
  | nil => exact absurd rfl h
  | cons c cs =>
    unfold readUntil
    split <;> simp

theorem readUntil_startsWith (b : UInt8) (p r : Bytes) (hp : b ∉ p) (hb : b ∈ r) : startsWith (readUntil b r).1 p = startsWith r p := by
  obtain ⟨x, y, rfl, hx⟩ : ∃ x y, r = x ++ b :: y ∧ b ∉ x := by
    clear hp
    induction r with
    | nil => simp at hb
    | cons c cs ih =>
      by_cases hc : c = b
      · exact ⟨[], cs, by simp [hc], by simp⟩
      · obtain ⟨x, y, h1, h2⟩ := ih (by simpa [Ne.symm hc] using hb)
        exact ⟨c :: x, y, by simp [h1], by simp [h2, Ne.symm hc]⟩
  rw [readUntil_line b x y hx]
  simp only [startsWith]
  rw [Bool.eq_iff_iff]
  simp only [beq_iff_eq]
  by_cases hl : p.length ≤ x.length
  · rw [List.take_append_of_le_length hl, List.take_append_of_le_length hl]
  · have hl : x.length < p.length := by omega
    have key : ∀ z : Bytes, List.take p.length (x ++ b :: z) ≠ p := by
      intro z e
      apply hp
      rw [← e]
      have : (x ++ b :: z).take p.length = x ++ (b :: z).take (p.length - x.length) := by
        rw [List.take_append, List.take_of_length_le (by omega)]
      rw [this]
      obtain ⟨k, hk⟩ : ∃ k, p.length - x.length = k + 1 := ⟨p.length - x.length - 1, by omega⟩
      rw [hk]
      simp
    exact ⟨fun e => absurd e (key []), fun e => absurd e (key y)⟩

/-- Reading the body of a part. -/
theorem grabLoop_body (b : Bytes) (h : HashFree b) (buff r : Bytes) (hr : PartStart r) (fuel : Nat) (hf : (bodyText b ++ r).length < fuel) :
    ∃ g, grabLoop fuel buff (bodyText b ++ r) = g ∧ g.buff = buff ++ b ∧ (Left g r ∨ (g.needRead = true ∧ g.rest = [] ∧ r = [])) := by
  have hls := hashFree_lines b h
  have hfl := C09_lossless .plain NL b
  have hlen := lines_len _ fun l hl => (hls l hl).1
  generalize readLines .plain NL b = ls at *
  unfold withFinalEol at hfl
  unfold bodyText at hf ⊢
  by_cases hb : b = [] ∨ b.getLast? = some NL
  · rw [if_pos hb] at hfl hf ⊢
    rw [← hfl] at hf ⊢
    obtain ⟨k, rfl⟩ : ∃ k, fuel = ls.length + (k + 1) := ⟨fuel - ls.length - 1, by simp only [List.length_append] at hf; omega⟩
    rw [grabLoop_lines ls hls]
    rw [grabLoop]
    rcases hr with rfl | ⟨h1, h2, h3⟩
    · exact ⟨_, rfl, rfl, Or.inr ⟨rfl, rfl, rfl⟩⟩
    · have hne : (readUntil NL r).1 ≠ [] := readUntil_ne NL r (by rintro rfl; exact absurd h3 (by simp))
      simp only [if_neg hne, readUntil_startsWith NL (ascii "#") r (by decide) h3, h1, if_true,
        readUntil_startsWith NL (ascii "#nonewline") r (by decide +kernel) h3, h2, Bool.false_eq_true, if_false]
      exact ⟨_, rfl, rfl, Or.inl (Or.inr ⟨rfl, hne, rfl⟩)⟩
  · rw [if_neg hb] at hfl hf ⊢
    have e : b ++ ascii "\n#nonewline\n" ++ r = ls.flatten ++ (ascii "#nonewline" ++ NL :: r) := by
      rw [hfl]
      have : ascii "\n#nonewline\n" = NL :: (ascii "#nonewline" ++ [NL]) := by decide +kernel
      rw [this]
      simp
    rw [e] at hf ⊢
    obtain ⟨k, rfl⟩ : ∃ k, fuel = ls.length + (k + 1) := ⟨fuel - ls.length - 1, by simp only [List.length_append] at hf; omega⟩
    rw [grabLoop_lines ls hls, grabLoop, readUntil_line NL _ _ (by decide +kernel)]
    have h1 : startsWith (ascii "#nonewline" ++ [NL]) (ascii "#") = true := by decide +kernel
    have h2 : startsWith (ascii "#nonewline" ++ [NL]) (ascii "#nonewline") = true := by decide +kernel
    simp only [if_neg (show ¬ ascii "#nonewline" ++ [NL] = [] by simp), h1, h2, if_true]
    refine ⟨_, rfl, ?_, Or.inl (Or.inl ⟨rfl, rfl⟩)⟩
    show (buff ++ ls.flatten).dropLast = buff ++ b
    rw [hfl, ← List.append_assoc, List.dropLast_concat]

/-- The matcher for a text. -/
def exactMatcher (b : Bytes) : Matcher := ⟨MFlags.ofMethod (ascii "exact"), .one (.exact b)⟩

theorem make2_exact (env : MEnv) (b : Bytes) : Matcher.make2 env (ascii "exact") b = .ok (exactMatcher b) := rfl

/-- What is wanted as an expected output. -/
def Hoped.out (env : MEnv) (name : Bytes) : Hoped → OutSpec
  | .text b => ⟨name, b, exactMatcher b⟩
  | .spec s => ⟨name, s, match Matcher.make env s with
    | .ok m => m
    | _ => emptyMatcher⟩

/-- A test with one more part. -/
def Sect.apply (env : MEnv) (t : ToolTest) : Sect → ToolTest
  | .command c => { t with cmd := c }
  | .stdin b => { t with stdin := t.stdin ++ b }
  | .stdout w => { t with stdout := w.out env (ascii "stdout") }
  | .stderr w => { t with stderr := w.out env (ascii "stderr") }
  | .status s n => { t with code := s.value * n }
  | .infile n b => { t with inFiles := t.inFiles ++ [(n, b)] }
  | .outfile n w => { t with outFiles := t.outFiles ++ [w.out env n] }
  | .comment _ => t

theorem addOutfile_no (env : MEnv) (tag line rest : Bytes) (h : startsWith line tag = false) : addOutfile env tag line rest = .ok none := by
  simp [addOutfile, h]

theorem grab_no (tag buff line rest : Bytes) (h : startsWith line tag = false) : grab tag buff line rest = .ok none := by
  simp [grab, h]

theorem grab_yes (tag buff rest : Bytes) : grab tag buff tag rest = .ok (some (grabLoop (rest.length + 1) buff rest)) := by
  have := startsWith_append tag []
  simp only [List.append_nil] at this
  simp [grab, this]

/-- `g` goes on with `r`, or both are at the end. -/
abbrev Onward (g : Grabbed) (r : Bytes) : Prop := Left g r ∨ (g.needRead = true ∧ g.rest = [] ∧ r = [])

theorem addOutfile_yes (env : MEnv) (tag : Bytes) (w : Hoped) (h : w.Fits env) (r : Bytes) (hr : PartStart r) :
    ∃ g, addOutfile env tag (tag ++ w.arg) (w.body ++ r) = .ok (some (w.out env (tag.drop 1), g)) ∧ Onward g r := by
  cases w with
  | text b =>
    obtain ⟨g, h1, h2, h3⟩ := grabLoop_body b h.1 [] r hr ((bodyText b ++ r).length + 1) (by omega)
    refine ⟨g, ?_, h3⟩
    have hs := startsWith_append tag []
    simp only [List.append_nil] at hs
    simp only [addOutfile, Hoped.arg, Hoped.body, List.append_nil, hs, if_true, List.drop_length, grab_yes, h1, Res.bind_ok, h2, List.nil_append,
      utf8, h.2, make2_exact, Hoped.out]
  | spec s =>
    obtain ⟨h0, h1, h2, h3, m, hm⟩ := h
    refine ⟨⟨[], tag ++ 32 :: s, r, true⟩, ?_, Or.inl (Or.inl ⟨rfl, rfl⟩)⟩
    simp only [addOutfile, Hoped.arg, Hoped.body, startsWith_append, if_true, List.drop_left, List.cons_ne_nil, if_false, starts_trimw_space s h1,
      utf8, h3, Res.bind_ok, hm, Hoped.out, List.nil_append]

theorem asI32_id (n : Int) (h1 : -2 ^ 31 ≤ n) (h2 : n < 2 ^ 31) : asI32 n = n := by unfold asI32; omega

/-- One part of a test file is read. -/
theorem testLine_sect (env : MEnv) (t : ToolTest) (s : Sect) (h : s.Fits env) (r : Bytes) (hr : PartStart r) :
    ∃ g, testLine env t (s.header ++ [NL]) (s.body ++ r) = .ok (s.apply env t, g) ∧ Onward g r := by
  have strip : ∀ l : Bytes, (if (l ++ [NL]).getLast? = some NL then (l ++ [NL]).dropLast else l ++ [NL]) = l := by intro l; simp
  unfold testLine
  simp only [strip]
  have here : Onward ⟨[], s.header, r, true⟩ r := Or.inl (Or.inl ⟨rfl, rfl⟩)
  cases s with
  | command c =>
    refine ⟨_, ?_, here⟩
    have e : (Sect.command c).header = ascii "#command" ++ 32 :: c := by simp only [Sect.header]; rfl
    have h8 : (ascii "#command" ++ 32 :: c).drop 8 = 32 :: c := rfl
    rw [e, startsWith_append, h8, starts_trimw_space c h.1]
    rfl
  | stdin b =>
    obtain ⟨g, h1, h2, h3⟩ := grabLoop_body b h t.stdin r hr ((bodyText b ++ r).length + 1) (by omega)
    refine ⟨g, ?_, h3⟩
    have n1 : startsWith (ascii "#stdin") (ascii "#command") = false := by decide +kernel
    have n2 : startsWith (ascii "#stdin") (ascii "#stdout") = false := by decide +kernel
    have n3 : startsWith (ascii "#stdin") (ascii "#stderr") = false := by decide +kernel
    simp only [Sect.header, Sect.body, n1, Bool.false_eq_true, if_false, addOutfile_no _ _ _ _ n2, addOutfile_no _ _ _ _ n3, Res.bind_ok,
      grab_yes, h1, h2, Sect.apply]
  | stdout w =>
    obtain ⟨g, h1, h2⟩ := addOutfile_yes env (ascii "#stdout") w h r hr
    refine ⟨g, ?_, h2⟩
    have n1 := startsWith_ne (ascii "#stdout") w.arg (ascii "#command") (by decide +kernel)
    simp only [Sect.header, Sect.body, n1, Bool.false_eq_true, if_false, h1, Res.bind_ok, Sect.apply]
    rfl
  | stderr w =>
    obtain ⟨g, h1, h2⟩ := addOutfile_yes env (ascii "#stderr") w h r hr
    refine ⟨g, ?_, h2⟩
    have n1 := startsWith_ne (ascii "#stderr") w.arg (ascii "#command") (by decide +kernel)
    have n2 := startsWith_ne (ascii "#stderr") w.arg (ascii "#stdout") (by decide +kernel)
    simp only [Sect.header, Sect.body, n1, Bool.false_eq_true, if_false, addOutfile_no _ _ _ _ n2, h1, Res.bind_ok, Sect.apply]
    rfl
  | status s n =>
    refine ⟨_, ?_, here⟩
    have e : (Sect.status s n).header = ascii "#status" ++ 32 :: (s.text ++ decText n) := by simp only [Sect.header]; rfl
    have n1 := startsWith_ne (ascii "#status") (32 :: (s.text ++ decText n)) (ascii "#command") (by decide +kernel)
    have n2 := startsWith_ne (ascii "#status") (32 :: (s.text ++ decText n)) (ascii "#stdout") (by decide +kernel)
    have n3 := startsWith_ne (ascii "#status") (32 :: (s.text ++ decText n)) (ascii "#stderr") (by decide +kernel)
    have n4 := startsWith_ne (ascii "#status") (32 :: (s.text ++ decText n)) (ascii "#stdin") (by decide +kernel)
    have hn : n ≤ 2 ^ 63 - 1 := by
      obtain ⟨h1, h2⟩ := h
      cases s <;> simp only [Sign.value] at h1 h2 <;> omega
    have hnum : toIsizeWhole (s.text ++ decText n) = .ok (s.value * n) := by
      have := C88_signed_partial s (decText n) (decText_ne_nil n) (fun c hc => (isDigit_iff c).2 (decText_digits n c hc))
        (by rw [decVal_decText]; exact hn)
      rwa [decVal_decText] at this
    have h7 : (ascii "#status" ++ 32 :: (s.text ++ decText n)).drop 7 = 32 :: (s.text ++ decText n) := rfl
    have hst : Starts (s.text ++ decText n) := by
      intro c hc
      cases s with
      | plus => simp [Sign.text] at hc; subst hc; decide
      | minus => simp [Sign.text] at hc; subst hc; decide
      | none =>
        have hc : (decText n).head? = some c := hc
        have := decText_digits n c (List.mem_of_head? hc)
        have := (isDigit_iff c).2 this
        revert this
        exact byte_forall (P := fun c => isDigit c = true → 32 < c) (by decide +kernel) c
    simp only [e, n1, Bool.false_eq_true, if_false, addOutfile_no _ _ _ _ n2, addOutfile_no _ _ _ _ n3, grab_no _ _ _ _ n4, Res.bind_ok,
      otherLine, startsWith_append, if_true, h7, starts_trimw_space _ hst, hnum, asI32_id _ h.1 h.2, Sect.apply, Sect.body, List.nil_append]
  | infile n b =>
    obtain ⟨hs, hnl, hv, hb⟩ := h
    obtain ⟨g, h1, h2, h3⟩ := grabLoop_body b hb [] r hr ((bodyText b ++ r).length + 1) (by omega)
    refine ⟨g, ?_, h3⟩
    have e : (Sect.infile n b).header = ascii "#infile" ++ 32 :: n := by simp only [Sect.header]; rfl
    have n1 := startsWith_ne (ascii "#infile") (32 :: n) (ascii "#command") (by decide +kernel)
    have n2 := startsWith_ne (ascii "#infile") (32 :: n) (ascii "#stdout") (by decide +kernel)
    have n3 := startsWith_ne (ascii "#infile") (32 :: n) (ascii "#stderr") (by decide +kernel)
    have n4 := startsWith_ne (ascii "#infile") (32 :: n) (ascii "#stdin") (by decide +kernel)
    have n5 := startsWith_ne (ascii "#infile") (32 :: n) (ascii "#status") (by decide +kernel)
    have h7 : (ascii "#infile" ++ 32 :: n).drop 7 = 32 :: n := rfl
    simp only [e, n1, Bool.false_eq_true, if_false, addOutfile_no _ _ _ _ n2, addOutfile_no _ _ _ _ n3, grab_no _ _ _ _ n4, Res.bind_ok,
      otherLine, n5, startsWith_append, if_true, h7, starts_trimw_space _ hs, utf8, hv, grab_yes, Sect.body, h1, h2, Sect.apply, List.nil_append]
  | outfile n w =>
    obtain ⟨hn0, hn, hv, hw⟩ := h
    have e : (Sect.outfile n w).header = ascii "#outfile" ++ 32 :: (n ++ w.arg) := by simp only [Sect.header]; rfl
    have n1 := startsWith_ne (ascii "#outfile") (32 :: (n ++ w.arg)) (ascii "#command") (by decide +kernel)
    have n2 := startsWith_ne (ascii "#outfile") (32 :: (n ++ w.arg)) (ascii "#stdout") (by decide +kernel)
    have n3 := startsWith_ne (ascii "#outfile") (32 :: (n ++ w.arg)) (ascii "#stderr") (by decide +kernel)
    have n4 := startsWith_ne (ascii "#outfile") (32 :: (n ++ w.arg)) (ascii "#stdin") (by decide +kernel)
    have n5 := startsWith_ne (ascii "#outfile") (32 :: (n ++ w.arg)) (ascii "#status") (by decide +kernel)
    have n6 := startsWith_ne (ascii "#outfile") (32 :: (n ++ w.arg)) (ascii "#infile") (by decide +kernel)
    have h8 : (ascii "#outfile" ++ 32 :: (n ++ w.arg)).drop 8 = 32 :: (n ++ w.arg) := rfl
    have htrim : strTrimStart (32 :: (n ++ w.arg)) = n ++ w.arg := by
      cases n with
      | nil => exact absurd rfl hn0
      | cons c cs =>
        have hc : (32 : UInt8) < c := hn c (by simp)
        have : (decide (c = 32 ∨ (9 ≤ c ∧ c ≤ 13))) = false := by
          revert hc
          exact byte_forall (P := fun c => 32 < c → (decide (c = 32 ∨ (9 ≤ c ∧ c ≤ 13))) = false) (by decide +kernel) c
        simp only [strTrimStart, List.cons_append]
        rw [List.dropWhile_cons_of_pos (by decide), List.dropWhile_cons_of_neg (by rw [this]; decide)]
    have h32 : (32 : UInt8) ∉ n := fun hm => absurd (hn 32 hm) (by decide)
    cases w with
    | text b =>
      obtain ⟨g, h1, h2, h3⟩ := grabLoop_body b hw.1 [] r hr ((bodyText b ++ r).length + 1) (by omega)
      refine ⟨g, ?_, h3⟩
      have hso : splitOnce 32 n = none := splitOnce_none 32 n h32
      simp only [Hoped.arg, List.append_nil] at *
      simp only [e, n1, Bool.false_eq_true, if_false, addOutfile_no _ _ _ _ n2, addOutfile_no _ _ _ _ n3, grab_no _ _ _ _ n4, Res.bind_ok,
        otherLine, n5, n6, startsWith_append, if_true, h8, utf8, hv, htrim, hso, grab_yes, Sect.body, Hoped.body, h1, h2, hw.2, make2_exact,
        Sect.apply, Hoped.out, List.nil_append]
    | spec s =>
      obtain ⟨hs0, hs1, hs2, hs3, m, hm⟩ := hw
      refine ⟨_, ?_, here⟩
      have hso : splitOnce 32 (n ++ 32 :: s) = some (n, s) := splitOnce_some 32 n s h32
      simp only [Hoped.arg] at *
      simp only [e, n1, Bool.false_eq_true, if_false, addOutfile_no _ _ _ _ n2, addOutfile_no _ _ _ _ n3, grab_no _ _ _ _ n4, Res.bind_ok,
        otherLine, n5, n6, startsWith_append, if_true, h8, utf8, hv, htrim, hso, Sect.body, Hoped.body, hm,
        Sect.apply, Hoped.out, List.nil_append]
  | comment c =>
    refine ⟨_, ?_, here⟩
    have n1 := startsWith_ne (ascii "# ") c (ascii "#command") (by decide +kernel)
    have n2 := startsWith_ne (ascii "# ") c (ascii "#stdout") (by decide +kernel)
    have n3 := startsWith_ne (ascii "# ") c (ascii "#stderr") (by decide +kernel)
    have n4 := startsWith_ne (ascii "# ") c (ascii "#stdin") (by decide +kernel)
    have n5 := startsWith_ne (ascii "# ") c (ascii "#status") (by decide +kernel)
    have n6 := startsWith_ne (ascii "# ") c (ascii "#infile") (by decide +kernel)
    have n7 := startsWith_ne (ascii "# ") c (ascii "#outfile") (by decide +kernel)
    simp only [Sect.header, Sect.body, n1, Bool.false_eq_true, if_false, addOutfile_no _ _ _ _ n2, addOutfile_no _ _ _ _ n3, grab_no _ _ _ _ n4,
      Res.bind_ok, otherLine, n5, n6, n7, startsWith_append, if_true, Sect.apply, List.nil_append]

theorem header_nl (env : MEnv) (s : Sect) (h : s.Fits env) : NL ∉ s.header := by
  have hw : ∀ w : Hoped, w.Fits env → NL ∉ w.arg := by
    intro w hw
    cases w with
    | text b => simp [Hoped.arg]
    | spec s =>
      simp only [Hoped.arg, List.mem_cons, not_or]
      exact ⟨by decide, hw.2.2.1⟩
  cases s with
  | command c => simp only [Sect.header, List.mem_append, not_or]; exact ⟨by decide +kernel, h.2⟩
  | stdin b => simp only [Sect.header]; decide +kernel
  | stdout w => simp only [Sect.header, List.mem_append, not_or]; exact ⟨by decide +kernel, hw w h⟩
  | stderr w => simp only [Sect.header, List.mem_append, not_or]; exact ⟨by decide +kernel, hw w h⟩
  | status s n =>
    simp only [Sect.header, List.mem_append, not_or]
    exact ⟨by decide +kernel, by cases s <;> decide, decText_free n NL (by decide)⟩
  | infile n b => simp only [Sect.header, List.mem_append, not_or]; exact ⟨by decide +kernel, h.2.1⟩
  | outfile n w =>
    simp only [Sect.header, List.mem_append, not_or]
    exact ⟨by decide +kernel, fun hm => absurd (h.2.1 NL hm) (by decide), hw w h.2.2.2⟩
  | comment c => simp only [Sect.header, List.mem_append, not_or]; exact ⟨by decide +kernel, h⟩

theorem header_hash (s : Sect) (x : Bytes) :
    startsWith (s.header ++ x) (ascii "#") = true ∧ startsWith (s.header ++ x) (ascii "#nonewline") = false := by
  have aux : ∀ p y : Bytes, p.take (ascii "#nonewline").length ≠ (ascii "#nonewline").take p.length → p.head? = some 35 →
      startsWith (p ++ y) (ascii "#") = true ∧ startsWith (p ++ y) (ascii "#nonewline") = false := by
    intro p y h1 h2
    refine ⟨?_, startsWith_ne p y _ h1⟩
    cases p with
    | nil => simp at h2
    | cons c cs =>
      have h2 : c = 35 := by simpa using h2
      subst h2
      simp [startsWith, ascii]
  cases s with
  | command c => simp only [Sect.header, List.append_assoc]; exact aux _ _ (by decide +kernel) (by decide +kernel)
  | stdin b => simp only [Sect.header]; exact aux _ _ (by decide +kernel) (by decide +kernel)
  | stdout w => simp only [Sect.header, List.append_assoc]; exact aux _ _ (by decide +kernel) (by decide +kernel)
  | stderr w => simp only [Sect.header, List.append_assoc]; exact aux _ _ (by decide +kernel) (by decide +kernel)
  | status s n => simp only [Sect.header, List.append_assoc]; exact aux _ _ (by decide +kernel) (by decide +kernel)
  | infile n b => simp only [Sect.header, List.append_assoc]; exact aux _ _ (by decide +kernel) (by decide +kernel)
  | outfile n w => simp only [Sect.header, List.append_assoc]; exact aux _ _ (by decide +kernel) (by decide +kernel)
  | comment c => simp only [Sect.header, List.append_assoc]; exact aux _ _ (by decide +kernel) (by decide +kernel)

theorem partStart_render (ss : List Sect) : PartStart (ss.flatMap Sect.render) := by
  cases ss with
  | nil => exact Or.inl rfl
  | cons s ss =>
    refine Or.inr ?_
    have e : (s :: ss).flatMap Sect.render = s.header ++ (NL :: (s.body ++ ss.flatMap Sect.render)) := by simp [Sect.render]
    rw [e]
    exact ⟨(header_hash s _).1, (header_hash s _).2, by simp⟩

theorem goOn_sects (env : MEnv) (ss : List Sect) (h : ∀ s ∈ ss, s.Fits env) (fuel : Nat) (hf : ss.length ≤ fuel) (t : ToolTest) :
    goOn env fuel t (ss.flatMap Sect.render) = .ok (ss.foldl (Sect.apply env) t) := by
  induction ss generalizing fuel t with
  | nil => rfl
  | cons s ss ih =>
    obtain ⟨k, rfl⟩ : ∃ k, fuel = k + 1 := ⟨fuel - 1, by simp only [List.length_cons] at hf; omega⟩
    have hs := h s (by simp)
    have e : (s :: ss).flatMap Sect.render = s.header ++ NL :: (s.body ++ ss.flatMap Sect.render) := by simp [Sect.render]
    rw [goOn, e, readUntil_line NL _ _ (header_nl env s hs), if_neg (by simp)]
    obtain ⟨g, h1, h2⟩ := testLine_sect env t s hs _ (partStart_render ss)
    rw [testLoop_left env k t _ _ _ (ss.flatMap Sect.render) g h1 h2,
      ih (fun s hs => h s (by simp [hs])) k (by simp only [List.length_cons] at hf; omega)]
    rfl

theorem render_len (ss : List Sect) : ss.length ≤ (ss.flatMap Sect.render).length := by
  induction ss with
  | nil => simp
  | cons s ss ih =>
    simp only [List.flatMap_cons, List.length_append, List.length_cons, Sect.render]
    omega

theorem decides_safe {env : MEnv} {M p : Bytes} {a : Bytes → Bool} {m : Matcher} (h : Decides env M p fun v => a v = true)
    (hm : Matcher.make2 env M p = .ok m) (v : Bytes) : m.doMatchSafe env v = .ok (a v) := by
  obtain ⟨m', h1, h2⟩ := h
  rw [hm] at h1
  injection h1 with h1
  obtain ⟨b, -, h3, h4⟩ := h2 v
  rw [h1, h3, Bool.eq_iff_iff.2 h4]

theorem exact_expects (env : MEnv) (b v : Bytes) : (exactMatcher b).doMatchSafe env v = .ok (decide (v = b)) := by
  have := decides_safe (decides_hard (env := env) (p := b) (k := .exact b) (t := fun w => b == w) rfl ⟨rfl, rfl, rfl⟩ fun _ => rfl)
    (make2_exact env b) v
  rw [this]
  congr 1
  rw [Bool.eq_iff_iff]
  simp only [beq_iff_eq, decide_eq_true_eq]
  exact eq_comm

theorem empty_expects (env : MEnv) (v : Bytes) : emptyMatcher.doMatchSafe env v = .ok (decide (v = [])) := by
  have := decides_safe (m := emptyMatcher) (decides_hard (env := env) (M := ascii "empty") (p := []) (k := .length 0 (some 0))
    (t := fun w => lengthOk 0 (some 0) w.length) rfl ⟨rfl, rfl, rfl⟩ fun _ => rfl) rfl v
  rw [this]
  congr 1
  rw [Bool.eq_iff_iff]
  simp [lengthOk]

theorem out_expects (env : MEnv) (n : Bytes) (w : Hoped) (h : w.Fits env) : Expects env (w.out env n) w := by
  cases w with
  | text b => exact exact_expects env b
  | spec s =>
    obtain ⟨-, -, -, -, m, hm⟩ := h
    simp only [Expects, Hoped.out, hm]

/-- Two lists whose elements are related one by one. -/
def Pairs {α β : Type} (r : α → β → Prop) (as : List α) (bs : List β) : Prop :=
  as.length = bs.length ∧ ∀ (i : Nat) a b, as[i]? = some a → bs[i]? = some b → r a b

theorem Pairs.snoc {α β : Type} {r : α → β → Prop} {as : List α} {bs : List β} (h : Pairs r as bs) {a : α} {b : β} (hr : r a b) :
    Pairs r (as ++ [a]) (bs ++ [b]) := by
  have hlen := h.1
  refine ⟨by simp [h.1], fun i x y hx hy => ?_⟩
  by_cases hi : i < as.length
  · rw [List.getElem?_append_left hi] at hx
    rw [List.getElem?_append_left (h.1 ▸ hi)] at hy
    exact h.2 i x y hx hy
  · rw [List.getElem?_append_right (by omega)] at hx
    rw [List.getElem?_append_right (by omega)] at hy
    obtain ⟨k, rfl⟩ : ∃ k, i = as.length + k := ⟨i - as.length, by omega⟩
    rw [← h.1] at hy
    simp only [Nat.add_sub_cancel_left] at hx hy
    cases k with
    | zero =>
      simp only [List.getElem?_cons_zero, Option.some.injEq] at hx hy
      subst hx; subst hy; exact hr
    | succ k => simp at hx

theorem apply_fields (env : MEnv) (ss : List Sect) (h : ∀ s ∈ ss, s.Fits env) (t : ToolTest) (wo we : Hoped) (outs : List (Bytes × Hoped))
    (ho : Expects env t.stdout wo) (he : Expects env t.stderr we)
    (hf : Pairs (fun o x => o.name = x.1 ∧ Expects env o x.2) t.outFiles outs) :
    let t' := ss.foldl (Sect.apply env) t
    t'.cmd = (ss.filterMap Sect.command?).getLast?.getD t.cmd ∧ t'.stdin = t.stdin ++ (ss.filterMap Sect.stdin?).flatten ∧
    Expects env t'.stdout ((ss.filterMap Sect.stdout?).getLast?.getD wo) ∧
    Expects env t'.stderr ((ss.filterMap Sect.stderr?).getLast?.getD we) ∧
    t'.code = (ss.filterMap Sect.status?).getLast?.getD t.code ∧ t'.inFiles = t.inFiles ++ ss.filterMap Sect.infile? ∧
    Pairs (fun o x => o.name = x.1 ∧ Expects env o x.2) t'.outFiles (outs ++ ss.filterMap Sect.outfile?) := by
  induction ss generalizing t wo we outs with
  | nil => simp only [List.foldl_nil, List.filterMap_nil, List.getLast?_nil, Option.getD_none, List.flatten_nil, List.append_nil]
           exact ⟨trivial, trivial, ho, he, trivial, trivial, hf⟩
  | cons s ss ih =>
    have hs := h s (by simp)
    have ih := ih fun s hs => h s (by simp [hs])
    have last : ∀ {α : Type} (a : α) (l : List α) (d : α), (a :: l).getLast?.getD d = l.getLast?.getD a := by
      intro α a l d; rw [List.getLast?_cons]; rfl
    cases s with
    | command c =>
      simpa [List.filterMap_cons, Sect.command?, Sect.stdin?, Sect.stdout?, Sect.stderr?, Sect.status?, Sect.infile?, Sect.outfile?,
        last, Sect.apply] using ih (Sect.apply env t (.command c)) wo we outs ho he hf
    | stdin b =>
      simpa [List.filterMap_cons, Sect.command?, Sect.stdin?, Sect.stdout?, Sect.stderr?, Sect.status?, Sect.infile?, Sect.outfile?,
        last, Sect.apply] using ih (Sect.apply env t (.stdin b)) wo we outs ho he hf
    | stdout w =>
      simpa [List.filterMap_cons, Sect.command?, Sect.stdin?, Sect.stdout?, Sect.stderr?, Sect.status?, Sect.infile?, Sect.outfile?,
        last, Sect.apply] using ih (Sect.apply env t (.stdout w)) w we outs (out_expects env _ w hs) he hf
    | stderr w =>
      simpa [List.filterMap_cons, Sect.command?, Sect.stdin?, Sect.stdout?, Sect.stderr?, Sect.status?, Sect.infile?, Sect.outfile?,
        last, Sect.apply] using ih (Sect.apply env t (.stderr w)) wo w outs ho (out_expects env _ w hs) hf
    | status s n =>
      simpa [List.filterMap_cons, Sect.command?, Sect.stdin?, Sect.stdout?, Sect.stderr?, Sect.status?, Sect.infile?, Sect.outfile?,
        last, Sect.apply] using ih (Sect.apply env t (.status s n)) wo we outs ho he hf
    | infile n b =>
      simpa [List.filterMap_cons, Sect.command?, Sect.stdin?, Sect.stdout?, Sect.stderr?, Sect.status?, Sect.infile?, Sect.outfile?,
        last, Sect.apply] using ih (Sect.apply env t (.infile n b)) wo we outs ho he hf
    | outfile n w =>
      have hx : (w.out env n).name = n := by cases w <;> rfl
      simpa [List.filterMap_cons, Sect.command?, Sect.stdin?, Sect.stdout?, Sect.stderr?, Sect.status?, Sect.infile?, Sect.outfile?,
        last, Sect.apply] using ih (Sect.apply env t (.outfile n w)) wo we (outs ++ [(n, w)]) ho he (hf.snoc ⟨hx, out_expects env _ w hs.2.2.2⟩)
    | comment c =>
      simpa [List.filterMap_cons, Sect.command?, Sect.stdin?, Sect.stdout?, Sect.stderr?, Sect.status?, Sect.infile?, Sect.outfile?,
        last, Sect.apply] using ih t wo we outs ho he hf

/-- C161: a test file means what is written in it: the last command, all inputs one after another, the last expected outputs and status, and
all files in order. -/
theorem C161_open (env : MEnv) (ss : List Sect) (h : ∀ s ∈ ss, s.Fits env) :
    ∃ t, ToolTest.open env (ss.flatMap Sect.render) = .ok t ∧
      t.cmd = (ss.filterMap Sect.command?).getLast?.getD [] ∧ t.stdin = (ss.filterMap Sect.stdin?).flatten ∧
      Expects env t.stdout ((ss.filterMap Sect.stdout?).getLast?.getD (.text [])) ∧
      Expects env t.stderr ((ss.filterMap Sect.stderr?).getLast?.getD (.text [])) ∧
      t.code = (ss.filterMap Sect.status?).getLast?.getD 0 ∧ t.inFiles = ss.filterMap Sect.infile? ∧
      Pairs (fun o x => o.name = x.1 ∧ Expects env o x.2) t.outFiles (ss.filterMap Sect.outfile?) := by
  refine ⟨ss.foldl (Sect.apply env) .new, goOn_sects env ss h _ (Nat.le_succ_of_le (render_len ss)) .new, ?_⟩
  have := apply_fields env ss h .new (.text []) (.text []) [] (empty_expects env) (empty_expects env) ⟨rfl, by simp⟩
  simpa [ToolTest.new] using this

/-- A test file with an input, a file without final newline and a comment. -/
def sampleSects : List Sect :=
  [.comment (ascii "sample"), .command (ascii "cat $TMP/a"), .stdin (ascii "x\ny\n"), .infile (ascii "a") (ascii "one\ntwo"),
    .stdout (.text (ascii "one\ntwo")), .status .none 3, .outfile (ascii "b") (.spec (ascii "prefix,z"))]

example : ∀ s ∈ sampleSects, s.Fits MEnv.trivial := by
  have hf : ∀ b : Bytes, b.head? ≠ some 35 → (b.zip (b.drop 1)).contains (NL, 35) = false → HashFree b := by
    intro b h1 h2
    refine ⟨fun ⟨x, hx⟩ => h1 (by rw [← hx]; rfl), fun ⟨x, y, hx⟩ => ?_⟩
    have : (NL, 35) ∈ b.zip (b.drop 1) := by
      refine List.mem_iff_getElem?.2 ⟨x.length, ?_⟩
      rw [List.getElem?_zip_eq_some]
      subst hx
      simp [List.getElem?_append]
    rw [← List.contains_iff_mem, h2] at this
    exact absurd this (by simp)
  intro s hs
  simp only [sampleSects, List.mem_cons, List.not_mem_nil, or_false] at hs
  rcases hs with rfl | rfl | rfl | rfl | rfl | rfl | rfl
  · exact (by decide +kernel : NL ∉ ascii "sample")
  · exact ⟨by unfold Starts; decide +kernel, by decide +kernel⟩
  · exact hf _ (by decide +kernel) (by decide +kernel)
  · exact ⟨by unfold Starts; decide +kernel, by decide +kernel, rfl, hf _ (by decide +kernel) (by decide +kernel)⟩
  · exact ⟨hf _ (by decide +kernel) (by decide +kernel), rfl⟩
  · exact ⟨by decide, by decide⟩
  · exact ⟨by decide, by decide +kernel, rfl, by decide, by unfold Starts; decide +kernel, by decide +kernel, rfl, _, rfl⟩

example : sampleSects.flatMap Sect.render =
    ascii "# sample\n#command cat $TMP/a\n#stdin\nx\ny\n#infile a\none\ntwo\n#nonewline\n#stdout\none\ntwo\n#nonewline\n#status 3\n#outfile b prefix,z\n" := by
  decide +kernel

end Cdx
