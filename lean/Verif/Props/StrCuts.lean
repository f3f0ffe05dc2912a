import Verif.Props.Utf8
import Verif.Props.Trans
import Verif.Props.AggMake
import Verif.Props.MatchSpec
import Verif.Props.Methods

/-!
# Cutting strings

C182: tests of lossily decoded text. C183: the parts of option texts are strings. C184: option texts that are cut inside a character.
-/

namespace Cdx

/-! ## C182 -/

/-- The four tests that look for a text, as their meaning: the text, at the front, at the end, anywhere. -/
inductive Literal | exact | pre | suf | inf
deriving DecidableEq

def Literal.kind : Literal → Bytes → MKind
  | .exact, p => .exact p
  | .pre, p => .pre p
  | .suf, p => .suf p
  | .inf, p => .inf p

def Literal.Holds : Literal → Bytes → Bytes → Prop
  | .exact, p, v => v = p
  | .pre, p, v => ∃ r, v = p ++ r
  | .suf, p, v => ∃ l, v = l ++ p
  | .inf, p, v => ∃ l r, v = l ++ p ++ r

/-- With `utf8` the four tests find exactly the text they look for, in every value. -/
def C182_statement : Prop := ∀ (env : MEnv), env.str.lossy = lossyText → ∀ (f : MFlags) (t : Literal) (p v : Bytes),
  f.string = true → f.trim = false → f.empty = false → IsStr p →
    ∃ b, Matcher.lossyMatch env ⟨f, .one (t.kind p)⟩ v = .ok b ∧ (b = true ↔ t.Holds p v)

theorem literal_smatch (env : MEnv) (f : MFlags) (t : Literal) (p v : Bytes) (h1 : f.string = true) (h2 : f.trim = false) (h3 : f.empty = false) :
    ∃ b, Matcher.lossyMatch env ⟨f, .one (t.kind p)⟩ v = .ok b ∧ (b = true ↔ t.Holds p (env.str.lossy v)) := by
  unfold Matcher.lossyMatch Matcher.smatch MFlags.apply
  simp only [h1, h2, h3, if_true, Bool.false_and, Bool.false_eq_true, if_false]
  cases t with
  | exact =>
    refine ⟨_, rfl, ?_⟩
    rw [beq_iff_eq]
    exact ⟨fun h => h.symm, fun h => h.symm⟩
  | pre =>
    refine ⟨_, rfl, ?_⟩
    rw [List.isPrefixOf_iff_prefix]
    exact ⟨fun ⟨r, h⟩ => ⟨r, h.symm⟩, fun ⟨r, h⟩ => ⟨r, h.symm⟩⟩
  | suf =>
    refine ⟨_, rfl, ?_⟩
    rw [List.isSuffixOf_iff_suffix]
    exact ⟨fun ⟨r, h⟩ => ⟨r, h.symm⟩, fun ⟨r, h⟩ => ⟨r, h.symm⟩⟩
  | inf =>
    refine ⟨_, rfl, ?_⟩
    rw [hasInfix_iff]
    exact ⟨fun ⟨l, r, h⟩ => ⟨l, r, h.symm⟩, fun ⟨l, r, h⟩ => ⟨l, r, h.symm⟩⟩

theorem lossyChars_append (v p : Bytes) (h : cutsChar p 0 = false) : lossyChars (v ++ p) = lossyChars v ++ lossyChars p := by
  unfold lossyChars
  rw [decodeUtf8_append v p h, List.map_append]

theorem lossyText_append (v p : Bytes) (h : cutsChar p 0 = false) : lossyText (v ++ p) = lossyText v ++ lossyText p := by
  unfold lossyText
  rw [lossyChars_append v p h, encChars_append]

theorem lossyText_str {p : Bytes} (h : IsStr p) : lossyText p = p := by
  obtain ⟨cs, h1, rfl⟩ := h
  unfold lossyText
  rw [lossyChars_enc h1]

theorem lossyText_front {p : Bytes} (h : IsStr p) (r : Bytes) : lossyText (p ++ r) = p ++ lossyText r := by
  obtain ⟨cs, h1, rfl⟩ := h
  unfold lossyText lossyChars
  rw [decodeUtf8_encs h1, List.map_append, encChars_append, List.map_map]
  congr 2
  exact List.map_id' _

/-- Parts of decoded pieces that are not the replacement are the characters themselves. -/
theorem pieces_some {cs : List Nat} (h : 0xFFFD ∉ cs) : ∀ {P : List (Option Nat)}, P.map (fun o => o.getD 0xFFFD) = cs → P = cs.map some := by
  induction cs with
  | nil => intro P hP; simpa using hP
  | cons c cs ih =>
    intro P hP
    cases P with
    | nil => simp at hP
    | cons o P =>
      rw [List.map_cons] at hP
      injection hP with h1 h2
      rw [List.map_cons, ← ih (fun hm => h (by simp [hm])) h2]
      cases o with
      | none =>
        refine absurd ?_ h
        rw [← h1]
        simp
      | some x =>
        rw [← h1]
        rfl

/-- Decoded text that has a string with no replacement character in it comes from text that has it. -/
theorem lossy_find {v : Bytes} {l cs r : List Nat} (h : 0xFFFD ∉ cs) (hv : lossyChars v = l ++ cs ++ r) :
    ∃ a b, v = a ++ encChars cs ++ b ∧ (l = [] → a = []) ∧ (r = [] → b = []) := by
  have e : decodeUtf8 v = (decodeUtf8 v).take l.length ++ ((decodeUtf8 v).drop l.length) := (List.take_append_drop _ _).symm
  have hd : ((decodeUtf8 v).drop l.length).map (fun o => o.getD 0xFFFD) = cs ++ r := by
    rw [List.map_drop]
    unfold lossyChars at hv
    rw [hv, List.append_assoc, List.drop_left' rfl]
  have e2 : (decodeUtf8 v).drop l.length = ((decodeUtf8 v).drop l.length).take cs.length ++ ((decodeUtf8 v).drop l.length).drop cs.length :=
    (List.take_append_drop _ _).symm
  have hc : (((decodeUtf8 v).drop l.length).take cs.length).map (fun o => o.getD 0xFFFD) = cs := by
    rw [List.map_take, hd, List.take_left' rfl]
  rw [pieces_some h hc] at e2
  have hfin : ∀ b : Bytes, decodeUtf8 b = ((decodeUtf8 v).drop l.length).drop cs.length → r = [] → b = [] := by
    intro b hb hr
    have : ((decodeUtf8 v).drop l.length).drop cs.length = [] := by
      have := congrArg (List.drop cs.length) hd
      rw [← List.map_drop, List.drop_left' rfl, hr] at this
      simpa using this
    rw [this] at hb
    cases b with
    | nil => rfl
    | cons x b => rw [decodeUtf8_cons] at hb; simp at hb
  by_cases hl : l = []
  · subst hl
    rw [List.length_nil, List.drop_zero] at e2 hfin
    obtain ⟨b, h1, h2⟩ := decodeUtf8_front e2
    exact ⟨[], b, h1, fun _ => rfl, hfin b h2⟩
  · obtain ⟨a, w, h1, h2⟩ := decodeUtf8_split v e
    rw [h2.trans e2 |> fun _ => e2] at h2
    obtain ⟨b, h3, h4⟩ := decodeUtf8_front h2
    refine ⟨a, b, by rw [h1, h3, List.append_assoc], fun h => absurd h hl, hfin b h4⟩

/-- A bad byte is taken for the replacement character. -/
theorem C182_refuted : ¬ C182_statement := by
  intro h
  obtain ⟨b, h1, h2⟩ := h { MEnv.trivial with str := { MEnv.trivial.str with lossy := lossyText } } rfl { MFlags.default with string := true } .exact
    [239, 191, 189] [255] rfl rfl rfl ⟨[0xFFFD], by decide, by decide⟩
  have e : b = true := by
    have : (Res.ok true : Res Bool) = .ok b := h1
    injection this with this
    exact this.symm
  have := h2.1 e
  simp [Literal.Holds] at this

theorem isStr_rest {p r : Bytes} (hp : IsStr p) (h : IsStr (p ++ r)) : IsStr r := by
  obtain ⟨cs, h1, rfl⟩ := hp
  rw [← isSome_iff] at h ⊢
  rw [decodeUtf8_encs h1, List.all_append, Bool.and_eq_true] at h
  exact h.2

/-- A string in a string is made of characters of it. -/
theorem encChars_split {cs xs : List Nat} (h0 : cs ≠ []) (h1 : ∀ c ∈ cs, isScalar c) (h2 : ∀ c ∈ xs, isScalar c) {l r : Bytes}
    (h : encChars xs = l ++ encChars cs ++ r) : ∃ a b, xs = a ++ cs ++ b ∧ encChars a = l ∧ encChars b = r := by
  have hp : IsStr (encChars cs) := ⟨cs, h1, rfl⟩
  have hx : IsStr (l ++ (encChars cs ++ r)) := ⟨xs, h2, by rw [h, List.append_assoc]⟩
  have hcut : cutsChar (l ++ (encChars cs ++ r)) l.length = false := by
    have := isStr_start hp
    unfold cutsChar at this ⊢
    rw [List.getElem?_append_right (Nat.le_refl _), Nat.sub_self]
    cases he : encChars cs with
    | nil =>
      cases cs with
      | nil => exact absurd rfl h0
      | cons c cs =>
        rw [encChars_cons] at he
        exact absurd (List.append_eq_nil_iff.1 he).1 (encChar_ne c)
    | cons x t => rw [he] at this; simpa using this
  obtain ⟨k1, k2⟩ := isStr_cut hx (by simp) hcut
  rw [List.take_left' rfl] at k1
  rw [List.drop_left' rfl] at k2
  obtain ⟨a, ha, ea⟩ := k1
  obtain ⟨b, hb, eb⟩ := isStr_rest hp k2
  refine ⟨a, b, ?_, ea, eb⟩
  refine encChars_inj h2 ?_ (by rw [encChars_append, encChars_append, ea, eb, h])
  intro c hc
  rcases List.mem_append.1 hc with hc | hc
  · rcases List.mem_append.1 hc with hc | hc
    · exact ha c hc
    · exact h1 c hc
  · exact hb c hc

/-- For texts without the replacement character the tests with `utf8` find exactly the text, in every value, whether or not it is a
string. Missing: texts with U+FFFD, which also find bad bytes (`C182_refuted`). -/
theorem C182_literal_partial (env : MEnv) (he : env.str.lossy = lossyText) (f : MFlags) (t : Literal) (p v : Bytes)
    (h1 : f.string = true) (h2 : f.trim = false) (h3 : f.empty = false) (cs : List Nat) (hs : ∀ c ∈ cs, isScalar c) (hp : encChars cs = p)
    (hr : 0xFFFD ∉ cs) : ∃ b, Matcher.lossyMatch env ⟨f, .one (t.kind p)⟩ v = .ok b ∧ (b = true ↔ t.Holds p v) := by
  obtain ⟨b, h4, h5⟩ := literal_smatch env f t p v h1 h2 h3
  refine ⟨b, h4, h5.trans ?_⟩
  rw [he]
  have hstr : IsStr p := ⟨cs, hs, hp⟩
  by_cases h0 : cs = []
  · subst h0
    rw [encChars_nil] at hp
    subst hp
    cases t with
    | exact =>
      constructor
      · intro h
        cases v with
        | nil => rfl
        | cons x v =>
          exfalso
          have h : encChars (lossyChars (x :: v)) = [] := h
          unfold lossyChars at h
          rw [decodeUtf8_cons, List.map_cons, encChars_cons] at h
          exact encChar_ne _ (List.append_eq_nil_iff.1 h).1
      · intro h
        rw [show v = [] from h]
        rfl
    | pre => exact ⟨fun _ => ⟨v, rfl⟩, fun _ => ⟨_, rfl⟩⟩
    | suf => exact ⟨fun _ => ⟨v, by simp⟩, fun _ => ⟨lossyText v, by simp⟩⟩
    | inf => exact ⟨fun _ => ⟨v, [], by simp⟩, fun _ => ⟨lossyText v, [], by simp⟩⟩
  have hcut : ∀ r : Bytes, cutsChar (p ++ r) 0 = false := by
    intro r
    have := isStr_start hstr
    unfold cutsChar at this ⊢
    cases hp' : p with
    | nil =>
      exfalso
      cases cs with
      | nil => exact h0 rfl
      | cons c cs =>
        rw [← hp, encChars_cons] at hp'
        exact encChar_ne c (List.append_eq_nil_iff.1 hp').1
    | cons x t => rw [hp'] at this; simpa using this
  have fwd : ∀ l r : Bytes, lossyText v = l ++ p ++ r → ∃ a b, v = a ++ p ++ b ∧ (l = [] → a = []) ∧ (r = [] → b = []) := by
    intro l r h
    rw [← hp] at h
    obtain ⟨xl, xr, e1, e2, e3⟩ := encChars_split h0 hs (lossy_scalar v) h
    obtain ⟨a, b, k1, k2, k3⟩ := lossy_find hr e1
    rw [hp] at k1
    refine ⟨a, b, k1, fun hl => k2 ?_, fun hr => k3 ?_⟩
    · rw [hl] at e2
      cases xl with
      | nil => rfl
      | cons c xl =>
        rw [encChars_cons] at e2
        exact absurd (List.append_eq_nil_iff.1 e2).1 (encChar_ne c)
    · rw [hr] at e3
      cases xr with
      | nil => rfl
      | cons c xr =>
        rw [encChars_cons] at e3
        exact absurd (List.append_eq_nil_iff.1 e3).1 (encChar_ne c)
  have bwd : ∀ l r : Bytes, v = l ++ p ++ r → lossyText v = lossyText l ++ p ++ lossyText r := by
    intro l r h
    rw [h, List.append_assoc, lossyText_append _ _ (hcut r), lossyText_front hstr, List.append_assoc]
  cases t with
  | exact =>
    constructor
    · intro h
      obtain ⟨a, b, k1, k2, k3⟩ := fwd [] [] (by rw [show lossyText v = p from h]; simp)
      rw [k2 rfl, k3 rfl] at k1
      simpa [Literal.Holds] using k1
    · intro h
      rw [show v = p from h]
      exact lossyText_str hstr
  | pre =>
    constructor
    · rintro ⟨r, h⟩
      obtain ⟨a, b, k1, k2, -⟩ := fwd [] r (by rw [h]; simp)
      rw [k2 rfl] at k1
      exact ⟨b, by simpa using k1⟩
    · rintro ⟨r, h⟩
      exact ⟨lossyText r, by rw [h, lossyText_front hstr]⟩
  | suf =>
    constructor
    · rintro ⟨l, h⟩
      obtain ⟨a, b, k1, -, k3⟩ := fwd l [] (by rw [h]; simp)
      rw [k3 rfl] at k1
      exact ⟨a, by simpa using k1⟩
    · rintro ⟨l, h⟩
      have := bwd l [] (by rw [h]; simp)
      exact ⟨lossyText l, by rw [this]; simp [lossyText, lossyChars, decodeUtf8_nil, encChars_nil]⟩
  | inf =>
    constructor
    · rintro ⟨l, r, h⟩
      obtain ⟨a, b, k1, -, -⟩ := fwd l r h
      exact ⟨a, b, k1⟩
    · rintro ⟨l, r, h⟩
      exact ⟨_, _, bwd l r h⟩

example : (∀ c ∈ [233, 97], isScalar c) ∧ 0xFFFD ∉ [233, 97] ∧ Literal.Holds .inf (encChars [233, 97]) [255, 195, 169, 97, 195] :=
  ⟨by decide, by decide, [255], [195], by decide⟩

/-! ## C183 -/

theorem isStr_front {a b : Bytes} (ha : ∀ x ∈ a, x < 128) (h : IsStr (a ++ b)) : IsStr b := isStr_rest (isStr_ascii ha) h

theorem digitLoop_front (lim : Nat) : ∀ (t : Bytes) (r v : Nat) (rest : Bytes), digitLoop lim r t = some (v, rest) →
    ∃ a, t = a ++ rest ∧ ∀ x ∈ a, x < 128
  | [], r, v, rest, h => by
    simp [digitLoop] at h
    exact ⟨[], by simp [h.2], by simp⟩
  | c :: cs, r, v, rest, h => by
    unfold digitLoop at h
    split at h
    · rename_i hc
      split at h
      · simp at h
      · split at h
        · simp at h
        · obtain ⟨a, h1, h2⟩ := digitLoop_front lim cs _ v rest h
          refine ⟨c :: a, by rw [h1, List.cons_append], ?_⟩
          intro x hx
          rcases List.mem_cons.1 hx with rfl | hx
          · unfold isDigit at hc
            simp only [Bool.and_eq_true, decide_eq_true_eq] at hc
            have := UInt8.le_iff_toNat_le.1 hc.2
            have e : (57 : UInt8).toNat = 57 := rfl
            rw [u8_ascii]
            omega
          · exact h2 x hx
    · injection h with h
      injection h with _ h
      exact ⟨[], by rw [h]; rfl, by simp⟩

theorem suffixValU_ascii : ∀ s : UInt8, suffixValU s ≠ none → s < 128 := byte_forall (by decide +kernel)

theorem dropPlus_front (t : Bytes) : ∃ a, t = a ++ dropPlus t ∧ ∀ x ∈ a, x < 128 := by
  cases t with
  | nil => exact ⟨[], rfl, by simp⟩
  | cons c cs =>
    by_cases h : c = 43
    · exact ⟨[c], by simp [dropPlus, h], by rw [h]; decide⟩
    · exact ⟨[], by simp [dropPlus, h], by simp⟩

theorem toUsize_front {t rest : Bytes} {v : Nat} (h : toUsize t = some (v, rest)) : ∃ a, t = a ++ rest ∧ ∀ x ∈ a, x < 128 := by
  obtain ⟨p, hp, hpa⟩ := dropPlus_front t
  unfold toUsize at h
  split at h
  · injection h with h
    injection h with _ h
    exact ⟨[], by rw [h]; rfl, by simp⟩
  · rename_i c cs hd
    split at h
    · injection h with h
      injection h with _ h
      exact ⟨[], by rw [h]; rfl, by simp⟩
    · cases hl : digitLoop usizeMax 0 (c :: cs) with
      | none => rw [hl] at h; simp at h
      | some q =>
        obtain ⟨ret, rst⟩ := q
        obtain ⟨a, h1, h2⟩ := digitLoop_front _ _ _ _ _ hl
        rw [hl] at h
        simp only at h
        have hall : ∀ x ∈ p ++ a, x < 128 := by
          intro x hx
          rcases List.mem_append.1 hx with hx | hx
          · exact hpa x hx
          · exact h2 x hx
        rw [hd, h1] at hp
        cases rst with
        | nil =>
          injection h with h
          injection h with _ h
          exact ⟨p ++ a, by rw [hp, ← h]; simp, hall⟩
        | cons s r =>
          simp only at h
          cases hs : suffixValU s with
          | none =>
            rw [hs] at h
            injection h with h
            injection h with _ h
            exact ⟨p ++ a, by rw [hp, ← h]; simp, hall⟩
          | some m =>
            rw [hs] at h
            simp only at h
            split at h
            · simp at h
            · injection h with h
              injection h with _ h
              refine ⟨p ++ a ++ [s], by rw [hp, ← h]; simp, ?_⟩
              intro x hx
              rcases List.mem_append.1 hx with hx | hx
              · exact hall x hx
              · rw [List.mem_singleton.1 hx]
                exact suffixValU_ascii s (by rw [hs]; simp)

theorem findCloseLoop_at {o c : UInt8} : ∀ (l : Bytes) (i : Nat) (d : Int) (n : Nat), d ≠ 0 ∨ l.head? = some o → findCloseLoop o c l i d = some n →
    ∃ j x, n = i + j + 1 ∧ l[j]? = some x ∧ (x = o ∨ x = c)
  | [], i, d, n, _, h => by simp [findCloseLoop] at h
  | x :: xs, i, d, n, hd, h => by
    unfold findCloseLoop at h
    simp only at h
    by_cases h0 : (if x = o then d + 1 else if x = c then d - 1 else d) = 0
    · rw [if_pos h0] at h
      injection h with h
      refine ⟨0, x, by omega, rfl, ?_⟩
      by_cases h1 : x = o
      · exact Or.inl h1
      · by_cases h2 : x = c
        · exact Or.inr h2
        · rw [if_neg h1, if_neg h2] at h0
          rcases hd with hd | hd
          · exact absurd h0 hd
          · injection hd with hd
            exact absurd hd h1
    · rw [if_neg h0] at h
      obtain ⟨j, y, h1, h2, h3⟩ := findCloseLoop_at xs (i + 1) _ n (Or.inl h0) h
      exact ⟨j + 1, y, by omega, by simpa using h2, h3⟩

theorem closer_ascii : ∀ x y : UInt8, closer x = some y → x < 128 ∧ y < 128 := by
  intro x y h
  unfold closer at h
  repeat' split at h
  all_goals first
    | (injection h with h; subst h; rename_i e; subst e; decide)
    | simp at h

theorem findTransLoop_at : ∀ (l seen a b : Bytes) (lp : Bool), (lp = true → seen.head? = some 43) → findTransLoop seen lp l = some (a, b) →
    ∃ t, seen.reverse ++ l = a ++ 43 :: b ∧ t = a
  | [], seen, a, b, lp, _, h => by cases lp <;> simp [findTransLoop] at h
  | x :: xs, seen, a, b, true, hl, h => by
    simp only [findTransLoop] at h
    split at h
    · injection h with h
      injection h with h1 h2
      refine ⟨a, ?_, rfl⟩
      cases seen with
      | nil => simp at hl
      | cons y ys =>
        have hy : y = 43 := by simpa using hl
        rw [← h1, ← h2, hy]
        simp
    · obtain ⟨t, h1, -⟩ := findTransLoop_at xs (x :: seen) a b false (by simp) h
      exact ⟨a, by rw [← h1]; simp, rfl⟩
  | x :: xs, seen, a, b, false, hl, h => by
    simp only [findTransLoop] at h
    obtain ⟨t, h1, -⟩ := findTransLoop_at xs (x :: seen) a b (x == 43) (by intro e; simpa using e) h
    exact ⟨a, by rw [← h1]; simp, rfl⟩

/-- Wherever option texts are cut at a one-byte character, after a number, at a closing bracket or before a transform, the parts are
strings: at a character. -/
theorem C183_once (d : UInt8) (hd : d < 128) (s a b : Bytes) (hs : IsStr s) (h : splitOnce d s = some (a, b)) : IsStr a ∧ IsStr b := by
  rw [(splitOnce_eq d s a b h).1] at hs
  exact isStr_ascii_at hs hd

/-- All parts. -/
theorem C183_split (d : UInt8) (hd : d < 128) (s : Bytes) (hs : IsStr s) : ∀ p ∈ sliceSplit d s, IsStr p := by
  obtain ⟨cs, hcs, rfl⟩ := hs
  rw [splitChars_bytes hd hcs]
  intro p hp
  obtain ⟨w, hw, rfl⟩ := List.mem_map.1 hp
  exact ⟨w, fun c hc => hcs c (splitChars_sub _ _ w hw c hc), rfl⟩

/-- After a number. -/
theorem C183_number (s rest : Bytes) (v : Nat) (hs : IsStr s) (h : toUsize s = some (v, rest)) : IsStr rest := by
  obtain ⟨a, h1, h2⟩ := toUsize_front h
  rw [h1] at hs
  exact isStr_front h2 hs

/-- After a bracketed part, and inside the brackets. -/
theorem C183_bracket (s : Bytes) (n : Nat) (hs : IsStr s) (h : findClose s = some n) :
    IsStr (s.take n) ∧ IsStr (s.drop n) ∧ IsStr ((s.take n).drop 1) ∧ cutsChar s n = false := by
  unfold findClose at h
  cases s with
  | nil => simp at h
  | cons x t =>
    simp only at h
    cases hc : closer x with
    | none => rw [hc] at h; simp at h
    | some c =>
      rw [hc] at h
      simp only at h
      obtain ⟨j, y, h1, h2, h3⟩ := findCloseLoop_at _ _ _ _ (Or.inr rfl) h
      obtain ⟨k1, k2⟩ := closer_ascii x c hc
      have hy : y < 128 := by
        rcases h3 with h3 | h3
        · rw [h3]; exact k1
        · rw [h3]; exact k2
      have hcut := (ascii_place hs h2 hy).2
      have hn : n = j + 1 := by omega
      rw [← hn] at hcut
      have hlen : n ≤ (x :: t).length := by
        rcases Nat.lt_or_ge j (x :: t).length with h | h
        · omega
        · rw [List.getElem?_eq_none h] at h2; simp at h2
      obtain ⟨m1, m2⟩ := isStr_cut hs hlen hcut
      refine ⟨m1, m2, ?_, hcut⟩
      rw [hn, List.take_succ_cons] at m1 ⊢
      exact isStr_front (a := [x]) (by simpa using k1) m1

/-- Before a transform. -/
theorem C183_trans (s a b : Bytes) (hs : IsStr s) (h : findTrans s = some (a, b)) : IsStr a ∧ IsStr b := by
  obtain ⟨-, h1, -⟩ := findTransLoop_at s [] a b false (by simp) h
  rw [show s = a ++ 43 :: b by simpa using h1] at hs
  exact isStr_ascii_at hs (by decide)

example : IsStr [40, 195, 169, 41, 44] ∧ findClose [40, 195, 169, 41, 44] = some 4 ∧ splitOnce 44 [40, 195, 169, 41, 44] = some ([40, 195, 169, 41], []) ∧
    toUsize [49, 75, 195, 169] = some (1024, [195, 169]) ∧ findTrans [195, 169, 43, 97] = some ([195, 169], [97]) :=
  ⟨⟨[40, 233, 41, 44], by decide, by decide⟩, by decide, by decide, by decide, by decide⟩

/-! ## C184 -/

/-- No option text that is a string is cut inside a character: the operator of `comp`, the delimiters of `merge`, the columns given by a
pattern, and the columns in brackets. -/
def C184_statement : Prop :=
  (∀ p, IsStr p → compOp p ≠ .panic) ∧
  (∀ mk m sp, IsStr sp → mergeDelim mk m sp ≠ .panic) ∧
  (∀ rest : Bytes, IsStr rest → rest ≠ [] → cutsChar rest (rest.length - 1) = false) ∧
  (∀ s n, IsStr s → findClose s = some n → n + 1 ≤ s.length → cutsChar s (n + 1) = false)

/-- `-m a,comp,<é` -/
theorem C184_refuted : ¬ C184_statement := by
  intro h
  exact h.1 [60, 195, 169] ⟨[60, 233], by decide, by decide⟩ (by decide)

/-- The other three: `merge,D.é`, `(é` and `[a]é`. -/
theorem C184_others :
    (IsStr [68, 46, 195, 169] ∧ mergeDelim (fun _ => .err) .default [68, 46, 195, 169] = .panic) ∧
    (IsStr [40, 195, 169] ∧ range (fun _ => .err) [] [40, 195, 169] = .panic) ∧
    (IsStr [91, 97, 93, 195, 169] ∧ colGroup MEnv.trivial [91, 97, 93, 195, 169] = .panic ∧
      ∀ env, makeLine env [91, 97, 93, 195, 169] = .panic) :=
  ⟨⟨⟨[68, 46, 233], by decide, by decide⟩, by decide⟩, ⟨⟨[40, 233], by decide, by decide⟩, by decide⟩,
    ⟨⟨[91, 97, 93, 233], by decide, by decide⟩, by rfl, fun _ => by rfl⟩⟩

theorem isStr_two {a b : UInt8} (h : IsStr [a, b]) (ha : a < 128) : b < 128 :=
  (isStr_one b).1 (isStr_front (a := [a]) (by simpa using ha) h)

theorem parse_high {a : UInt8} (ha : ¬ a < 128) (t : Bytes) : CompareOp.parse (a :: t) = .err := by
  have key : ∀ a : UInt8, ¬ a < 128 → ∀ x : UInt8, x < 128 → lowerByte a ≠ lowerByte x := by
    intro a ha x hx e
    have h1 : ∀ a : UInt8, ¬ a < 128 → lowerByte a = a := byte_forall (by decide +kernel)
    have h2 : ∀ x : UInt8, x < 128 → lowerByte x < 128 := byte_forall (by decide +kernel)
    rw [h1 a ha] at e
    rw [e] at ha
    exact ha (h2 x hx)
  unfold CompareOp.parse
  cases hf : opNames.find? fun p => eqIgnoreCase (a :: t) p.1 with
  | none => rfl
  | some p =>
    exfalso
    have h1 := List.find?_some hf
    have h2 := List.mem_of_find?_eq_some hf
    have h3 : ∀ p ∈ opNames, ∃ x r, p.1 = x :: r ∧ x < 128 := by
      intro p hp
      simp only [opNames, List.mem_cons, List.not_mem_nil, or_false] at hp
      rcases hp with rfl | rfl | rfl | rfl | rfl | rfl | rfl | rfl | rfl | rfl | rfl | rfl
      all_goals exact ⟨_, _, rfl, by decide⟩
    obtain ⟨x, r, e, hx⟩ := h3 p h2
    rw [e] at h1
    simp [eqIgnoreCase, lower] at h1
    exact key a ha x hx h1.1

theorem parse_sound (t : Bytes) : CompareOp.parse t ≠ .panic := by
  unfold CompareOp.parse
  split <;> simp

/-- The operator of `comp` panics exactly if there is something to read and one of its first two bytes is not ASCII. -/
theorem C184_comp_partial (p : Bytes) (hp : IsStr p) : compOp p = .panic ↔ ∃ a b c t, p = a :: b :: c :: t ∧ ¬ (a < 128 ∧ b < 128) := by
  constructor
  · intro h
    unfold compOp at h
    by_cases hl : p.length < 3
    · rw [if_pos hl] at h
      simp at h
    · rw [if_neg hl] at h
      match p, hp, hl, h with
      | [], _, hl, _ => simp at hl
      | [_], _, hl, _ => simp at hl
      | [_, _], _, hl, _ => simp at hl
      | a :: b :: c :: t, hp, _, h =>
        refine ⟨a, b, c, t, rfl, ?_⟩
        rintro ⟨ha, hb⟩
        rw [if_neg (by rw [(ascii_place (i := 1) hp rfl hb).2]; simp)] at h
        split at h
        · simp at h
        · rw [if_neg (by rw [(ascii_place (i := 0) hp rfl ha).2]; simp)] at h
          split at h
          · simp at h
          · split at h
            · cases hq : CompareOp.parse _ with
              | ok o => rw [hq] at h; simp at h
              | err => rw [hq] at h; simp at h
              | panic => exact parse_sound _ hq
            · simp at h
  · rintro ⟨a, b, c, t, rfl, hn⟩
    unfold compOp
    rw [if_neg (by simp)]
    by_cases h2 : cutsChar (a :: b :: c :: t) 2 = true
    · rw [if_pos h2]
    · rw [if_neg h2]
      have k2 := (isStr_cut hp (i := 2) (by simp) (by simpa using h2)).1
      have ha : ¬ a < 128 := fun ha => hn ⟨ha, isStr_two k2 ha⟩
      simp only [List.take_succ_cons, List.take_zero]
      rw [parse_high ha]
      simp only
      have h1 : cutsChar (a :: b :: c :: t) 1 = true := by
        cases h1 : cutsChar (a :: b :: c :: t) 1 with
        | true => rfl
        | false =>
          have k1 := (isStr_cut hp (i := 1) (by simp) h1).1
          exact absurd ((isStr_one a).1 k1) ha
      rw [if_pos h1]

/-- The delimiters of `merge` panic exactly if the two bytes after `D` are not whole characters. -/
theorem C184_merge_partial (mk : Bytes → Res CompKind) (m : MergeConf) (sp : Bytes) (hs : IsStr sp) :
    mergeDelim mk m sp = .panic ↔ ∃ x y t, sp = 68 :: x :: y :: t ∧ ¬ IsStr [x, y] := by
  unfold mergeDelim
  match sp, hs with
  | [], _ => simp
  | c :: t, hs =>
    by_cases hc : c = 68
    · subst hc
      simp only
      match t, hs with
      | [], _ => simp
      | [_], _ => simp
      | x :: y :: t, hs =>
        have hcut : cutsChar (68 :: x :: y :: t) 3 = true ↔ ¬ IsStr [x, y] := by
          constructor
          · intro h hxy
            have h2 := isStr_start (isStr_rest (isStr_append (isStr_ascii (b := [68]) (by decide)) hxy) hs)
            have h3 := cutsChar_drop (68 :: x :: y :: t) 3 0
            rw [show (68 :: x :: y :: t).drop 3 = t from rfl] at h3
            rw [h3] at h2
            rw [h2] at h
            simp at h
          · intro h
            cases hq : cutsChar (68 :: x :: y :: t) 3 with
            | true => rfl
            | false =>
              have := (isStr_cut hs (i := 3) (by simp) hq).1
              exact absurd (isStr_front (a := [68]) (by decide) this) h
        rw [if_neg (by simp)]
        constructor
        · intro h
          by_cases h3 : cutsChar (68 :: x :: y :: t) 3 = true
          · exact ⟨x, y, t, rfl, hcut.1 h3⟩
          · exfalso
            rw [if_neg h3] at h
            have : m.addOne mk ((68 :: x :: y :: t).take 3) = .ok { m with delim := x, outDelim := y } := rfl
            rw [this, Res.bind_ok] at h
            split at h
            · simp at h
            · split at h <;> simp at h
        · rintro ⟨x', y', t', e, h⟩
          injection e with _ e
          injection e with e1 e
          injection e with e2 e3
          subst e1 e2 e3
          rw [if_pos (hcut.2 h)]
    · constructor
      · intro h
        split at h
        · rename_i e
          injection e with e _
          exact absurd e hc
        · simp at h
      · rintro ⟨x, y, t', e, -⟩
        injection e with e _
        exact absurd e hc

theorem drop_last {rest : Bytes} (h : rest ≠ []) : rest.drop (rest.length - 1) = [rest.getLast h] := by
  have hl : rest.length - 1 < rest.length := by
    have := List.length_pos_iff.2 h
    omega
  rw [List.drop_eq_getElem_cons hl, List.getLast_eq_getElem]
  congr 1
  exact List.drop_eq_nil_of_le (by omega)

/-- Columns given by a pattern in round brackets are cut inside a character exactly if the last byte is not ASCII. -/
theorem C184_range_partial (rest : Bytes) (hs : IsStr rest) (h0 : rest ≠ []) :
    cutsChar rest (rest.length - 1) = true ↔ ¬ rest.getLast h0 < 128 := by
  constructor
  · intro h hx
    have h1 := isStr_start ((isStr_one _).2 hx)
    rw [← drop_last h0, cutsChar_drop] at h1
    rw [show rest.length - 1 + 0 = rest.length - 1 from rfl, h] at h1
    simp at h1
  · intro h
    cases hc : cutsChar rest (rest.length - 1) with
    | true => rfl
    | false =>
      have := (isStr_cut hs (by omega) hc).2
      rw [drop_last h0] at this
      exact absurd ((isStr_one _).1 this) h

/-- What follows columns in square brackets is cut inside a character exactly if the byte after the bracket is not ASCII. -/
theorem C184_bracket_partial (s : Bytes) (n : Nat) (x : UInt8) (hs : IsStr s) (h : findClose s = some n) (hx : s[n]? = some x) :
    cutsChar s (n + 1) = true ↔ ¬ x < 128 := by
  obtain ⟨-, h2, -, -⟩ := C183_bracket s n hs h
  have hn : n < s.length := by
    rcases Nat.lt_or_ge n s.length with h | h
    · exact h
    · rw [List.getElem?_eq_none h] at hx; simp at hx
  have hd : s.drop n = x :: s.drop (n + 1) := by
    rw [List.getElem?_eq_getElem hn] at hx
    injection hx with hx
    rw [List.drop_eq_getElem_cons hn, hx]
  constructor
  · intro hc hx'
    rw [(ascii_place hs hx hx').2] at hc
    simp at hc
  · intro hx'
    cases hc : cutsChar s (n + 1) with
    | true => rfl
    | false =>
      rw [← cutsChar_drop] at hc
      have := (isStr_cut h2 (i := 1) (by rw [hd]; simp) hc).1
      rw [hd] at this
      exact absurd ((isStr_one x).1 this) hx'

example : IsStr [60, 97, 44] ∧ (∃ r, compOp [60, 97, 44] = .ok r) ∧ (∃ r, mergeDelim (fun _ => .err) .default [68, 195, 169] = .ok r) :=
  ⟨⟨[60, 97, 44], by decide, by decide⟩, ⟨_, rfl⟩, ⟨_, rfl⟩⟩

end Cdx
