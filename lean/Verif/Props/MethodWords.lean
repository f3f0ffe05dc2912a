import Verif.Props.Details
import Verif.Props.Cut
import Verif.Props.ExprLine
import Verif.Props.CompMake
import Verif.Props.Cgrep
import Verif.Props.OpsMake

/-!
C195: the words of a matching method; and the pieces that lists of matchers, comparators and formulas are made of.
-/

namespace Cdx

/-- The word is one of the names, in any case. -/
def wordIs (names : List String) (w : Bytes) : Bool := names.any fun n => lower w == ascii n

/-- The words that are no names of methods. -/
def matchModifiers : List String := ["utf8", "not", "trim", "null", "case", "and", "or"]

theorem eqIgnore_word (w : Bytes) (n : String) (hn : lower (ascii n) = ascii n) : eqIgnoreCase w (ascii n) = (lower w == ascii n) := by
  unfold eqIgnoreCase
  rw [hn]

/-- How the list of words acts on the flags, word by word. -/
theorem modify_word (f : MFlags) (w : Bytes) :
    f.modify w =
      { ctype := if wordIs matchModifiers w then f.ctype else w,
        string := f.string || wordIs ["utf8"] w,
        insens := f.insens || wordIs ["case"] w,
        negate := f.negate || wordIs ["not", "null"] w,
        trim := f.trim || wordIs ["trim"] w,
        empty := f.empty,
        multi := if wordIs ["and"] w then some .and else if wordIs ["or"] w then some .or else f.multi } := by
  have e : ∀ n ∈ matchModifiers, eqIgnoreCase w (ascii n) = (lower w == ascii n) := by
    intro n hn
    refine eqIgnore_word w n ?_
    revert hn
    revert n
    decide
  unfold MFlags.modify wordIs matchModifiers
  rw [e "utf8" (by decide), e "not" (by decide), e "trim" (by decide), e "null" (by decide), e "case" (by decide), e "and" (by decide), e "or" (by decide)]
  generalize lower w = l
  simp only [List.any_cons, List.any_nil, Bool.or_false, beq_iff_eq]
  by_cases h1 : l = ascii "utf8"
  · subst h1; simp +decide
  by_cases h2 : l = ascii "not"
  · subst h2; simp +decide
  by_cases h3 : l = ascii "trim"
  · subst h3; simp +decide
  by_cases h4 : l = ascii "null"
  · subst h4; simp +decide
  by_cases h5 : l = ascii "case"
  · subst h5; simp +decide
  by_cases h6 : l = ascii "and"
  · subst h6; simp +decide
  by_cases h7 : l = ascii "or"
  · subst h7; simp +decide
  simp [h1, h2, h3, h4, h5, h6, h7, beq_eq_false_iff_ne.2]

/-- The last of `and` and `or`. -/
def lastCombiner (ws : List Bytes) : Option Combiner :=
  ((ws.filter (wordIs ["and", "or"])).getLast?).map fun w => if wordIs ["and"] w then .and else .or

/-- The last word that is no modifier, `regex` if there is none. -/
def methodName (ws : List Bytes) : Bytes := ((ws.filter fun w => !wordIs matchModifiers w).getLast?).getD (ascii "regex")

theorem foldl_modify (ws : List Bytes) (f : MFlags) :
    ws.foldl MFlags.modify f =
      { ctype := ((ws.filter fun w => !wordIs matchModifiers w).getLast?).getD f.ctype,
        string := f.string || ws.any (wordIs ["utf8"]),
        insens := f.insens || ws.any (wordIs ["case"]),
        negate := f.negate || ws.any (wordIs ["not", "null"]),
        trim := f.trim || ws.any (wordIs ["trim"]),
        empty := f.empty,
        multi := (lastCombiner ws).or f.multi } := by
  induction ws generalizing f with
  | nil => simp [lastCombiner]
  | cons w ws ih =>
    rw [List.foldl_cons, ih, modify_word]
    simp only [List.any_cons, Bool.or_assoc, MFlags.mk.injEq, true_and, and_true]
    refine ⟨?_, ?_⟩
    · by_cases h : wordIs matchModifiers w = true
      · rw [List.filter_cons_of_neg (by simp [h]), if_pos h]
      · rw [List.filter_cons_of_pos (by simpa using h), if_neg h, List.getLast?_cons]
        cases (ws.filter fun w => !wordIs matchModifiers w).getLast? <;> simp
    · unfold lastCombiner
      have hor : wordIs ["and", "or"] w = (wordIs ["and"] w || wordIs ["or"] w) := by simp [wordIs]
      by_cases ha : wordIs ["and"] w = true
      · rw [List.filter_cons_of_pos (by simp [hor, ha]), List.getLast?_cons, if_pos ha]
        cases (ws.filter (wordIs ["and", "or"])).getLast? <;> simp [ha]
      · by_cases ho : wordIs ["or"] w = true
        · rw [List.filter_cons_of_pos (by simp [hor, ho]), List.getLast?_cons, if_neg ha, if_pos ho]
          cases (ws.filter (wordIs ["and", "or"])).getLast? <;> simp [ha]
        · rw [List.filter_cons_of_neg (by simp [hor, ha, ho]), if_neg ha, if_neg ho]

/-- C195: what the words of a matching method set. -/
theorem C195_flags (M : Bytes) :
    MFlags.ofMethod M =
      { ctype := matchAlias (methodName (methodWords M)),
        string := (methodWords M).any (wordIs ["utf8"]),
        insens := (methodWords M).any (wordIs ["case"]),
        negate := (methodWords M).any (wordIs ["not", "null"]),
        trim := (methodWords M).any (wordIs ["trim"]),
        empty := false,
        multi := lastCombiner (methodWords M) } := by
  rw [ofMethod_words, foldl_modify]
  simp only [MFlags.default, methodName, Bool.false_or, MFlags.mk.injEq, true_and, Option.or_none]
  rw [show ascii "regex" = [114, 101, 103, 101, 120] from rfl]
  exact ⟨rfl, trivial⟩

theorem getLast_perm {α : Type} {l r : List α} (h : l.Perm r) (hl : l.length ≤ 1) : l.getLast? = r.getLast? := by
  match l, hl with
  | [], _ => rw [List.Perm.nil_eq h]
  | [a], _ => rw [List.singleton_perm.1 h]

/-- C195: the words can be in any order, when there is at most one method and at most one of `and` and `or`. -/
theorem C195_order (env : MEnv) (M M' p : Bytes) (h : (methodWords M).Perm (methodWords M'))
    (h1 : ((methodWords M).filter fun w => !wordIs matchModifiers w).length ≤ 1)
    (h2 : ((methodWords M).filter (wordIs ["and", "or"])).length ≤ 1) :
    MFlags.ofMethod M = MFlags.ofMethod M' ∧ Matcher.make2 env M p = Matcher.make2 env M' p := by
  have e : MFlags.ofMethod M = MFlags.ofMethod M' := by
    rw [C195_flags, C195_flags]
    have ha : ∀ q : Bytes → Bool, (methodWords M).any q = (methodWords M').any q := fun q => h.any_eq
    simp only [ha, methodName, lastCombiner, getLast_perm (h.filter _) h1, getLast_perm (h.filter _) h2]
  refine ⟨e, ?_⟩
  unfold Matcher.make2
  rw [e]

/-- `case.Exact.trim` has the words of `TRIM.exact.case` but for their case. -/
example : (methodWords (ascii "case.exact.trim")).Perm (methodWords (ascii "trim.case.exact")) ∧
    ((methodWords (ascii "case.exact.trim")).filter fun w => !wordIs matchModifiers w).length ≤ 1 ∧
    MFlags.ofMethod (ascii "CASE.trim") = ⟨ascii "regex", false, true, false, true, false, none⟩ ∧
    MFlags.ofMethod (ascii "and.prefix.or.exact") = ⟨ascii "exact", false, false, false, false, false, some .or⟩ := by decide

/-! ## Pieces -/

/-- C76: two characters match in a pattern with `utf8` if they are equal, the first is a question mark, or they are equal but for their case and the case does not
count. -/
theorem C76_chars (o : StrOps) (insens : Bool) (a b : Char) :
    charsEqualS o insens a b = true ↔ a = b ∨ a = '?' ∨ (insens = true ∧ o.low a = o.low b) := by
  unfold charsEqualS
  by_cases h1 : a = b
  · simp [h1]
  · by_cases h2 : a = '?'
    · simp [h2]
    · cases insens <;> simp [h1, h2]

/-- C110: one column for each part of the text, in order. -/
theorem C110_columns : ∀ (xs : List Bytes) (cs : List NamedCol), colsNew xs = .ok cs ↔
    cs.length = xs.length ∧ ∀ (i : Nat) x c, xs[i]? = some x → cs[i]? = some c → NamedCol.newFrom x = .ok c
  | [], cs => by
    rw [colsNew]
    refine ⟨fun h => by cases h; exact ⟨rfl, by simp⟩, fun h => ?_⟩
    rw [List.eq_nil_of_length_eq_zero h.1]
  | x :: xs, cs => by
    rw [colsNew]
    constructor
    · intro h
      obtain ⟨c, hc, h⟩ := Res.bind_eq_ok h
      obtain ⟨cs', hcs, h⟩ := Res.bind_eq_ok h
      cases h
      have ih := (C110_columns xs cs').1 hcs
      refine ⟨by simp [ih.1], ?_⟩
      intro i y d hy hd
      cases i with
      | zero =>
        simp only [List.getElem?_cons_zero, Option.some.injEq] at hy hd
        rw [← hy, ← hd, hc]
      | succ i =>
        rw [List.getElem?_cons_succ] at hy hd
        exact ih.2 i y d hy hd
    · rintro ⟨hl, h⟩
      cases cs with
      | nil => simp at hl
      | cons c cs =>
        rw [h 0 x c rfl rfl, Res.bind_ok, (C110_columns xs cs).2 ⟨by simpa using hl, fun i y d hy hd => h (i + 1) y d (by simpa using hy) (by simpa using hd)⟩,
          Res.bind_ok]

/-- C57: every test of the list is looked up, in order. -/
theorem C57_lookup (env : MEnv) (names : List Bytes) : ∀ (ms : List LineMatcher) (ts : List LineTest), lookupAll env names ms = .ok ts ↔
    ts.length = ms.length ∧ ∀ (i : Nat) (m : LineMatcher) (t : LineTest), ms[i]? = some m → ts[i]? = some t → m.lookup env names = .ok t
  | [], ts => by
    rw [lookupAll]
    refine ⟨fun h => by cases h; exact ⟨rfl, by simp⟩, fun h => ?_⟩
    rw [List.eq_nil_of_length_eq_zero h.1]
  | m :: ms, ts => by
    rw [lookupAll]
    constructor
    · intro h
      obtain ⟨c, hc, h⟩ := Res.bind_eq_ok h
      obtain ⟨cs', hcs, h⟩ := Res.bind_eq_ok h
      cases h
      have ih := (C57_lookup env names ms cs').1 hcs
      refine ⟨by simp [ih.1], ?_⟩
      intro i y d hy hd
      cases i with
      | zero =>
        simp only [List.getElem?_cons_zero, Option.some.injEq] at hy hd
        rw [← hy, ← hd, hc]
      | succ i =>
        rw [List.getElem?_cons_succ] at hy hd
        exact ih.2 i y d hy hd
    · rintro ⟨hl, h⟩
      cases ts with
      | nil => simp at hl
      | cons c cs =>
        rw [h 0 m c rfl rfl, Res.bind_ok, (C57_lookup env names ms cs).2 ⟨by simpa using hl, fun i y d hy hd => h (i + 1) y d (by simpa using hy) (by simpa using hd)⟩,
          Res.bind_ok]

/-- C141: the text of a computed column is a name, a colon and a formula, or a formula alone. -/
theorem C141_text {F : Type} (env : CutEnv) (name formula : Bytes) :
    (58 ∉ name → (columnExprNew (name ++ 58 :: formula) : Bytes × ExprSt F) = (name, ExprSt.new formula) ∧
      exprSpec env (name ++ 58 :: formula) = if env.compiles formula then .ok (.expr name formula) else .err) ∧
    (58 ∉ formula → (columnExprNew formula : Bytes × ExprSt F) = ([], ExprSt.new formula) ∧
      exprSpec env formula = if env.compiles formula then .ok (.expr [] formula) else .err) := by
  refine ⟨fun h => ?_, fun h => ?_⟩
  · unfold columnExprNew exprSpec
    rw [splitOnce_some 58 name formula h]
    exact ⟨rfl, rfl⟩
  · unfold columnExprNew exprSpec
    rw [splitOnce_none 58 formula h]
    exact ⟨rfl, rfl⟩

/-- C35: the empty formula is accepted and panics when it is evaluated. -/
theorem C35_empty {F : Type} (ops : FloatOps F) (toF64 : Bytes → F × Bytes) (env : Bytes → F) :
    parseFormula ops toF64 [] [] = .ok ([], []) ∧ evalFormula ops toF64 env [] = .panic := ⟨rfl, rfl⟩

/-- C75: a text is an operator, or refused. -/
theorem C75_parse (s : Bytes) : (∃ o, CompareOp.parse s = .ok o) ∨ CompareOp.parse s = .err := by
  unfold CompareOp.parse
  split
  · exact .inl ⟨_, rfl⟩
  · exact .inr rfl

end Cdx
