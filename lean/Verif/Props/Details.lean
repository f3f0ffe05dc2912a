import Verif.Model.Cgrep
import Verif.Model.CompMake
import Verif.Props.Insens
import Verif.Props.Malformed
import Verif.Props.Methods
import Verif.Props.MatchSpec
import Verif.Props.SortTable
import Verif.Props.SelfComp
import Verif.Props.StrCuts

/-! Further properties of columns (C18), determiners on lines (C42), methods on strings (C58, C76), made-up names (C95), numbers
written by `cat` (C125), and the texts cut by matchers (C184). -/

namespace Cdx

/-! ### One column -/

/-- A single column by its text: the column the items mean, and an error unless that is exactly one. -/
theorem C18_single (transOk : Bytes → Bool) (mk : Bytes → Res (Bytes → Bool)) (names : List Bytes) (hn : ∀ n ∈ names, IsName n)
    (is : List ColItem) (h0 : is ≠ []) (hw : ∀ i ∈ is, i.WF) (hf : ∀ i ∈ is, ∀ r ∈ i.sel.refs, r.Fair names) :
    lookup1 transOk mk (List.intercalate [44] (is.map ColItem.text)) names =
      match selectSpec names (is.filter fun i => i.tilde == false) (is.filter fun i => i.tilde != false) with
      | some [v] => .ok v.1
      | _ => .err := by
  have h := C18_partial transOk mk names hn [(false, is)] (by
    intro c hc
    rw [List.mem_singleton] at hc
    subst hc
    exact ⟨h0, hw⟩) (by
    intro r hr
    simp only [allRefs, List.flatMap_cons, List.flatMap_nil, List.append_nil, List.mem_flatMap] at hr
    obtain ⟨i, hi, hr⟩ := hr
    exact hf i hi r hr)
  simp only [selectCode, addCalls, chosenOf, rejectedOf, List.flatMap_cons, List.flatMap_nil, List.append_nil] at h
  unfold lookup1
  cases hadd : ColumnSet.empty.add transOk (List.intercalate [44] (is.map ColItem.text)) false with
  | panic => simp [hadd] at h; split at h <;> simp at h
  | err => 
    simp only [hadd, Res.bind_err] at h ⊢
    split at h
    · simp at h
    · rename_i hs; rw [hs]
  | ok c =>
    simp only [hadd, Res.bind_ok] at h ⊢
    rw [h]
    cases hs : selectSpec names (is.filter fun i => i.tilde == false) (is.filter fun i => i.tilde != false) with
    | none => rfl
    | some v =>
      rcases v with _ | ⟨a, _ | ⟨b, v⟩⟩ <;> simp

/-! ### Determiners on lines -/

theorem detLoopRes_ok (d : Determiner) (bs : List Bool) (yes no : Nat) : detLoopRes d (bs.map .ok) yes no = .ok (detLoop d bs yes no) := by
  induction bs generalizing yes no with
  | nil => rfl
  | cons b bs ih =>
    simp only [List.map_cons, detLoopRes, Res.bind_ok, detLoop]
    cases d.matchMid (if b then yes + 1 else yes) (if b then no else no + 1) with
    | yes => rfl
    | no => rfl
    | maybe => exact ih _ _

/-- A line is accepted exactly if what the determiner says holds of the answers for its columns, the other way round for a negated
matcher. -/
theorem C42_line (env : MEnv) (line : TextLine) (m : Matcher) (nums : List Nat) (d : Determiner) (t : Nat → Bool) (h : d.WF)
    (hf : d.fracLimit = false) (ht : ∀ n ∈ nums, m.lossyMatch env (line.get n) = .ok (t n)) :
    ∃ b, (LineTest.set m nums d).ok env line = .ok b ∧ (b = true ↔ (m.flags.negate = false ↔ DetHolds d (nums.map t))) := by
  have e : nums.map (fun n => m.lossyMatch env (line.get n)) = (nums.map t).map .ok := by
    rw [List.map_map]
    exact List.map_congr_left ht
  refine ⟨m.flags.negate ^^ detLoop d (nums.map t) 0 0, ?_, ?_⟩
  · show (detLoopRes d _ 0 0).bind _ = _
    rw [e, detLoopRes_ok]
    rfl
  · rw [← C43_counts_partial d (nums.map t) h hf]
    cases m.flags.negate <;> cases detLoop d (nums.map t) 0 0 <;> simp

example : ∃ m, Matcher.make2 MEnv.trivial (ascii "exact") (ascii "x") = .ok m ∧
    (LineTest.set m [0, 2] .all).ok MEnv.trivial (mergeLine (ascii "x\ty\tx\n")) = .ok true ∧
    (LineTest.set m [0, 1] .all).ok MEnv.trivial (mergeLine (ascii "x\ty\tx\n")) = .ok false := ⟨_, rfl, by decide +kernel, by decide +kernel⟩

/-! ### Methods on strings -/

/-- The matcher exists, and its decisions on strings are the given ones; other values are errors, or not accepted by `do_match_safe`. -/
def DecidesS (env : MEnv) (method pattern : Bytes) (accepts : Bytes → Prop) : Prop :=
  ∃ m, Matcher.make2 env method pattern = .ok m ∧
    ∀ v, (env.str.valid v = true → ∃ b, m.doMatch env v = .ok b ∧ m.doMatchSafe env v = .ok b ∧ (b = true ↔ accepts v)) ∧
      (env.str.valid v = false → m.doMatch env v = .err ∧ m.doMatchSafe env v = .ok false)

theorem decidesS_one {env : MEnv} {M p : Bytes} {k : MKind} {f : MFlags} {t : Bytes → Bool}
    (h : Matcher.make2 env M p = .ok ⟨f, .one k⟩) (hs : f.string = true) (hu : ∀ w, k.smatch env w = .ok (t w)) :
    DecidesS env M p fun v => let w := if f.trim then env.str.trim v else v; (f.empty = true ∧ w = []) ∨ t w = true := by
  refine ⟨_, h, fun v => ⟨fun hv => ?_, fun hv => ?_⟩⟩
  · simp only [Matcher.doMatch, Matcher.doMatchSafe, hs, if_true, hv, Matcher.smatch, MFlags.apply, hu]
    generalize (if f.trim = true then env.str.trim v else v) = w
    by_cases hc : (f.empty && w == []) = true
    · refine ⟨true, by rw [if_pos hc], by rw [if_pos hc], ?_⟩
      simp only [Bool.and_eq_true, beq_iff_eq] at hc
      simp [hc]
    · refine ⟨t w, by rw [if_neg hc], by rw [if_neg hc], ?_⟩
      simp only [Bool.and_eq_true, beq_iff_eq] at hc
      simp [hc]
  · simp [Matcher.doMatch, Matcher.doMatchSafe, hs, hv]

theorem decidesS_plain {env : MEnv} {M p : Bytes} {k : MKind} {f : MFlags} {t : Bytes → Bool}
    (h : Matcher.make2 env M p = .ok ⟨f, .one k⟩) (hs : f.string = true) (he : f.empty = false) (ht : f.trim = false)
    (hu : ∀ w, k.smatch env w = .ok (t w)) : DecidesS env M p fun v => t v = true := by
  have h := decidesS_one h hs hu
  simpa [he, ht] using h

theorem DecidesS.congr {env : MEnv} {M p : Bytes} {a b : Bytes → Prop} (h : DecidesS env M p a) (hab : ∀ v, a v ↔ b v) :
    DecidesS env M p b := by
  obtain ⟨m, h1, h2⟩ := h
  refine ⟨m, h1, fun v => ⟨fun hv => ?_, (h2 v).2⟩⟩
  obtain ⟨x, h3, h4, h5⟩ := (h2 v).1 hv
  exact ⟨x, h3, h4, h5.trans (hab v)⟩

/-- The methods with `utf8` accept, of the values that are strings, exactly what they are named for. -/
theorem C76_strings (env : MEnv) (p : Bytes) :
    DecidesS env (ascii "utf8.prefix") p (fun v => p <+: v) ∧ DecidesS env (ascii "utf8.suffix") p (fun v => p <:+ v) ∧
    DecidesS env (ascii "utf8.infix") p (fun v => p <:+: v) ∧ DecidesS env (ascii "utf8.exact") p (fun v => v = p) ∧
    DecidesS env (ascii "utf8.yes") p (fun _ => True) ∧ DecidesS env (ascii "utf8.empty") p (fun v => env.str.chars v = []) ∧
    DecidesS env (ascii "utf8.blank") p (fun v => env.str.trim v = []) := by
  refine ⟨?_, ?_, ?_, ?_, ?_, ?_, ?_⟩
  · exact (decidesS_plain (k := .pre p) (t := fun w => p.isPrefixOf w) rfl rfl rfl rfl fun _ => rfl).congr fun v => by simp
  · exact (decidesS_plain (k := .suf p) (t := fun w => p.isSuffixOf w) rfl rfl rfl rfl fun _ => rfl).congr fun v => by simp
  · exact (decidesS_plain (k := .inf p) (t := hasInfix p) rfl rfl rfl rfl fun _ => rfl).congr fun v => by simp [hasInfix_iff]
  · exact (decidesS_plain (k := .exact p) (t := fun w => p == w) rfl rfl rfl rfl fun _ => rfl).congr fun v =>
      (beq_iff_eq (a := p) (b := v)).trans eq_comm
  · exact (decidesS_plain (k := .yes) (t := fun _ => true) rfl rfl rfl rfl fun _ => rfl).congr fun v => by simp
  · exact (decidesS_plain (k := .length 0 (some 0)) (t := fun w => lengthOk 0 (some 0) (env.str.chars w).length) rfl rfl rfl rfl
      fun _ => rfl).congr fun v => by simp [lengthOk]
  · exact (decidesS_one (k := .no) (t := fun _ => false) rfl rfl fun _ => rfl).congr fun v => by simp

/-- The methods `utf8.glob` and `utf8.case.glob` report only true matches of strings, and are exact for patterns whose only star, if any,
is the last character. Missing: exactness for other patterns (C13). -/
theorem C76_glob_strings_partial (env : MEnv) (p : Bytes) : ∀ x ∈ [(ascii "utf8.glob", false), (ascii "utf8.case.glob", true)],
    (∃ m, Matcher.make2 env x.1 p = .ok m ∧ ∀ v, m.doMatch env v = .ok true →
      env.str.valid v = true ∧ GlobMatch (charsEqualS env.str x.2) '*' (env.str.chars p) (env.str.chars v)) ∧
    ∀ lit, '*' ∉ lit → (env.str.chars p = lit ∨ env.str.chars p = lit ++ ['*']) →
      DecidesS env x.1 p fun v => GlobMatch (charsEqualS env.str x.2) '*' (env.str.chars p) (env.str.chars v) := by
  intro x hx
  obtain ⟨f, hm, h1, h2, h3⟩ : ∃ f : MFlags, Matcher.make2 env x.1 p = .ok ⟨f, .one (.glob p x.2)⟩ ∧ f.string = true ∧ f.empty = false ∧
      f.trim = false := by
    simp only [List.mem_cons, List.not_mem_nil, or_false] at hx
    rcases hx with rfl | rfl
    · exact ⟨MFlags.ofMethod (ascii "utf8.glob"), rfl, rfl, rfl, rfl⟩
    · exact ⟨MFlags.ofMethod (ascii "utf8.case.glob"), rfl, rfl, rfl, rfl⟩
  refine ⟨⟨_, hm, ?_⟩, ?_⟩
  · intro v h
    cases hv : env.str.valid v with
    | false => simp [Matcher.doMatch, h1, hv] at h
    | true =>
      refine ⟨rfl, C14_glob_sound _ _ _ _ ?_⟩
      simp only [Matcher.doMatch, h1, if_true, hv, Matcher.smatch, MFlags.apply, h2, h3, Bool.false_and, Bool.false_eq_true, if_false,
        MKind.smatch] at h
      cases hg : Cdx.glob (charsEqualS env.str x.2) '*' (env.str.chars v) (env.str.chars p) with
      | yes => rfl
      | no => rw [hg] at h; simp [GlobRes.toRes] at h
      | panic => rw [hg] at h; simp [GlobRes.toRes] at h
      | noFuel => rw [hg] at h; simp [GlobRes.toRes] at h
  · intro lit hl hp
    refine (decidesS_plain (k := .glob p x.2)
      (t := fun w => Cdx.glob (charsEqualS env.str x.2) '*' (env.str.chars w) (env.str.chars p) == .yes) hm h1 h2 h3 fun w => ?_).congr fun v => ?_
    · have := C13_glob_exact_partial (charsEqualS env.str x.2) '*' (env.str.chars w) lit hl _ hp
      simp only [MKind.smatch]
      cases hg : Cdx.glob (charsEqualS env.str x.2) '*' (env.str.chars w) (env.str.chars p) with
      | yes => rfl
      | no => rfl
      | panic => exact absurd hg this.2.1
      | noFuel => exact absurd hg this.2.2
    · rw [← (C13_glob_exact_partial (charsEqualS env.str x.2) '*' (env.str.chars v) lit hl _ hp).1, beq_iff_eq]

/-! ### Sets of columns -/

/-- A set of columns in brackets: the text has to end in a character of one byte, which is thrown away, and all of its parts have to
be good. -/
theorem C184_set (env : MEnv) (cs method pattern : Bytes) (hs : IsStr cs) (h1 : method ≠ ascii "expr") (h2 : method ≠ ascii "comp")
    (h3 : method ≠ ascii "count") :
    (cs = [] ∨ (∃ x, cs.getLast? = some x ∧ ¬ x < 128) → makeLine3 env (91 :: cs) method pattern = .panic) ∧
    (∀ body x, cs = body ++ [x] → x < 128 → 44 ∉ body → makeLine3 env (91 :: cs) method pattern = .err) ∧
    ∀ a b x, cs = a ++ 44 :: b ++ [x] → x < 128 → 44 ∉ a → ∀ t, makeLine3 env (91 :: cs) method pattern = .ok t ↔
      ∃ m c d, Matcher.make2 env method pattern = .ok m ∧ ColumnSet.fromSpec env b = .ok c ∧ Determiner.new a = .ok d ∧ t = .set m c d := by
  have key : ∀ cs : Bytes, makeLine3 env (91 :: cs) method pattern =
      if cs = [] || cutsChar cs (cs.length - 1) then .panic else mkSet env cs.dropLast method pattern := by
    intro cs
    unfold makeLine3
    rw [if_neg h1, if_neg h2, if_neg h3]
    rfl
  have low : ∀ (body : Bytes) (x : UInt8), cs = body ++ [x] → x < 128 → makeLine3 env (91 :: cs) method pattern = mkSet env body method pattern := by
    intro body x e hx
    rw [key]
    have hne : cs ≠ [] := by simp [e]
    have hl : cs.getLast hne = x := by simp [e]
    have := C184_range_partial cs hs hne
    rw [hl] at this
    have hc : cutsChar cs (cs.length - 1) = false := by
      cases hc : cutsChar cs (cs.length - 1) with
      | true => exact absurd hx (this.1 hc)
      | false => rfl
    rw [hc, if_neg (by simpa using hne)]
    rw [e, List.dropLast_concat]
  refine ⟨?_, ?_, ?_⟩
  · rintro (h | ⟨x, h, hx⟩)
    · rw [key, h]; rfl
    · have hne : cs ≠ [] := by rintro rfl; simp at h
      rw [List.getLast?_eq_some_getLast hne] at h
      have := (C184_range_partial cs hs hne).2 (by simpa [Option.some.inj h] using hx)
      rw [key, this]
      simp
  · intro body x e hx hb
    rw [low body x e hx]
    unfold mkSet
    rw [splitOnce_none 44 body hb]
  · intro a b x e hx ha t
    rw [low (a ++ 44 :: b) x e hx]
    unfold mkSet
    rw [splitOnce_some 44 a b ha]
    constructor
    · intro h
      obtain ⟨m, hm, h⟩ := Res.bind_eq_ok h
      obtain ⟨c, hc, h⟩ := Res.bind_eq_ok h
      obtain ⟨d, hd, h⟩ := Res.bind_eq_ok h
      cases h
      exact ⟨m, c, d, hm, hc, hd, rfl⟩
    · rintro ⟨m, c, d, hm, hc, hd, rfl⟩
      simp [hm, hc, hd]

/-! ### Names made up by `sort` -/

/-- A row without an end of line. -/
theorem lineNames_bare (d : UInt8) (r : List Bytes) (z : Bytes) (hz : z ≠ []) (h : ∀ c ∈ r ++ [z], d ∉ c ∧ NL ∉ c) (hd : d ≠ NL) :
    lineNames (List.intercalate [d] (r ++ [z])) d = r ++ [z] := by
  have hs := sliceSplit_intercalate d (r ++ [z]) (by simp) fun c hc => (h c hc).1
  generalize hb : List.intercalate [d] (r ++ [z]) = body at hs
  have hnl : NL ∉ body := by
    rw [← hb]
    intro hm
    rcases mem_intercalate hm with h1 | ⟨c, hc, hx⟩
    · exact hd h1.symm
    · exact (h c hc).2 hx
  obtain ⟨P, b', h1, h2, hw, hdd, tl, h3, h4⟩ := splitPlainLoop_spec d body [] 0 [] (by simp)
  simp only [List.nil_append, List.length_nil, List.drop_nil] at h1 h2 h4 hw
  have hne : b' ≠ body.length := by
    intro e
    rw [← h3, hs] at h4
    have := congrArg List.getLast? h4
    simp only [List.getLast?_append, List.getLast?_singleton, Option.some_or, Option.some.injEq] at this
    rw [e] at this
    simp [Slice.get] at this
    exact hz this
  have hsp : splitPlain body d = P ++ [⟨b', body.length⟩] := by
    unfold splitPlain
    rw [h1]
    simp only [ne_eq, hne, not_false_eq_true, if_true]
    rw [if_neg]
    intro e
    exact hnl (List.mem_of_getElem? e)
  show (splitPlain body d).map (·.get body) = r ++ [z]
  rw [hsp, List.map_append, List.map_singleton, h4, ← h3, hs]

/-- `sort` finds the columns of a file without a header under the names c1, c2 and so on, one for each column of its first line. -/
theorem C95_sort (line : Bytes) (h : isCdx line = false) : makeHeader line = .ok (madeUp (sliceSplit TAB line).length) := by
  unfold makeHeader
  rw [h, if_neg (by decide)]
  congr 1
  have hlen : 0 < (sliceSplit TAB line).length := List.length_pos_iff.2 (sliceSplit_ne_nil TAB line)
  generalize (sliceSplit TAB line).length = n at hlen
  obtain ⟨m, rfl⟩ : ∃ m, n = m + 1 := ⟨n - 1, by omega⟩
  have e : madeUp (m + 1) = madeUp m ++ [99 :: decText (m + 1)] := by simp [madeUp, List.range_succ]
  have hfree : ∀ c ∈ madeUp m ++ [99 :: decText (m + 1)], TAB ∉ c ∧ NL ∉ c := by
    intro c hc
    rw [← e] at hc
    obtain ⟨i, _, rfl⟩ := List.mem_map.1 hc
    constructor <;> intro hm <;> rcases List.mem_cons.1 hm with hm | hm
    · exact absurd hm (by decide)
    · exact absurd (decText_digits _ _ hm) (by decide)
    · exact absurd hm (by decide)
    · exact absurd (decText_digits _ _ hm) (by decide)
  have hj : ∀ (r : List Bytes) (z : Bytes), (r ++ [z]).flatMap (· ++ [TAB]) = List.intercalate [TAB] (r ++ [z]) ++ [TAB] := by
    intro r z
    induction r with
    | nil => simp
    | cons x r ih =>
      cases r with
      | nil => simp [List.intercalate, List.intersperse]
      | cons y r =>
        rw [List.cons_append, List.flatMap_cons, ih]
        simp [List.intercalate, List.intersperse]
  have hn : madeNames (m + 1) = List.intercalate [TAB] (madeUp (m + 1)) := by
    unfold madeNames
    have : ((List.range (m + 1)).map fun i => (99 : UInt8) :: decText (i + 1) ++ [TAB]).flatten = (madeUp (m + 1)).flatMap (· ++ [TAB]) := by
      rw [madeUp, List.flatMap_map, List.flatMap_def]
    rw [this, e, hj, List.dropLast_concat]
  rw [hn, e]
  exact lineNames_bare TAB _ _ (by simp) hfree (by decide)

example : makeHeader (ascii "x\ty\n") = .ok [ascii "c1", ascii "c2"] := by decide +kernel

/-! ### Numbers -/

/-- A number written by `cat` is read back by `--number` as the same number. -/
theorem C125_number (n : Int) (h : n.natAbs ≤ 2 ^ 63 - 1) : toIsizeWhole (intText n) = .ok n := by
  have hd : ∀ k, ∀ c ∈ decText k, isDigit c = true := fun k c hc => by
    have := decText_digits k c hc
    simpa [Digit, isDigit] using this
  cases n with
  | ofNat k =>
    have := C88_signed_partial .none (decText k) (decText_ne_nil k) (hd k) (by rw [decVal_decText]; simpa using h)
    simpa [Sign.text, Sign.value, decVal_decText, intText] using this
  | negSucc k =>
    have := C88_signed_partial .minus (decText (k + 1)) (decText_ne_nil _) (hd _) (by rw [decVal_decText]; simpa using h)
    simp only [Sign.text, Sign.value, decVal_decText, List.singleton_append] at this
    rw [intText, this]
    congr 1
    omega

/-- The lengths used when folding case are the lengths of the characters. -/
theorem C105_length (c : Nat) : utf8Len c = (encChar c).length := by
  unfold utf8Len encChar
  repeat' split
  all_goals rfl

/-! ### Keys stored from split lines -/

/-- The key stored for a line does not depend on whether the line was split before. -/
theorem C25_split (toF64 : Bytes → F64) (cs : List LineComp) (body : Bytes) (hb : NL ∉ body) (i : Item) (hi : i.get (body ++ [NL]) = body ++ [NL])
    (hd : ∀ c ∈ cs, c.delim ≠ NL) (d : UInt8) (hc : ∀ c ∈ cs, c.delim = d) :
    fillCacheColsList toF64 cs i (plainLine (body ++ [NL]) d) = fillCacheList toF64 cs i (body ++ [NL]) := by
  cases cs with
  | nil => rfl
  | cons c cs =>
    have e1 := hc c (by simp)
    have e2 := hd c (by simp)
    have ht : (plainLine (body ++ [NL]) d).text = body ++ [NL] := by simp [plainLine, TextLine.text, TextLine.split, TextLine.ofRaw]
    simp only [fillCacheColsList, fillCacheList, LineComp.fillCacheCols, LineComp.fillCacheLine]
    cases c.kind with
    | whole k => simp only [ht]
    | col k num => simp only [hi, e1]; rw [C05_get_col_agrees d (e1 ▸ e2) body hb]
    | expr e => simp only [ht, hi]

end Cdx
