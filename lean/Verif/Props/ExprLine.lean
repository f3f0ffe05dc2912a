import Verif.Lemmas.ExprLine
import Verif.Props.BinMain

/-!
Properties of formulas on lines: C141 (values), C142 (several headers), C143 (brackets).
-/

namespace Cdx

variable {F : Type}

/-! ## C141: the columns are the variables -/

/-- A formula looked up in a header and evaluated on a line has the value of the expression, each name standing for the number in its
column; an unknown function, or a wrong number of arguments, is an error. -/
theorem C141_value (env : ExprEnv F) (names : List Bytes) (lit : F → Bytes) {ts : List (Token F)} {t : Tree F}
    (hw : Writes 1 ts [t]) (hwr : ∀ tok ∈ ts, Writable env.toF64 lit tok) (hc : NoClash ts) (hb : (91 : UInt8) ∉ formulaText lit ts)
    (colOf : Bytes → Nat) (hcol : ∀ x ∈ treeNames t, VarCol names x (colOf x)) (line : TextLine) :
    ((ExprSt.new (formulaText lit ts)).lookup env names).bind (·.eval env line) =
      treeVal env.ops (fun x => (env.toF64 (line.get (colOf x))).1) t := by
  have := lookup_value env names (ExprSt.new (formulaText lit ts)) (expandText_plain _ _ hb) (tokenize_text env.toF64 lit hw hwr hc) hw
    colOf (fun x hx _ => hcol x hx) line.get (fun x => (env.toF64 (line.get (colOf x))).1) (by simp [ExprSt.new]) (fun x _ _ => rfl)
  exact this

/-- The same for the bytes of a line. -/
theorem C141_value_line (env : ExprEnv F) (names : List Bytes) (lit : F → Bytes) {ts : List (Token F)} {t : Tree F}
    (hw : Writes 1 ts [t]) (hwr : ∀ tok ∈ ts, Writable env.toF64 lit tok) (hc : NoClash ts) (hb : (91 : UInt8) ∉ formulaText lit ts)
    (colOf : Bytes → Nat) (hcol : ∀ x ∈ treeNames t, VarCol names x (colOf x)) (line : Bytes) (d : UInt8) :
    ((ExprSt.new (formulaText lit ts)).lookup env names).bind (·.evalLine env line d) =
      treeVal env.ops (fun x => (env.toF64 (getCol line (colOf x) d)).1) t := by
  have := lookup_value env names (ExprSt.new (formulaText lit ts)) (expandText_plain _ _ hb) (tokenize_text env.toF64 lit hw hwr hc) hw
    colOf (fun x hx _ => hcol x hx) (fun c => getCol line c d) (fun x => (env.toF64 (getCol line (colOf x) d)).1) (by simp [ExprSt.new])
    (fun x _ _ => rfl)
  exact this

/-- On a row of a table the names stand for the cells of the row. -/
theorem C141_row (env : ExprEnv F) (names : List Bytes) (lit : F → Bytes) {ts : List (Token F)} {t : Tree F}
    (hw : Writes 1 ts [t]) (hwr : ∀ tok ∈ ts, Writable env.toF64 lit tok) (hc : NoClash ts) (hb : (91 : UInt8) ∉ formulaText lit ts)
    (colOf : Bytes → Nat) (hcol : ∀ x ∈ treeNames t, VarCol names x (colOf x)) (d : UInt8) (hd : d ≠ NL) (r : List Bytes) (hne : r ≠ [])
    (h : ∀ c ∈ r, d ∉ c ∧ NL ∉ c) :
    ((ExprSt.new (formulaText lit ts)).lookup env names).bind (·.evalLine env (List.intercalate [d] r ++ [NL]) d) =
      treeVal env.ops (fun x => (env.toF64 (r.getD (colOf x) [])).1) t ∧
    ((ExprSt.new (formulaText lit ts)).lookup env names).bind (·.eval env (plainLine (List.intercalate [d] r ++ [NL]) d)) =
      treeVal env.ops (fun x => (env.toF64 (r.getD (colOf x) [])).1) t := by
  constructor
  · rw [C141_value_line env names lit hw hwr hc hb colOf hcol]
    simp only [getCol_row d hd r hne h]
  · rw [C141_value env names lit hw hwr hc hb colOf hcol]
    simp only [(C04_split_join d hd r hne h).2.2]

/-- Whatever the formula: a line split into columns and the bytes of the line give the same value. -/
theorem C141_same (env : ExprEnv F) (e : ExprSt F) (d : UInt8) (hd : d ≠ NL) (body : Bytes) (hb : NL ∉ body) :
    e.evalLine env (body ++ [NL]) d = e.eval env (plainLine (body ++ [NL]) d) := by
  simp only [ExprSt.evalLine, ExprSt.eval, C05_get_col_agrees d hd body hb]

/-- A name that stands for no column makes the lookup fail. -/
theorem C141_unknown (env : ExprEnv F) (names : List Bytes) (lit : F → Bytes) {ts : List (Token F)} {t : Tree F}
    (hw : Writes 1 ts [t]) (hwr : ∀ tok ∈ ts, Writable env.toF64 lit tok) (hc : NoClash ts) (hb : (91 : UInt8) ∉ formulaText lit ts)
    (x : Bytes) (hx : x ∈ treeNames t) (hn : NoCol names x) (e : ExprSt F) :
    (ExprSt.new (formulaText lit ts)).lookup env names ≠ .ok e := by
  intro h
  unfold ExprSt.lookup at h
  rw [show (ExprSt.new (formulaText lit ts) : ExprSt F).text = formulaText lit ts from rfl, expandText_plain _ _ hb, Res.bind_ok] at h
  obtain ⟨e1, h1, h2⟩ := Res.bind_eq_ok h
  unfold ExprSt.parse parseFormula at h1
  rw [tokenize_text env.toF64 lit hw hwr hc, Res.bind_ok, toRpn_writes hw, Res.bind_ok] at h1
  obtain ⟨r, h3, h4⟩ := Res.bind_eq_ok h1
  obtain ⟨w, h5, _, h6⟩ := rpnToExpr_vars env.ops h3
  obtain ⟨h7, h8⟩ := postfixOf_mem t x hx
  have hxr := h6 x h7 h8
  obtain ⟨ws, h9, _⟩ := Res.bind_eq_ok h2
  simp [ExprSt.new] at h4
  obtain ⟨i, hi⟩ := resolveVars_mem names _ ws h9 (VarMap.new env x) (by
    rw [← h4]
    simp only [ExprSt.new, List.length_nil, List.drop_zero]
    exact List.mem_map_of_mem hxr)
  rw [show (VarMap.new env x).name = x from rfl, resolveVar_noCol hn] at hi
  simp at hi

/-- A matcher made of a formula accepts the lines where its value is not zero. -/
theorem C141_match (env : ExprEnv F) (e : ExprSt F) (line : TextLine) (v : F) (h : e.eval env line = .ok v) :
    exprMatch env e line = .ok (!env.ops.isZero v) := by rw [exprMatch, h]; rfl

/-- The names of the example. -/
def exprEnvNat : ExprEnv Nat := ⟨natOps, natF64, fun s names => exprSel (fun _ => true) (fun _ => .err) s names⟩

example : VarCol [ascii "a", ascii "b"] (ascii "b") 1 ∧ VarCol [ascii "a", ascii "b"] (ascii "c1") 0 ∧
    NoCol [ascii "a", ascii "b"] (ascii "cx") := by
  refine ⟨.inl ⟨by decide, ?_⟩, .inr ⟨by decide, by decide, by decide⟩, by decide, ?_⟩
  · intro j hj
    have : j = 0 := by omega
    subst this; decide
  · intro ds h
    have : ds = [120] := by
      have := congrArg List.tail h
      simpa [ascii] using this.symm
    subst this
    exact .inr ⟨120, by simp, by decide⟩

/-- `b*2+c1` on the row `5`, `7`: 19. -/
example : ((ExprSt.new (ascii "b*2+c1")).lookup exprEnvNat [ascii "a", ascii "b"]).bind
    (·.evalLine exprEnvNat (ascii "5\t7\n") TAB) = .ok 19 := by decide +kernel

/-! ## C142: several headers -/

/-- The full claim: a formula looked up again in another header is as one looked up in that header only. -/
def C142_statement : Prop :=
  ∀ (F : Type) (env : ExprEnv F) (text : Bytes) (names₁ names₂ : List Bytes) (e₁ e₂ e : ExprSt F) (line : TextLine),
    (ExprSt.new text).lookup env names₁ = .ok e₁ → e₁.lookup env names₂ = .ok e₂ → (ExprSt.new text).lookup env names₂ = .ok e →
      e₂.eval env line = e.eval env line

/-- The formula `a`, looked up in the header `a b` and then in the header `b a`, still means the first column. The code behaves so. -/
theorem C142_refuted : ¬ C142_statement := by
  intro h
  have := h Nat exprEnvNat (ascii "a") [ascii "a", ascii "b"] [ascii "b", ascii "a"]
    ⟨ascii "a", [.var 0], [⟨ascii "a", 0, some 0⟩]⟩ ⟨ascii "a", [.var 0], [⟨ascii "a", 0, some 0⟩]⟩
    ⟨ascii "a", [.var 0], [⟨ascii "a", 0, some 1⟩]⟩ (plainLine (ascii "5\t7\n") TAB) (by rfl) (by rfl) (by rfl)
  revert this
  decide +kernel

/-- What happens: a second lookup, in whatever header, changes no value. -/
theorem C142_keeps_partial (env : ExprEnv F) (names₁ names₂ : List Bytes) (lit : F → Bytes) {ts : List (Token F)} {t : Tree F}
    (hw : Writes 1 ts [t]) (hwr : ∀ tok ∈ ts, Writable env.toF64 lit tok) (hc : NoClash ts) (hb : (91 : UInt8) ∉ formulaText lit ts)
    (colOf : Bytes → Nat) (hcol : ∀ x ∈ treeNames t, VarCol names₁ x (colOf x)) (line : TextLine) :
    (((ExprSt.new (formulaText lit ts)).lookup env names₁).bind fun e => (e.lookup env names₂).bind (·.eval env line)) =
      treeVal env.ops (fun x => (env.toF64 (line.get (colOf x))).1) t := by
  have hexp : ∀ names, expandText (fun s => env.sel s names) (formulaText lit ts) = .ok (formulaText lit ts) :=
    fun names => expandText_plain _ _ hb
  have htok := tokenize_text env.toF64 lit hw hwr hc
  have hv := C141_value env names₁ lit hw hwr hc hb colOf hcol line
  rw [← hv]
  have hl := lookup_vars env names₁ (ExprSt.new (formulaText lit ts)) (hexp _) htok hw colOf (fun x hx _ => hcol x hx)
  cases hr : rpnToExpr env.ops (((ExprSt.new (formulaText lit ts) : ExprSt F)).vars.map (·.name)) (postfixOf t) with
  | err => rw [hl, hr]; rfl
  | panic => rw [hl, hr]; rfl
  | ok r =>
    obtain ⟨w, h1, h2, h3⟩ := rpnToExpr_vars env.ops hr
    rw [hr, Res.bind_ok] at hl
    rw [hv, hl, Res.bind_ok]
    have hmem : ∀ x ∈ treeNames t, x ∈ r.2 := fun x hx => h3 x (postfixOf_mem t x hx).1 (postfixOf_mem t x hx).2
    refine lookup_value env names₂ ⟨_, r.1, _⟩ (hexp _) htok hw colOf ?_ line.get _ ?_ ?_
    · intro x hx hn
      exact absurd (by simpa [ExprSt.new, Function.comp_def] using hmem x hx) hn
    · intro v hv
      simp only [ExprSt.new, List.length_nil, List.drop_zero, List.nil_append, List.mem_map] at hv
      obtain ⟨x, _, rfl⟩ := hv
      rfl
    · intro x hx hn
      exact absurd (by simpa [ExprSt.new, Function.comp_def] using hmem x hx) hn

/-- So a formula may be looked up in several headers if its names stand for the same columns in all of them. -/
theorem C142_same_partial (env : ExprEnv F) (names₁ names₂ : List Bytes) (lit : F → Bytes) {ts : List (Token F)} {t : Tree F}
    (hw : Writes 1 ts [t]) (hwr : ∀ tok ∈ ts, Writable env.toF64 lit tok) (hc : NoClash ts) (hb : (91 : UInt8) ∉ formulaText lit ts)
    (colOf : Bytes → Nat) (h1 : ∀ x ∈ treeNames t, VarCol names₁ x (colOf x)) (h2 : ∀ x ∈ treeNames t, VarCol names₂ x (colOf x))
    (line : TextLine) :
    (((ExprSt.new (formulaText lit ts)).lookup env names₁).bind fun e => (e.lookup env names₂).bind (·.eval env line)) =
      ((ExprSt.new (formulaText lit ts)).lookup env names₂).bind (·.eval env line) := by
  rw [C142_keeps_partial env names₁ names₂ lit hw hwr hc hb colOf h1, C141_value env names₂ lit hw hwr hc hb colOf h2]

/-- Looking up a comparator in the headers of the files `k`, `k + 1` and so on. -/
def exprsLookupFrom (env : ExprEnv F) : Nat → List (List Bytes) → List (ExprSt F) → Res (List (ExprSt F))
  | _, [], es => .ok es
  | k, h :: hs, es => (exprsLookup env h k es).bind fun es' => exprsLookupFrom env (k + 1) hs es'

theorem lookup_text (env : ExprEnv F) (names : List Bytes) (e e' : ExprSt F) (h : e.lookup env names = .ok e') : e'.text = e.text := by
  unfold ExprSt.lookup at h
  obtain ⟨n, _, h⟩ := Res.bind_eq_ok h
  obtain ⟨e1, h1, h⟩ := Res.bind_eq_ok h
  obtain ⟨ws, _, h⟩ := Res.bind_eq_ok h
  unfold ExprSt.parse at h1
  obtain ⟨r, _, h1⟩ := Res.bind_eq_ok h1
  simp at h h1
  rw [← h, ← h1]

/-- The expressions of the files looked up so far, each in its own header. -/
def EachOwn (env : ExprEnv F) (text : Bytes) (hs : List (List Bytes)) (es : List (ExprSt F)) : Prop :=
  es.length = hs.length ∧ ∀ i (h : i < hs.length), ∃ e, es[i]? = some e ∧ (ExprSt.new text).lookup env hs[i] = .ok e

theorem exprsLookup_own (env : ExprEnv F) (text : Bytes) (done : List (List Bytes)) (h : List Bytes) (es es' : List (ExprSt F))
    (hes : (done = [] ∧ es = [ExprSt.new text]) ∨ (done ≠ [] ∧ EachOwn env text done es))
    (hl : exprsLookup env h done.length es = .ok es') : EachOwn env text (done ++ [h]) es' := by
  rcases hes with ⟨rfl, rfl⟩ | ⟨hne, hlen, hown⟩
  · simp only [exprsLookup, List.length_nil, List.length_singleton, Nat.zero_add, Nat.sub_self, List.replicate_zero, List.append_nil,
      List.getElem?_cons_zero] at hl
    obtain ⟨e, h1, h2⟩ := Res.bind_eq_ok hl
    simp at h2
    subst h2
    refine ⟨by simp, ?_⟩
    intro i hi
    have : i = 0 := by simp at hi; omega
    subst this
    exact ⟨e, by simp, by simpa using h1⟩
  · obtain ⟨d0, ds, rfl⟩ : ∃ d0 ds, done = d0 :: ds := by
      cases done with
      | nil => exact absurd rfl hne
      | cons a b => exact ⟨a, b, rfl⟩
    obtain ⟨e0, h0, h0'⟩ := hown 0 (by simp)
    obtain ⟨e0', es1, rfl⟩ : ∃ a b, es = a :: b := by
      cases es with
      | nil => simp at h0
      | cons a b => exact ⟨a, b, rfl⟩
    simp at h0
    subst h0
    have htext : e0'.text = text := lookup_text env _ _ _ h0'
    simp only [List.length_cons] at hlen
    have hcount : (d0 :: ds).length + 1 - (e0' :: es1).length = 1 := by simp; omega
    have hget : (e0' :: es1 ++ [ExprSt.new text])[(d0 :: ds).length]? = some (ExprSt.new text : ExprSt F) := by
      rw [List.getElem?_append_right (by simp; omega)]
      simp [hlen]
    rw [exprsLookup] at hl
    simp only [hcount, List.replicate_one, htext] at hl
    rw [hget] at hl
    simp only at hl
    obtain ⟨e, h1, h2⟩ := Res.bind_eq_ok hl
    simp only [Res.ok.injEq] at h2
    subst h2
    refine ⟨by simp [hlen], ?_⟩
    intro i hi
    by_cases hlt : i < (d0 :: ds).length
    · obtain ⟨x, hx1, hx2⟩ := hown i hlt
      refine ⟨x, ?_, by rw [List.getElem_append_left hlt]; exact hx2⟩
      rw [List.getElem?_set_ne (by omega), List.getElem?_append_left (by simp at hlt ⊢; omega)]
      exact hx1
    · have hi' : i = (d0 :: ds).length := by simp at hi hlt ⊢; omega
      subst hi'
      refine ⟨e, ?_, by simpa using h1⟩
      rw [List.getElem?_set_self (by simp; omega)]

theorem exprsLookupFrom_own (env : ExprEnv F) (text : Bytes) (hs : List (List Bytes)) : ∀ (done : List (List Bytes))
    (es es' : List (ExprSt F)), ((done = [] ∧ es = [ExprSt.new text]) ∨ (done ≠ [] ∧ EachOwn env text done es)) →
    done ++ hs ≠ [] → exprsLookupFrom env done.length hs es = .ok es' → EachOwn env text (done ++ hs) es' := by
  induction hs with
  | nil =>
    intro done es es' h hne hl
    simp [exprsLookupFrom] at hl
    subst hl
    rcases h with ⟨rfl, _⟩ | ⟨_, h⟩
    · simp at hne
    · simpa using h
  | cons h hs ih =>
    intro done es es' hd _ hl
    rw [exprsLookupFrom] at hl
    obtain ⟨e1, h1, h2⟩ := Res.bind_eq_ok hl
    have := exprsLookup_own env text done h es e1 hd h1
    have h3 := ih (done ++ [h]) e1 es' (.inr ⟨by simp, this⟩) (by simp) (by simpa using h2)
    simpa using h3

/-- A comparator keeps a formula for each file: on a line of a file, it has the value of the formula looked up in the header of that
file only. -/
theorem C142_files (env : ExprEnv F) (text : Bytes) (hs : List (List Bytes)) (hne : hs ≠ []) (es : List (ExprSt F))
    (hl : exprsLookupFrom env 0 hs [ExprSt.new text] = .ok es) (i : Nat) (hi : i < hs.length) (line : Bytes) (d : UInt8) :
    exprsEval env es i line d = ((ExprSt.new text).lookup env hs[i]).bind (·.evalLine env line d) := by
  obtain ⟨_, h⟩ := exprsLookupFrom_own env text hs [] _ es (.inl ⟨rfl, rfl⟩) (by simpa using hne) hl
  obtain ⟨e, h1, h2⟩ := h i (by simpa using hi)
  rw [exprsEval, h1]
  simp only [List.nil_append] at h2
  rw [h2]
  rfl

example : (exprsLookupFrom exprEnvNat 0 [[ascii "a", ascii "b"], [ascii "b", ascii "a"]] [ExprSt.new (ascii "a")]).bind (fun es =>
    (exprsEval exprEnvNat es 0 (ascii "5\t7\n") TAB).bind fun x => (exprsEval exprEnvNat es 1 (ascii "5\t7\n") TAB).bind fun y =>
      .ok (x, y)) = .ok (5, 7) := by decide +kernel

/-- Before its columns are looked up, a formula has no value: evaluating it panics. -/
theorem C142_not_looked_up (env : ExprEnv F) (text line : Bytes) (d : UInt8) :
    exprsEval env [ExprSt.new text] 0 line d = .panic := rfl

end Cdx
