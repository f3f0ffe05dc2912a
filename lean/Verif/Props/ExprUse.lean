import Verif.Props.ExprBracket
import Verif.Props.Wc

/-!
What is made of formulas: aggregators (C144), generators (C145), the command calc (C146, C147), and the constants (C148).
-/

namespace Cdx

variable {F : Type}

/-! ## C144: aggregating by a formula -/

/-- The value of the formula on a line, where one name stands for the value so far. -/
def aggStep (env : ExprEnv F) (var : Bytes) (colOf : Bytes → Nat) (t : Tree F) (v : F) (line : TextLine) : Res F :=
  treeVal env.ops (fun x => if x = var then v else (env.toF64 (line.get (colOf x))).1) t

/-- The value after some lines. -/
def aggFold (env : ExprEnv F) (var : Bytes) (colOf : Bytes → Nat) (t : Tree F) : F → List TextLine → Res F
  | v, [] => .ok v
  | v, l :: ls => (aggStep env var colOf t v l).bind fun v' => aggFold env var colOf t v' ls

/-- An aggregator whose formula is `t`, with the value `v` so far. -/
structure AggInv (env : ExprEnv F) (var : Bytes) (colOf : Bytes → Nat) (start : F) (r : List (Node F) × List Bytes) (v : F)
    (a : ExprAgg F) : Prop where
  which : a.which = 0
  start : a.start = start
  val : a.val = v
  prog : a.expr.prog = r.1
  shape : ∃ rest : List (VarMap F), a.expr.vars = ⟨var, v, none⟩ :: rest ∧ r.2 = var :: rest.map (·.name) ∧
    ∀ u ∈ rest, u.name ≠ var ∧ u.col = some (colOf u.name)

theorem aggInv_eval {env : ExprEnv F} {var : Bytes} {colOf : Bytes → Nat} {start v : F} {r : List (Node F) × List Bytes} {a : ExprAgg F}
    (h : AggInv env var colOf start r v a) {ts : List (Token F)} {t : Tree F} (hw : Writes 1 ts [t])
    {vs : List Bytes} (hr : rpnToExpr env.ops vs (postfixOf t) = .ok r) (line : TextLine) :
    a.expr.eval env line = aggStep env var colOf t v line := by
  obtain ⟨rest, h1, h2, h3⟩ := h.shape
  unfold aggStep ExprSt.eval ExprSt.run
  rw [← C37_value env.ops _ vs hw, toRpn_writes hw, Res.bind_ok, hr, Res.bind_ok, prepare_vals, h1, h2,
    show (a.expr.prepare env line.get).prog = a.expr.prog from rfl, h.prog]
  congr 1
  simp only [List.map_cons, List.map_map, if_true]
  congr 1
  apply List.map_congr_left
  intro u hu
  obtain ⟨h4, h5⟩ := h3 u hu
  simp [VarMap.now, h5, h4]

theorem aggInv_keep {env : ExprEnv F} {var : Bytes} {colOf : Bytes → Nat} {start v : F} {r : List (Node F) × List Bytes} {a : ExprAgg F}
    (h : AggInv env var colOf start r v a) (e : ExprSt F) (he : e = a.expr ∨ ∃ cell, e = a.expr.prepare env cell) (v' : F) :
    ∃ a', a.keep e v' = .ok a' ∧ AggInv env var colOf start r v' a' := by
  obtain ⟨rest, h1, h2, h3⟩ := h.shape
  obtain ⟨rest', e1, e2, e3⟩ : ∃ rest' : List (VarMap F), e.vars = ⟨var, v, none⟩ :: rest' ∧ rest'.map (·.name) = rest.map (·.name) ∧
      ∀ u ∈ rest', u.name ≠ var ∧ u.col = some (colOf u.name) := by
    rcases he with rfl | ⟨cell, rfl⟩
    · exact ⟨rest, h1, rfl, h3⟩
    · refine ⟨_, by simp only [ExprSt.prepare, h1, List.map_cons]; rfl, ?_, ?_⟩
      · rw [List.map_map]
        apply List.map_congr_left
        intro u hu
        simp [(h3 u hu).2]
      · intro u hu
        obtain ⟨w, hw, rfl⟩ := List.mem_map.1 hu
        simp [(h3 w hw).2, (h3 w hw).1]
  have hp : e.prog = r.1 := by
    rcases he with rfl | ⟨cell, rfl⟩
    · exact h.prog
    · exact h.prog
  refine ⟨⟨⟨e.text, e.prog, ⟨var, v', none⟩ :: rest'⟩, a.which, a.start, v'⟩, ?_, ⟨h.which, h.start, rfl, hp, rest', rfl, by rw [e2, h2], e3⟩⟩
  simp [ExprAgg.keep, ExprSt.setVar, h.which, e1]

theorem aggInv_addAll {env : ExprEnv F} {var : Bytes} {colOf : Bytes → Nat} {start : F} {r : List (Node F) × List Bytes}
    {ts : List (Token F)} {t : Tree F} (hw : Writes 1 ts [t]) {vs : List Bytes} (hr : rpnToExpr env.ops vs (postfixOf t) = .ok r) (ls : List TextLine) :
    ∀ (v : F) (a : ExprAgg F), AggInv env var colOf start r v a →
      match aggFold env var colOf t v ls with
      | .ok v' => ∃ a', a.addAll env ls = .ok a' ∧ AggInv env var colOf start r v' a'
      | .err => a.addAll env ls = .err
      | .panic => a.addAll env ls = .panic := by
  induction ls with
  | nil => intro v a h; exact ⟨a, rfl, h⟩
  | cons l ls ih =>
    intro v a h
    rw [aggFold, ExprAgg.addAll, ExprAgg.add, aggInv_eval h hw hr]
    cases hs : aggStep env var colOf t v l with
    | err => simp [Res.bind]
    | panic => simp [Res.bind]
    | ok v1 =>
      obtain ⟨a1, h1, h2⟩ := aggInv_keep h (a.expr.prepare env l.get) (.inr ⟨_, rfl⟩) v1
      simp only [Res.bind_ok, h1]
      exact ih v1 a1 h2

theorem exprAgg_new (env : ExprEnv F) (var init f : Bytes) (hv : (44 : UInt8) ∉ var) (hi : (44 : UInt8) ∉ init)
    (hz : (env.toF64 init).2 = []) :
    ExprAgg.new env (var ++ [44] ++ init ++ [44] ++ f) =
      .ok ⟨⟨f, [], [⟨var, (env.toF64 init).1, none⟩]⟩, 0, (env.toF64 init).1, (env.toF64 init).1⟩ := by
  unfold ExprAgg.new
  rw [show var ++ [44] ++ init ++ [44] ++ f = var ++ 44 :: (init ++ 44 :: f) by simp, splitOnce_some _ _ _ hv]
  simp only
  rw [splitOnce_some _ _ _ hi]
  simp [hz, ExprSt.findVar, ExprSt.new, ExprSt.setVar, VarMap.new]

/-- Aggregating by `Var,Init,Formula`: the value starts as `Init`; each line makes it the value of the formula, where `Var` stands for the
value so far (even if a column has that name) and the other names for the columns of the line. -/
theorem C144_fold (env : ExprEnv F) (names : List Bytes) (lit : F → Bytes) (var init : Bytes) {ts : List (Token F)} {t : Tree F}
    (hw : Writes 1 ts [t]) (hwr : ∀ tok ∈ ts, Writable env.toF64 lit tok) (hc : NoClash ts) (hb : (91 : UInt8) ∉ formulaText lit ts)
    (hv : (44 : UInt8) ∉ var) (hi : (44 : UInt8) ∉ init) (hz : (env.toF64 init).2 = [])
    (colOf : Bytes → Nat) (hcol : ∀ x ∈ treeNames t, x ≠ var → VarCol names x (colOf x)) (a : ExprAgg F)
    (ha : (ExprAgg.new env (var ++ [44] ++ init ++ [44] ++ formulaText lit ts)).bind (·.lookup env names) = .ok a) (ls : List TextLine) :
    (a.addAll env ls).bind (fun a' => .ok a'.val) = aggFold env var colOf t (env.toF64 init).1 ls ∧
    ∀ (ls' : List TextLine) (a₁ : ExprAgg F), a.addAll env ls' = .ok a₁ →
      ((a₁.reset).bind fun a₂ => (a₂.addAll env ls).bind fun a' => .ok a'.val) = aggFold env var colOf t (env.toF64 init).1 ls := by
  rw [exprAgg_new env var init _ hv hi hz, Res.bind_ok, ExprAgg.lookup] at ha
  obtain ⟨e, h1, h2⟩ := Res.bind_eq_ok ha
  simp only [Res.ok.injEq] at h2
  rw [lookup_vars env names ⟨formulaText lit ts, [], [⟨var, (env.toF64 init).1, none⟩]⟩ (expandText_plain _ _ hb)
    (tokenize_text env.toF64 lit hw hwr hc) hw colOf (by
      intro x hx hn
      exact hcol x hx (by simpa using hn))] at h1
  obtain ⟨r, hr, h3⟩ := Res.bind_eq_ok h1
  simp only [Res.ok.injEq] at h3
  simp only [List.map_cons, List.map_nil] at hr
  obtain ⟨w, h4, h5, _⟩ := rpnToExpr_vars env.ops hr
  have hinv : AggInv env var colOf (env.toF64 init).1 r (env.toF64 init).1 a := by
    subst h2
    refine ⟨rfl, rfl, rfl, by rw [← h3], ?_⟩
    refine ⟨_, by rw [← h3]; rfl, ?_, ?_⟩
    · rw [h4]; simp [Function.comp_def]
    · intro u hu
      obtain ⟨x, hx, rfl⟩ := List.mem_map.1 hu
      rw [h4] at hx
      simp only [List.length_cons, List.length_nil, List.singleton_append, List.drop_succ_cons, List.drop_zero] at hx
      exact ⟨by have := (h5 x hx).2.2; simpa using this, rfl⟩
  have main : ∀ a₀ : ExprAgg F, AggInv env var colOf (env.toF64 init).1 r (env.toF64 init).1 a₀ →
      (a₀.addAll env ls).bind (fun a' => .ok a'.val) = aggFold env var colOf t (env.toF64 init).1 ls := by
    intro a₀ h0
    have := aggInv_addAll hw hr ls _ a₀ h0
    cases hf : aggFold env var colOf t (env.toF64 init).1 ls with
    | ok v => rw [hf] at this; obtain ⟨a', e1, e2⟩ := this; rw [e1, Res.bind_ok, e2.val]
    | err => rw [hf] at this; rw [this]; rfl
    | panic => rw [hf] at this; rw [this]; rfl
  refine ⟨main a hinv, ?_⟩
  intro ls' a₁ h1
  have := aggInv_addAll hw hr ls' _ a hinv
  cases hf : aggFold env var colOf t (env.toF64 init).1 ls' with
  | ok v =>
    rw [hf] at this
    obtain ⟨a', e1, e2⟩ := this
    rw [h1] at e1
    simp only [Res.ok.injEq] at e1
    subst e1
    obtain ⟨a₂, e3, e4⟩ := aggInv_keep e2 a₁.expr (.inl rfl) a₁.start
    rw [ExprAgg.reset, e3, Res.bind_ok]
    rw [e2.start] at e4
    exact main a₂ e4
  | err => rw [hf] at this; rw [this] at h1; simp at h1
  | panic => rw [hf] at this; rw [this] at h1; simp at h1

/-- `s,10,s+b` over the rows `5 7` and `1 2`: 19. -/
example : ((ExprAgg.new exprEnvNat (ascii "s,10,s+b")).bind (·.lookup exprEnvNat [ascii "a", ascii "b"])).bind (fun a =>
    (a.addAll exprEnvNat [plainLine (ascii "5\t7\n") TAB, plainLine (ascii "1\t2\n") TAB]).bind fun a => .ok a.val) = .ok 19 := by
  decide +kernel

/-! ## C145: generating by a formula -/

/-- The value of the formula for a place. -/
def placeVal (env : ExprEnv F) (t : Tree F) (p : Nat × Nat) : Res F :=
  treeVal env.ops (fun x => if x = ascii "col" then env.ops.ofNat p.2 else if x = ascii "line" then env.ops.ofNat p.1 else env.ops.zero) t

/-- Writing at several places (line, column), one after the other. -/
def genAll (env : ExprEnv F) (prn : NumFormat → F → Bytes) : List (Nat × Nat) → ExprGen F → Res (List Bytes)
  | [], _ => .ok []
  | p :: ps, g => (g.write env prn p.1 p.2).bind fun r => (genAll env prn ps r.2).bind fun os => .ok (r.1 :: os)

/-- What should be written. -/
def placeTexts (env : ExprEnv F) (prn : F → Bytes) (t : Tree F) : List (Nat × Nat) → Res (List Bytes)
  | [] => .ok []
  | p :: ps => (placeVal env t p).bind fun v => (placeTexts env prn t ps).bind fun os => .ok (prn v :: os)

/-- A generator with the formula `text`: only `col` and `line` may have values other than zero. -/
structure GenInv (env : ExprEnv F) (text : Bytes) (fmt : NumFormat) (g : ExprGen F) : Prop where
  text : g.expr.text = text
  fmt : g.fmt = fmt
  col : g.colPos = 0
  line : g.linePos = 1
  shape : ∃ (c l : F) (rest : List (VarMap F)), g.expr.vars = ⟨ascii "col", c, none⟩ :: ⟨ascii "line", l, none⟩ :: rest ∧
    ∀ u ∈ rest, u.name ≠ ascii "col" ∧ u.name ≠ ascii "line" ∧ u.val = env.ops.zero ∧ u.col = none

theorem genInv_write {env : ExprEnv F} {text : Bytes} {fmt : NumFormat} {g : ExprGen F} (h : GenInv env text fmt g)
    (prn : NumFormat → F → Bytes) {ts : List (Token F)} {t : Tree F} (htok : tokenize env.toF64 text = .ok ts) (hw : Writes 1 ts [t])
    (p : Nat × Nat) :
    match placeVal env t p with
    | .ok v => ∃ g', g.write env prn p.1 p.2 = .ok (prn fmt v, g') ∧ GenInv env text fmt g'
    | .err => g.write env prn p.1 p.2 = .err
    | .panic => g.write env prn p.1 p.2 = .panic := by
  obtain ⟨c, l, rest, h1, h2⟩ := h.shape
  have hset : g.write env prn p.1 p.2 = ((⟨g.expr.text, g.expr.prog, ⟨ascii "col", env.ops.ofNat p.2, none⟩ ::
      ⟨ascii "line", env.ops.ofNat p.1, none⟩ :: rest⟩ : ExprSt F).evalPlain env).bind fun r =>
        .ok (prn g.fmt r.1, ⟨r.2, g.fmt, g.colPos, g.linePos⟩) := by
    simp [ExprGen.write, ExprSt.setVar, h.col, h.line, h1]
  rw [hset]
  unfold ExprSt.evalPlain ExprSt.parse parseFormula placeVal
  simp only [h.text, htok, Res.bind_ok, toRpn_writes hw]
  generalize hvs : (⟨ascii "col", env.ops.ofNat p.2, none⟩ :: ⟨ascii "line", env.ops.ofNat p.1, none⟩ :: rest : List (VarMap F)) = vs
  have hval := C37_value env.ops (fun x => if x = ascii "col" then env.ops.ofNat p.2 else if x = ascii "line" then env.ops.ofNat p.1
    else env.ops.zero) (vs.map (·.name)) hw
  rw [toRpn_writes hw, Res.bind_ok] at hval
  rw [← hval]
  cases hr : rpnToExpr env.ops (vs.map (·.name)) (postfixOf t) with
  | err => simp [Res.bind]
  | panic => simp [Res.bind]
  | ok r =>
    obtain ⟨w, h4, h5, _⟩ := rpnToExpr_vars env.ops hr
    have hd : r.2.drop vs.length = w := by rw [h4, List.drop_left' (by simp)]
    simp only [Res.bind_ok, hd, ExprSt.run]
    have hw2 : ∀ x ∈ w, x ≠ ascii "col" ∧ x ≠ ascii "line" := by
      intro x hx
      have := (h5 x hx).2.2
      rw [← hvs] at this
      simp only [List.map_cons, List.mem_cons, not_or] at this
      exact ⟨this.1, this.2.1⟩
    have hvals : (vs ++ w.map (VarMap.new env)).map (·.val) = r.2.map (fun x => if x = ascii "col" then env.ops.ofNat p.2 else
        if x = ascii "line" then env.ops.ofNat p.1 else env.ops.zero) := by
      rw [h4, List.map_append, List.map_append, List.map_map, List.map_map]
      congr 1
      · rw [← hvs]
        simp only [List.map_cons, Function.comp_def, if_true]
        rw [if_neg (by decide : ¬ ascii "line" = ascii "col")]
        congr 1
        congr 1
        · apply List.map_congr_left
          intro u hu
          obtain ⟨q1, q2, q3, _⟩ := h2 u hu
          simp [q1, q2, q3]
      · apply List.map_congr_left
        intro x hx
        obtain ⟨q1, q2⟩ := hw2 x hx
        simp [q1, q2, VarMap.new]
    rw [hvals]
    cases he : doEval env.ops (r.2.map fun x => if x = ascii "col" then env.ops.ofNat p.2 else
        if x = ascii "line" then env.ops.ofNat p.1 else env.ops.zero) r.1 with
    | err => simp [Res.bind]
    | panic => simp [Res.bind]
    | ok v =>
      simp only [Res.bind_ok, h.fmt]
      refine ⟨_, rfl, ⟨rfl, rfl, h.col, h.line, ?_⟩⟩
      refine ⟨env.ops.ofNat p.2, env.ops.ofNat p.1, rest ++ w.map (VarMap.new env), by rw [← hvs]; rfl, ?_⟩
      intro u hu
      rcases List.mem_append.1 hu with hu | hu
      · exact h2 u hu
      · obtain ⟨x, hx, rfl⟩ := List.mem_map.1 hu
        exact ⟨(hw2 x hx).1, (hw2 x hx).2, rfl, rfl⟩

theorem exprGen_new (env : ExprEnv F) (spec : Bytes) : GenInv env (parseFmtExpr .default spec).2 (parseFmtExpr .default spec).1
    (ExprGen.new env spec) := by
  refine ⟨rfl, rfl, rfl, rfl, env.ops.zero, env.ops.zero, [], rfl, by simp⟩

/-- Generating by a formula: at each place the value of the formula is written, where `col` and `line` stand for the place and any other
name for zero, whatever was written before. -/
theorem C145_places (env : ExprEnv F) (prn : NumFormat → F → Bytes) (spec : Bytes) {ts : List (Token F)} {t : Tree F}
    (htok : tokenize env.toF64 (parseFmtExpr .default spec).2 = .ok ts) (hw : Writes 1 ts [t]) (ps : List (Nat × Nat)) :
    genAll env prn ps (ExprGen.new env spec) = placeTexts env (prn (parseFmtExpr .default spec).1) t ps := by
  have : ∀ (ps : List (Nat × Nat)) (g : ExprGen F), GenInv env (parseFmtExpr .default spec).2 (parseFmtExpr .default spec).1 g →
      genAll env prn ps g = placeTexts env (prn (parseFmtExpr .default spec).1) t ps := by
    intro ps
    induction ps with
    | nil => intro g _; rfl
    | cons p ps ih =>
      intro g hg
      rw [genAll, placeTexts]
      have := genInv_write hg prn htok hw p
      cases hv : placeVal env t p with
      | ok v => rw [hv] at this; obtain ⟨g', e1, e2⟩ := this; rw [e1]; simp only [Res.bind_ok]; rw [ih g' e2]
      | err => rw [hv] at this; rw [this]; rfl
      | panic => rw [hv] at this; rw [this]; rfl
  exact this ps _ (exprGen_new env spec)

/-- What comes before the first comma is the format if it is one; otherwise all is the formula. -/
theorem C145_format (dflt : NumFormat) (a b : Bytes) (ha : (44 : UInt8) ∉ a) :
    (∀ f, NumFormat.parse a = .ok f → parseFmtExpr dflt (a ++ 44 :: b) = (f, b)) ∧
    ((∀ f, NumFormat.parse a ≠ .ok f) → parseFmtExpr dflt (a ++ 44 :: b) = (dflt, a ++ 44 :: b)) ∧ parseFmtExpr dflt a = (dflt, a) := by
  refine ⟨?_, ?_, ?_⟩
  · intro f hf
    rw [parseFmtExpr, splitOnce_some _ _ _ ha]
    simp [hf]
  · intro hf
    rw [parseFmtExpr, splitOnce_some _ _ _ ha]
    cases h : NumFormat.parse a with
    | ok f => exact absurd h (hf f)
    | err => simp [h]
    | panic => simp [h]
  · rw [parseFmtExpr, splitOnce_none _ _ ha]

/-- The number with its format's first letter, for the examples. -/
def prnNat (f : NumFormat) (v : Nat) : Bytes :=
  (match f with
    | .plain _ => ascii "p"
    | .short _ => ascii "s"
    | _ => ascii "x") ++ decText v

example : genAll exprEnvNat prnNat [(1, 0), (1, 1), (2, 0)] (ExprGen.new exprEnvNat (ascii "plain,line*10+col+z")) =
    .ok [ascii "p10", ascii "p11", ascii "p20"] := by decide +kernel

/-! ## C146: the command calc -/

/-- The format a line gives, if it gives one. -/
def lineFmt (l : Bytes) : Option NumFormat :=
  match splitOnce 44 l with
  | some (a, _) => match NumFormat.parse a with
    | .ok f => some f
    | _ => none
  | none => none

/-- The formula of a line. -/
def lineExp (l : Bytes) : Bytes := if (lineFmt l).isSome then (l.dropWhile (· ≠ 44)).tail else l

/-- The last format given. -/
def lastFmt (dflt : NumFormat) (ls : List Bytes) : NumFormat := (ls.filterMap lineFmt).getLast?.getD dflt

/-- What is to be written for line `i`. -/
def calcOut (env : ExprEnv F) (prn : NumFormat → F → Bytes) (dflt : NumFormat) (ls : List Bytes) (i : Nat) : Bytes :=
  match evalFormula env.ops env.toF64 (fun _ => env.ops.zero) (lineExp (ls.getD i [])) with
  | .ok v => prn (lastFmt dflt (ls.take (i + 1))) v ++ [NL]
  | _ => []

theorem calcText_eq (env : ExprEnv F) (exp : Bytes) : calcText env exp = evalFormula env.ops env.toF64 (fun _ => env.ops.zero) exp := by
  unfold calcText ExprSt.evalPlain ExprSt.parse evalFormula
  simp only [ExprSt.new, List.map_nil]
  cases parseFormula env.ops env.toF64 [] exp with
  | err => rfl
  | panic => rfl
  | ok r =>
    simp only [Res.bind_ok, List.length_nil, List.drop_zero, List.nil_append, ExprSt.run, List.map_map]
    rw [show ((fun x => x.val) ∘ VarMap.new env : Bytes → F) = fun _ => env.ops.zero from rfl]
    cases doEval env.ops (r.2.map fun _ => env.ops.zero) r.1 <;> rfl

theorem dropWhile_comma (a b : Bytes) (h : (44 : UInt8) ∉ a) : ((a ++ 44 :: b).dropWhile (· ≠ 44)).tail = b := by
  induction a with
  | nil => simp
  | cons x a ih =>
    have hx : x ≠ 44 := fun e => h (by simp [e])
    rw [List.cons_append, List.dropWhile_cons_of_pos (by simpa using hx)]
    exact ih (fun e => h (by simp [e]))

theorem parseFmtExpr_eq (fmt : NumFormat) (l : Bytes) : parseFmtExpr fmt l = ((lineFmt l).getD fmt, lineExp l) := by
  unfold parseFmtExpr lineExp lineFmt
  cases hs : splitOnce 44 l with
  | none => rfl
  | some p =>
    obtain ⟨a, b⟩ := p
    obtain ⟨h1, h2⟩ := splitOnce_eq _ _ _ _ hs
    simp only
    have hd : (l.dropWhile (· ≠ 44)).tail = b := by rw [h1, dropWhile_comma a b h2]
    have hp : (∃ f, NumFormat.parse a = .ok f) ∨ NumFormat.parse a = .err ∨ NumFormat.parse a = .panic := by
      cases NumFormat.parse a <;> simp
    rcases hp with ⟨f, hp⟩ | hp | hp
    · simp only [hp, Option.isSome_some, if_true, Option.getD_some, hd]
    · simp [hp]
    · simp [hp]

theorem lastFmt_cons (dflt : NumFormat) (l : Bytes) (ls : List Bytes) : lastFmt dflt (l :: ls) = lastFmt ((lineFmt l).getD dflt) ls := by
  unfold lastFmt
  cases h : lineFmt l with
  | none => simp [List.filterMap_cons, h]
  | some f =>
    rw [List.filterMap_cons, h]
    simp only [Option.getD_some]
    cases hl : ls.filterMap lineFmt with
    | nil => rfl
    | cons x xs =>
      rw [List.getLast?_cons_cons]
      cases hq : (x :: xs).getLast? with
      | none => simp at hq
      | some y => rfl

theorem calcOut_succ (env : ExprEnv F) (prn : NumFormat → F → Bytes) (dflt : NumFormat) (l : Bytes) (ls : List Bytes) (i : Nat) :
    calcOut env prn dflt (l :: ls) (i + 1) = calcOut env prn ((lineFmt l).getD dflt) ls i := by
  unfold calcOut
  rw [List.take_succ_cons, lastFmt_cons]
  simp

/-- No line makes the evaluation panic. -/
def CalcSafe (env : ExprEnv F) (l : Bytes) : Prop := evalFormula env.ops env.toF64 (fun _ => env.ops.zero) (lineExp l) ≠ .panic

theorem calcLine_eq (env : ExprEnv F) (prn : NumFormat → F → Bytes) (fmt : NumFormat) (l : Bytes) (h : CalcSafe env l) :
    calcLine env prn fmt l = some ((lineFmt l).getD fmt, calcOut env prn fmt [l] 0) := by
  unfold calcLine calcOut
  rw [parseFmtExpr_eq]
  simp only [calcText_eq]
  have hl : lastFmt fmt [l] = (lineFmt l).getD fmt := by rw [lastFmt_cons]; rfl
  cases he : evalFormula env.ops env.toF64 (fun _ => env.ops.zero) (lineExp l) with
  | ok v => simp [he, hl]
  | err => simp [he]
  | panic => exact absurd he h

/-- What is written for some lines. -/
def calcAll (env : ExprEnv F) (prn : NumFormat → F → Bytes) (dflt : NumFormat) (ls : List Bytes) : Bytes :=
  (List.range ls.length).flatMap (calcOut env prn dflt ls)

theorem calcAll_cons (env : ExprEnv F) (prn : NumFormat → F → Bytes) (dflt : NumFormat) (l : Bytes) (ls : List Bytes) :
    calcAll env prn dflt (l :: ls) = calcOut env prn dflt [l] 0 ++ calcAll env prn ((lineFmt l).getD dflt) ls := by
  unfold calcAll
  rw [List.length_cons, List.range_succ_eq_map, List.flatMap_cons, List.flatMap_map]
  congr 1
  exact flatMap_same _ _ _ fun i _ => calcOut_succ env prn dflt l ls i

theorem calcAll_append (env : ExprEnv F) (prn : NumFormat → F → Bytes) (a b : List Bytes) : ∀ dflt : NumFormat,
    calcAll env prn dflt (a ++ b) = calcAll env prn dflt a ++ calcAll env prn (lastFmt dflt a) b := by
  induction a with
  | nil => intro dflt; simp [calcAll, lastFmt]
  | cons l a ih => intro dflt; rw [List.cons_append, calcAll_cons, calcAll_cons, ih, lastFmt_cons, List.append_assoc]

theorem calcRows_spec (env : ExprEnv F) (prn : NumFormat → F → Bytes) {m : TextMode} (hm : m.col = .plain) (L : List Bytes) :
    ∀ (fuel : Nat) (fmt : NumFormat) (r : Reader) (t o : TextLine) (x : Bytes), L.length < fuel → View m true t o L r → Shows m true t x →
      o.orig = [] → (∀ l ∈ x :: L, l ≠ [] ∧ CalcSafe env l.dropLast) →
      calcRows env prn fuel fmt r = some (lastFmt fmt ((x :: L).map List.dropLast), calcAll env prn fmt ((x :: L).map List.dropLast)) := by
  induction L with
  | nil =>
    intro fuel fmt r t o x hf hv ht ho hl
    obtain ⟨fuel, rfl⟩ : ∃ k, fuel = k + 1 := ⟨fuel - 1, by simp at hf; omega⟩
    obtain ⟨h1, h2⟩ := hl x (by simp)
    have hline : t.line = x := ht.line
    rw [calcRows]
    simp only [hv.cur, hline, h1, if_false, calcLine_eq env prn fmt _ h2, Option.bind_some, hv.end_.1, if_true, List.map_cons, List.map_nil]
    rw [calcAll_cons, lastFmt_cons]
    simp [calcAll, lastFmt]
  | cons l L ih =>
    intro fuel fmt r t o x hf hv ht ho hl
    obtain ⟨fuel, rfl⟩ : ∃ k, fuel = k + 1 := ⟨fuel - 1, by simp at hf; omega⟩
    obtain ⟨h1, h2⟩ := hl x (by simp)
    have hline : t.line = x := ht.line
    have := ih fuel ((lineFmt x.dropLast).getD fmt) r.getline _ _ l (by simp at hf; omega) hv.next
      (putLine_shows (b := true) hm o ho l) ht.orig (fun y hy => hl y (by simp [List.mem_cons.1 hy]))
    rw [calcRows]
    simp only [hv.cur, hline, h1, if_false, calcLine_eq env prn fmt _ h2, Option.bind_some, hv.next.more, Bool.false_eq_true, this]
    show _ = some (lastFmt fmt (x.dropLast :: (l :: L).map List.dropLast), calcAll env prn fmt (x.dropLast :: (l :: L).map List.dropLast))
    rw [calcAll_cons env prn fmt x.dropLast, lastFmt_cons fmt x.dropLast]

/-- The lines of the files, without their ends. -/
def calcInput (m : TextMode) (files : List Bytes) : List Bytes := files.flatMap fun f => (dataOf m f).map List.dropLast

theorem calcFiles_spec (env : ExprEnv F) (prn : NumFormat → F → Bytes) {m : TextMode} (hm : m.col = .plain) (files : List Bytes) :
    ∀ fmt : NumFormat, (∀ f ∈ files, ∀ l ∈ dataOf m f, l ≠ []) → (∀ l ∈ calcInput m files, CalcSafe env l) →
      calcFiles env prn m fmt files = some (calcAll env prn fmt (calcInput m files)) := by
  induction files with
  | nil => intro fmt _ _; simp [calcFiles, calcInput, calcAll]
  | cons f fs ih =>
    intro fmt h1 h2
    have hin : calcInput m (f :: fs) = (dataOf m f).map List.dropLast ++ calcInput m fs := by simp [calcInput]
    rw [calcFiles, hin, calcAll_append]
    have hrest : ∀ fmt, calcFiles env prn m fmt fs = some (calcAll env prn fmt (calcInput m fs)) :=
      fun fmt => ih fmt (fun g hg => h1 g (by simp [hg])) (fun l hl => h2 l (by rw [hin]; simp [hl]))
    cases hh : readHeader m f with
    | none =>
      have hd : dataOf m f = [] := by simp [dataOf, hh]
      rw [open_isEmpty, hh]
      simp only [Option.isNone_none, Bool.true_or, if_true, hd, List.map_nil]
      rw [hrest]
      simp [calcAll, lastFmt]
    | some p =>
      rw [open_isEmpty, open_done, hh]
      simp only [Option.isNone_some, Bool.false_or]
      cases hD : dataOf m f with
      | nil =>
        simp only [List.isEmpty_nil, if_true, List.map_nil]
        rw [hrest]
        simp [calcAll, lastFmt]
      | cons d D =>
        have hD' : readLines m.col m.eol p.2 = d :: D := by simpa [dataOf, hh] using hD
        have hv := view_open m f p.1 p.2 d D hh hD'
        have hlen : D.length < ((Reader.newWith 1 m).open_ f).file.length + 1 := by
          have h := readLines_length m.col m.eol ((Reader.newWith 1 m).open_ f).file
          rw [hv.file] at h
          omega
        have := calcRows_spec env prn hm D _ fmt _ _ _ d hlen hv (decoded_shows hm d) rfl (by
          intro l hl
          refine ⟨h1 f (by simp) l (by rw [hD]; exact hl), h2 _ ?_⟩
          rw [hin, hD]
          exact List.mem_append_left _ (List.mem_map_of_mem hl))
        simp only [List.isEmpty_cons, Bool.false_eq_true, if_false, this, Option.bind_some, hrest]

theorem dataOf_ne (m : TextMode) (hm : m.col = .plain) (f l : Bytes) (h : l ∈ dataOf m f) : l ≠ [] := by
  have key : ∀ f : Bytes, ∀ l ∈ readLines m.col m.eol f, l ≠ [] := by
    intro f
    refine readLines_induction m.col m.eol (fun f => ∀ l ∈ readLines m.col m.eol f, l ≠ []) (by simp [readLines_nil]) ?_ f
    intro f l rest hr ih
    rw [readLines_some _ _ _ _ _ hr]
    intro x hx
    rcases List.mem_cons.1 hx with rfl | hx
    · unfold readLine at hr
      simp only [hm] at hr
      split at hr
      · simp at hr
      · rename_i hne
        simp at hr
        rw [← hr.1, ensureEof]
        split
        · exact hne
        · simp
    · exact ih x hx
  unfold dataOf at h
  cases hh : readHeader m f with
  | none => simp [hh] at h
  | some p => rw [hh] at h; exact key p.2 l h

/-- A line of something other than parentheses is safe. -/
theorem calcSafe_tokens (env : ExprEnv F) (hf : ∀ c r, isDigit c = true → (env.toF64 (c :: r)).2.length ≤ r.length) (l : Bytes)
    (h : ∀ ts, tokenize env.toF64 (lineExp l) = .ok ts → ∃ t ∈ ts, t ≠ .lparen ∧ t ≠ .rparen) : CalcSafe env l := by
  intro hp
  obtain ⟨ts, h1, h2⟩ := C35_total_partial env.ops _ hf _ hp
  obtain ⟨t, h3, h4, h5⟩ := h ts h1
  rcases h2 t h3 with h6 | h6
  · exact h4 h6
  · exact h5 h6

/-- The command: for each line of the files, in order, the value of its formula in the last format given; nothing for a line that is no
formula. All names are zero. -/
theorem C146_lines (env : ExprEnv F) (prn : NumFormat → F → Bytes) (m : TextMode) (hm : m.col = .plain)
    (hf : ∀ c r, isDigit c = true → (env.toF64 (c :: r)).2.length ≤ r.length) (fmts files : List Bytes) (fmt : NumFormat)
    (hfmt : calcFmt .default fmts = .ok fmt)
    (hsome : ∀ l ∈ calcInput m files, ∀ ts, tokenize env.toF64 (lineExp l) = .ok ts → ∃ t ∈ ts, t ≠ .lparen ∧ t ≠ .rparen) :
    calcCmd env prn m fmts files =
      .ok ((List.range (calcInput m files).length).flatMap (calcOut env prn fmt (calcInput m files))) := by
  unfold calcCmd
  rw [hfmt, Res.bind_ok, calcFiles_spec env prn hm files fmt (fun f _ l hl => dataOf_ne m hm f l hl)
    (fun l hl => calcSafe_tokens env hf l (hsome l hl))]
  rfl

/-- The last `--fmt` counts; one that is no format is an error. -/
theorem C146_options (fmts : List Bytes) (x : Bytes) :
    (∀ f, NumFormat.parse x = .ok f → (∀ y ∈ fmts, ∃ g, NumFormat.parse y = .ok g) → calcFmt .default (fmts ++ [x]) = .ok f) ∧
    calcFmt .default [] = .ok .default ∧
    (∀ y ∈ fmts, NumFormat.parse y = .err → ∀ g, calcFmt .default fmts ≠ .ok g) := by
  refine ⟨?_, rfl, ?_⟩
  · intro f hf
    generalize NumFormat.default = d
    induction fmts generalizing d with
    | nil => intro _; simp [calcFmt, hf]
    | cons y fmts ih =>
      intro h
      obtain ⟨g, hg⟩ := h y (by simp)
      rw [List.cons_append, calcFmt, hg, Res.bind_ok]
      exact ih g (fun z hz => h z (by simp [hz]))
  · generalize NumFormat.default = d
    induction fmts generalizing d with
    | nil => simp
    | cons y fmts ih =>
      intro z hz he g hg
      rw [calcFmt] at hg
      obtain ⟨f, h1, h2⟩ := Res.bind_eq_ok hg
      rcases List.mem_cons.1 hz with rfl | hz
      · rw [he] at h1; simp at h1
      · exact ih f z hz he g h2

/-- A format given in a line stays for the lines after it; the line `1+` is no formula. -/
example : calcCmd exprEnvNat prnNat .default [] [ascii "1+2\nplain,3*4\n", ascii "1+\n5\n"] = .ok (ascii "s3\np12\np5\n") := by
  decide +kernel

/-! ## C147: any lines -/

/-- The full claim: whatever the lines, the command does not crash. -/
def C147_statement : Prop :=
  ∀ (F : Type) (env : ExprEnv F) (prn : NumFormat → F → Bytes) (files : List Bytes),
    (∀ c r, isDigit c = true → (env.toF64 (c :: r)).2.length ≤ r.length) → calcCmd env prn .default [] files ≠ .panic

theorem natF64_short : ∀ c r, isDigit c = true → (natF64 (c :: r)).2.length ≤ r.length := by
  intro c r hc
  simp only [natF64]
  rw [List.dropWhile_cons_of_pos hc]
  exact (List.dropWhile_sublist _).length_le

/-- An empty line crashes it. The code behaves so. -/
theorem C147_refuted : ¬ C147_statement := by
  intro h
  exact h Nat exprEnvNat prnNat [ascii "\n"] natF64_short (by decide +kernel)

/-- Lines of parentheses only, and empty lines, are the only ones that crash it. -/
theorem C147_safe_partial (env : ExprEnv F) (prn : NumFormat → F → Bytes) (m : TextMode) (hm : m.col = .plain)
    (hf : ∀ c r, isDigit c = true → (env.toF64 (c :: r)).2.length ≤ r.length) (fmts files : List Bytes)
    (hp : calcCmd env prn m fmts files = .panic) (hfmt : ∀ y ∈ fmts, NumFormat.parse y ≠ .panic) :
    ∃ l ∈ calcInput m files, ∃ ts, tokenize env.toF64 (lineExp l) = .ok ts ∧ ∀ t ∈ ts, t = .lparen ∨ t = .rparen := by
  apply Classical.byContradiction
  intro hno
  have hsome : ∀ l ∈ calcInput m files, ∀ ts, tokenize env.toF64 (lineExp l) = .ok ts → ∃ t ∈ ts, t ≠ .lparen ∧ t ≠ .rparen := by
    intro l hl ts ht
    apply Classical.byContradiction
    intro h
    refine hno ⟨l, hl, ts, ht, fun t hts => ?_⟩
    apply Classical.byContradiction
    intro h2
    exact h ⟨t, hts, fun h3 => h2 (.inl h3), fun h3 => h2 (.inr h3)⟩
  have hnp : ∀ d, calcFmt d fmts ≠ .panic := by
    clear hp hno hsome
    induction fmts with
    | nil => intro d; simp [calcFmt]
    | cons y fmts ih =>
      intro d
      rw [calcFmt]
      cases h : NumFormat.parse y with
      | ok f => rw [Res.bind_ok]; exact ih (fun z hz => hfmt z (by simp [hz])) f
      | err => simp [Res.bind]
      | panic => exact absurd h (hfmt y (by simp))
  cases hc : calcFmt .default fmts with
  | ok fmt => rw [C146_lines env prn m hm hf fmts files fmt hc hsome] at hp; simp at hp
  | err => rw [calcCmd, hc] at hp; simp [Res.bind] at hp
  | panic => exact hnp _ hc

/-! ## C148: constants -/

/-- The full claim: each constant can be written in a formula. -/
def C148_statement : Prop :=
  ∀ (F : Type) (ops : FloatOps F) (toF64 : Bytes → F × Bytes) (val : Bytes → F), ∀ c ∈ constNames,
    evalFormula ops toF64 val c = .ok (ops.const c)

/-- `M_PI` cannot: an underscore is no part of a name. The code behaves so. -/
theorem C148_refuted : ¬ C148_statement := by
  intro h
  have := h Nat natOps natF64 (fun _ => 0) (ascii "M_PI") (by decide)
  revert this
  decide +kernel

/-- `pi` and `e` can be written; all other constants have an underscore in their name, and a formula with one is an error. -/
theorem C148_usable_partial (ops : FloatOps F) (toF64 : Bytes → F × Bytes) (val : Bytes → F) :
    ∀ c ∈ constNames, evalFormula ops toF64 val c = if 95 ∈ c then .err else .ok (ops.const c) := by
  intro c hc
  simp only [constNames, List.mem_cons, List.not_mem_nil, or_false] at hc
  rcases hc with rfl | rfl | rfl | rfl | rfl | rfl | rfl | rfl | rfl | rfl | rfl | rfl | rfl | rfl | rfl | rfl | rfl | rfl | rfl | rfl <;> rfl

/-- Any formula with an underscore outside a number is an error; here as its first character, or after a name. -/
theorem C148_underscore (toF64 : Bytes → F × Bytes) (name rest : Bytes) (hn : name = [] ∨ NameOk name) :
    tokenize toF64 (name ++ 95 :: rest) = .err := by
  rcases hn with rfl | ⟨c, r, rfl, h1, h2⟩
  · rfl
  · unfold tokenize
    simp only [List.cons_append, List.length_cons, tokLoop]
    rw [tokStep_alpha toF64 [] h1 h2 (by intro x hx; simp at hx; subst hx; decide)]
    simp only [Res.bind_ok]
    rw [show (r ++ 95 :: rest).length = (r.length + rest.length) + 1 by simp; omega, tokLoop]
    rfl

end Cdx
