import Verif.Props.ExprUse
import Verif.Props.CompMake
import Verif.Props.Registry

/-!
Details of claims made elsewhere: C109, C141, C144.
-/

namespace Cdx

variable {F : Type}

/-! ## C109 -/

/-- The words `rev`, `strict`, `trail` and `low` never become methods of comparison or aliases, whatever is added to the table. -/
theorem C109_comp_words (ops : List (RegOp Method)) (w : Bytes)
    (hw : w = ascii "rev" ∨ w = ascii "strict" ∨ w = ascii "trail" ∨ w = ascii "low") :
    getEntry w (Registry.run compMods ops).items = none ∧ (Registry.run compMods ops).resolve w = w := by
  have hm : w ∈ compMods := by rcases hw with rfl | rfl | rfl | rfl <;> decide
  have h1 : ∀ ops : List (RegOp Method), lastOf (RegOp.makes compMods w) ops = none := by
    intro ops
    induction ops with
    | nil => rfl
    | cons op ops ih => rw [lastOf, ih]; cases op <;> simp [RegOp.makes]; intro e; subst e; exact hm
  have h2 : ∀ ops : List (RegOp Method), lastOf (RegOp.means compMods w) ops = none := by
    intro ops
    induction ops with
    | nil => rfl
    | cons op ops ih => rw [lastOf, ih]; cases op <;> simp [RegOp.means]; intro e; subst e; exact hm
  unfold Registry.resolve Registry.run
  rw [run_items, run_aliases, h1, h2]
  simp [getEntry]

/-- Trying to push `low` and to make it an alias. -/
example : getEntry (ascii "low") (Registry.run compMods (compInit ++ [.push (ascii "low") .random, .alias (ascii "num") (ascii "low")])).items = none ∧
    (Registry.run compMods (compInit ++ [.push (ascii "low") .random, .alias (ascii "num") (ascii "low")])).resolve (ascii "low") = ascii "low" :=
  C109_comp_words _ _ (.inr (.inr (.inr rfl)))

/-! ## C141 -/

/-- A column by a formula, `name:formula`: its name, and in each row the value of the formula as it is printed. -/
theorem C141_column (env : ExprEnv F) (disp : F → Bytes) (names : List Bytes) (lit : F → Bytes) (name : Bytes) (hname : (58 : UInt8) ∉ name)
    {ts : List (Token F)} {t : Tree F} (hw : Writes 1 ts [t]) (hwr : ∀ tok ∈ ts, Writable env.toF64 lit tok) (hc : NoClash ts)
    (hb : (91 : UInt8) ∉ formulaText lit ts) (colOf : Bytes → Nat) (hcol : ∀ x ∈ treeNames t, VarCol names x (colOf x)) (line : TextLine) :
    (columnExprNew (name ++ 58 :: formulaText lit ts) : Bytes × ExprSt F).1 = name ∧
    ((columnExprNew (name ++ 58 :: formulaText lit ts)).2.lookup env names).bind (fun e => columnExprWrite env disp e line) =
      (treeVal env.ops (fun x => (env.toF64 (line.get (colOf x))).1) t).bind fun v => .ok (disp v) := by
  unfold columnExprNew
  rw [splitOnce_some 58 name _ hname]
  refine ⟨rfl, ?_⟩
  rw [← C141_value env names lit hw hwr hc hb colOf hcol line]
  dsimp only
  cases (ExprSt.new (formulaText lit ts)).lookup env names <;> rfl

example : (columnExprNew (ascii "s:a+b*2") : Bytes × ExprSt Nat).1 = ascii "s" ∧
    ((columnExprNew (ascii "s:a+b*2")).2.lookup exprEnvNat [ascii "a", ascii "b"]).bind (fun e =>
      columnExprWrite exprEnvNat decText e (plainLine (ascii "5\t7\n") TAB)) = .ok (ascii "19") := by decide +kernel

/-- The columns that a formula uses are those of the names in it. -/
theorem C141_used (env : ExprEnv F) (names : List Bytes) (lit : F → Bytes) {ts : List (Token F)} {t : Tree F}
    (hw : Writes 1 ts [t]) (hwr : ∀ tok ∈ ts, Writable env.toF64 lit tok) (hc : NoClash ts) (hb : (91 : UInt8) ∉ formulaText lit ts)
    (colOf : Bytes → Nat) (hcol : ∀ x ∈ treeNames t, VarCol names x (colOf x)) (e : ExprSt F)
    (he : (ExprSt.new (formulaText lit ts)).lookup env names = .ok e) (c : Nat) :
    c ∈ e.usedCols ↔ ∃ x ∈ treeNames t, c = colOf x := by
  rw [lookup_vars env names (ExprSt.new (formulaText lit ts)) (expandText_plain _ _ hb) (tokenize_text env.toF64 lit hw hwr hc) hw colOf
    (fun x hx _ => hcol x hx)] at he
  obtain ⟨r, hr, h2⟩ := Res.bind_eq_ok he
  obtain ⟨w, h4, h5, h6⟩ := rpnToExpr_vars env.ops hr
  simp only [ExprSt.new, List.map_nil, List.nil_append, List.length_nil, List.drop_zero, Res.ok.injEq] at h2 h4
  subst h2
  unfold ExprSt.usedCols
  simp only [List.filterMap_map, List.mem_filterMap, Function.comp_def, Option.some.injEq]
  constructor
  · rintro ⟨x, hx, rfl⟩
    rw [h4] at hx
    obtain ⟨g1, g2, _⟩ := h5 x hx
    rcases mem_postfixOf t x g1 with g | g
    · exact absurd g g2
    · exact ⟨x, g, rfl⟩
  · rintro ⟨x, hx, rfl⟩
    exact ⟨x, h6 x (postfixOf_mem t x hx).1 (postfixOf_mem t x hx).2, rfl⟩

example : ((ExprSt.new (ascii "a+b*2+a")).lookup exprEnvNat [ascii "x", ascii "a", ascii "b"]).bind (fun e => .ok e.usedCols) = .ok [1, 2] := by
  decide +kernel

/-! ## C144 -/

theorem ExprAgg.addAll_text (env : ExprEnv F) : ∀ (ls : List TextLine) (a b : ExprAgg F), a.addAll env ls = .ok b → b.expr.text = a.expr.text
  | [], a, b, h => by
    simp only [ExprAgg.addAll, Res.ok.injEq] at h
    rw [h]
  | l :: ls, a, b, h => by
    rw [ExprAgg.addAll] at h
    obtain ⟨a', h1, h2⟩ := Res.bind_eq_ok h
    rw [ExprAgg.addAll_text env ls a' b h2]
    unfold ExprAgg.add at h1
    obtain ⟨v, _, h3⟩ := Res.bind_eq_ok h1
    unfold ExprAgg.keep ExprSt.setVar at h3
    by_cases hl : a.which < (a.expr.prepare env l.get).vars.length
    · rw [dif_pos hl] at h3
      simp only [Res.ok.injEq] at h3
      rw [← h3]
      rfl
    · rw [dif_neg hl] at h3
      simp at h3

theorem aggFold_append (env : ExprEnv F) (var : Bytes) (colOf : Bytes → Nat) (t : Tree F) (ls₁ ls₂ : List TextLine) : ∀ v : F,
    aggFold env var colOf t v (ls₁ ++ ls₂) = (aggFold env var colOf t v ls₁).bind fun v' => aggFold env var colOf t v' ls₂ := by
  induction ls₁ with
  | nil => intro v; rfl
  | cons l ls ih =>
    intro v
    rw [List.cons_append, aggFold, aggFold]
    cases aggStep env var colOf t v l with
    | ok x => simp only [Res.bind_ok]; exact ih x
    | err => rfl
    | panic => rfl

/-- The header of another file may come while lines are aggregated: the value so far and the start stay, and so do the columns of the
names. -/
theorem C144_header_between (env : ExprEnv F) (names₁ names₂ : List Bytes) (lit : F → Bytes) (var init : Bytes) {ts : List (Token F)} {t : Tree F}
    (hw : Writes 1 ts [t]) (hwr : ∀ tok ∈ ts, Writable env.toF64 lit tok) (hc : NoClash ts) (hb : (91 : UInt8) ∉ formulaText lit ts)
    (hv : (44 : UInt8) ∉ var) (hi : (44 : UInt8) ∉ init) (hz : (env.toF64 init).2 = [])
    (colOf : Bytes → Nat) (hcol : ∀ x ∈ treeNames t, x ≠ var → VarCol names₁ x (colOf x)) (a b c : ExprAgg F)
    (ha : (ExprAgg.new env (var ++ [44] ++ init ++ [44] ++ formulaText lit ts)).bind (·.lookup env names₁) = .ok a) (ls₁ ls₂ : List TextLine)
    (hab : a.addAll env ls₁ = .ok b) (hbc : b.lookup env names₂ = .ok c) :
    (c.addAll env ls₂).bind (fun a' => .ok a'.val) = aggFold env var colOf t (env.toF64 init).1 (ls₁ ++ ls₂) := by
  rw [exprAgg_new env var init _ hv hi hz, Res.bind_ok, ExprAgg.lookup] at ha
  obtain ⟨e, h1, h2⟩ := Res.bind_eq_ok ha
  simp only [Res.ok.injEq] at h2
  rw [lookup_vars env names₁ ⟨formulaText lit ts, [], [⟨var, (env.toF64 init).1, none⟩]⟩ (expandText_plain _ _ hb)
    (tokenize_text env.toF64 lit hw hwr hc) hw colOf (by
      intro x hx hn
      exact hcol x hx (by simpa using hn))] at h1
  obtain ⟨r, hr, h3⟩ := Res.bind_eq_ok h1
  simp only [Res.ok.injEq] at h3
  simp only [List.map_cons, List.map_nil] at hr
  obtain ⟨w, h4, h5, h6⟩ := rpnToExpr_vars env.ops hr
  have hinv : AggInv env var colOf (env.toF64 init).1 r (env.toF64 init).1 a := by
    subst h2
    refine ⟨rfl, rfl, rfl, by rw [← h3], ?_⟩
    refine ⟨_, by rw [← h3]; rfl, ?_, ?_⟩
    · rw [h4]; simp [Function.comp_def]
    · intro u hu
      obtain ⟨x, hx, rfl⟩ := List.mem_map.1 hu
      rw [h4] at hx
      simp only [List.length_cons, List.length_nil, List.singleton_append, List.drop_succ_cons, List.drop_zero] at hx
      exact ⟨by have := (h5 x hx).2.2; simpa using this, rfl⟩
  have htext : b.expr.text = formulaText lit ts := by
    rw [ExprAgg.addAll_text env ls₁ a b hab, ← h2, ← h3]
  have hfold := aggInv_addAll hw hr ls₁ _ a hinv
  rw [aggFold_append]
  cases hf : aggFold env var colOf t (env.toF64 init).1 ls₁ with
  | err => rw [hf] at hfold; rw [hfold] at hab; simp at hab
  | panic => rw [hf] at hfold; rw [hfold] at hab; simp at hab
  | ok v =>
    rw [hf] at hfold
    obtain ⟨b', g1, g2⟩ := hfold
    rw [hab] at g1
    simp only [Res.ok.injEq] at g1
    subst g1
    obtain ⟨rest, q1, q2, q3⟩ := g2.shape
    have hall : ∀ x ∈ treeNames t, x ∈ b.expr.vars.map (·.name) := by
      intro x hx
      rw [q1, List.map_cons, ← q2]
      exact h6 x (postfixOf_mem t x hx).1 (postfixOf_mem t x hx).2
    rw [ExprAgg.lookup] at hbc
    obtain ⟨e', p1, p2⟩ := Res.bind_eq_ok hbc
    simp only [Res.ok.injEq] at p2
    rw [lookup_vars env names₂ b.expr (by rw [htext]; exact expandText_plain _ _ hb) (tokenize_text env.toF64 lit hw hwr hc) hw colOf (by
      intro x hx hn
      exact absurd (hall x hx) hn)] at p1
    obtain ⟨r', hr', p3⟩ := Res.bind_eq_ok p1
    simp only [Res.ok.injEq] at p3
    obtain ⟨w', k4, k5, _⟩ := rpnToExpr_vars env.ops hr'
    have hw' : w' = [] := by
      cases w' with
      | nil => rfl
      | cons x xs =>
        obtain ⟨y1, y2, y3⟩ := k5 x (by simp)
        rcases mem_postfixOf t x y1 with y | y
        · exact absurd y y2
        · exact absurd (hall x y) y3
    rw [hw', List.append_nil] at k4
    have hinv' : AggInv env var colOf (env.toF64 init).1 r' v c := by
      subst p2
      refine ⟨g2.which, g2.start, g2.val, by rw [← p3], rest, ?_, ?_, q3⟩
      · rw [← p3, k4]
        simp [q1]
      · rw [k4, q1]
        rfl
    have := aggInv_addAll hw hr' ls₂ _ c hinv'
    rw [Res.bind_ok]
    cases hf2 : aggFold env var colOf t v ls₂ with
    | ok v' => rw [hf2] at this; obtain ⟨a', e1, e2⟩ := this; rw [e1, Res.bind_ok, e2.val]
    | err => rw [hf2] at this; rw [this]; rfl
    | panic => rw [hf2] at this; rw [this]; rfl

/-- `s,10,s+b` over `5 7` and, after the header `b a`, `1 2`: 19 still. -/
example : ((ExprAgg.new exprEnvNat (ascii "s,10,s+b")).bind (·.lookup exprEnvNat [ascii "a", ascii "b"])).bind (fun a =>
    (a.addAll exprEnvNat [plainLine (ascii "5\t7\n") TAB]).bind fun b => (b.lookup exprEnvNat [ascii "b", ascii "a"]).bind fun c =>
      (c.addAll exprEnvNat [plainLine (ascii "1\t2\n") TAB]).bind fun a => .ok a.val) = .ok 19 := by
  decide +kernel

end Cdx
