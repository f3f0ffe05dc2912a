import Verif.Spec.ExprLine
import Verif.Props.Expr
import Verif.Props.Ops

/-!
Facts about formulas on lines, for `Verif/Props/ExprLine.lean`.
-/

namespace Cdx

variable {F : Type}

theorem resolveVar_varCol {names : List Bytes} {x : Bytes} {i : Nat} (h : VarCol names x i) : resolveVar names x = .ok i := by
  rcases h with ⟨h1, h2⟩ | ⟨h1, h2, rfl⟩
  · exact C72_named names i x h1 h2
  · exact C72_bracket_partial names i h2 h1

theorem resolveVar_noCol {names : List Bytes} {x : Bytes} (h : NoCol names x) : resolveVar names x = .err := by
  have h1 : names.findIdx? (· == x) = none := by
    rw [List.findIdx?_eq_none_iff]
    intro y hy
    simp only [beq_eq_false_iff_ne]
    intro hyx; subst hyx; exact h.1 hy
  unfold resolveVar
  rw [h1]
  simp only
  split
  · rename_i ds
    rw [if_neg]
    rintro ⟨h2, h3⟩
    rcases h.2 ds rfl with h4 | ⟨c, hc, h4⟩
    · exact h2 h4
    · have := List.all_eq_true.1 h3 c hc
      rw [h4] at this; simp at this
  · rfl

mutual
theorem mem_postfixOf (t : Tree F) (s : Bytes) : .var s ∈ postfixOf t → s ∈ constNames ∨ s ∈ treeNames t := by
  cases t with
  | num x => simp [postfixOf]
  | var y =>
    simp only [postfixOf, List.mem_singleton, Token.var.injEq, treeNames]
    rintro rfl
    by_cases h : s ∈ constNames <;> simp [h]
  | bin op a b =>
    simp only [postfixOf, List.mem_append, List.mem_singleton, treeNames]
    rintro ((h | h) | h)
    · exact (mem_postfixOf a s h).imp id .inl
    · exact (mem_postfixOf b s h).imp id .inr
    · cases h
  | sign m a =>
    simp only [postfixOf, List.mem_append, List.mem_singleton, treeNames]
    rintro (h | h)
    · exact mem_postfixOf a s h
    · cases h
  | fact a =>
    simp only [postfixOf, List.mem_append, List.mem_singleton, treeNames]
    rintro (h | h)
    · exact mem_postfixOf a s h
    · cases h
  | call n a rest =>
    simp only [postfixOf, List.mem_append, List.mem_singleton, treeNames]
    rintro ((h | h) | h)
    · exact (mem_postfixOf a s h).imp id .inl
    · exact (mem_postfixAll rest s h).imp id .inr
    · cases h
theorem mem_postfixAll (ts : List (Tree F)) (s : Bytes) : .var s ∈ postfixAll ts → s ∈ constNames ∨ s ∈ treeNamesAll ts := by
  cases ts with
  | nil => simp [postfixAll]
  | cons t ts =>
    simp only [postfixAll, List.mem_append, treeNamesAll]
    rintro (h | h)
    · exact (mem_postfixOf t s h).imp id .inl
    · exact (mem_postfixAll ts s h).imp id .inr
end

mutual
theorem postfixOf_mem (t : Tree F) (s : Bytes) : s ∈ treeNames t → .var s ∈ postfixOf t ∧ s ∉ constNames := by
  cases t with
  | num x => simp [treeNames]
  | var y =>
    simp only [postfixOf, List.mem_singleton, Token.var.injEq, treeNames]
    by_cases h : y ∈ constNames
    · simp [h]
    · simp only [h, if_false, List.mem_singleton]
      rintro rfl; exact ⟨rfl, h⟩
  | bin op a b =>
    simp only [postfixOf, List.mem_append, treeNames]
    rintro (h | h)
    · exact ⟨.inl (.inl (postfixOf_mem a s h).1), (postfixOf_mem a s h).2⟩
    · exact ⟨.inl (.inr (postfixOf_mem b s h).1), (postfixOf_mem b s h).2⟩
  | sign m a =>
    simp only [postfixOf, List.mem_append, treeNames]
    intro h
    exact ⟨.inl (postfixOf_mem a s h).1, (postfixOf_mem a s h).2⟩
  | fact a =>
    simp only [postfixOf, List.mem_append, treeNames]
    intro h
    exact ⟨.inl (postfixOf_mem a s h).1, (postfixOf_mem a s h).2⟩
  | call n a rest =>
    simp only [postfixOf, List.mem_append, treeNames]
    rintro (h | h)
    · exact ⟨.inl (.inl (postfixOf_mem a s h).1), (postfixOf_mem a s h).2⟩
    · exact ⟨.inl (.inr (postfixAll_mem rest s h).1), (postfixAll_mem rest s h).2⟩
theorem postfixAll_mem (ts : List (Tree F)) (s : Bytes) : s ∈ treeNamesAll ts → .var s ∈ postfixAll ts ∧ s ∉ constNames := by
  cases ts with
  | nil => simp [treeNamesAll]
  | cons t ts =>
    simp only [postfixAll, List.mem_append, treeNamesAll]
    rintro (h | h)
    · exact ⟨.inl (postfixOf_mem t s h).1, (postfixOf_mem t s h).2⟩
    · exact ⟨.inr (postfixAll_mem ts s h).1, (postfixAll_mem ts s h).2⟩
end

theorem findConst_some_iff (ops : FloatOps F) (x : Bytes) : (findConst ops x).isSome = true ↔ x ∈ constNames := by
  unfold findConst
  split <;> simp_all

/-- The variables after a step: the old ones, then new ones from the token. -/
theorem compileStep_vars (ops : FloatOps F) {st st' : List (Node F) × List Bytes} {t : Token F}
    (h : compileStep ops st t = .ok st') :
    ∃ w, st'.2 = st.2 ++ w ∧ (∀ x ∈ w, t = .var x ∧ x ∉ constNames ∧ x ∉ st.2) ∧
      (∀ x, t = .var x → x ∉ constNames → x ∈ st'.2) := by
  have keep : ∀ {α : Type} {r : Res α} {f : α → List (Node F) × List Bytes}, r.map' f = .ok st' → (∀ a, (f a).2 = st.2) →
      st'.2 = st.2 := by
    intro α r f hr hf
    cases r with
    | ok a => simp [Res.map'] at hr; rw [← hr]; exact hf a
    | err => simp [Res.map'] at hr
    | panic => simp [Res.map'] at hr
  cases t with
  | binary op => exact ⟨[], by simpa using keep h (fun _ => rfl), by simp, by simp⟩
  | unary op => exact ⟨[], by simpa using keep h (fun _ => rfl), by simp, by simp⟩
  | number n => simp [compileStep] at h; exact ⟨[], by simp [← h], by simp, by simp⟩
  | lparen => simp [compileStep] at h; exact ⟨[], by simp [← h], by simp, by simp⟩
  | rparen => simp [compileStep] at h; exact ⟨[], by simp [← h], by simp, by simp⟩
  | comma => simp [compileStep] at h; exact ⟨[], by simp [← h], by simp, by simp⟩
  | func n k =>
    cases k with
    | none => simp [compileStep] at h; exact ⟨[], by simp [← h], by simp, by simp⟩
    | some k => exact ⟨[], by simpa using keep h (fun _ => rfl), by simp, by simp⟩
  | var name =>
    simp only [compileStep] at h
    cases hc : findConst ops name with
    | some c =>
      rw [hc] at h
      simp at h
      have : name ∈ constNames := (findConst_some_iff ops name).1 (by simp [hc])
      exact ⟨[], by simp [← h], by simp, by intro x hx; cases hx; intro hn; exact absurd this hn⟩
    | none =>
      rw [hc] at h
      simp at h
      have hn : name ∉ constNames := fun hm => by have := (findConst_some_iff ops name).2 hm; simp [hc] at this
      rw [← h]
      simp only [findVar]
      cases hf : st.2.findIdx? (· == name) with
      | some i =>
        obtain ⟨hi, h1, _⟩ := List.findIdx?_eq_some_iff_getElem.1 hf
        simp at h1
        refine ⟨[], by simp, by simp, ?_⟩
        intro x hx _
        cases hx
        rw [← h1]; exact List.getElem_mem hi
      | none =>
        rw [List.findIdx?_eq_none_iff] at hf
        refine ⟨[name], by simp, ?_, ?_⟩
        · intro x hx
          simp at hx; subst hx
          exact ⟨rfl, hn, fun hm => by have := hf _ hm; simp at this⟩
        · intro x hx _; cases hx; simp

theorem compileLoop_vars (ops : FloatOps F) (ts : List (Token F)) : ∀ {st st' : List (Node F) × List Bytes},
    compileLoop ops st ts = .ok st' →
    ∃ w, st'.2 = st.2 ++ w ∧ (∀ x ∈ w, .var x ∈ ts ∧ x ∉ constNames ∧ x ∉ st.2) ∧
      (∀ x, .var x ∈ ts → x ∉ constNames → x ∈ st'.2) := by
  induction ts with
  | nil => intro st st' h; simp [compileLoop] at h; exact ⟨[], by simp [h], by simp, by simp⟩
  | cons t ts ih =>
    intro st st' h
    rw [compileLoop] at h
    obtain ⟨s1, h1, h2⟩ := Res.bind_eq_ok h
    obtain ⟨w, e1, p1, q1⟩ := compileStep_vars ops h1
    obtain ⟨w', e2, p2, q2⟩ := ih h2
    refine ⟨w ++ w', by rw [e2, e1, List.append_assoc], ?_, ?_⟩
    · intro x hx
      rcases List.mem_append.1 hx with hx | hx
      · obtain ⟨a, b, c⟩ := p1 x hx
        exact ⟨by simp [a], b, c⟩
      · obtain ⟨a, b, c⟩ := p2 x hx
        refine ⟨List.mem_cons_of_mem _ a, b, fun hm => c (by rw [e1]; exact List.mem_append_left _ hm)⟩
    · intro x hx hn
      rcases List.mem_cons.1 hx with hx | hx
      · rw [e2]; exact List.mem_append_left _ (q1 x hx.symm hn)
      · exact q2 x hx hn

theorem rpnToExpr_vars (ops : FloatOps F) {vars : List Bytes} {ts : List (Token F)} {r : List (Node F) × List Bytes}
    (h : rpnToExpr ops vars ts = .ok r) :
    ∃ w, r.2 = vars ++ w ∧ (∀ x ∈ w, .var x ∈ ts ∧ x ∉ constNames ∧ x ∉ vars) ∧
      (∀ x, .var x ∈ ts → x ∉ constNames → x ∈ r.2) := by
  unfold rpnToExpr at h
  cases h1 : compileLoop ops ([], vars) ts with
  | ok s =>
    rw [h1] at h; simp [Res.map'] at h
    obtain ⟨w, e, p, q⟩ := compileLoop_vars ops ts h1
    exact ⟨w, by rw [← h]; exact e, p, by rw [← h]; exact q⟩
  | err => rw [h1] at h; simp [Res.map'] at h
  | panic => rw [h1] at h; simp [Res.map'] at h

theorem resolveVars_ok (names : List Bytes) (colOf : Bytes → Nat) (vs : List (VarMap F))
    (h : ∀ v ∈ vs, resolveVar names v.name = .ok (colOf v.name)) :
    resolveVars names vs = .ok (vs.map fun v => ⟨v.name, v.val, some (colOf v.name)⟩) := by
  induction vs with
  | nil => rfl
  | cons v vs ih =>
    rw [resolveVars, h v (by simp), Res.bind_ok, ih (fun x hx => h x (by simp [hx])), Res.bind_ok]
    rfl

theorem resolveVars_mem (names : List Bytes) (vs ws : List (VarMap F)) (h : resolveVars names vs = .ok ws) :
    ∀ v ∈ vs, ∃ i, resolveVar names v.name = .ok i := by
  induction vs generalizing ws with
  | nil => simp
  | cons v vs ih =>
    rw [resolveVars] at h
    obtain ⟨i, h1, h2⟩ := Res.bind_eq_ok h
    obtain ⟨ws', h3, _⟩ := Res.bind_eq_ok h2
    intro x hx
    rcases List.mem_cons.1 hx with rfl | hx
    · exact ⟨i, h1⟩
    · exact ih ws' h3 x hx

/-- The value a variable has after `prepare`. -/
def VarMap.now (env : ExprEnv F) (cell : Nat → Bytes) (v : VarMap F) : F :=
  match v.col with
  | some c => (env.toF64 (cell c)).1
  | none => v.val

theorem prepare_vals (env : ExprEnv F) (cell : Nat → Bytes) (e : ExprSt F) :
    (e.prepare env cell).vars.map (·.val) = e.vars.map (VarMap.now env cell) := by
  simp only [ExprSt.prepare, List.map_map]
  apply List.map_congr_left
  intro v _
  simp only [Function.comp_def, VarMap.now]
  cases v.col <;> rfl

/-- Looking a formula up and its variables afterwards: the old ones, then those of the formula that are new, with their columns. -/
theorem lookup_vars (env : ExprEnv F) (names : List Bytes) (e : ExprSt F) {exp : Bytes} {ts : List (Token F)} {t : Tree F}
    (hexp : expandText (fun s => env.sel s names) e.text = .ok exp) (htok : tokenize env.toF64 exp = .ok ts) (hw : Writes 1 ts [t])
    (colOf : Bytes → Nat) (hcol : ∀ x ∈ treeNames t, x ∉ e.vars.map (·.name) → VarCol names x (colOf x)) :
    e.lookup env names = (rpnToExpr env.ops (e.vars.map (·.name)) (postfixOf t)).bind fun r =>
      .ok ⟨e.text, r.1, e.vars ++ (r.2.drop e.vars.length).map fun x => ⟨x, env.ops.zero, some (colOf x)⟩⟩ := by
  unfold ExprSt.lookup ExprSt.parse parseFormula
  rw [hexp, Res.bind_ok, htok, Res.bind_ok, toRpn_writes hw, Res.bind_ok]
  cases hr : rpnToExpr env.ops (e.vars.map (·.name)) (postfixOf t) with
  | err => rfl
  | panic => rfl
  | ok r =>
    obtain ⟨w, h1, h2, _⟩ := rpnToExpr_vars env.ops hr
    have hd : r.2.drop e.vars.length = w := by rw [h1, List.drop_left' (by simp)]
    simp only [Res.bind_ok, hd, List.drop_left, List.take_left]
    rw [resolveVars_ok names colOf]
    · simp [VarMap.new, Function.comp_def]
    · intro v hv
      obtain ⟨x, hx, rfl⟩ := List.mem_map.1 hv
      obtain ⟨h3, h4, h5⟩ := h2 x hx
      rcases mem_postfixOf t x h3 with h6 | h6
      · exact absurd h6 h4
      · exact resolveVar_varCol (hcol x h6 h5)

/-- Looking a formula up and evaluating it gives the value of the expression. -/
theorem lookup_value (env : ExprEnv F) (names : List Bytes) (e : ExprSt F) {exp : Bytes} {ts : List (Token F)} {t : Tree F}
    (hexp : expandText (fun s => env.sel s names) e.text = .ok exp) (htok : tokenize env.toF64 exp = .ok ts) (hw : Writes 1 ts [t])
    (colOf : Bytes → Nat) (hcol : ∀ x ∈ treeNames t, x ∉ e.vars.map (·.name) → VarCol names x (colOf x))
    (cell : Nat → Bytes) (val : Bytes → F) (hold : ∀ v ∈ e.vars, v.now env cell = val v.name)
    (hnew : ∀ x ∈ treeNames t, x ∉ e.vars.map (·.name) → (env.toF64 (cell (colOf x))).1 = val x) :
    (e.lookup env names).bind (fun e' => (e'.prepare env cell).run env) = treeVal env.ops val t := by
  rw [lookup_vars env names e hexp htok hw colOf hcol, ← C37_value env.ops val (e.vars.map (·.name)) hw, toRpn_writes hw, Res.bind_ok]
  cases hr : rpnToExpr env.ops (e.vars.map (·.name)) (postfixOf t) with
  | err => rfl
  | panic => rfl
  | ok r =>
    obtain ⟨w, h1, h2, _⟩ := rpnToExpr_vars env.ops hr
    have hd : r.2.drop e.vars.length = w := by rw [h1, List.drop_left' (by simp)]
    simp only [Res.bind_ok, hd, ExprSt.run, prepare_vals]
    have : (e.vars ++ w.map fun x => (⟨x, env.ops.zero, some (colOf x)⟩ : VarMap F)).map (VarMap.now env cell) = r.2.map val := by
      rw [h1, List.map_append, List.map_append, List.map_map, List.map_map]
      congr 1
      · exact List.map_congr_left fun v hv => hold v hv
      · apply List.map_congr_left
        intro x hx
        obtain ⟨h3, h4, h5⟩ := h2 x hx
        rcases mem_postfixOf t x h3 with h6 | h6
        · exact absurd h6 h4
        · exact hnew x h6 h5
    rw [this]
    rfl

theorem expandText_plain (sel : Bytes → Res (List Nat)) (n : Bytes) (h : (91 : UInt8) ∉ n) : expandText sel n = .ok n := by
  have : n.findIdx? (· == 91) = none := by
    rw [List.findIdx?_eq_none_iff]
    intro x hx
    simp only [beq_eq_false_iff_ne]
    rintro rfl; exact h hx
  unfold expandText expandLoop
  rw [this]

end Cdx
