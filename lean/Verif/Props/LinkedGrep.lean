import Verif.Props.Linked
import Verif.Props.PipesGrep

/-!
The program with all its parts (C225): `cgrep` with formulas of whole numbers among its patterns.
-/

namespace Cdx

/-- A double that is the whole number `n` counts as true exactly if `n` is not 0. -/
theorem is_true {v : F64} {n : Int} (h : v.Is n) : (!F64.eq v 0) = decide (n ≠ 0) := by
  obtain ⟨h1, h2, h3⟩ := h
  unfold F64.eq
  rw [h1, h3, show F64.isNaN 0 = false from rfl, show F64.scaled 0 = 0 from rfl]
  have hp : (2 : Int) ^ 1074 ≠ 0 := Int.ne_of_gt (Int.pow_pos (by decide))
  by_cases h0 : n = 0
  · subst h0
    simp
  · have : n * 2 ^ 1074 ≠ 0 := by
      intro e
      rcases Int.mul_eq_zero.1 e with e | e
      · exact h0 e
      · exact hp e
    simp [h0, this]

/-- Patterns that make tests of rows. -/
theorem patterns_made (env : MEnv) (names : List Bytes) (d : UInt8) (P : List Bytes → Prop) :
    ∀ tests : List (Bytes × (List Bytes → Bool)), (∀ t ∈ tests, ∃ lm lt, makeLine env t.1 = .ok lm ∧ lm.lookup env names = .ok lt ∧
        ∀ r, P r → lt.ok env (decoded (sepMode d) (rowLine d r)) = .ok (t.2 r)) →
      (∀ t ∈ tests, makeLine env t.1 = .ok (madeOf env t.1)) ∧
        ∃ lts, lookupAll env names ((tests.map (·.1)).map (madeOf env)) = .ok lts ∧
          ∀ r, P r → lts.map (LineTest.ok env (decoded (sepMode d) (rowLine d r))) = tests.map fun t => .ok (t.2 r)
  | [], _ => ⟨by simp, [], rfl, fun _ _ => rfl⟩
  | t :: tests, h => by
    obtain ⟨lm, lt, a1, a2, a3⟩ := h t (by simp)
    obtain ⟨b1, lts, b2, b3⟩ := patterns_made env names d P tests fun u hu => h u (by simp [hu])
    have e : madeOf env t.1 = lm := by unfold madeOf; rw [a1]
    refine ⟨?_, lt :: lts, ?_, fun r hr => ?_⟩
    · intro w hw
      rcases List.mem_cons.1 hw with rfl | hw
      · rw [e, a1]
      · exact b1 w hw
    · simp only [List.map_cons, lookupAll, e, a2, b2, Res.bind_ok]
    · rw [List.map_cons, List.map_cons, a3 r hr, b3 r hr]

/-- From tables with the same header, `cgrep` writes the rows for which the tests are true. -/
theorem grep_chooses (env : MEnv) (nameOk : Bytes → Bool) (d : UInt8) (hd : SepByte d) (hu : d ≠ 95) (names : List Bytes)
    (tests : List (Bytes × (List Bytes → Bool))) (opts : List (Bytes × Bytes)) (tables : List (Bytes × List (List Bytes))) (hne : names ≠ [])
    (hnd : names.Nodup) (hv : ∀ n ∈ names, IsName n ∧ nameOk n = true)
    (hknown : ∀ o ∈ opts, o.1 ∈ [ascii "pattern", ascii "or", ascii "invert"]) (hpat : valuesOf "pattern" opts = tests.map (·.1))
    (htest : ∀ t ∈ tests, ∃ lm lt, makeLine env t.1 = .ok lm ∧ lm.lookup env names = .ok lt ∧
      ∀ tb ∈ tables, ∀ r ∈ tb.2, lt.ok env (decoded (sepMode d) (rowLine d r)) = .ok (t.2 r)) (ht : tables ≠ [])
    (htab : ∀ t ∈ tables, t.1.getLast? ≠ some 47 ∧ SepTable d names.length t.2) :
    grepMain env nameOk (sepMode d) (sepMode d) .matching opts (tables.map fun t => (t.1, sepHead d names ++ sepText d t.2)) =
      .ok (sepHead d names ++ sepText d ((tables.map (·.2)).flatten.filter fun r =>
        (if valuesOf "or" opts ≠ [] then tests.any fun t => t.2 r else tests.all fun t => t.2 r) ^^ decide (valuesOf "invert" opts ≠ []))) := by
  obtain ⟨made, lts, h1, h2⟩ := patterns_made env names d (fun r => ∃ tb ∈ tables, r ∈ tb.2) tests fun t hm => by
    obtain ⟨lm, lt, a, b, c⟩ := htest t hm
    exact ⟨lm, lt, a, b, fun r ⟨tb, hb, hr⟩ => c tb hb r hr⟩
  have hnl : valuesOf "location" opts = [] := by
    unfold valuesOf
    rw [List.filter_eq_nil_iff.2, List.map_nil]
    intro o ho
    have := hknown o ho
    simp only [List.mem_cons, List.not_mem_nil, or_false] at this
    rcases this with h | h | h <;> rw [h] <;> decide +kernel
  have hopt := C152_options env opts (madeOf env) (fun _ => []) (fun o ho => by
    have := hknown o ho
    simp only [List.mem_cons, List.not_mem_nil, or_false] at this ⊢
    exact this.imp id (.imp id .inl)) (by
      rw [hpat]
      intro v hv
      obtain ⟨t, hm, rfl⟩ := List.mem_map.1 hv
      exact made t hm) (by rw [hnl]; simp)
  rw [hnl, List.flatMap_nil] at hopt
  have hT := C150_sep_partial env nameOk d hd hu names _ opts
    (fun r => (if valuesOf "or" opts ≠ [] then tests.any fun t => t.2 r else tests.all fun t => t.2 r) ^^ decide (valuesOf "invert" opts ≠ []))
    tables hne (by simpa using hnd) (by simpa using hv) (.inr rfl) hopt ht ?_
  · rw [hT]
    simp only [placedTable_nil, List.map_nil, List.nil_append]
    congr 3
    clear hT htab ht htest h2
    induction tables with
    | nil => rfl
    | cons t ts ih => rw [List.flatMap_cons, List.map_cons, List.flatten_cons, List.filter_append, ih]
  · intro t hm
    obtain ⟨n1, n2⟩ := htab t hm
    refine ⟨n1, n2, fun l => (Combined (if valuesOf "or" opts = [] then .and else .or)
      (lts.map fun lt => lt.ok env (decoded (sepMode d) l) == .ok true)) ^^ decide (valuesOf "invert" opts ≠ []),
      ⟨lts, fun lt l => lt.ok env (decoded (sepMode d) l) == .ok true, by rw [hpat]; exact h1, ?_, fun l _ => rfl⟩, ?_⟩
    · intro lt hlt l hl
      obtain ⟨r, hr, rfl⟩ := List.mem_map.1 hl
      have e := h2 r ⟨t, hm, hr⟩
      have hm' : lt.ok env (decoded (sepMode d) (rowLine d r)) ∈ lts.map (LineTest.ok env (decoded (sepMode d) (rowLine d r))) :=
        List.mem_map_of_mem hlt
      rw [e] at hm'
      obtain ⟨u, _, hu⟩ := List.mem_map.1 hm'
      show _ = Res.ok (lt.ok env (decoded (sepMode d) (rowLine d r)) == .ok true)
      rw [← hu]
      cases u.2 r <;> rfl
    · intro r hr
      have e2 : (lts.map fun lt => lt.ok env (decoded (sepMode d) (rowLine d r)) == .ok true) = tests.map fun u => u.2 r := by
        have := congrArg (List.map fun x => x == Res.ok true) (h2 r ⟨t, hm, hr⟩)
        rw [List.map_map, List.map_map] at this
        refine this.trans (List.map_congr_left fun u _ => ?_)
        show (Res.ok _ == Res.ok true) = _
        cases u.2 r <;> rfl
      show (Combined _ _ ^^ _) = _
      rw [e2]
      by_cases ho : valuesOf "or" opts = []
      · simp [ho, Combined, List.all_map, Function.comp_def]
      · simp [ho, Combined, List.any_map, Function.comp_def]

/-! ## Tests of columns and formulas -/

/-- A test of a row: of the value of a column, or whether the value of a formula is not 0. -/
inductive RowAsk
  | col (t : RowTest)
  | formula (f : WholeFormula)

/-- The text of the pattern. -/
def RowAsk.Text (names : List Bytes) : RowAsk → Bytes → Prop
  | .col t, spec => t.Text names spec
  | .formula f, spec => spec = ascii ",expr," ++ f.text

/-- The columns used are columns of the table. -/
def RowAsk.Cols (names : List Bytes) : RowAsk → Prop
  | .col t => t.col ∈ names
  | .formula f => f.Ok ∧ 91 ∉ f.text ∧ ∀ x ∈ treeNames f.tree, x ∈ names

/-- The row passes, given the values of formulas. -/
def RowAsk.passes (names : List Bytes) (val : WholeFormula → List Bytes → Int) (r : List Bytes) : RowAsk → Bool
  | .col t => t.passes names r
  | .formula f => decide (val f r ≠ 0)

theorem ask_made (o : Outside) (s : Sys) (d : UInt8) (hd : SepByte d) {names : List Bytes} (hne : names ≠ []) (hn : ∀ n ∈ names, IsName n)
    (hl : names.length < 2 ^ 64) (val : WholeFormula → List Bytes → Int) {tables : List (Bytes × List (List Bytes))}
    (htab : ∀ t ∈ tables, SepTable d names.length t.2) (hrows : ∃ tb ∈ tables, tb.2 ≠ []) {a : RowAsk} (hc : a.Cols names)
    (hval : ∀ f, a = .formula f → ∀ tb ∈ tables, ∀ r ∈ tb.2, f.RowGives names r (val f r)) {spec : Bytes} (h : a.Text names spec) :
    ∃ lm lt, makeLine (o.matchers s) spec = .ok lm ∧ lm.lookup (o.matchers s) names = .ok lt ∧
      ∀ tb ∈ tables, ∀ r ∈ tb.2, lt.ok (o.matchers s) (decoded (sepMode d) (rowLine d r)) = .ok (a.passes names val r) := by
  have hrne : ∀ tb ∈ tables, ∀ r ∈ tb.2, r ≠ [] ∧ ∀ c ∈ r, d ∉ c ∧ NL ∉ c := by
    intro tb hb r hm
    obtain ⟨h1, h2⟩ := htab tb hb r hm
    refine ⟨?_, h2⟩
    rintro rfl
    simp at h1
    exact hne (List.length_eq_zero_iff.1 h1.symm)
  cases a with
  | col t =>
    obtain ⟨lm, lt, h1, h2, h3⟩ := test_made (o.matchers s) hn hl hc h
    refine ⟨lm, lt, h1, h2, fun tb hb r hr => ?_⟩
    rw [h3, get_getD, rowLine, row_vec d hd r (hrne tb hb r hr).1 (hrne tb hb r hr).2]
    rfl
  | formula f =>
    obtain ⟨h1, h2, h3⟩ := hc
    have hone := fun tb hb r hr => row_value o s names f h1 h2 h3 d hd.1 r (hrne tb hb r hr).1 (hrne tb hb r hr).2 _ (hval f rfl tb hb r hr)
    obtain ⟨tb0, hb0, hr0⟩ := hrows
    obtain ⟨r0, hr0⟩ := List.exists_mem_of_ne_nil _ hr0
    obtain ⟨⟨v0, _, hv0, _⟩, _⟩ := hone tb0 hb0 r0 hr0
    obtain ⟨x, hx, _⟩ := Res.bind_eq_ok hv0
    have hmake : makeLine (o.matchers s) spec = .ok (.expr fun names => ((ExprSt.new f.text).lookup (o.expr s) names).bind fun x =>
        .ok fun line => x.eval (o.expr s) line) := by
      rw [show spec = ascii ",expr," ++ f.text from h]
      have e1 : splitOnce 44 (ascii ",expr," ++ f.text) = some ([], ascii "expr" ++ 44 :: f.text) := splitOnce_some 44 [] _ (by simp)
      have e2 : splitOnce 44 (ascii "expr" ++ 44 :: f.text) = some (ascii "expr", f.text) := splitOnce_some 44 _ _ (by decide +kernel)
      have e3 : makeLine (o.matchers s) (ascii ",expr," ++ f.text) = makeLine3 (o.matchers s) [] (ascii "expr") f.text := by
        unfold makeLine
        split
        · rename_i q heq
          rw [show ascii ",expr," = 44 :: ascii "expr," by decide +kernel] at heq
          simp at heq
        · rw [e1]
          simp only
          rw [e2]
      rw [e3]
      rfl
    refine ⟨_, .expr fun line => x.eval (o.expr s) line, hmake, ?_, fun tb hb r hr => ?_⟩
    · simp only [LineMatcher.lookup, hx, Res.bind_ok]
    · obtain ⟨⟨v, _, hv, hi⟩, _⟩ := hone tb hb r hr
      rw [hx, Res.bind_ok] at hv
      show (x.eval (o.expr s) (decoded (sepMode d) (rowLine d r))).bind _ = _
      rw [show x.eval (o.expr s) (decoded (sepMode d) (rowLine d r)) = .ok v from hv, Res.bind_ok, is_true hi]
      rfl

/-- C225: from the words of the command line and the texts of the files, `cgrep` writes the rows that pass, where a formula passes if its
exact value is not 0. -/
theorem C225_grep (o : Outside) (s : Sys) (c : Cmd) (hc : c ∈ mainList) (hn : c.name = "cgrep") (toks : List Tok) (d : UInt8)
    (names files : List Bytes) (as : List RowAsk) (opts : List (Bytes × Bytes)) (tables : List (Bytes × List (List Bytes)))
    (val : WholeFormula → List Bytes → Int)
    (h : Says (o.world s) c toks (sepMode d) none opts files) (hfl : files = tables.map (·.1))
    (hr : files.map (getReader o.s3 o.gunzip s) = tables.map fun t => some (sepHead d names ++ sepText d t.2))
    (hd : SepByte d) (hu : d ≠ 95) (hne : names ≠ []) (hnd : names.Nodup) (hv : ∀ n ∈ names, IsName n ∧ nameOkBytes o.classes n = true)
    (hl : names.length < 2 ^ 64) (hknown : ∀ o ∈ opts, o.1 ∈ [ascii "pattern", ascii "or", ascii "invert"])
    (hlen : (valuesOf "pattern" opts).length = as.length) (htext : ∀ x ∈ as.zip (valuesOf "pattern" opts), x.1.Text names x.2)
    (hcols : ∀ a ∈ as, a.Cols names) (hval : ∀ f, .formula f ∈ as → ∀ t ∈ tables, ∀ r ∈ t.2, f.RowGives names r (val f r))
    (hrows : ∃ t ∈ tables, t.2 ≠ []) (htab : ∀ t ∈ tables, t.1.getLast? ≠ some 47 ∧ SepTable d names.length t.2) :
    o.run "cgrep" toks s = .ok { s with stdout := s.stdout ++ (sepHead d names ++ sepText d ((tables.map (·.2)).flatten.filter fun r =>
        (if valuesOf "or" opts ≠ [] then as.any fun a => a.passes names val r else as.all fun a => a.passes names val r) ^^
          decide (valuesOf "invert" opts ≠ []))) } := by
  unfold Outside.run
  rw [← hn]
  refine run_writes (o.world s) hc (by rw [hn]; decide) (by rw [hn]; decide) h s
    (texts := tables.map fun t => sepHead d names ++ sepText d t.2) (by rw [List.map_map]; exact hr) ?_
  rw [hn]
  unfold World.output
  simp only [if_false, if_true, String.reduceEq]
  have hz : files.zip (tables.map fun t => sepHead d names ++ sepText d t.2) = tables.map fun t => (t.1, sepHead d names ++ sepText d t.2) := by
    rw [hfl, List.zip_map', ]
  rw [hz]
  have hout : (Settings.mk (sepMode d) none).out = sepMode d := rfl
  rw [hout]
  show (grepMain (o.matchers s) (nameOkBytes o.classes) (sepMode d) (sepMode d) .matching opts _).run = _
  rw [grep_chooses (o.matchers s) (nameOkBytes o.classes) d hd hu names
    ((as.zip (valuesOf "pattern" opts)).map fun x => (x.2, fun r => x.1.passes names val r)) opts tables hne hnd hv hknown ?_ ?_ ?_ htab]
  · show Run.ok _ = _
    congr 6
    funext r
    rw [List.any_map, List.all_map]
    have e : as = (as.zip (valuesOf "pattern" opts)).map (·.1) := by
      rw [List.map_fst_zip]
      omega
    conv => rhs; rw [e, List.any_map, List.all_map]
    rfl
  · rw [List.map_map]
    show _ = List.map Prod.snd _
    rw [List.map_snd_zip]
    omega
  · intro t hm
    obtain ⟨x, hx, rfl⟩ := List.mem_map.1 hm
    have ha : x.1 ∈ as := (List.of_mem_zip hx).1
    exact ask_made o s d hd hne (fun n hn => (hv n hn).1) hl val (fun t ht => (htab t ht).2) hrows (hcols _ ha) (by
      intro f hf
      exact hval f (hf ▸ ha)) (htext x hx)
  · obtain ⟨t, ht, _⟩ := hrows
    exact List.ne_nil_of_mem ht

/-- A table with a row for which `a*b-7` is 0. -/
def sys6 : Sys :=
  { files := fun n => if n = ascii "t" then some (ascii " CDX\ta\tb\n1\t7\n-2\t4\n-2\t5\n") else none
    stdin := [], stdout := ascii ">", stderr := [] }

/-- `cdx cgrep --pattern ,expr,a*b-7 --pattern b,exact,4 --invert t`. -/
example : outside0.run "cgrep" [.opt "pattern" (ascii ",expr,a*b-7"), .opt "pattern" (ascii "b,exact,4"), .flag "invert", .pos "input_files" (ascii "t")] sys6 =
    .ok { sys6 with stdout := ascii "> CDX\ta\tb\n1\t7\n-2\t5\n" } := by
  have hc : ∀ (x : Bytes), x ∈ treeNames lessSeven.tree → x = ascii "a" ∨ x = ascii "b" := by
    intro x hx
    have e : treeNames lessSeven.tree = [ascii "a", ascii "b"] := by
      simp only [lessSeven, treeNames]
      decide +kernel
    rw [e] at hx
    simpa using hx
  have hpart : ∀ p ∈ [(⟨[], ascii "1", none, none, none⟩ : NumParts), ⟨[], ascii "7", none, none, none⟩, ⟨ascii "-", ascii "2", none, none, none⟩,
      ⟨[], ascii "4", none, none, none⟩, ⟨[], ascii "5", none, none, none⟩], p.Whole := by
    intro p hp
    simp only [List.mem_cons, List.not_mem_nil, or_false] at hp
    rcases hp with rfl | rfl | rfl | rfl | rfl
    · exact ⟨⟨.inl rfl, by decide, by decide, by simp, by simp⟩, by decide, by decide, by decide, by decide⟩
    · exact ⟨⟨.inl rfl, by decide, by decide, by simp, by simp⟩, by decide, by decide, by decide, by decide⟩
    · exact ⟨⟨.inr (.inr rfl), by decide, by decide, by simp, by simp⟩, by decide, by decide, by decide, by decide⟩
    · exact ⟨⟨.inl rfl, by decide, by decide, by simp, by simp⟩, by decide, by decide, by decide, by decide⟩
    · exact ⟨⟨.inl rfl, by decide, by decide, by simp, by simp⟩, by decide, by decide, by decide, by decide⟩
  have h := C225_grep outside0 sys6 (cmd0 "cgrep") (cmd0_mem (by decide +kernel)) (by decide +kernel)
    [.opt "pattern" (ascii ",expr,a*b-7"), .opt "pattern" (ascii "b,exact,4"), .flag "invert", .pos "input_files" (ascii "t")] TAB [ascii "a", ascii "b"] [ascii "t"]
    [.formula lessSeven, .col ⟨ascii "b", fun v => v == ascii "4"⟩]
    [(ascii "pattern", ascii ",expr,a*b-7"), (ascii "pattern", ascii "b,exact,4"), (ascii "invert", [])]
    [(ascii "t", [[ascii "1", ascii "7"], [ascii "-2", ascii "4"], [ascii "-2", ascii "5"]])]
    (fun _ r => if r = [ascii "1", ascii "7"] then 0 else if r = [ascii "-2", ascii "4"] then -15 else -17)
    (says_plain (by decide +kernel) (by decide +kernel) (by decide +kernel) (by decide +kernel) (by decide +kernel)) rfl (by decide +kernel)
    (by decide) (by decide) (by simp) (by decide +kernel)
    (by
      intro n hn
      have : n = ascii "a" ∨ n = ascii "b" := by simpa using hn
      rcases this with rfl | rfl
      · exact ⟨one_letter 97 (by unfold Letter; decide), by decide +kernel⟩
      · exact ⟨one_letter 98 (by unfold Letter; decide), by decide +kernel⟩) (by decide) (by decide +kernel) (by decide +kernel)
    (by
      intro x hx
      have : x = (.formula lessSeven, ascii ",expr,a*b-7") ∨ x = (.col ⟨ascii "b", fun v => v == ascii "4"⟩, ascii "b,exact,4") := by
        rw [show valuesOf "pattern" [(ascii "pattern", ascii ",expr,a*b-7"), (ascii "pattern", ascii "b,exact,4"), (ascii "invert", [])] =
          [ascii ",expr,a*b-7", ascii "b,exact,4"] by decide +kernel] at hx
        simpa using hx
      rcases this with rfl | rfl
      · show ascii ",expr,a*b-7" = _
        decide +kernel
      · exact ⟨ascii "b", ascii "exact", ascii "4", .inl rfl, by decide +kernel, (ascii "exact", fun p v => v = p), .inl (by simp [plainMethods]),
          .inl ⟨rfl, fun v => by simp⟩⟩)
    (by
      intro a ha
      simp only [List.mem_cons, List.not_mem_nil, or_false] at ha
      rcases ha with rfl | rfl
      · refine ⟨lessSeven_ok, by decide +kernel, ?_⟩
        intro x hx
        rcases hc x hx with rfl | rfl <;> decide
      · show ascii "b" ∈ _
        decide +kernel)
    (by
      intro f hf t ht r hr
      simp only [List.mem_cons, List.not_mem_nil, or_false, RowAsk.formula.injEq, reduceCtorEq] at hf
      subst hf
      simp only [List.mem_cons, List.not_mem_nil, or_false] at ht
      subst ht
      simp only [List.mem_cons, List.not_mem_nil, or_false] at hr
      rcases hr with rfl | rfl | rfl
      · refine ⟨fun x => if x = ascii "a" then 1 else 7, ?_, by unfold WholeFormula.Gives; decide +kernel⟩
        intro x hx
        rcases hc x hx with rfl | rfl
        · exact ⟨_, hpart ⟨[], ascii "1", none, none, none⟩ (by simp), by decide +kernel, by decide +kernel⟩
        · exact ⟨_, hpart ⟨[], ascii "7", none, none, none⟩ (by simp), by decide +kernel, by decide +kernel⟩
      · refine ⟨fun x => if x = ascii "a" then -2 else 4, ?_, by unfold WholeFormula.Gives; decide +kernel⟩
        intro x hx
        rcases hc x hx with rfl | rfl
        · exact ⟨_, hpart ⟨ascii "-", ascii "2", none, none, none⟩ (by simp), by decide +kernel, by decide +kernel⟩
        · exact ⟨_, hpart ⟨[], ascii "4", none, none, none⟩ (by simp), by decide +kernel, by decide +kernel⟩
      · refine ⟨fun x => if x = ascii "a" then -2 else 5, ?_, by unfold WholeFormula.Gives; decide +kernel⟩
        intro x hx
        rcases hc x hx with rfl | rfl
        · exact ⟨_, hpart ⟨ascii "-", ascii "2", none, none, none⟩ (by simp), by decide +kernel, by decide +kernel⟩
        · exact ⟨_, hpart ⟨[], ascii "5", none, none, none⟩ (by simp), by decide +kernel, by decide +kernel⟩)
    ⟨_, List.mem_cons_self, by simp⟩ (by decide +kernel)
  rw [h]
  congr 2

end Cdx
