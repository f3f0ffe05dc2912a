import Verif.Props.SortNums

/-!
C228: `uniq` by columns of whole numbers and by formulas.
-/

namespace Cdx

variable {F : Type}

/-- `uniq` of a table by comparators that agree with an order of rows. -/
theorem uniq_rows (env : AggEnv F) (mkExpr : ExprMaker F) (prn : F → Bytes) (compiles : Bytes → Bool)
    (eval : Bytes → List Bytes → Res (Bytes → F64)) (t : TextMode) (names : List Bytes) (rows : List (List Bytes)) (ms : List LineCompMade)
    (ls : List LineComp) (rcmp : List Bytes → List Bytes → Ordering) (name : Bytes) (pos : CountPos) (os : List (Bytes × Bytes))
    (hg : GoodTable names rows) (hknown : ∀ o ∈ os, o.1 = ascii "key" ∨ o.1 = ascii "count")
    (k1 : (optVals "key" os).map (makeLineComp compiles) = ms.map .ok) (k2 : resolveKeys eval names ms = .ok ls)
    (hcount : LastMeans CountMeans (optVals "count" os) ([], .none) (name, pos)) (hfresh : pos ≠ .none → IsName name ∧ name ∉ names)
    (heq : ∀ a ∈ rows, ∀ b ∈ rows, eqLines env.toF64 .default ls (tabLine a) (tabLine b) = (rcmp a b == .eq)) :
    uniqMain env mkExpr prn compiles eval .default t os (sepHead TAB names ++ sepText TAB rows) =
      .ok (sepHead TAB (addAt pos name names) ++
        sepText TAB ((runCounts (fun a b => rcmp a b == .eq) rows).map fun p => addAt pos (decText p.2) p.1)) := by
  obtain ⟨g1, g2, g3, g4, g5⟩ := hg
  have hsn : SepNames TAB names := ⟨g1, fun n hn => name_free (d := TAB) (by decide) (by decide) (g2 n hn)⟩
  have hne : ∀ r ∈ rows, r ≠ [] ∧ ∀ c ∈ r, TAB ∉ c ∧ NL ∉ c := fun r hr => table_rows ⟨g1, g2, g3, g4, g5⟩ r hr
  have dk : ascii "key" ∈ uniqNames.map ascii ∧ ascii "count" ∈ uniqNames.map ascii := by decide
  have nv : ∀ n : String, ascii n ≠ ascii "key" → ascii n ≠ ascii "count" → optVals n os = [] := by
    intro n h1 h2
    unfold optVals
    rw [List.map_eq_nil_iff, List.filter_eq_nil_iff]
    intro o ho
    rcases hknown o ho with e | e
    · rw [e]; simpa using fun e => h1 e.symm
    · rw [e]; simpa using fun e => h2 e.symm
  have hagg : os.filterMap aggOpt = [] := by
    rw [List.filterMap_eq_nil_iff]
    intro o ho
    unfold aggOpt
    rcases hknown o ho with e | e
    · rw [e, if_neg (by decide), if_neg (by decide), if_neg (by decide)]
    · rw [e, if_neg (by decide), if_neg (by decide), if_neg (by decide)]
  have ho : UniqConf.opts env mkExpr compiles {} os = .ok ⟨ms, name, pos, .first, ⟨{}, [], .whole (.kind .plain)⟩, []⟩ := by
    rw [C199_options]
    refine ⟨fun o ho => ?_, k1, hcount, ?_, ?_⟩
    · rcases hknown o ho with e | e
      · rw [e]; exact dk.1
      · rw [e]; exact dk.2
    · rw [nv "which" (by decide) (by decide)]
      exact ⟨by simp, .inl ⟨rfl, rfl⟩⟩
    · rw [hagg]; rfl
  obtain ⟨r1, r2, r3, r4⟩ := table_read TAB (by decide) names hsn rows g5
  have em : sepMode TAB = .default := rfl
  rw [em] at r1 r2 r3 r4
  have hnames : headNames (sepHead TAB names) TAB = names := by
    obtain ⟨q1, q2, q3, q4⟩ := open_fields _ _ _ _ r1
    have r5 := r2
    unfold namesOf Reader.names at r5
    simp only [q1, r4, q2, q4, Bool.false_eq_true, if_false, if_true] at r5
    exact r5
  have hhead : uniqHead ⟨name, pos, .first, ⟨.whole .plain, false, TAB⟩⟩ names = .ok (sepHead TAB (addAt pos name names)) := by
    have valid : ∀ n ∈ names, isValidColumnName n = true := fun n hn => ((isValid_iff n).2 (g2 n hn)).2
    have e : ascii " CDX" = cdxTag := by decide +kernel
    unfold uniqHead
    cases pos with
    | none =>
      simp only [reduceCtorEq, if_false, Res.bind_ok, pushAll_fail]
      rw [if_pos ⟨fun n hn => ⟨valid n hn, by simp⟩, g3⟩]
      simp only [Res.bind_ok, List.nil_append, columnHead, if_neg g1, addAt, sepHead, e]
    | begin =>
      obtain ⟨f1, f2⟩ := hfresh (by simp)
      have fv := ((isValid_iff name).2 f1).2
      simp only [reduceCtorEq, if_false, if_true, push_fail, fv, true_and, List.not_mem_nil, not_false_eq_true, Res.bind_ok, pushAll_fail]
      rw [if_pos ⟨fun n hn => ⟨valid n hn, by rw [List.nil_append, List.mem_singleton]; rintro rfl; exact f2 hn⟩, g3⟩]
      simp only [Res.bind_ok, List.nil_append, columnHead, addAt, sepHead, e, List.singleton_append, reduceCtorEq, if_false]
    | stop =>
      obtain ⟨f1, f2⟩ := hfresh (by simp)
      have fv := ((isValid_iff name).2 f1).2
      simp only [reduceCtorEq, if_false, if_true, Res.bind_ok, pushAll_fail]
      rw [if_pos ⟨fun n hn => ⟨valid n hn, by simp⟩, g3⟩]
      simp only [Res.bind_ok, List.nil_append, push_fail, fv, f2, true_and, not_false_eq_true, if_true, columnHead, addAt, sepHead, e]
      rw [if_neg (by simp)]
  have hw : (⟨{}, [], .whole (.kind .plain)⟩ : LineCompMade).resolve eval names = .ok ⟨.whole .plain, false, TAB⟩ := rfl
  have hne0 : sepHead TAB names ≠ [] := by simp [sepHead]
  cases hrows : rows with
  | nil =>
    rw [hrows] at r1 r2
    have hc := C51_header_only env.toF64 .default ls ⟨name, pos, .first, ⟨.whole .plain, false, TAB⟩⟩ _ _ r1 hne0
    have he : ((Reader.newWith 1 .default).open_ (sepHead TAB names ++ sepText TAB [])).isEmpty = false := (open_fields _ _ _ _ r1).1
    unfold uniqMain
    have hr : ((Reader.newWith 1 .default).open_ (sepHead TAB names ++ sepText TAB [])).names = names := r2
    simp only [ho, Res.bind_ok, he, Bool.false_eq_true, if_false, hr, k2, hw, List.isEmpty_nil, if_true]
    rw [hc, show TextMode.default.delim = TAB from rfl, hnames, hhead]
    simp [runCounts, sepText]
  | cons r0 rows0 =>
    have hd : readLines TextMode.default.col TextMode.default.eol (sepText TAB rows) = rows.map tabLine := by
      unfold dataOf at r3
      rw [r1] at r3
      exact r3
    obtain ⟨out, R, o1, o2, o3⟩ := C199_runs_partial env mkExpr prn compiles eval .default t os _ _ _ (sepHead TAB (addAt pos name names)) _
      ls ⟨.whole .plain, false, TAB⟩ ho rfl (by rw [r2]; exact k2) (by rw [r2]; exact hw) rfl rfl r1
      (by rw [hd, hrows]; simp) (by rintro (h | h) <;> cases h) (by rintro (h | h) <;> cases h)
      (by rw [if_neg hne0]; rw [show TextMode.default.delim = TAB from rfl, hnames]; exact hhead)
    rw [← hrows, o1]
    congr 2
    rw [hd] at o2
    have e1 := isRuns_counts _ R o2
    rw [runCounts_map tabLine (fun a b => rcmp a b == .eq) _ rows heq] at e1
    exact onePerRun_rows _ pos _ R out o3 (fun p hp => (hne p.1 (runCounts_mem _ _ p hp)).1) e1.symm o2.nonempty

/-- `verify` of tables by comparators that agree with an order of rows. -/
theorem verify_rows (env : MEnv) (compiles : Bytes → Bool) (eval : Bytes → List Bytes → Res (Bytes → F64)) (names : List Bytes)
    (tables : List (List (List Bytes))) (ms : List LineCompMade) (ls : List LineComp) (rcmp : List Bytes → List Bytes → Ordering)
    (hp : TotalPreorder rcmp) (os : List (Bytes × Bytes)) (htn : tables ≠ []) (hg : ∀ rows ∈ tables, GoodTable names rows)
    (hknown : ∀ o ∈ os, o.1 = ascii "key" ∨ o.1 = ascii "sort" ∨ o.1 = ascii "unique") (hsome : optVals "key" os ≠ [])
    (k1 : (optVals "key" os).map (makeLineComp compiles) = ms.map .ok) (k2 : resolveKeys eval names ms = .ok ls)
    (heq : ∀ a ∈ tables.flatten, ∀ b ∈ tables.flatten, cmpRaw env.toF64 .default ls (tabLine a) (tabLine b) = rcmp a b) :
    ∃ b, verifyMain env compiles eval .default os (tables.map fun rows => sepHead TAB names ++ sepText TAB rows) = .ok b ∧
      (b = true ↔ ∀ rows ∈ tables, rows.Pairwise fun x y => OrderAsked os (rcmp x y)) := by
  obtain ⟨t0, ht0⟩ := List.exists_mem_of_ne_nil _ htn
  obtain ⟨g1, g2, g3, g4, -⟩ := hg t0 ht0
  have hsn : SepNames TAB names := ⟨g1, fun n hn => name_free (d := TAB) (by decide) (by decide) (g2 n hn)⟩
  have hms : ms ≠ [] := by
    rintro rfl
    have := congrArg List.length k1
    simp only [List.length_map, List.length_nil] at this
    exact hsome (List.length_eq_zero_iff.1 this)
  have nv : ∀ n : String, ascii n ≠ ascii "key" → ascii n ≠ ascii "sort" → ascii n ≠ ascii "unique" → optVals n os = [] := by
    intro n h1 h2 h3
    unfold optVals
    rw [List.map_eq_nil_iff, List.filter_eq_nil_iff]
    intro o ho
    rcases hknown o ho with e | e | e
    · rw [e]; simpa using fun e => h1 e.symm
    · rw [e]; simpa using fun e => h2 e.symm
    · rw [e]; simpa using fun e => h3 e.symm
  have dk : ascii "key" ∈ verifyNames.map ascii ∧ ascii "sort" ∈ verifyNames.map ascii ∧ ascii "unique" ∈ verifyNames.map ascii := by decide
  have ho : verifyOptions env compiles ⟨[], false, false, none, none⟩ [] os =
      .ok (some (⟨[], decide (optVals "sort" os ≠ [] ∨ optVals "unique" os ≠ []), decide (optVals "unique" os ≠ []), none, none⟩, ms)) := by
    rw [C200_options_partial]
    refine ⟨fun o ho => ?_, ?_, k1, by simp, by simp, ?_, ?_⟩
    · rcases hknown o ho with e | e | e
      · rw [e]; exact dk.1
      · rw [e]; exact dk.2.1
      · rw [e]; exact dk.2.2
    · rw [nv "pattern" (by decide) (by decide) (by decide)]; rfl
    · rw [nv "first" (by decide) (by decide) (by decide)]; exact lastMeans_nil.2 rfl
    · rw [nv "last" (by decide) (by decide) (by decide)]; exact lastMeans_nil.2 rfl
  have em : sepMode TAB = .default := rfl
  have read : ∀ rows ∈ tables, namesOf .default (sepHead TAB names ++ sepText TAB rows) = names ∧
      dataOf .default (sepHead TAB names ++ sepText TAB rows) = rows.map tabLine := by
    intro rows hr
    obtain ⟨-, r2, r3, -⟩ := table_read TAB (by decide) names hsn rows (hg rows hr).2.2.2.2
    exact ⟨r2, r3⟩
  obtain ⟨b, hb⟩ := verifyFiles_total env .default
    ⟨[], decide (optVals "sort" os ≠ [] ∨ optVals "unique" os ≠ []), decide (optVals "unique" os ≠ []), none, none⟩ rfl rfl rfl
    (fun names => resolveKeys eval names ms) (tables.map fun rows => sepHead TAB names ++ sepText TAB rows) (by
      intro f hf
      obtain ⟨rows, hr, rfl⟩ := List.mem_map.1 hf
      rw [(read rows hr).1]
      exact ⟨_, k2⟩) 0
  refine ⟨b, ?_, ?_⟩
  · unfold verifyMain
    simp only [ho, Res.bind_ok, verifyKeys, if_neg hms, hb]
  · rw [verifyFiles_spec _ _ _ _ _ _ hb, List.forall_mem_map]
    refine forall_congr' fun rows => forall_congr' fun hr => ?_
    rw [(read rows hr).1, (read rows hr).2]
    have hne := table_rows (hg rows hr)
    have ho1 : ∀ u, InOrder (cmpRaw env.toF64 .default ls) u (rows.map tabLine) ↔ LinesInOrder rcmp u rows := by
      intro u
      rw [← C54_sorted (S := fun _ => True) ⟨fun a _ => hp.refl a, fun a b _ _ => hp.swap a b, fun a b c _ _ _ => hp.trans a b c⟩ u rows (by simp)]
      apply inOrder_map
      intro x hx y hy
      exact heq x (List.mem_flatten.2 ⟨rows, hr, hx⟩) y (List.mem_flatten.2 ⟨rows, hr, hy⟩)
    have good : ∀ x ∈ rows, LineGood env .default [] names.length (tabLine x) := by
      intro x hx
      refine ⟨?_, by simp⟩
      have := congrArg List.length (row_vec TAB (by decide) x (hne x hx).1 (hne x hx).2)
      rw [TextLine.vec, List.length_map, ((hg rows hr).2.2.2.2 x hx).1] at this
      exact this
    have all : (rows.map tabLine ≠ [] → Verified env .default
        ⟨[], decide (optVals "sort" os ≠ [] ∨ optVals "unique" os ≠ []), decide (optVals "unique" os ≠ []), none, none⟩
        (fun names => resolveKeys eval names ms) names (rows.map tabLine).dropLast (rows.map tabLine)) ↔
      (optVals "sort" os ≠ [] ∨ optVals "unique" os ≠ [] → LinesInOrder rcmp (decide (optVals "unique" os ≠ [])) rows) := by
      constructor
      · intro hv hs
        by_cases he : rows = []
        · subst he
          rw [← ho1]
          exact inOrder_nil _ _
        · obtain ⟨ts, cs, -, hcs, -, h1, -⟩ := (hv (by simpa using he)).good
          simp only [k2, Res.ok.injEq] at hcs
          subst hcs
          rw [← ho1]
          exact h1 (by simpa using hs)
      · intro hv _
        refine ⟨[], _, rfl, k2, ?_, fun hs => (ho1 _).2 (hv (by simpa using hs)), by simp [EndGood], by simp [EndGood]⟩
        intro x hx
        obtain ⟨r, hr', rfl⟩ := List.mem_map.1 ((List.dropLast_sublist _).subset hx)
        exact good r hr'
    rw [all]
    unfold LinesInOrder SortedBy OrderAsked
    by_cases hu : optVals "unique" os = []
    · by_cases hs : optVals "sort" os = []
      · simp only [hu, hs, ne_eq, not_true_eq_false, or_self, false_implies, if_false, true_iff]
        exact List.pairwise_of_forall fun _ _ => trivial
      · simp [hu, hs]
    · simp [hu]

/-! ## Keys -/

theorem keyAsks_made (compiles : Bytes → Bool) {names : List Bytes} (hn : ∀ n ∈ names, IsName n) (hl : names.length < 2 ^ 64) (hc : ∀ f, compiles f = true) :
    ∀ (asks : List SortAsk) (specs : List Bytes), (∀ k ∈ asks, k.There names) → specs.length = asks.length →
      (∀ x ∈ asks.zip specs, x.1.Text names x.2) →
      ∃ ms, specs.map (makeLineComp compiles) = ms.map .ok ∧
        ∀ eval ev, (∀ f r, SortAsk.formula f r ∈ asks → eval f.text names = .ok (ev f)) → resolveKeys eval names ms = .ok (asks.map (·.at names ev)) := by
  intro asks
  induction asks with
  | nil =>
    intro specs _ h _
    have : specs = [] := List.length_eq_zero_iff.1 h
    subst this
    exact ⟨[], rfl, fun _ _ _ => rfl⟩
  | cons k asks ih =>
    intro specs hs h ht
    cases specs with
    | nil => simp at h
    | cons spec specs =>
      have htx : k.Text names spec := ht (k, spec) (by simp)
      obtain ⟨ms, g1, g2⟩ := ih specs (fun k hk => hs k (by simp [hk])) (by simpa using h) (fun x hx => ht x (by simp [hx]))
      have hmade : ∃ m, makeLineComp compiles spec = .ok m ∧ ∀ eval ev, (∀ f r, k = SortAsk.formula f r → eval f.text names = .ok (ev f)) →
          m.resolve eval names = .ok (k.at names ev) := by
        cases k with
        | col k =>
          obtain ⟨c, m, conf, h1, h2, h3, -⟩ := tabKey_made hn hl (hs (.col k) (by simp) : k.col ∈ names) htx
          refine ⟨_, h1 _, fun eval ev _ => ?_⟩
          have : lookupFile [c] 0 names = c.lookup names := rfl
          simp only [LineCompMade.resolve, this, h3, Res.bind_ok, h2, SortAsk.at]
        | formula f r =>
          obtain ⟨cols, method, e, t1, t2, t3, t4⟩ := htx
          refine ⟨_, by rw [e]; exact C110_expr _ _ _ _ t1 t2 t3 (hc _), fun eval ev h => ?_⟩
          simp only [LineCompMade.resolve, h f r rfl, Res.bind_ok, SortAsk.at, t4]
      obtain ⟨m, m1, m2⟩ := hmade
      refine ⟨m :: ms, by simp [m1, g1], fun eval ev h => ?_⟩
      simp only [resolveKeys, m2 eval ev fun f r e => h f r (by simp [e]), Res.bind_ok, g2 eval ev fun f r e => h f r (by simp [e]), List.map_cons]

theorem ask_cols (exp10 : Int → F64) {names : List Bytes} {num : Bytes → Int} {val : WholeFormula → List Bytes → Int} {ev : WholeFormula → Bytes → F64}
    {rows : List (List Bytes)} (hne : names ≠ []) (ht : SepTable TAB names.length rows) {a b : List Bytes} (ha : a ∈ rows) (hb : b ∈ rows) :
    ∀ {ks : List SortAsk}, (∀ k ∈ ks, k.Fits names num val rows) → EvIs ev val rows ks →
      compColsList (lossyF64 exp10) (ks.map (·.at names ev)) (decoded .default (tabLine a)) (decoded .default (tabLine b)) =
        askCmp names num val ks a b := by
  have hnil : ∀ r ∈ rows, r ≠ [] := by
    intro r hr e
    have := (ht r hr).1
    rw [e] at this
    exact hne (List.length_eq_zero_iff.1 this.symm)
  have em : (TextMode.default) = sepMode TAB := rfl
  have tx : ∀ r : List Bytes, (decoded .default (tabLine r)).text = askLine r := fun r => (decoded_shows (b := true) rfl _).text
  have gt : ∀ r ∈ rows, ∀ i, (decoded .default (tabLine r)).get i = r.getD i [] := fun r hr i => by
    rw [em, TextLine.get_eq_vec, tabLine, row_vec TAB (by decide) r (hnil r hr) (ht r hr).2]
  intro ks hf hev
  rw [← asks_lines exp10 hne ht ha hb hf hev]
  clear hf hev
  induction ks with
  | nil => rfl
  | cons k ks ih =>
    have e : (k.at names ev).compCols (lossyF64 exp10) (decoded .default (tabLine a)) (decoded .default (tabLine b)) =
        (k.at names ev).compLines (lossyF64 exp10) 0 0 (askLine a) (askLine b) := by
      cases k with
      | col k =>
        simp only [LineComp.compCols, LineComp.compLines, SortAsk.at, LineComp.inner, gt a ha, gt b hb,
          getCol_row TAB (by decide) a (hnil a ha) (ht a ha).2, getCol_row TAB (by decide) b (hnil b hb) (ht b hb).2]
      | formula f r => simp only [LineComp.compCols, LineComp.compLines, SortAsk.at, LineComp.inner, tx]
    simp only [List.map_cons, compColsList, compLinesList, e, ih]

/-- The values of formulas, as comparators see them. -/
theorem formula_values (o : Outside) (s : Sys) {names : List Bytes} {rows : List (List Bytes)} {asks : List SortAsk} {num : Bytes → Int}
    {val : WholeFormula → List Bytes → Int} (ht : GoodTable names rows) (hfit : ∀ k ∈ asks, k.Fits names num val rows) (hrows : rows ≠ []) :
    ∃ ev : WholeFormula → Bytes → F64, EvIs ev val rows asks ∧ ∀ f r, SortAsk.formula f r ∈ asks → o.keyValue s f.text names = .ok (ev f) := by
  have hrne := fun r hr => (table_rows ht r hr).1
  have hform : ∀ f rv, SortAsk.formula f rv ∈ asks → ∃ x, (ExprSt.new f.text).lookup (o.expr s) names = .ok x ∧
      ∀ r ∈ rows, ∃ v, x.evalLine (o.expr s) (askLine r) TAB = .ok v ∧ v.Is (val f r) := by
    intro f rv hm
    obtain ⟨f1, f2, f3, f4⟩ := hfit _ hm
    have hone : ∀ r ∈ rows, ∃ v, ((ExprSt.new f.text).lookup (o.expr s) names).bind (·.evalLine (o.expr s) (askLine r) TAB) = .ok v ∧
        v.Is (val f r) := by
      intro r hr
      obtain ⟨⟨v, hv, _, hi⟩, _⟩ := row_value o s names f f1 f2 f3 TAB (by decide) r (hrne r hr) (ht.2.2.2.2 r hr).2 _ (f4 r hr)
      exact ⟨v, hv, hi⟩
    obtain ⟨r0, hr0⟩ := List.exists_mem_of_ne_nil _ hrows
    obtain ⟨v0, hv0, _⟩ := hone r0 hr0
    obtain ⟨x, hx, _⟩ := Res.bind_eq_ok hv0
    refine ⟨x, hx, fun r hr => ?_⟩
    obtain ⟨v, hv, hi⟩ := hone r hr
    rw [hx, Res.bind_ok] at hv
    exact ⟨v, hv, hi⟩
  refine ⟨fun f => match o.keyValue s f.text names with
    | .ok g => g
    | _ => fun _ => F64.ofNat 0, ?_, ?_⟩
  · intro f rv hm r hr
    obtain ⟨x, hx, hv⟩ := hform f rv hm
    obtain ⟨v, hv, hi⟩ := hv r hr
    simp only [Outside.keyValue, hx, Res.bind_ok, hv]
    exact hi
  · intro f rv hm
    obtain ⟨x, hx, _⟩ := hform f rv hm
    simp only [Outside.keyValue, hx, Res.bind_ok]

theorem fits_there {names : List Bytes} {rows : List (List Bytes)} {asks : List SortAsk} {num : Bytes → Int}
    {val : WholeFormula → List Bytes → Int} (hfit : ∀ k ∈ asks, k.Fits names num val rows) : ∀ k ∈ asks, k.There names := by
  intro k hk
  have := hfit k hk
  cases k with
  | col k => exact this.1
  | formula f r => trivial

/-! ## C228 -/

/-- Options of `uniq` that ask for these keys, and for a count with this name in this place. -/
structure AsksUniq (names : List Bytes) (asks : List SortAsk) (name : Bytes) (pos : CountPos) (os : List (Bytes × Bytes)) : Prop where
  known : ∀ o ∈ os, o.1 = ascii "key" ∨ o.1 = ascii "count"
  keys : (optVals "key" os).length = asks.length ∧ ∀ x ∈ asks.zip (optVals "key" os), x.1.Text names x.2
  count : LastMeans CountMeans (optVals "count" os) ([], .none) (name, pos)
  fresh : pos ≠ .none → IsName name ∧ name ∉ names

/-- C228: `uniq` by columns of whole numbers and by formulas: of each run of adjacent rows with the same numbers the first row, with the number of
rows in the column asked for. -/
theorem C228_uniq (o : Outside) (s : Sys) (c : Cmd) (hc : c ∈ mainList) (hn : c.name = "uniq") (toks : List Tok) (t : Option TextMode)
    (opts : List (Bytes × Bytes)) (file : Bytes) (names : List Bytes) (rows : List (List Bytes)) (asks : List SortAsk) (num : Bytes → Int)
    (val : WholeFormula → List Bytes → Int) (name : Bytes) (pos : CountPos)
    (h : Says (o.world s) c toks .default t opts [file]) (hr : getReader (o.world s).s3 (o.world s).gunzip s file = some (sepHead TAB names ++ sepText TAB rows))
    (hg : GoodTable names rows) (hrows : rows ≠ []) (hf : AsksUniq names asks name pos opts) (hfit : ∀ k ∈ asks, k.Fits names num val rows) :
    o.run "uniq" toks s = .ok { s with stdout := s.stdout ++ (sepHead TAB (addAt pos name names) ++
      sepText TAB ((runCounts (fun a b => askCmp names num val asks a b == .eq) rows).map fun p => addAt pos (decText p.2) p.1)) } := by
  obtain ⟨ev, e1, e2⟩ := formula_values o s hg hfit hrows
  obtain ⟨ms, m1, m2⟩ := keyAsks_made (fun _ => true) hg.2.1 hg.2.2.2.1 (fun _ => rfl) asks _ (fits_there hfit) hf.keys.1 hf.keys.2
  have m3 := m2 (o.world s).eval ev e2
  unfold Outside.run
  rw [← hn]
  refine run_writes (o.world s) hc (by rw [hn]; decide) (by rw [hn]; decide) h s (texts := [sepHead TAB names ++ sepText TAB rows]) (by simp [hr]) ?_
  rw [hn]
  unfold World.output
  simp only [if_false, if_true, String.reduceEq]
  rw [zip_snd (files := [file]) (texts := [_]) (by rfl), List.headD_cons,
    uniq_rows (o.world s).agg (o.world s).mkExpr ((o.world s).prn .default) (o.world s).compiles (o.world s).eval _ names rows ms
      _ (askCmp names num val asks) name pos opts hg hf.known m1 m3 hf.count hf.fresh (by
        intro a ha b hb
        unfold eqLines
        rw [compColsList_equal]
        exact congrArg (· == .eq) (ask_cols o.exp10 hg.1 hg.2.2.2.2 ha hb hfit e1))]
  rfl

/-! ## C229 -/

/-- Options of `verify` that ask for these keys. -/
structure AsksVerify (names : List Bytes) (asks : List SortAsk) (os : List (Bytes × Bytes)) : Prop where
  some : asks ≠ []
  known : ∀ o ∈ os, o.1 = ascii "key" ∨ o.1 = ascii "sort" ∨ o.1 = ascii "unique"
  keys : (optVals "key" os).length = asks.length ∧ ∀ x ∈ asks.zip (optVals "key" os), x.1.Text names x.2

/-- C229: `verify` by columns of whole numbers and by formulas succeeds if the rows of each table are in the order of these numbers, and fails if
not. -/
theorem C229_verify (o : Outside) (s : Sys) (c : Cmd) (hc : c ∈ mainList) (hn : c.name = "verify") (toks : List Tok) (t : Option TextMode)
    (opts : List (Bytes × Bytes)) (files names : List Bytes) (tables : List (List (List Bytes))) (asks : List SortAsk) (num : Bytes → Int)
    (val : WholeFormula → List Bytes → Int) (h : Says (o.world s) c toks .default t opts files) (hr : Tables (o.world s) s files names tables)
    (hg : GoodTable names tables.flatten) (hrows : tables.flatten ≠ []) (hf : AsksVerify names asks opts)
    (hfit : ∀ k ∈ asks, k.Fits names num val tables.flatten) :
    let ordered := ∀ rows ∈ tables, rows.Pairwise fun x y => OrderAsked opts (askCmp names num val asks x y)
    (ordered → o.run "verify" toks s = .ok s) ∧ (¬ ordered → o.run "verify" toks s = .fail .silent) := by
  obtain ⟨r1, r2⟩ := hr.read
  obtain ⟨ev, e1, e2⟩ := formula_values o s hg hfit hrows
  obtain ⟨ms, m1, m2⟩ := keyAsks_made (fun _ => true) hg.2.1 hg.2.2.2.1 (fun _ => rfl) asks _ (fits_there hfit) hf.keys.1 hf.keys.2
  have m3 := m2 (o.world s).eval ev e2
  obtain ⟨b, hb, hiff⟩ := verify_rows (o.world s).matchers (o.world s).compiles (o.world s).eval names tables ms _
    (askCmp names num val asks) (askCmp_preorder names num val asks) opts (by rintro rfl; exact hrows rfl)
    (fun rows hr => ⟨hg.1, hg.2.1, hg.2.2.1, hg.2.2.2.1, fun r hrr => hg.2.2.2.2 r (List.mem_flatten.2 ⟨rows, hr, hrr⟩)⟩) hf.known (by
      intro e
      have := hf.keys.1
      rw [e] at this
      exact hf.some (List.length_eq_zero_iff.1 this.symm)) m1 m3
    (fun a ha b hb => ask_cols o.exp10 hg.1 hg.2.2.2.2 ha hb hfit e1)
  have hrun : o.run "verify" toks s = if b then .ok s else .fail .silent := by
    unfold Outside.run
    rw [← hn, run_output (o.world s) hc (by rw [hn]; decide) (by rw [hn]; decide) h s r1, hn]
    unfold World.output
    simp only [if_false, if_true, String.reduceEq, zip_snd r2, hb, Res.run, Run.bind]
    cases b <;> simp
  intro ordered
  refine ⟨fun h => ?_, fun h => ?_⟩
  · rw [hrun, hiff.2 h, if_pos rfl]
  · rw [hrun, if_neg fun e => h (hiff.1 e)]

/-! ## An example -/

/-- A table of numbers, the first two rows of which have the same product. -/
def sys8 : Sys :=
  { files := fun n => if n = ascii "t" then some (ascii " CDX\ta\tb\n3\t5\n5\t3\n10\t2\n") else none
    stdin := [], stdout := ascii ">", stderr := [] }

def rows8 : List (List Bytes) := [[ascii "3", ascii "5"], [ascii "5", ascii "3"], [ascii "10", ascii "2"]]

def val8 (_ : WholeFormula) (r : List Bytes) : Int := if r = [ascii "10", ascii "2"] then 20 else 15

theorem fits8 (num : Bytes → Int) : ∀ k ∈ [SortAsk.formula product false], k.Fits [ascii "a", ascii "b"] num val8 rows8 := by
  intro k hk
  rw [List.mem_singleton.1 hk]
  refine ⟨product_ok, by decide +kernel, fun x hx => ?_, ?_⟩
  · rcases product_names hx with rfl | rfl <;> decide
  · intro r hr
    simp only [rows8, List.mem_cons, List.not_mem_nil, or_false] at hr
    rcases hr with rfl | rfl | rfl
    · refine ⟨fun x => if x = ascii "a" then 3 else 5, ?_, by unfold WholeFormula.Gives; decide +kernel⟩
      intro x hx
      rcases product_names hx with rfl | rfl
      · exact wholeCell_digits false (ascii "3") (by decide) (by decide) _ (by decide +kernel)
      · exact wholeCell_digits false (ascii "5") (by decide) (by decide) _ (by decide +kernel)
    · refine ⟨fun x => if x = ascii "a" then 5 else 3, ?_, by unfold WholeFormula.Gives; decide +kernel⟩
      intro x hx
      rcases product_names hx with rfl | rfl
      · exact wholeCell_digits false (ascii "5") (by decide) (by decide) _ (by decide +kernel)
      · exact wholeCell_digits false (ascii "3") (by decide) (by decide) _ (by decide +kernel)
    · refine ⟨fun x => if x = ascii "a" then 10 else 2, ?_, by unfold WholeFormula.Gives; decide +kernel⟩
      intro x hx
      rcases product_names hx with rfl | rfl
      · exact wholeCell_digits false (ascii "10") (by decide) (by decide) _ (by decide +kernel)
      · exact wholeCell_digits false (ascii "2") (by decide) (by decide) _ (by decide +kernel)

theorem text8 : ∀ x ∈ [SortAsk.formula product false].zip [ascii ",expr,a*b"], x.1.Text [ascii "a", ascii "b"] x.2 := by
  intro x hx
  have : x = (.formula product false, ascii ",expr,a*b") := by simpa using hx
  subst this
  exact ⟨[], ascii "expr", by decide +kernel, by simp, by decide, by decide +kernel, by decide +kernel⟩

theorem count8 : LastMeans CountMeans (optVals "count" [(ascii "key", ascii ",expr,a*b"), (ascii "count", ascii "n,End")]) ([], .none) (ascii "n", .stop) := by
  have : optVals "count" [(ascii "key", ascii ",expr,a*b"), (ascii "count", ascii "n,End")] = [ascii "n,End"] := by decide +kernel
  rw [this]
  have h : CountMeans (ascii "n,End") (ascii "n", .stop) := ⟨ascii "n", ascii "End", .inl ⟨by decide +kernel, by decide +kernel⟩, by decide +kernel,
    .inr ⟨rfl, "end", by decide, by decide +kernel⟩⟩
  exact ⟨fun x hx => by rw [List.mem_singleton.1 hx]; exact ⟨_, h⟩, .inr ⟨ascii "n,End", rfl, h⟩⟩

/-- `cdx uniq --key ,expr,a*b --count n,End t`. -/
example : outside0.run "uniq" [.opt "key" (ascii ",expr,a*b"), .opt "count" (ascii "n,End"), .pos "input_files" (ascii "t")] sys8 =
    .ok { sys8 with stdout := ascii "> CDX\ta\tb\tn\n3\t5\t2\n10\t2\t1\n" } := by
  have h := C228_uniq outside0 sys8 (cmd0 "uniq") (cmd0_mem (by decide +kernel)) (by decide +kernel)
    [.opt "key" (ascii ",expr,a*b"), .opt "count" (ascii "n,End"), .pos "input_files" (ascii "t")] none
    [(ascii "key", ascii ",expr,a*b"), (ascii "count", ascii "n,End")] (ascii "t") [ascii "a", ascii "b"] rows8 [.formula product false]
    (fun _ => 0) val8 (ascii "n") .stop
    (says_plain (by decide +kernel) (by decide +kernel) (by decide +kernel) (by decide +kernel) (by decide +kernel)) (by decide +kernel)
    (goodTable_ab (by decide +kernel)) (by decide)
    ⟨by decide +kernel, ⟨rfl, text8⟩, count8, fun _ => ⟨one_letter 110 (by unfold Letter; decide), by decide +kernel⟩⟩ (fits8 _)
  rw [h]
  congr 2

/-- `cdx verify --sort --key ,expr,a*b t` succeeds, with `--unique` it fails. -/
example : outside0.run "verify" [.flag "sort", .opt "key" (ascii ",expr,a*b"), .pos "input_files" (ascii "t")] sys8 = .ok sys8 ∧
    outside0.run "verify" [.flag "unique", .opt "key" (ascii ",expr,a*b"), .pos "input_files" (ascii "t")] sys8 = .fail .silent :=
  ⟨(C229_verify outside0 sys8 (cmd0 "verify") (cmd0_mem (by decide +kernel)) (by decide +kernel)
    [.flag "sort", .opt "key" (ascii ",expr,a*b"), .pos "input_files" (ascii "t")] none [(ascii "sort", []), (ascii "key", ascii ",expr,a*b")]
    [ascii "t"] [ascii "a", ascii "b"] [rows8] [.formula product false] (fun _ => 0) val8
    (says_plain (by decide +kernel) (by decide +kernel) (by decide +kernel) (by decide +kernel) (by decide +kernel)) (by unfold Tables; decide +kernel)
    (goodTable_ab (by decide +kernel)) (by decide) ⟨by simp, by decide +kernel, rfl, text8⟩ (fits8 _)).1 (by unfold OrderAsked; decide +kernel),
  (C229_verify outside0 sys8 (cmd0 "verify") (cmd0_mem (by decide +kernel)) (by decide +kernel)
    [.flag "unique", .opt "key" (ascii ",expr,a*b"), .pos "input_files" (ascii "t")] none [(ascii "unique", []), (ascii "key", ascii ",expr,a*b")]
    [ascii "t"] [ascii "a", ascii "b"] [rows8] [.formula product false] (fun _ => 0) val8
    (says_plain (by decide +kernel) (by decide +kernel) (by decide +kernel) (by decide +kernel) (by decide +kernel)) (by unfold Tables; decide +kernel)
    (goodTable_ab (by decide +kernel)) (by decide) ⟨by simp, by decide +kernel, rfl, text8⟩ (fits8 _)).2 (by unfold OrderAsked; decide +kernel)⟩

end Cdx
