import Verif.Props.UniqSums
import Verif.Props.ExprUse

/-!
C231: aggregating groups of rows by formulas.
-/

namespace Cdx

/-! ## Formulas that aggregate -/

/-- The formula, with a value for its variable and with the cells of a row, has this value; all its steps are whole numbers up to `2^53`. -/
def StepGives (names : List Bytes) (var : Bytes) (f : WholeFormula) (v : Int) (r : List Bytes) (n : Int) : Prop :=
  ∃ vals : Bytes → Int, vals var = v ∧ (∀ x ∈ treeNames f.tree, x ≠ var → WholeCell (cellOf names r x) (vals x)) ∧ f.Gives vals n

/-- The value after some rows. -/
inductive FoldGives (names : List Bytes) (var : Bytes) (f : WholeFormula) : Int → List (List Bytes) → Int → Prop
  | nil (v : Int) : FoldGives names var f v [] v
  | cons (v w n : Int) (r : List Bytes) (g : List (List Bytes)) : StepGives names var f v r w → FoldGives names var f w g n →
    FoldGives names var f v (r :: g) n

theorem wholeCell_read {b : Bytes} {n : Int} (h : WholeCell b n) (exp10 : Int → F64) : (parseF64 exp10 b).1.Is n ∧ (parseF64 exp10 b).2 = [] := by
  obtain ⟨p, hp, rfl, rfl⟩ := h
  refine ⟨(hp.lossy exp10).1, ?_⟩
  obtain ⟨v, n, h1, -⟩ := hp.read exp10
  unfold parseF64
  rw [h1]
  rfl

theorem fold_made (o : Outside) (s : Sys) (names : List Bytes) (var init : Bytes) (start : Int) (f : WholeFormula) (hf : f.Ok) (hb : 91 ∉ f.text)
    (hv : 44 ∉ var) (hi : 44 ∉ init) (hs : WholeCell init start) (hin : ∀ x ∈ treeNames f.tree, x ≠ var → x ∈ names)
    (hsome : ∃ r n, StepGives names var f start r n) :
    ∃ x look step, o.mkExpr s (var ++ [44] ++ init ++ [44] ++ f.text) = .ok (x, look) ∧ x.Is start ∧ look names = .ok step ∧
      ∀ (v : F64) (n w : Int) (r : List Bytes), v.Is n → r ≠ [] → (∀ c ∈ r, TAB ∉ c ∧ NL ∉ c) → StepGives names var f n r w →
        (step v (decoded .default (tabLine r))).Is w ∧ w.natAbs ≤ 2 ^ 53 := by
  obtain ⟨s1, s2⟩ := wholeCell_read hs o.exp10
  have hnew : ExprAgg.new (o.expr s) (var ++ [44] ++ init ++ [44] ++ f.text) = .ok ⟨⟨f.text, [], [⟨var, (parseF64 o.exp10 init).1, none⟩]⟩, 0,
    (parseF64 o.exp10 init).1, (parseF64 o.exp10 init).1⟩ := exprAgg_new (o.expr s) var init f.text hv hi s2
  have hval : ∀ (v : F64) (n w : Int) (r : List Bytes), v.Is n → StepGives names var f n r w →
      (∃ y, treeVal (f64Ops o.rest) (fun x => if x = var then v else (parseF64 o.exp10 (r.getD (names.idxOf x) [])).1) (f.tree.mapNum F64.ofNat) = .ok y ∧ y.Is w) ∧
        w.natAbs ≤ 2 ^ 53 := by
    rintro v n w r hv ⟨vals, h1, h2, h3⟩
    refine gives_value o.rest _ vals f w h3 fun x hx => ?_
    by_cases e : x = var
    · rw [if_pos e, e, h1]
      exact hv
    · rw [if_neg e]
      exact (wholeCell_read (h2 x hx e) o.exp10).1
  have hlook := lookup_vars (o.expr s) names ⟨f.text, [], [⟨var, (parseF64 o.exp10 init).1, none⟩]⟩ (expandText_plain _ _ hb)
    (tokenize_text (o.expr s).toF64 wholeLit hf.writes (fun tok ht => writable_whole o.exp10 (hf.whole tok ht)) hf.clash) hf.writes (fun x => names.idxOf x) (by
      intro x hx hn
      rw [names_mapNum] at hx
      exact varCol_idxOf (hin x hx (by simpa using hn)))
  obtain ⟨r0, n0, h0⟩ := hsome
  have hr : ∃ r, rpnToExpr (o.expr s).ops [var] (postfixOf (f.tree.mapNum F64.ofNat)) = .ok r := by
    obtain ⟨⟨y, hy, -⟩, -⟩ := hval _ _ _ _ s1 h0
    have := tokEval_postfixOf (f64Ops o.rest) (fun x => if x = var then (parseF64 o.exp10 init).1 else (parseF64 o.exp10 (r0.getD (names.idxOf x) [])).1) (f.tree.mapNum F64.ofNat) []
    rw [hy] at this
    obtain ⟨prog, w, h1, -⟩ := (C37_fold (f64Ops o.rest) (fun x => if x = var then (parseF64 o.exp10 init).1 else (parseF64 o.exp10 (r0.getD (names.idxOf x) [])).1) [var] _).1 _ this
    exact ⟨_, h1⟩
  obtain ⟨r, hr⟩ := hr
  simp only [List.map_cons, List.map_nil, hr, Res.bind_ok, List.length_cons, List.length_nil] at hlook
  obtain ⟨w, h4, h5, -⟩ := rpnToExpr_vars (o.expr s).ops hr
  obtain ⟨b, hbdef⟩ : ∃ b : ExprAgg F64, b = ⟨⟨f.text, r.1, [⟨var, (parseF64 o.exp10 init).1, none⟩] ++ (r.2.drop 1).map fun x => ⟨x, (o.expr s).ops.zero, some (names.idxOf x)⟩⟩, 0,
        (parseF64 o.exp10 init).1, (parseF64 o.exp10 init).1⟩ := ⟨_, rfl⟩
  have hbl : ExprAgg.lookup (o.expr s) names ⟨⟨f.text, [], [⟨var, (parseF64 o.exp10 init).1, none⟩]⟩, 0,
      (parseF64 o.exp10 init).1, (parseF64 o.exp10 init).1⟩ = .ok b := by
    rw [ExprAgg.lookup, hlook, hbdef]
    rfl
  refine ⟨(parseF64 o.exp10 init).1, _, fun v line => match (b.keep b.expr v).bind fun c => c.add (o.expr s) line with
    | .ok c => c.val
    | _ => F64.ofNat 0, by unfold Outside.mkExpr; rw [hnew]; rfl, s1, by simp only [hbl, Res.bind_ok]; rfl, ?_⟩
  intro v n w' r' hvn hne hfree hst
  obtain ⟨⟨y, hy, hyi⟩, hwb⟩ := hval v n w' r' hvn hst
  have hinv : AggInv (o.expr s) var (fun x => names.idxOf x) (parseF64 o.exp10 init).1 r (parseF64 o.exp10 init).1
      b := by
    subst hbdef
    refine ⟨rfl, rfl, rfl, rfl, _, rfl, ?_, ?_⟩
    · rw [h4]; simp [Function.comp_def]
    · intro u hu
      obtain ⟨x, hx, rfl⟩ := List.mem_map.1 hu
      rw [h4] at hx
      simp only [List.singleton_append, List.drop_succ_cons, List.drop_zero] at hx
      exact ⟨by have := (h5 x hx).2.2; simpa using this, rfl⟩
  obtain ⟨a1, k1, k2⟩ := aggInv_keep hinv _ (.inl rfl) v
  have hstep : aggStep (o.expr s) var (fun x => names.idxOf x) (f.tree.mapNum F64.ofNat) v (decoded .default (tabLine r')) = .ok y := by
    unfold aggStep
    rw [← hy]
    congr 1
    funext x
    have : (decoded .default (tabLine r')).get (names.idxOf x) = r'.getD (names.idxOf x) [] := by
      rw [show TextMode.default = sepMode TAB from rfl, TextLine.get_eq_vec, tabLine, row_vec TAB (by decide) r' hne hfree]
    rw [this]
    rfl
  obtain ⟨a2, k3, k4⟩ := aggInv_keep k2 (a1.expr.prepare (o.expr s) (decoded .default (tabLine r')).get) (.inr ⟨_, rfl⟩) y
  refine ⟨?_, hwb⟩
  simp only [k1, Res.bind_ok, ExprAgg.add, aggInv_eval k2 hf.writes hr, hstep, k3, k4.val]
  exact hyi

/-- A value for each run, as it is written. -/
theorem fold_text (o : Outside) {names : List Bytes} {var : Bytes} {f : WholeFormula} {x : F64} {step : F64 → TextLine → F64}
    (hstep : ∀ (v : F64) (n w : Int) (r : List Bytes), v.Is n → r ≠ [] → (∀ c ∈ r, TAB ∉ c ∧ NL ∉ c) → StepGives names var f n r w →
      (step v (decoded .default (tabLine r))).Is w ∧ w.natAbs ≤ 2 ^ 53) {start n : Int} (hx : x.Is start) {g : List (List Bytes)} (hne : g ≠ [])
    (hg : ∀ r ∈ g, r ≠ [] ∧ ∀ c ∈ r, TAB ∉ c ∧ NL ∉ c) (hf : FoldGives names var f start g n) (h0 : n ≠ 0) :
    (LineAgg.expr x step x).shown o.agg (printNum .default) .default (g.map tabLine) = shortText n := by
  have key : ∀ (g : List (List Bytes)) (x : F64) (start : Int), x.Is start → (start.natAbs ≤ 2 ^ 53 ∨ g ≠ []) → (∀ r ∈ g, r ≠ [] ∧ ∀ c ∈ r, TAB ∉ c ∧ NL ∉ c) →
      FoldGives names var f start g n → ((g.map tabLine).foldl (fun v l => step v (decoded .default l)) x).Is n ∧ n.natAbs ≤ 2 ^ 53 := by
    intro g
    induction g with
    | nil =>
      intro x start hx hb _ hf
      cases hf
      exact ⟨hx, hb.resolve_right (by simp)⟩
    | cons r g ih =>
      intro x start hx _ hg hf
      cases hf with
      | cons _ w _ _ _ h1 h2 =>
        obtain ⟨s1, s2⟩ := hstep x start w r hx (hg r (by simp)).1 (hg r (by simp)).2 h1
        exact ih _ w s1 (.inl s2) (fun r hr => hg r (by simp [hr])) h2
  obtain ⟨k1, k2⟩ := key g x start hx (.inr hne) hg hf
  exact short_is k1 (fun e => absurd e h0) k2

/-! ## New columns of any kind -/

variable {Q : Type}

/-- Cells before and after others. -/
def aroundOf (qs : List Q) (before : Q → Bool) (cell : Q → Bytes) (l : List Bytes) : List Bytes :=
  (qs.filter before).map cell ++ l ++ (qs.filter (!before ·)).map cell

/-- The aggregator of a new column. -/
def newAgger (before : Q → Bool) (nm : Q → Bytes) (what : Q → LineAgg F64) (q : Q) : LineAgger F64 :=
  ⟨if before q then .pre (nm q) else .post (nm q), what q⟩

/-- The aggregators, with that of the count. -/
def withCounter (as : List (LineAgger F64)) (name : Bytes) : CountPos → List (LineAgger F64)
  | .none => as
  | .begin => ⟨.pre name, .col 0 (.count 0 0)⟩ :: as
  | .stop => as ++ [⟨.post name, .col 0 (.count 0 0)⟩]

theorem news_pre (before : Q → Bool) (nm : Q → Bytes) (what : Q → LineAgg F64) (qs : List Q) :
    (qs.map (newAgger before nm what)).filter (fun a => a.out.isPre) = (qs.filter before).map (newAgger before nm what) ∧
    (qs.map (newAgger before nm what)).filter (fun a => a.out.isPost) = (qs.filter (!before ·)).map (newAgger before nm what) := by
  induction qs with
  | nil => exact ⟨rfl, rfl⟩
  | cons q qs ih =>
    have h1 : (newAgger before nm what q).out.isPre = before q := by
      simp only [newAgger]
      cases before q <;> rfl
    have h2 : (newAgger before nm what q).out.isPost = !before q := by
      simp only [newAgger]
      cases before q <;> rfl
    cases hb : before q <;> simp only [List.map_cons, List.filter_cons, h1, h2, hb, ih.1, ih.2] <;> simp

theorem news_names (before : Q → Bool) (nm : Q → Bytes) (what : Q → LineAgg F64) (names : List Bytes) (qs : List Q) (name : Bytes) (pos : CountPos) :
    newNames (withCounter (qs.map (newAgger before nm what)) name pos) names = addAt pos name (aroundOf qs before nm names) := by
  obtain ⟨h1, h2⟩ := news_pre before nm what qs
  have e : ∀ l : List Q, (l.map (newAgger before nm what)).map (fun a => a.out.newName) = l.map nm := by
    intro l
    rw [List.map_map]
    refine List.map_congr_left fun q _ => ?_
    simp only [Function.comp, newAgger]
    cases before q <;> rfl
  unfold newNames withCounter addAt aroundOf
  cases pos <;> simp only [List.filter_cons, List.filter_append, List.filter_nil, h1, h2, pre_place, post_place, Bool.false_eq_true, if_true, if_false,
    List.map_append, List.map_cons, List.map_nil, e, List.append_nil, List.cons_append, List.append_assoc]

theorem news_row (o : Outside) {names : List Bytes} {rows g : List (List Bytes)} (hg : GoodTable names rows)
    (hin : ∀ r ∈ g, r ∈ rows) (before : Q → Bool) (nm : Q → Bytes) (what : Q → LineAgg F64) (qs : List Q) (name : Bytes) (pos : CountPos)
    (cell : Q → Bytes) (hcell : ∀ q ∈ qs, (what q).shown o.agg (printNum .default) .default (g.map tabLine) = cell q) (hlen : g.length ≤ 2 ^ 53)
    (hcount : ∀ l, (LineAgg.col 0 (.count 0 0)).shown o.agg (printNum .default) .default l = printNum .default (o.agg.ops.ofNat l.length))
    {x : List Bytes} (hx : g.head? = some x) :
    aggRow o.agg (printNum .default) .default .default (withCounter (qs.map (newAgger before nm what)) name pos) names.length (g.map tabLine) (tabLine x) =
      addAt pos (shortText g.length) (aroundOf qs before cell (g.headD [])) := by
  obtain ⟨h1, h2⟩ := news_pre before nm what qs
  have hxin : x ∈ rows := hin x (List.mem_of_head? hx)
  have e : ∀ l : List Q, (∀ q ∈ l, q ∈ qs) → (l.map (newAgger before nm what)).map
      (fun a => a.what.shown o.agg (printNum .default) .default (g.map tabLine)) = l.map cell := by
    intro l hl
    rw [List.map_map]
    exact List.map_congr_left fun q hq => hcell q (hl q hq)
  have ec : (LineAgg.col 0 (.count 0 0)).shown o.agg (printNum .default) .default (g.map tabLine) = shortText g.length := by
    rw [hcount, List.length_map, agg_ofNat o]
    exact short_is (is_ofNat hlen) (fun e => by rw [Int.ofNat_eq_zero.1 e]; exact zero_pos) (by rw [Int.natAbs_natCast]; exact hlen)
  have hrep : ∀ i, replacedBy (withCounter (qs.map (newAgger before nm what)) name pos) i = none := by
    intro i
    unfold replacedBy
    rw [List.find?_eq_none]
    intro a ha
    have : a.out ≠ .replace := by
      have hq : ∀ a ∈ qs.map (newAgger before nm what), a.out ≠ .replace := by
        intro a ha
        obtain ⟨q, -, rfl⟩ := List.mem_map.1 ha
        simp only [newAgger]
        cases before q <;> simp
      cases pos with
      | none => exact hq a ha
      | begin =>
        rcases List.mem_cons.1 ha with rfl | ha
        · simp
        · exact hq a ha
      | stop =>
        rcases List.mem_append.1 ha with ha | ha
        · exact hq a ha
        · rw [List.mem_singleton.1 ha]; simp
    simp [this]
  have hmid : ((List.range names.length).map fun i =>
      writeCol TextMode.default.col TextMode.default.delim TextMode.default.eol TextMode.default.repl (colOf .default i (tabLine x))) = x := by
    have hl := (hg.2.2.2.2 x hxin).1
    refine List.ext_getElem (by simp [hl]) fun i h1 h2 => ?_
    rw [List.getElem_map, List.getElem_range, tab_get hg hxin, List.getD_eq_getElem?_getD, List.getElem?_eq_getElem h2, Option.getD_some,
      plain_same _ ((hg.2.2.2.2 x hxin).2 _ (List.getElem_mem _))]
  have hhead : g.headD [] = x := by
    cases g with
    | nil => simp at hx
    | cons y g => simpa using hx
  unfold aggRow
  simp only [hrep]
  rw [hmid, hhead]
  have f1 := e (qs.filter before) fun q hq => (List.mem_filter.1 hq).1
  have f2 := e (qs.filter (!before ·)) fun q hq => (List.mem_filter.1 hq).1
  unfold withCounter addAt aroundOf
  cases pos <;> simp only [List.filter_cons, List.filter_append, List.filter_nil, h1, h2, pre_place, post_place, Bool.false_eq_true, if_true, if_false,
    List.map_append, List.map_cons, List.map_nil, f1, f2, ec, List.append_nil, List.cons_append, List.append_assoc]

theorem run_infix {α : Type} {R : List (List α)} {g D : List α} (hg : g ∈ R) (h : R.flatten = D) : g <:+: D := by
  obtain ⟨A, B, rfl⟩ := List.append_of_mem hg
  exact ⟨A.flatten, B.flatten, by rw [← h]; simp⟩

/-- `uniq` with new columns. -/
theorem uniq_groups (before : Q → Bool) (nm : Q → Bytes) (what : Q → LineAgg F64) (o : Outside) (s : Sys) (c : Cmd) (hc : c ∈ mainList) (hn : c.name = "uniq") (toks : List Tok)
    (opts : List (Bytes × Bytes)) (file : Bytes) (names : List Bytes) (rows : List (List Bytes)) (asks : List SortAsk) (qs : List Q)
    (num : Bytes → Int) (val : WholeFormula → List Bytes → Int) (name : Bytes) (pos : CountPos)
    (h : Says (o.world s) c toks .default none opts [file]) (hr : getReader (o.world s).s3 (o.world s).gunzip s file = some (sepHead TAB names ++ sepText TAB rows))
    (hg : GoodTable names rows) (hrows : rows ≠ []) (hfit : ∀ k ∈ asks, k.Fits names num val rows)
    (hknown : ∀ o ∈ opts, o.1 ∈ [ascii "key", ascii "count", ascii "agg-pre", ascii "agg-post"]) (hasks : asks ≠ []) (hqs : qs ≠ [])
    (hkeys : (optVals "key" opts).length = asks.length ∧ ∀ x ∈ asks.zip (optVals "key" opts), x.1.Text names x.2)
    (hcount : LastMeans CountMeans (optVals "count" opts) ([], .none) (name, pos)) (hcn : 44 ∉ name)
    (hfresh : ∀ n ∈ addAt pos name (aroundOf qs before nm names), IsName n) (hdistinct : (addAt pos name (aroundOf qs before nm names)).Nodup)
    (aggs : List (LineAggerSpec F64)) (a1 : aggOpts o.agg (o.world s).mkExpr (opts.filterMap aggOpt) = .ok aggs)
    (a2 : lookupAggers names aggs = .ok (qs.map (newAgger before nm what))) (cell : Q → List (List Bytes) → Bytes)
    (hcell : ∀ q ∈ qs, ∀ g, g <:+: rows → g ≠ [] → (what q).shown o.agg (printNum .default) .default (g.map tabLine) = cell q g)
    (hlen : rows.length ≤ 2 ^ 53) :
    ∃ R, IsRuns (fun a b => askCmp names num val asks a b == .eq) rows R ∧
      o.run "uniq" toks s = .ok { s with stdout := s.stdout ++ (sepHead TAB (addAt pos name (aroundOf qs before nm names)) ++
        sepText TAB (R.map fun g => addAt pos (shortText g.length) (aroundOf qs before (fun q => cell q g) (g.headD [])))) } := by
  obtain ⟨ev, e1, e2⟩ := formula_values o s hg hfit hrows
  obtain ⟨ms, m1, m2⟩ := keyAsks_made (fun _ => true) hg.2.1 hg.2.2.2.1 (fun _ => rfl) asks _ (fits_there hfit) hkeys.1 hkeys.2
  have m3 := m2 (o.world s).eval ev e2
  obtain ⟨specs, c1, c2, c3⟩ := C116_count (m := .default) o.agg (o.world s).mkExpr (printNum .default) ⟨name, pos, .first, ⟨.whole .plain, false, TAB⟩⟩ aggs names _ hcn a2
  have c2 : lookupAggers names specs = .ok (withCounter (qs.map (newAgger before nm what)) name pos) := by
    rw [c2]
    cases pos <;> rfl
  obtain ⟨R, hR⟩ := runs_exist (fun a b => askCmp names num val asks a b == .eq) rows
  refine ⟨R, hR, ?_⟩
  have hin : ∀ g ∈ R, ∀ r ∈ g, r ∈ rows := fun g hg r hr => by rw [← hR.join]; exact List.mem_flatten.2 ⟨g, hg, hr⟩
  have hsn : SepNames TAB names := ⟨hg.1, fun n hn => name_free (d := TAB) (by decide) (by decide) (hg.2.1 n hn)⟩
  obtain ⟨r1, r2, r3, r4⟩ := table_read TAB (by decide) names hsn rows hg.2.2.2.2
  have em : sepMode TAB = .default := rfl
  rw [em] at r1 r2 r3 r4
  have ho : UniqConf.opts o.agg (o.world s).mkExpr (fun _ => true) {} opts = .ok ⟨ms, name, pos, .first, ⟨{}, [], .whole (.kind .plain)⟩, aggs⟩ := by
    rw [C199_options]
    refine ⟨fun x hx => ?_, m1, hcount, ?_, a1⟩
    · have hk := hknown x hx
      have : ∀ n ∈ [ascii "key", ascii "count", ascii "agg-pre", ascii "agg-post"], n ∈ uniqNames.map ascii := by decide
      exact this _ hk
    · have : optVals "which" opts = [] := by
        unfold optVals
        rw [List.map_eq_nil_iff, List.filter_eq_nil_iff]
        intro x hx
        have hk := hknown x hx
        have : ∀ n ∈ [ascii "key", ascii "count", ascii "agg-pre", ascii "agg-post"], n ≠ ascii "which" := by decide
        simpa using this _ hk
      rw [this]
      exact ⟨by simp, .inl ⟨rfl, rfl⟩⟩
  have haggs : aggs ≠ [] := by
    rintro rfl
    have := hqs
    have a3 : (.ok [] : Res (List (LineAgger F64))) = _ := a2
    simp only [Res.ok.injEq] at a3
    exact this (List.map_eq_nil_iff.1 a3.symm)
  have hsplit : needSplit (asks.map (·.at names ev)) = true := by
    unfold needSplit
    rw [List.any_eq_true]
    obtain ⟨k, hk⟩ := List.exists_mem_of_ne_nil _ hasks
    refine ⟨_, List.mem_map.2 ⟨k, hk, rfl⟩, ?_⟩
    cases k <;> rfl
  have hnn : newNames (withCounter (qs.map (newAgger before nm what)) name pos) (namesOf .default (sepHead TAB names ++ sepText TAB rows)) =
      addAt pos name (aroundOf qs before nm names) := by
    rw [r2]
    exact news_names before nm what names qs name pos
  have hnil : addAt pos name (aroundOf qs before nm names) ≠ [] := by
    have := hg.1
    unfold addAt aroundOf
    cases pos <;> simp [this]
  obtain ⟨out, R', o1, o2, o3⟩ := C115_command_partial o.agg (o.world s).mkExpr (printNum .default) .default .default (asks.map (·.at names ev))
    ⟨name, pos, .first, ⟨.whole .plain, false, TAB⟩⟩ _ aggs specs _ (sepHead TAB names ++ sepText TAB rows) rfl hsplit a1 c1 (by rw [r2]; exact c2)
    (by rw [r3]; simpa using hrows) (by rw [r2]; exact hg.2.2.1) (by rw [r2]; exact fun n hn => (isValid_iff n).2 (hg.2.1 n hn))
    (by
      rw [hnn]
      exact ⟨fun n hn => ((isValid_iff n).2 (hfresh n hn)).2, hdistinct, hnil⟩)
    (by rintro (h | h) <;> cases h)
  rw [r3] at o2
  have hR' : R' = R.map (·.map tabLine) := by
    refine o2.unique (isRuns_forward tabLine hR fun a ha b hb => ?_)
    unfold eqLines
    rw [compColsList_equal]
    exact congrArg (· == .eq) (ask_cols o.exp10 hg.1 hg.2.2.2.2 ha hb hfit e1)
  subst hR'
  rw [r2] at o3
  have hout := rowPerRun_text tabLine (fun g => addAt pos (shortText g.length) (aroundOf qs before (fun q => cell q g) (g.headD []))) R out o3 fun g hgR x hx =>
    news_row o hg (hin g hgR) before nm what qs name pos (fun q => cell q g) (fun q hq => hcell q hq g (run_infix hgR hR.join) (hR.nonempty g hgR))
      (Nat.le_trans (by have := length_part hgR; rwa [hR.join] at this) hlen) c3 hx
  have hhd : headText .default (addAt pos name (aroundOf qs before nm names)) = sepHead TAB (addAt pos name (aroundOf qs before nm names)) := by
    rw [sepHead_eq TAB _ hnil]
    unfold headText
    rw [if_pos (by decide)]
    simp [TextMode.default]
  rw [r4, if_pos rfl, hnn, hout, hhd] at o1
  unfold Outside.run
  rw [← hn]
  refine run_writes (o.world s) hc (by rw [hn]; decide) (by rw [hn]; decide) h s (texts := [sepHead TAB names ++ sepText TAB rows]) (by simp [hr]) ?_
  rw [hn]
  unfold World.output
  simp only [if_false, if_true, String.reduceEq]
  rw [zip_snd (files := [file]) (texts := [_]) (by rfl), List.headD_cons]
  have hmain : uniqMain o.agg (o.world s).mkExpr (printNum .default) (fun _ => true) (o.world s).eval .default .default opts
      (sepHead TAB names ++ sepText TAB rows) = .ok (sepHead TAB (addAt pos name (aroundOf qs before nm names)) ++
        sepText TAB (R.map (fun g => addAt pos (shortText g.length) (aroundOf qs before (fun q => cell q g) (g.headD []))))) := by
    have he : ((Reader.newWith 1 .default).open_ (sepHead TAB names ++ sepText TAB rows)).isEmpty = false := (open_fields _ _ _ _ r1).1
    have hrn : ((Reader.newWith 1 .default).open_ (sepHead TAB names ++ sepText TAB rows)).names = names := r2
    have hwh : (⟨{}, [], .whole (.kind .plain)⟩ : LineCompMade).resolve (o.world s).eval names = .ok ⟨.whole .plain, false, TAB⟩ := rfl
    unfold uniqMain
    simp only [ho, Res.bind_ok, he, Bool.false_eq_true, if_false, hrn, m3, hwh, (by simpa using haggs : aggs.isEmpty = false)]
    exact o1
  exact congrArg Res.run hmain


/-! ## What is asked for -/

/-- A new column, before or after the others: the sums of a column, or what a formula makes of the rows, given its variable and the first value. -/
inductive GroupAsk
  | sum (before : Bool) (name col : Bytes)
  | fold (before : Bool) (name var init : Bytes) (start : Int) (f : WholeFormula)

def GroupAsk.before : GroupAsk → Bool
  | .sum b _ _ => b
  | .fold b _ _ _ _ _ => b

def GroupAsk.name : GroupAsk → Bytes
  | .sum _ n _ => n
  | .fold _ n _ _ _ _ => n

/-- The texts that ask for it. -/
def GroupAsk.Text (names : List Bytes) (q : GroupAsk) (spec : Bool × Bytes) : Prop :=
  spec.1 = q.before ∧ 44 ∉ q.name ∧ match q with
    | .sum _ name col => ∃ r, RefOf names r col ∧ r ≠ ascii "expr" ∧ spec.2 = name ++ 44 :: (r ++ 44 :: ascii "sum")
    | .fold _ name var init _ f => spec.2 = name ++ 44 :: (ascii "expr," ++ (var ++ [44] ++ init ++ [44] ++ f.text))

/-- These numbers belong to the groups of adjacent rows: exact sums, and exact values of formulas, that do not get larger than `2^53`. -/
def GroupAsk.Fits (names : List Bytes) (num : Bytes → Int) (rows : List (List Bytes)) (total : GroupAsk → List (List Bytes) → Int) (q : GroupAsk) : Prop :=
  match q with
  | .sum _ _ col => col ∈ names ∧ (∀ r ∈ rows, WholeCell (cellOf names r col) (num (cellOf names r col))) ∧
      (rows.map fun r => (num (cellOf names r col)).natAbs).sum ≤ 2 ^ 53 ∧ ∀ g, total q g = sumOf names num col g
  | .fold _ _ var init start f => f.Ok ∧ 91 ∉ f.text ∧ 44 ∉ var ∧ 44 ∉ init ∧ WholeCell init start ∧ (∀ x ∈ treeNames f.tree, x ≠ var → x ∈ names) ∧
      ∀ g, g <:+: rows → g ≠ [] → FoldGives names var f start g (total q g) ∧ total q g ≠ 0

theorem infix_sum {α : Type} {g D : List α} (h : g <:+: D) (f : α → Nat) : (g.map f).sum ≤ (D.map f).sum := by
  obtain ⟨A, B, rfl⟩ := h
  simp only [List.map_append, List.sum_append]
  omega

theorem ask_agger (o : Outside) (s : Sys) {names : List Bytes} {rows : List (List Bytes)} (hg : GoodTable names rows) (hrows : rows ≠ [])
    {num : Bytes → Int} {total : GroupAsk → List (List Bytes) → Int} {q : GroupAsk} (hq : q.Fits names num rows total) :
    ∃ w : LineAgg F64, (∀ spec, q.Text names spec → ∃ ls : LineAggSpec F64,
        (spec.1 = true → LineAggerSpec.newPre o.agg (o.world s).mkExpr spec.2 = .ok ⟨.pre q.name, ls⟩) ∧
        (spec.1 = false → LineAggerSpec.newPost o.agg (o.world s).mkExpr spec.2 = .ok ⟨.post q.name, ls⟩) ∧ ls.lookup names = .ok w) ∧
      ∀ g, g <:+: rows → g ≠ [] → w.shown o.agg (printNum .default) .default (g.map tabLine) = shortText (total q g) := by
  cases q with
  | sum before name col =>
    obtain ⟨q1, q2, q3, q4⟩ := hq
    refine ⟨.col (names.idxOf col) (.sum (f64Ops o.rest).zero), ?_, ?_⟩
    · rintro ⟨b, v⟩ ⟨h1, h2, r, h3, h4, h5⟩
      obtain ⟨r1, -, -, c, r4, r5⟩ := newFrom_ref hg.2.1 hg.2.2.2.1 q1 h3
      obtain ⟨e1, e2, -⟩ := C117_column o.agg (o.world s).mkExpr name r (ascii "sum") h2 r1 h4
      have es : aggMake o.agg (ascii "sum") = .ok (.sum (f64Ops o.rest).zero) := by rfl
      simp only at h5
      subst h5
      exact ⟨.col c (.sum (f64Ops o.rest).zero), fun _ => by rw [e1, r4, es]; rfl, fun _ => by rw [e2, r4, es]; rfl, by
        simp only [LineAggSpec.lookup, r5, Res.bind_ok]⟩
    · intro g hgi _
      have hin : ∀ r ∈ g, r ∈ rows := fun r hr => hgi.subset hr
      rw [q4, sum_shown o hg hin (fun r hr => q2 r (hin r hr)) (Nat.le_trans (infix_sum hgi _) q3)]
  | fold before name var init start f =>
    obtain ⟨q1, q2, q3, q4, q5, q6, q7⟩ := hq
    have hsome : ∃ r n, StepGives names var f start r n := by
      cases rows with
      | nil => exact absurd rfl hrows
      | cons r rows =>
        obtain ⟨h1, -⟩ := q7 [r] ⟨[], rows, by simp⟩ (by simp)
        cases h1 with
        | cons _ w _ _ _ h1 h2 => exact ⟨r, w, h1⟩
    obtain ⟨x, look, step, m1, m2, m3, m4⟩ := fold_made o s names var init start f q1 q2 q3 q4 q5 q6 hsome
    refine ⟨.expr x step x, ?_, ?_⟩
    · rintro ⟨b, v⟩ ⟨h1, h2, h3⟩
      simp only at h3
      subst h3
      have hx : ∀ p, LineAggerSpec.new2 o.agg (o.world s).mkExpr p (ascii "expr," ++ (var ++ [44] ++ init ++ [44] ++ f.text)) = .ok ⟨p, .expr x look⟩ := by
        intro p
        rw [C117_expr, show (o.world s).mkExpr _ = _ from m1]
        rfl
      refine ⟨.expr x look, fun _ => ?_, fun _ => ?_, by simp only [LineAggSpec.lookup, m3, Res.bind_ok]⟩
      · unfold LineAggerSpec.newPre
        rw [splitOnce_some 44 name _ h2]
        exact hx _
      · unfold LineAggerSpec.newPost
        rw [splitOnce_some 44 name _ h2]
        exact hx _
    · intro g hgi hne
      obtain ⟨f1, f2⟩ := q7 g hgi hne
      exact fold_text o m4 m2 hne (fun r hr => table_rows hg r (hgi.subset hr)) f1 f2

theorem groupAsks_made (o : Outside) (s : Sys) {names : List Bytes} (what : GroupAsk → LineAgg F64)
    (os : List (Bytes × Bytes)) : ∀ qs : List GroupAsk, (∀ q ∈ qs, ∀ spec, q.Text names spec → ∃ ls : LineAggSpec F64,
        (spec.1 = true → LineAggerSpec.newPre o.agg (o.world s).mkExpr spec.2 = .ok ⟨.pre q.name, ls⟩) ∧
        (spec.1 = false → LineAggerSpec.newPost o.agg (o.world s).mkExpr spec.2 = .ok ⟨.post q.name, ls⟩) ∧ ls.lookup names = .ok (what q)) →
      (sumSpecs os).length = qs.length →
      (∀ x ∈ qs.zip (sumSpecs os), x.1.Text names x.2) → (∀ o ∈ os, o.1 ∈ [ascii "key", ascii "count", ascii "agg-pre", ascii "agg-post"]) →
      ∃ aggs, aggOpts o.agg (o.world s).mkExpr (os.filterMap aggOpt) = .ok aggs ∧
        lookupAggers names aggs = .ok (qs.map (newAgger GroupAsk.before GroupAsk.name what)) := by
  induction os with
  | nil =>
    intro qs _ h _ _
    have : qs = [] := List.length_eq_zero_iff.1 h.symm
    subst this
    exact ⟨[], rfl, rfl⟩
  | cons o os ih =>
    intro qs hq hlen ht hk
    have ho := hk o (by simp)
    replace hk : ∀ o ∈ os, o.1 ∈ [ascii "key", ascii "count", ascii "agg-pre", ascii "agg-post"] := fun x hx => hk x (by simp [hx])
    obtain ⟨n, v⟩ := o
    simp only [List.mem_cons, List.not_mem_nil, or_false] at ho
    rcases ho with rfl | rfl | rfl | rfl
    · have e : sumSpecs ((ascii "key", v) :: os) = sumSpecs os := by
        unfold sumSpecs
        rw [List.filterMap_cons_none (by rfl)]
      rw [e] at hlen ht
      obtain ⟨aggs, a1, a2⟩ := ih qs hq hlen ht hk
      refine ⟨aggs, ?_, a2⟩
      rw [List.filterMap_cons_none (by rfl), a1]
    · have e : sumSpecs ((ascii "count", v) :: os) = sumSpecs os := by
        unfold sumSpecs
        rw [List.filterMap_cons_none (by rfl)]
      rw [e] at hlen ht
      obtain ⟨aggs, a1, a2⟩ := ih qs hq hlen ht hk
      refine ⟨aggs, ?_, a2⟩
      rw [List.filterMap_cons_none (by rfl), a1]
    · have e : sumSpecs ((ascii "agg-pre", v) :: os) = (true, v) :: sumSpecs os := by
        unfold sumSpecs
        rw [List.filterMap_cons_some (by rfl)]
      rw [e] at hlen ht
      cases qs with
      | nil => simp at hlen
      | cons q qs =>
        obtain ⟨aggs, a1, a2⟩ := ih qs (fun q h => hq q (by simp [h])) (by simpa using hlen) (fun x hx => ht x (by simp [hx])) hk
        have hx := ht (q, (true, v)) (by simp)
        obtain ⟨c, m1, -, m2⟩ := hq q (by simp) (true, v) hx
        refine ⟨⟨.pre q.name, c⟩ :: aggs, ?_, ?_⟩
        · rw [List.filterMap_cons_some (by rfl)]
          simp only [aggOpts, m1 rfl, Res.bind_ok, a1]
        · simp only [lookupAggers, m2, Res.bind_ok, a2, List.map_cons, newAgger, (show q.before = true from hx.1.symm), if_true]
    · have e : sumSpecs ((ascii "agg-post", v) :: os) = (false, v) :: sumSpecs os := by
        unfold sumSpecs
        rw [List.filterMap_cons_some (by rfl)]
      rw [e] at hlen ht
      cases qs with
      | nil => simp at hlen
      | cons q qs =>
        obtain ⟨aggs, a1, a2⟩ := ih qs (fun q h => hq q (by simp [h])) (by simpa using hlen) (fun x hx => ht x (by simp [hx])) hk
        have hx := ht (q, (false, v)) (by simp)
        obtain ⟨c, -, m1, m2⟩ := hq q (by simp) (false, v) hx
        refine ⟨⟨.post q.name, c⟩ :: aggs, ?_, ?_⟩
        · rw [List.filterMap_cons_some (by rfl)]
          simp only [aggOpts, m1 rfl, Res.bind_ok, a1]
        · simp only [lookupAggers, m2, Res.bind_ok, a2, List.map_cons, newAgger, (show q.before = false from hx.1.symm), Bool.false_eq_true, if_false]

/-- Options of `uniq` that ask for these keys, new columns and count. -/
structure AsksGroups (names : List Bytes) (asks : List SortAsk) (qs : List GroupAsk) (name : Bytes) (pos : CountPos) (os : List (Bytes × Bytes)) : Prop where
  known : ∀ o ∈ os, o.1 ∈ [ascii "key", ascii "count", ascii "agg-pre", ascii "agg-post"]
  some : asks ≠ [] ∧ qs ≠ []
  keys : (optVals "key" os).length = asks.length ∧ ∀ x ∈ asks.zip (optVals "key" os), x.1.Text names x.2
  news : (sumSpecs os).length = qs.length ∧ ∀ x ∈ qs.zip (sumSpecs os), x.1.Text names x.2
  count : LastMeans CountMeans (optVals "count" os) ([], .none) (name, pos)
  countName : 44 ∉ name
  fresh : ∀ n ∈ addAt pos name (aroundOf qs (·.before) (·.name) names), IsName n
  distinct : (addAt pos name (aroundOf qs (·.before) (·.name) names)).Nodup

/-- C231: `uniq` with new columns made of formulas: of each run of adjacent rows with the same values of the keys the first row, with what the
formulas make of the rows of the run, with sums, and with the number of rows. -/
theorem C231_groups (o : Outside) (s : Sys) (c : Cmd) (hc : c ∈ mainList) (hn : c.name = "uniq") (toks : List Tok)
    (opts : List (Bytes × Bytes)) (file : Bytes) (names : List Bytes) (rows : List (List Bytes)) (asks : List SortAsk) (qs : List GroupAsk)
    (num : Bytes → Int) (val : WholeFormula → List Bytes → Int) (total : GroupAsk → List (List Bytes) → Int) (name : Bytes) (pos : CountPos)
    (h : Says (o.world s) c toks .default none opts [file]) (hr : getReader (o.world s).s3 (o.world s).gunzip s file = some (sepHead TAB names ++ sepText TAB rows))
    (hg : GoodTable names rows) (hrows : rows ≠ []) (hf : AsksGroups names asks qs name pos opts) (hfit : ∀ k ∈ asks, k.Fits names num val rows)
    (hq : ∀ q ∈ qs, q.Fits names num rows total) (hlen : rows.length ≤ 2 ^ 53) :
    ∃ R, IsRuns (fun a b => askCmp names num val asks a b == .eq) rows R ∧
      o.run "uniq" toks s = .ok { s with stdout := s.stdout ++ (sepHead TAB (addAt pos name (aroundOf qs (·.before) (·.name) names)) ++
        sepText TAB (R.map fun g => addAt pos (shortText g.length) (aroundOf qs (·.before) (fun q => shortText (total q g)) (g.headD [])))) } := by
  classical
  have hall : ∀ q ∈ qs, _ := fun q hm => ask_agger o s hg hrows (hq q hm)
  obtain ⟨what, hwhat⟩ : ∃ what : GroupAsk → LineAgg F64, ∀ q ∈ qs, (∀ spec, q.Text names spec → ∃ ls : LineAggSpec F64,
        (spec.1 = true → LineAggerSpec.newPre o.agg (o.world s).mkExpr spec.2 = .ok ⟨.pre q.name, ls⟩) ∧
        (spec.1 = false → LineAggerSpec.newPost o.agg (o.world s).mkExpr spec.2 = .ok ⟨.post q.name, ls⟩) ∧ ls.lookup names = .ok (what q)) ∧
      ∀ g, g <:+: rows → g ≠ [] → (what q).shown o.agg (printNum .default) .default (g.map tabLine) = shortText (total q g) := by
    refine ⟨fun q => if hm : q ∈ qs then (hall q hm).choose else .col 0 (.count 0 0), fun q hm => ?_⟩
    simp only [dif_pos hm]
    exact (hall q hm).choose_spec
  obtain ⟨aggs, a1, a2⟩ := groupAsks_made o s what opts qs (fun q hm => (hwhat q hm).1) hf.news.1 hf.news.2 hf.known
  exact uniq_groups GroupAsk.before GroupAsk.name what o s c hc hn toks opts file names rows asks qs num val name pos h hr hg hrows hfit hf.known hf.some.1
    hf.some.2 hf.keys hf.count hf.countName hf.fresh hf.distinct aggs a1 a2 (fun q g => shortText (total q g)) (fun q hm => (hwhat q hm).2) hlen

/-! ## An example -/

theorem infix_three {α : Type} {x y z : α} {g : List α} (h : g <:+: [x, y, z]) (hne : g ≠ []) :
    g = [x] ∨ g = [y] ∨ g = [z] ∨ g = [x, y] ∨ g = [y, z] ∨ g = [x, y, z] := by
  simp only [List.infix_cons_iff, List.prefix_cons_iff, List.prefix_nil, List.infix_nil] at h
  rcases h with (rfl | ⟨t, rfl, rfl | ⟨t, rfl, rfl | ⟨t, rfl, rfl⟩⟩⟩) | (rfl | ⟨t, rfl, rfl | ⟨t, rfl, rfl⟩⟩) | (rfl | ⟨t, rfl, rfl⟩) | rfl <;> simp_all

/-- The product of the second column: `a` is what the rows before gave, not the first column. -/
def prod8 (_ : GroupAsk) (g : List (List Bytes)) : Int := g.foldl (fun v r => v * num8 (cellOf [ascii "a", ascii "b"] r (ascii "b"))) 1

theorem step8 (v n : Int) (r : List Bytes) (hr : r ∈ rows8)
    (hgive : product.Gives (fun x => if x = ascii "a" then v else num8 (cellOf [ascii "a", ascii "b"] r (ascii "b"))) n) :
    StepGives [ascii "a", ascii "b"] (ascii "a") product v r n := by
  refine ⟨fun x => if x = ascii "a" then v else num8 (cellOf [ascii "a", ascii "b"] r (ascii "b")), if_pos rfl, ?_, hgive⟩
  intro x hx hne
  rcases product_names hx with rfl | rfl
  · exact absurd rfl hne
  · have e : ascii "b" ≠ ascii "a" := by decide
    simp only [if_neg e]
    exact whole8 r hr

theorem fold8 : (GroupAsk.fold true (ascii "p") (ascii "a") (ascii "1") 1 product).Fits [ascii "a", ascii "b"] num8 rows8 prod8 := by
  refine ⟨product_ok, by decide +kernel, by decide +kernel, by decide +kernel, wholeCell_digits false (ascii "1") (by decide) (by decide) _ (by decide +kernel), ?_, ?_⟩
  · intro x hx _
    rcases product_names hx with rfl | rfl <;> decide
  · intro g hg hne
    have m1 : [ascii "3", ascii "5"] ∈ rows8 := by decide +kernel
    have m2 : [ascii "5", ascii "3"] ∈ rows8 := by decide +kernel
    have m3 : [ascii "10", ascii "2"] ∈ rows8 := by decide +kernel
    have st : ∀ v n r, r ∈ rows8 → product.Gives (fun x => if x = ascii "a" then v else num8 (cellOf [ascii "a", ascii "b"] r (ascii "b"))) n →
      StepGives [ascii "a", ascii "b"] (ascii "a") product v r n := step8
    unfold WholeFormula.Gives at st
    rcases infix_three hg hne with rfl | rfl | rfl | rfl | rfl | rfl
    · exact ⟨.cons _ 5 _ _ _ (st _ _ _ m1 (by decide +kernel)) (.nil _), by decide +kernel⟩
    · exact ⟨.cons _ 3 _ _ _ (st _ _ _ m2 (by decide +kernel)) (.nil _), by decide +kernel⟩
    · exact ⟨.cons _ 2 _ _ _ (st _ _ _ m3 (by decide +kernel)) (.nil _), by decide +kernel⟩
    · exact ⟨.cons _ 5 _ _ _ (st _ _ _ m1 (by decide +kernel)) (.cons _ 15 _ _ _ (st _ _ _ m2 (by decide +kernel)) (.nil _)), by decide +kernel⟩
    · exact ⟨.cons _ 3 _ _ _ (st _ _ _ m2 (by decide +kernel)) (.cons _ 6 _ _ _ (st _ _ _ m3 (by decide +kernel)) (.nil _)), by decide +kernel⟩
    · exact ⟨.cons _ 5 _ _ _ (st _ _ _ m1 (by decide +kernel)) (.cons _ 15 _ _ _ (st _ _ _ m2 (by decide +kernel))
        (.cons _ 30 _ _ _ (st _ _ _ m3 (by decide +kernel)) (.nil _))), by decide +kernel⟩

/-- `cdx uniq --key ,expr,a*b --agg-pre p,expr,a,1,a*b t`. -/
example : outside0.run "uniq" [.opt "key" (ascii ",expr,a*b"), .opt "agg-pre" (ascii "p,expr,a,1,a*b"), .pos "input_files" (ascii "t")] sys8 =
    .ok { sys8 with stdout := ascii "> CDX\tp\ta\tb\n15\t3\t5\n2\t10\t2\n" } := by
  obtain ⟨R, hR, h⟩ := C231_groups outside0 sys8 (cmd0 "uniq") (cmd0_mem (by decide +kernel)) (by decide +kernel)
    [.opt "key" (ascii ",expr,a*b"), .opt "agg-pre" (ascii "p,expr,a,1,a*b"), .pos "input_files" (ascii "t")]
    [(ascii "key", ascii ",expr,a*b"), (ascii "agg-pre", ascii "p,expr,a,1,a*b")] (ascii "t") [ascii "a", ascii "b"] rows8
    [.formula product false] [.fold true (ascii "p") (ascii "a") (ascii "1") 1 product] num8 val8 prod8 [] .none
    (says_plain (by decide +kernel) (by decide +kernel) (by decide +kernel) (by decide +kernel) (by decide +kernel)) (by decide +kernel)
    (goodTable_ab (by decide +kernel)) (by decide)
    { known := by decide +kernel
      some := by simp
      keys := ⟨rfl, text8⟩
      news := ⟨by decide +kernel, by
        intro x hx
        have : x = (.fold true (ascii "p") (ascii "a") (ascii "1") 1 product, true, ascii "p,expr,a,1,a*b") := by
          rw [show sumSpecs _ = [(true, ascii "p,expr,a,1,a*b")] by decide +kernel] at hx
          simpa using hx
        subst this
        exact ⟨rfl, by decide +kernel, by decide +kernel⟩⟩
      count := by
        rw [show optVals "count" _ = [] by decide +kernel]
        exact ⟨by simp, .inl ⟨rfl, rfl⟩⟩
      countName := by simp
      fresh := by
        intro n hn
        have : n ∈ [ascii "p", ascii "a", ascii "b"] := hn
        simp only [List.mem_cons, List.not_mem_nil, or_false] at this
        rcases this with rfl | rfl | rfl
        · exact one_letter 112 (by unfold Letter; decide)
        · exact one_letter 97 (by unfold Letter; decide)
        · exact one_letter 98 (by unfold Letter; decide)
      distinct := by decide +kernel }
    (fits8 _) (by intro q hq; rw [List.mem_singleton.1 hq]; exact fold8) (by decide)
  have : R = [[[ascii "3", ascii "5"], [ascii "5", ascii "3"]], [[ascii "10", ascii "2"]]] := by
    rw [hR.unique (runs_of _ _ _)]
    decide +kernel
  rw [h, this]
  congr 2

end Cdx
