import Verif.Props.DecAgree
import Verif.Props.DecKeys

/-!
C243: `sort`, `uniq` and `verify` agree on decimals with further keys.
-/

namespace Cdx

theorem decKeys_cols (exp10 : Int → F64) {names : List Bytes} {col : Bytes} {reverse : Bool} {rows : List (List Bytes)} {asks : List SortAsk}
    {num : Bytes → Int} {val : WholeFormula → List Bytes → Int} {ev : WholeFormula → Bytes → F64} (hne : names ≠ [])
    (ht : SepTable TAB names.length rows) (hd : ∀ r ∈ rows, ∃ q, DecCell (cellOf names r col) q)
    (hfit : ∀ k ∈ asks, k.Fits names num val rows) (hev : EvIs ev val rows asks) {a b : List Bytes} (ha : a ∈ rows) (hb : b ∈ rows) :
    compColsList (lossyF64 exp10) (⟨.col .float (fun _ => names.idxOf col), reverse, TAB⟩ :: asks.map (·.at names ev))
        (decoded .default (tabLine a)) (decoded .default (tabLine b)) =
      decKeysCmp (readVal exp10) names col reverse num val asks a b := by
  have h1 := dec_cols exp10 (reverse := reverse) hne ht hd ha hb
  have h2 := ask_cols exp10 hne ht ha hb hfit hev
  simp only [compColsList] at h1 ⊢
  rw [h2, decKeysCmp, ← h1]
  split
  · rename_i h
    revert h
    cases LineComp.compCols (lossyF64 exp10) ⟨.col .float (fun _ => names.idxOf col), reverse, TAB⟩ (decoded .default (tabLine a))
      (decoded .default (tabLine b)) <;> intro h <;> first | rfl | exact absurd rfl h
  · rfl

theorem decKeys_made {names : List Bytes} {col : Bytes} {reverse : Bool} {rows : List (List Bytes)} {asks : List SortAsk}
    {num : Bytes → Int} {val : WholeFormula → List Bytes → Int} (hg : GoodTable names rows) (hcol : col ∈ names)
    (hfit : ∀ k ∈ asks, k.Fits names num val rows)
    {specs : List Bytes} (h : specs.length = (SortAsk.col ⟨col, .float, reverse⟩ :: asks).length ∧
      ∀ x ∈ (SortAsk.col ⟨col, .float, reverse⟩ :: asks).zip specs, x.1.Text names x.2) :
    ∃ ms, specs.map (makeLineComp fun _ => true) = ms.map .ok ∧
      ∀ eval ev, (∀ f r, SortAsk.formula f r ∈ asks → eval f.text names = .ok (ev f)) →
        resolveKeys eval names ms = .ok (⟨.col .float (fun _ => names.idxOf col), reverse, TAB⟩ :: asks.map (·.at names ev)) := by
  obtain ⟨ms, m1, m2⟩ := keyAsks_made (fun _ => true) hg.2.1 hg.2.2.2.1 (fun _ => rfl) _ specs (by
    intro k hk
    rcases List.mem_cons.1 hk with rfl | hk
    · exact hcol
    · exact fits_there hfit k hk) h.1 h.2
  refine ⟨ms, m1, fun eval ev he => m2 eval ev ?_⟩
  intro f r hm
  simp only [List.mem_cons, reduceCtorEq, false_or] at hm
  exact he f r hm

theorem fits_of_mem {names : List Bytes} {num : Bytes → Int} {val : WholeFormula → List Bytes → Int} {rows mid : List (List Bytes)}
    {asks : List SortAsk} (hfit : ∀ k ∈ asks, k.Fits names num val rows) (hm : ∀ r ∈ mid, r ∈ rows) : ∀ k ∈ asks, k.Fits names num val mid := by
  intro k hk
  have := hfit k hk
  cases k with
  | col k => exact ⟨this.1, fun h r hr => this.2 h r (hm r hr)⟩
  | formula f r => exact ⟨this.1, this.2.1, this.2.2.1, fun r hr => this.2.2.2 r (hm r hr)⟩

theorem decKeys_run_sort (o : Outside) (s : Sys) (c : Cmd) (hc : c ∈ mainList) (hn : c.name = "sort") (toks : List Tok) (m : TextMode)
    (t : Option TextMode) (os : List SortOpt) (files names : List Bytes) (tables : List (List (List Bytes))) (col : Bytes) (reverse : Bool)
    (asks : List SortAsk) (num : Bytes → Int) (val : WholeFormula → List Bytes → Int)
    (h : Says (o.world s) c toks m t (os.map SortOpt.said) files) (hr : Tables (o.world s) s files names tables)
    (hf : AsksSort names (.col ⟨col, .float, reverse⟩ :: asks) os) (hcol : col ∈ names)
    (hd : ∀ r ∈ tables.flatten, ∃ q, DecCell (cellOf names r col) q)
    (hfit : ∀ k ∈ asks, k.Fits names num val tables.flatten) (hrows : tables.flatten ≠ []) (ht : GoodTable names tables.flatten)
    (hok : ∀ n ∈ names, nameOkBytes o.classes n = true) (htn : tables ≠ []) (hcap : 8 < o.cap) (hlen : (sepText TAB tables.flatten).length < o.cap) :
    ∃ out, o.run "sort" toks s = .ok { s with stdout := s.stdout ++ (sepHead TAB names ++ sepText TAB out) } ∧
      (SortOpt.unique ∉ os → StableSort (decKeysCmp (readVal o.exp10) names col reverse num val asks) tables.flatten out) ∧
      (SortOpt.unique ∈ os → UniqueSort (decKeysCmp (readVal o.exp10) names col reverse num val asks) tables.flatten out) := by
  obtain ⟨r1, r2⟩ := hr.read
  obtain ⟨ev, e1, e2⟩ := formula_values o s ht hfit hrows
  obtain ⟨out, g1, g2⟩ := decKeys_sort (o.keyValue s) o.exp10 (nameOkBytes o.classes) o.pick o.rd o.cap m hf hcol hfit e1 e2 hd ht hok htn hcap hlen
  refine ⟨out, ?_, g2⟩
  unfold Outside.run
  rw [← hn]
  refine run_writes (o.world s) hc (by rw [hn]; decide) (by rw [hn]; decide) h s r1 ?_
  rw [hn]
  unfold World.output
  simp only [if_false, if_true, String.reduceEq, opts_said, Res.run, Run.bind, zip_snd r2]
  exact g1

theorem decKeys_run_uniq (o : Outside) (s : Sys) (c : Cmd) (hc : c ∈ mainList) (hn : c.name = "uniq") (toks : List Tok) (t : Option TextMode)
    (opts : List (Bytes × Bytes)) (file : Bytes) (names : List Bytes) (rows : List (List Bytes)) (col : Bytes) (reverse : Bool)
    (asks : List SortAsk) (num : Bytes → Int) (val : WholeFormula → List Bytes → Int) (name : Bytes) (pos : CountPos)
    (h : Says (o.world s) c toks .default t opts [file]) (hr : getReader (o.world s).s3 (o.world s).gunzip s file = some (sepHead TAB names ++ sepText TAB rows))
    (hg : GoodTable names rows) (hf : AsksUniq names (.col ⟨col, .float, reverse⟩ :: asks) name pos opts) (hcol : col ∈ names)
    (hd : ∀ r ∈ rows, ∃ q, DecCell (cellOf names r col) q)
    (hfit : ∀ k ∈ asks, k.Fits names num val rows) (hrows : rows ≠ []) :
    o.run "uniq" toks s = .ok { s with stdout := s.stdout ++ (sepHead TAB (addAt pos name names) ++
      sepText TAB ((runCounts (fun a b => decKeysCmp (readVal o.exp10) names col reverse num val asks a b == .eq) rows).map fun p => addAt pos (decText p.2) p.1)) } := by
  obtain ⟨ev, e1, e2⟩ := formula_values o s hg hfit hrows
  obtain ⟨ms, m1, m2⟩ := decKeys_made hg hcol hfit hf.keys
  unfold Outside.run
  rw [← hn]
  refine run_writes (o.world s) hc (by rw [hn]; decide) (by rw [hn]; decide) h s (texts := [sepHead TAB names ++ sepText TAB rows]) (by simp [hr]) ?_
  rw [hn]
  unfold World.output
  simp only [if_false, if_true, String.reduceEq]
  rw [zip_snd (files := [file]) (texts := [_]) (by rfl), List.headD_cons,
    uniq_rows (o.world s).agg (o.world s).mkExpr ((o.world s).prn .default) (o.world s).compiles (o.world s).eval _ names rows ms
      _ (decKeysCmp (readVal o.exp10) names col reverse num val asks) name pos opts hg hf.known m1 (m2 (o.world s).eval ev e2) hf.count hf.fresh (by
        intro a ha b hb
        unfold eqLines
        rw [compColsList_equal]
        exact congrArg (· == .eq) (decKeys_cols o.exp10 hg.1 hg.2.2.2.2 hd hfit e1 ha hb))]
  rfl

theorem decKeys_run_verify (o : Outside) (s : Sys) (c : Cmd) (hc : c ∈ mainList) (hn : c.name = "verify") (toks : List Tok) (t : Option TextMode)
    (opts : List (Bytes × Bytes)) (files names : List Bytes) (tables : List (List (List Bytes))) (col : Bytes) (reverse : Bool)
    (asks : List SortAsk) (num : Bytes → Int) (val : WholeFormula → List Bytes → Int)
    (h : Says (o.world s) c toks .default t opts files) (hr : Tables (o.world s) s files names tables)
    (hg : GoodTable names tables.flatten) (htn : tables ≠ []) (hf : AsksVerify names (.col ⟨col, .float, reverse⟩ :: asks) opts) (hcol : col ∈ names)
    (hd : ∀ r ∈ tables.flatten, ∃ q, DecCell (cellOf names r col) q)
    (hfit : ∀ k ∈ asks, k.Fits names num val tables.flatten) (hrows : tables.flatten ≠ []) :
    let ordered := ∀ rows ∈ tables, rows.Pairwise fun x y => OrderAsked opts (decKeysCmp (readVal o.exp10) names col reverse num val asks x y)
    (ordered → o.run "verify" toks s = .ok s) ∧ (¬ ordered → o.run "verify" toks s = .fail .silent) := by
  obtain ⟨r1, r2⟩ := hr.read
  obtain ⟨ev, e1, e2⟩ := formula_values o s hg hfit hrows
  obtain ⟨ms, m1, m2⟩ := decKeys_made hg hcol hfit hf.keys
  obtain ⟨b, hb, hiff⟩ := verify_rows (o.world s).matchers (o.world s).compiles (o.world s).eval names tables ms _
    (decKeysCmp (readVal o.exp10) names col reverse num val asks) (decKeysCmp_preorder _ names col reverse num val asks) opts htn
    (fun rows hr => ⟨hg.1, hg.2.1, hg.2.2.1, hg.2.2.2.1, fun r hrr => hg.2.2.2.2 r (List.mem_flatten.2 ⟨rows, hr, hrr⟩)⟩) hf.known (by
      intro e
      have := hf.keys.1
      rw [e] at this
      exact hf.some (List.length_eq_zero_iff.1 this.symm)) m1 (m2 (o.world s).eval ev e2)
    (fun a ha b hb => decKeys_cols o.exp10 hg.1 hg.2.2.2.2 hd hfit e1 ha hb)
  have hrun : o.run "verify" toks s = if b then .ok s else .fail .silent := by
    unfold Outside.run
    rw [← hn, run_output (o.world s) hc (by rw [hn]; decide) (by rw [hn]; decide) h s r1, hn]
    unfold World.output
    simp only [if_false, if_true, String.reduceEq, zip_snd r2, hb, Res.run, Run.bind]
    cases b <;> simp
  intro ordered
  refine ⟨fun h => ?_, fun h => ?_⟩
  · rw [hrun, hiff.2 h, if_pos rfl]
  · rw [hrun, if_neg fun e => h (hiff.1 e)]

/-! ## C243 -/

/-- C243: one number for each text, at most one part in `2^41` off for decimals, decides together with the further keys what `uniq` and
`verify` do: `uniq` writes the first row of each run of rows with the same number and the same further keys, with their count, and `verify` succeeds if
the rows are in the order of the numbers and then of the further keys, and fails if not. -/
theorem C243_numbers (o : Outside) : ∃ near : Bytes → Rat,
    (∀ v q, DecCell v q → q - ratSize q / ((2 ^ 41 : Nat) : Rat) ≤ near v ∧ near v ≤ q + ratSize q / ((2 ^ 41 : Nat) : Rat)) ∧
    (∀ (s : Sys) (c : Cmd) (toks : List Tok) (t : Option TextMode) (opts : List (Bytes × Bytes)) (file : Bytes) (names : List Bytes)
      (rows : List (List Bytes)) (col : Bytes) (reverse : Bool) (asks : List SortAsk) (num : Bytes → Int)
      (val : WholeFormula → List Bytes → Int) (name : Bytes) (pos : CountPos), c ∈ mainList → c.name = "uniq" →
      Says (o.world s) c toks .default t opts [file] →
      getReader (o.world s).s3 (o.world s).gunzip s file = some (sepHead TAB names ++ sepText TAB rows) → GoodTable names rows →
      AsksUniq names (.col ⟨col, .float, reverse⟩ :: asks) name pos opts → col ∈ names → (∀ r ∈ rows, ∃ q, DecCell (cellOf names r col) q) →
      (∀ k ∈ asks, k.Fits names num val rows) → rows ≠ [] →
      o.run "uniq" toks s = .ok { s with stdout := s.stdout ++ (sepHead TAB (addAt pos name names) ++
        sepText TAB ((runCounts (fun a b => decKeysCmp near names col reverse num val asks a b == .eq) rows).map fun p => addAt pos (decText p.2) p.1)) }) ∧
    (∀ (s : Sys) (c : Cmd) (toks : List Tok) (t : Option TextMode) (opts : List (Bytes × Bytes)) (files names : List Bytes)
      (tables : List (List (List Bytes))) (col : Bytes) (reverse : Bool) (asks : List SortAsk) (num : Bytes → Int)
      (val : WholeFormula → List Bytes → Int), c ∈ mainList → c.name = "verify" →
      Says (o.world s) c toks .default t opts files → Tables (o.world s) s files names tables → GoodTable names tables.flatten → tables ≠ [] →
      AsksVerify names (.col ⟨col, .float, reverse⟩ :: asks) opts → col ∈ names → (∀ r ∈ tables.flatten, ∃ q, DecCell (cellOf names r col) q) →
      (∀ k ∈ asks, k.Fits names num val tables.flatten) → tables.flatten ≠ [] →
      ((∀ rows ∈ tables, rows.Pairwise fun x y => OrderAsked opts (decKeysCmp near names col reverse num val asks x y)) → o.run "verify" toks s = .ok s) ∧
      (¬ (∀ rows ∈ tables, rows.Pairwise fun x y => OrderAsked opts (decKeysCmp near names col reverse num val asks x y)) → o.run "verify" toks s = .fail .silent)) :=
  ⟨readVal o.exp10, readVal_near o.exp10,
    fun s c toks t opts file names rows col reverse asks num val name pos hc hn h hr hg hf hcol hd hfit hrows =>
      decKeys_run_uniq o s c hc hn toks t opts file names rows col reverse asks num val name pos h hr hg hf hcol hd hfit hrows,
    fun s c toks t opts files names tables col reverse asks num val hc hn h hr hg htn hf hcol hd hfit hrows =>
      decKeys_run_verify o s c hc hn toks t opts files names tables col reverse asks num val h hr hg htn hf hcol hd hfit hrows⟩

/-- C243: `sort | uniq` by a column of decimals and further keys writes what `sort --unique` writes. -/
theorem C243_unique (o : Outside) (s : Sys) (c d : Cmd) (hc : c ∈ mainList) (hcn : c.name = "sort") (hd : d ∈ mainList) (hdn : d.name = "uniq")
    (first second once : List Tok) (t t' t'' : Option TextMode) (os os' : List SortOpt) (opts : List (Bytes × Bytes)) (files names : List Bytes)
    (tables : List (List (List Bytes))) (col : Bytes) (reverse : Bool)
    (asks : List SortAsk) (num : Bytes → Int) (val : WholeFormula → List Bytes → Int)
    (h1 : ∀ s, Says (o.world s) c first .default t (os.map SortOpt.said) files) (h2 : ∀ s, Says (o.world s) d second .default t' opts [[45]])
    (h3 : ∀ s, Says (o.world s) c once .default t'' (os'.map SortOpt.said) files)
    (hr : Tables (o.world s) s files names tables) (hs : AsksSort names (.col ⟨col, .float, reverse⟩ :: asks) os)
    (hs' : AsksSort names (.col ⟨col, .float, reverse⟩ :: asks) os') (hu : SortOpt.unique ∉ os) (hu' : SortOpt.unique ∈ os')
    (hf : AsksUniq names (.col ⟨col, .float, reverse⟩ :: asks) [] .none opts) (hcol : col ∈ names)
    (hdec : ∀ r ∈ tables.flatten, ∃ q, DecCell (cellOf names r col) q)
    (hfit : ∀ k ∈ asks, k.Fits names num val tables.flatten) (hrows : tables.flatten ≠ [])
    (ht : GoodTable names tables.flatten) (hok : ∀ n ∈ names, nameOkBytes o.classes n = true) (htn : tables ≠ [])
    (hcap : 8 < o.cap) (hlen : (sepText TAB tables.flatten).length < o.cap) :
    ∃ out, o.pipe [("sort", first), ("uniq", second)] s = .ok out ∧ o.pipe [("sort", once)] s = .ok out := by
  obtain ⟨mid, e1, e2, -⟩ := decKeys_run_sort o { s with stdout := [] } c hc hcn first .default t os files names tables col reverse asks num val
    (h1 _) hr hs hcol hdec hfit hrows ht hok htn hcap hlen
  obtain ⟨out, u1, -, u2⟩ := decKeys_run_sort o { s with stdout := [] } c hc hcn once .default t'' os' files names tables col reverse asks num val
    (h3 _) hr hs' hcol hdec hfit hrows ht hok htn hcap hlen
  have hst := e2 hu
  have hpre := decKeysCmp_preorder (readVal o.exp10) names col reverse num val asks
  have hm : ∀ r ∈ mid, r ∈ tables.flatten := fun r hr => hst.perm.mem_iff.1 hr
  have r2 := decKeys_run_uniq o { s with stdin := sepHead TAB names ++ sepText TAB mid, stdout := [] } d hd hdn second t' opts [45] names mid col reverse
    asks num val [] .none (h2 _) (by
      have := stdin_read (o.world { s with stdin := sepHead TAB names ++ sepText TAB mid, stdout := [] })
        { s with stdin := sepHead TAB names ++ sepText TAB mid, stdout := [] } names _ rfl
      simpa using this)
    ⟨ht.1, ht.2.1, ht.2.2.1, ht.2.2.2.1, fun r hr => ht.2.2.2.2 r (hm r hr)⟩ hf hcol (fun r hr => hdec r (hm r hr))
    (fits_of_mem hfit hm) (fun e => by rw [e] at hst; exact hrows (List.nil_perm.1 hst.perm))
  have hout : out = uniq (fun a b => decKeysCmp (readVal o.exp10) names col reverse num val asks a b == .eq) mid :=
    uniqueSort_unique hpre (u2 hu') (UniqueSort.of_stable hst (uniq_spec hpre hst.sorted))
  refine ⟨sepHead TAB names ++ sepText TAB out, ?_, ?_⟩
  · simp only [Outside.pipe, e1, Run.bind, List.nil_append, r2]
    rw [runCounts_sorted hpre mid hst.sorted, hout, List.map_map]
    simp only [addAt]
    rw [show ((fun p : List Bytes × Nat => p.1) ∘ fun u => (u, (classOf (decKeysCmp (readVal o.exp10) names col reverse num val asks) u mid).length)) = id from rfl,
      List.map_id]
  · simp only [Outside.pipe, u1, Run.bind, List.nil_append]

/-- C243: `verify` finds that what `sort` writes is in order, and that no numbers are repeated in what `sort --unique` writes. -/
theorem C243_verify (o : Outside) (s : Sys) (c d : Cmd) (hc : c ∈ mainList) (hcn : c.name = "sort") (hd : d ∈ mainList) (hdn : d.name = "verify")
    (first second : List Tok) (t t' : Option TextMode) (os : List SortOpt) (opts : List (Bytes × Bytes)) (files names : List Bytes)
    (tables : List (List (List Bytes))) (col : Bytes) (reverse : Bool)
    (asks : List SortAsk) (num : Bytes → Int) (val : WholeFormula → List Bytes → Int)
    (h1 : ∀ s, Says (o.world s) c first .default t (os.map SortOpt.said) files) (h2 : ∀ s, Says (o.world s) d second .default t' opts [[45]])
    (hr : Tables (o.world s) s files names tables) (hs : AsksSort names (.col ⟨col, .float, reverse⟩ :: asks) os)
    (hf : AsksVerify names (.col ⟨col, .float, reverse⟩ :: asks) opts) (hu : optVals "unique" opts ≠ [] → SortOpt.unique ∈ os) (hcol : col ∈ names)
    (hdec : ∀ r ∈ tables.flatten, ∃ q, DecCell (cellOf names r col) q)
    (hfit : ∀ k ∈ asks, k.Fits names num val tables.flatten) (hrows : tables.flatten ≠ [])
    (ht : GoodTable names tables.flatten) (hok : ∀ n ∈ names, nameOkBytes o.classes n = true) (htn : tables ≠ [])
    (hcap : 8 < o.cap) (hlen : (sepText TAB tables.flatten).length < o.cap) :
    o.pipe [("sort", first), ("verify", second)] s = .ok [] := by
  obtain ⟨mid, e1, e2, e3⟩ := decKeys_run_sort o { s with stdout := [] } c hc hcn first .default t os files names tables col reverse asks num val
    (h1 _) hr hs hcol hdec hfit hrows ht hok htn hcap hlen
  have hpre := decKeysCmp_preorder (readVal o.exp10) names col reverse num val asks
  have hm : ∀ r ∈ mid, r ∈ tables.flatten := by
    by_cases h : SortOpt.unique ∈ os
    · exact (e3 h).mem hpre
    · exact fun r hr => (e2 h).perm.mem_iff.1 hr
  have hmid : mid ≠ [] := by
    intro e
    by_cases h : SortOpt.unique ∈ os
    · obtain ⟨r, hr⟩ := List.exists_mem_of_ne_nil _ hrows
      have := (e3 h).first r
      rw [e] at this
      have hx : r ∈ classOf (decKeysCmp (readVal o.exp10) names col reverse num val asks) r tables.flatten :=
        List.mem_filter.2 ⟨hr, by simp [hpre.refl]⟩
      cases hcl : classOf (decKeysCmp (readVal o.exp10) names col reverse num val asks) r tables.flatten with
      | nil => rw [hcl] at hx; simp at hx
      | cons a l => rw [hcl] at this; simp [classOf] at this
    · have := (e2 h).perm.length_eq
      rw [e] at this
      exact hrows (List.length_eq_zero_iff.1 this.symm)
  have r2 := (decKeys_run_verify o { s with stdin := sepHead TAB names ++ sepText TAB mid, stdout := [] } d hd hdn second t' opts [[45]] names [mid] col reverse
    asks num val (h2 _) (by
      have := stdin_read (o.world { s with stdin := sepHead TAB names ++ sepText TAB mid, stdout := [] })
        { s with stdin := sepHead TAB names ++ sepText TAB mid, stdout := [] } names _ rfl
      unfold Tables
      simpa using this)
    (by
      rw [List.flatten_singleton]
      exact ⟨ht.1, ht.2.1, ht.2.2.1, ht.2.2.2.1, fun r hr => ht.2.2.2.2 r (hm r hr)⟩) (by simp) hf hcol
    (by
      rw [List.flatten_singleton]
      exact fun r hr => hdec r (hm r hr))
    (by
      rw [List.flatten_singleton]
      exact fits_of_mem hfit hm)
    (by
      rw [List.flatten_singleton]
      exact hmid)).1 (by
      intro rows hrw
      rw [List.mem_singleton.1 hrw]
      unfold OrderAsked
      by_cases h : SortOpt.unique ∈ os
      · refine (e3 h).strict.imp fun {a b} hab => ?_
        split
        · exact hab
        · split
          · rw [hab]; decide
          · trivial
      · have h0 : optVals "unique" opts = [] := by
          by_cases hx : optVals "unique" opts = []
          · exact hx
          · exact absurd (hu hx) h
        refine (e2 h).sorted.imp fun {a b} hab => ?_
        rw [if_neg (by simp [h0])]
        split
        · exact hab
        · trivial)
  simp only [Outside.pipe, e1, Run.bind, List.nil_append, r2]

/-! ## Examples -/

def rowsDecKeys : List (List Bytes) := [[ascii "3.25", ascii "y"], [ascii "-0.1", ascii "z"], [ascii "3.25", ascii "x"]]

theorem textDecKeys : ∀ x ∈ [SortAsk.col ⟨ascii "a", .float, false⟩, .col ⟨ascii "b", .plain, false⟩].zip [ascii "a,float", ascii "b"],
    x.1.Text [ascii "a", ascii "b"] x.2 := by
  intro x hx
  have : x = (.col ⟨ascii "a", .float, false⟩, ascii "a,float") ∨ x = (.col ⟨ascii "b", .plain, false⟩, ascii "b") := by simpa using hx
  rcases this with rfl | rfl
  · exact textDec _ (by simp)
  · exact ⟨ascii "b", .inl rfl, .inl ⟨rfl, rfl, rfl⟩⟩

theorem cellsDecKeys : ∀ r ∈ [rowsDecKeys].flatten, ∃ q, DecCell (cellOf [ascii "a", ascii "b"] r (ascii "a")) q := by
  intro r hr
  have h1 := cellsDec [ascii "3.25", ascii "x"] (by decide)
  have h2 := cellsDec [ascii "-0.1", ascii "y"] (by decide)
  simp only [rowsDecKeys, List.flatten_cons, List.flatten_nil, List.append_nil, List.mem_cons, List.not_mem_nil, or_false] at hr
  rcases hr with rfl | rfl | rfl
  · exact h1
  · exact h2
  · exact h1

theorem fitsDecKeys : ∀ k ∈ [SortAsk.col ⟨ascii "b", .plain, false⟩], k.Fits [ascii "a", ascii "b"] (fun _ => 0) (fun _ _ => 0) [rowsDecKeys].flatten := by
  intro k hk
  rw [List.mem_singleton.1 hk]
  exact ⟨by decide, fun h => nomatch h⟩

/-- `cdx sort --key a,float --key b t | cdx uniq --key a,float --key b -` and `cdx sort --key a,float --key b --unique t`. -/
example : ∃ out, outside0.pipe [("sort", [.opt "key" (ascii "a,float"), .opt "key" (ascii "b"), .pos "input_files" (ascii "t")]),
      ("uniq", [.opt "key" (ascii "a,float"), .opt "key" (ascii "b"), .pos "input_files" (ascii "-")])] sysDecKeys = .ok out ∧
    outside0.pipe [("sort", [.opt "key" (ascii "a,float"), .opt "key" (ascii "b"), .flag "unique", .pos "input_files" (ascii "t")])] sysDecKeys = .ok out :=
  C243_unique outside0 sysDecKeys (cmd0 "sort") (cmd0 "uniq") (cmd0_mem (by decide +kernel)) (by decide +kernel) (cmd0_mem (by decide +kernel)) (by decide +kernel)
    _ _ _ none none none [.key (ascii "a,float"), .key (ascii "b")] [.key (ascii "a,float"), .key (ascii "b"), .unique] [(ascii "key", ascii "a,float"), (ascii "key", ascii "b")] [ascii "t"] [ascii "a", ascii "b"]
    [rowsDecKeys] (ascii "a") false [.col ⟨ascii "b", .plain, false⟩] (fun _ => 0) (fun _ _ => 0)
    (fun _ => says_plain (by decide +kernel) (by decide +kernel) (by decide +kernel) (by decide +kernel) (by decide +kernel))
    (fun _ => says_plain (by decide +kernel) (by decide +kernel) (by decide +kernel) (by decide +kernel) (by decide +kernel))
    (fun _ => says_plain (by decide +kernel) (by decide +kernel) (by decide +kernel) (by decide +kernel) (by decide +kernel))
    (by unfold Tables; decide +kernel) ⟨by simp, ⟨rfl, textDecKeys⟩, by decide, by decide⟩ ⟨by simp, ⟨rfl, textDecKeys⟩, by decide, by decide⟩ (by decide) (by decide)
    ⟨by decide +kernel, ⟨rfl, textDecKeys⟩, lastMeans_nil.2 rfl, fun h => absurd rfl h⟩ (by decide) cellsDecKeys fitsDecKeys (by decide)
    (goodTable_ab (by decide +kernel)) (by decide +kernel) (by simp) (by decide +kernel) (by decide +kernel)

/-- `cdx sort --key a,float --key b t | cdx verify --sort --key a,float --key b -`. -/
example : outside0.pipe [("sort", [.opt "key" (ascii "a,float"), .opt "key" (ascii "b"), .pos "input_files" (ascii "t")]),
      ("verify", [.flag "sort", .opt "key" (ascii "a,float"), .opt "key" (ascii "b"), .pos "input_files" (ascii "-")])] sysDecKeys = .ok [] :=
  C243_verify outside0 sysDecKeys (cmd0 "sort") (cmd0 "verify") (cmd0_mem (by decide +kernel)) (by decide +kernel) (cmd0_mem (by decide +kernel)) (by decide +kernel)
    _ _ none none [.key (ascii "a,float"), .key (ascii "b")] [(ascii "sort", []), (ascii "key", ascii "a,float"), (ascii "key", ascii "b")] [ascii "t"] [ascii "a", ascii "b"]
    [rowsDecKeys] (ascii "a") false [.col ⟨ascii "b", .plain, false⟩] (fun _ => 0) (fun _ _ => 0)
    (fun _ => says_plain (by decide +kernel) (by decide +kernel) (by decide +kernel) (by decide +kernel) (by decide +kernel))
    (fun _ => says_plain (by decide +kernel) (by decide +kernel) (by decide +kernel) (by decide +kernel) (by decide +kernel))
    (by unfold Tables; decide +kernel) ⟨by simp, ⟨rfl, textDecKeys⟩, by decide, by decide⟩ ⟨by simp, by decide +kernel, rfl, textDecKeys⟩
    (fun h => absurd (by decide +kernel) h) (by decide) cellsDecKeys fitsDecKeys (by decide)
    (goodTable_ab (by decide +kernel)) (by decide +kernel) (by simp) (by decide +kernel) (by decide +kernel)

/-- `cdx uniq --key a,float --key b t`. -/
example : ∃ near, outside0.run "uniq" [.opt "key" (ascii "a,float"), .opt "key" (ascii "b"), .pos "input_files" (ascii "t")] sysDecKeys =
    .ok { sysDecKeys with stdout := sysDecKeys.stdout ++ (sepHead TAB [ascii "a", ascii "b"] ++
      sepText TAB ((runCounts (fun a b => decKeysCmp near [ascii "a", ascii "b"] (ascii "a") false (fun _ => 0) (fun _ _ => 0)
        [.col ⟨ascii "b", .plain, false⟩] a b == .eq) rowsDecKeys).map fun p => p.1)) } := by
  obtain ⟨near, -, h, -⟩ := C243_numbers outside0
  exact ⟨near, h sysDecKeys (cmd0 "uniq") _ none [(ascii "key", ascii "a,float"), (ascii "key", ascii "b")] (ascii "t") [ascii "a", ascii "b"] rowsDecKeys
    (ascii "a") false [.col ⟨ascii "b", .plain, false⟩] (fun _ => 0) (fun _ _ => 0) [] .none (cmd0_mem (by decide +kernel)) (by decide +kernel)
    (says_plain (by decide +kernel) (by decide +kernel) (by decide +kernel) (by decide +kernel) (by decide +kernel)) (by decide +kernel)
    (goodTable_ab (by decide +kernel)) ⟨by decide +kernel, ⟨rfl, textDecKeys⟩, lastMeans_nil.2 rfl, fun h => absurd rfl h⟩ (by decide)
    (fun r hr => cellsDecKeys r (by simpa using hr)) (fits_of_mem fitsDecKeys fun r hr => by simpa using hr) (by decide)⟩

end Cdx
