import Verif.Props.SortFloat
import Verif.Props.SortAgree

/-!
C239: `sort`, `uniq` and `verify` agree on decimals.
-/

namespace Cdx

/-- The number that a text is read as. -/
def readVal (exp10 : Int → F64) (c : Bytes) : Rat := (lossyF64 exp10 c).val

theorem readVal_near (exp10 : Int → F64) (v : Bytes) (q : Rat) (h : DecCell v q) :
    q - ratSize q / ((2 ^ 41 : Nat) : Rat) ≤ readVal exp10 v ∧ readVal exp10 v ≤ q + ratSize q / ((2 ^ 41 : Nat) : Rat) :=
  ⟨(decCell_double exp10 h).2.1, (decCell_double exp10 h).2.2.1⟩

theorem dec_cols (exp10 : Int → F64) {names : List Bytes} {col : Bytes} {reverse : Bool} {rows : List (List Bytes)} (hne : names ≠ [])
    (ht : SepTable TAB names.length rows) (hd : ∀ r ∈ rows, ∃ q, DecCell (cellOf names r col) q) {a b : List Bytes} (ha : a ∈ rows) (hb : b ∈ rows) :
    compColsList (lossyF64 exp10) [⟨.col .float (fun _ => names.idxOf col), reverse, TAB⟩] (decoded .default (tabLine a)) (decoded .default (tabLine b)) =
      nearCmp (readVal exp10) names col reverse a b := by
  have hnil : ∀ r ∈ rows, r ≠ [] := by
    intro r hr e
    have := (ht r hr).1
    rw [e] at this
    exact hne (List.length_eq_zero_iff.1 this.symm)
  have em : (TextMode.default) = sepMode TAB := rfl
  have gt : ∀ r ∈ rows, ∀ i, (decoded .default (tabLine r)).get i = r.getD i [] := fun r hr i => by
    rw [em, TextLine.get_eq_vec, tabLine, row_vec TAB (by decide) r (hnil r hr) (ht r hr).2]
  have fine : ∀ r ∈ rows, (lossyF64 exp10 (cellOf names r col)).isNaN = false := by
    intro r hr
    obtain ⟨q, hq⟩ := hd r hr
    exact ((Fin_iff _).1 (decCell_double exp10 hq).1).1
  have e : LineComp.compCols (lossyF64 exp10) ⟨.col .float (fun _ => names.idxOf col), reverse, TAB⟩ (decoded .default (tabLine a))
      (decoded .default (tabLine b)) = nearCmp (readVal exp10) names col reverse a b := by
    simp only [LineComp.compCols, gt a ha, gt b hb]
    change rev reverse (fcmp (lossyF64 exp10 (cellOf names a col)) (lossyF64 exp10 (cellOf names b col))) = _
    rw [fcmp_eq (fine a ha) (fine b hb)]
    unfold readVal
    cases reverse with
    | false => simp only [rev, nearCmp, Bool.false_eq_true, if_false, ratOrd_val]
    | true => simp only [rev, nearCmp, if_true, ratOrd_val, preorder_int.swap (lossyF64 exp10 (cellOf names b col)).scaled, Ordering.swap_swap]
  simp only [compColsList, e]
  split <;> simp_all

theorem dec_made {names : List Bytes} {col : Bytes} {reverse : Bool} {rows : List (List Bytes)} (hg : GoodTable names rows) (hcol : col ∈ names)
    {specs : List Bytes} (h : specs.length = [SortAsk.col ⟨col, .float, reverse⟩].length ∧
      ∀ x ∈ [SortAsk.col ⟨col, .float, reverse⟩].zip specs, x.1.Text names x.2) :
    ∃ ms, specs.map (makeLineComp fun _ => true) = ms.map .ok ∧
      ∀ eval, resolveKeys eval names ms = .ok [⟨.col .float (fun _ => names.idxOf col), reverse, TAB⟩] := by
  obtain ⟨ms, m1, m2⟩ := keyAsks_made (fun _ => true) hg.2.1 hg.2.2.2.1 (fun _ => rfl) _ specs (by
    intro k hk
    rw [List.mem_singleton.1 hk]
    exact hcol) h.1 h.2
  exact ⟨ms, m1, fun eval => m2 eval (fun _ _ => F64.ofNat 0) (by intro f r hm; simp at hm)⟩

theorem dec_sort (o : Outside) (s : Sys) (c : Cmd) (hc : c ∈ mainList) (hn : c.name = "sort") (toks : List Tok) (m : TextMode)
    (t : Option TextMode) (os : List SortOpt) (files names : List Bytes) (tables : List (List (List Bytes))) (col : Bytes) (reverse : Bool)
    (h : Says (o.world s) c toks m t (os.map SortOpt.said) files) (hr : Tables (o.world s) s files names tables)
    (hf : AsksSort names [.col ⟨col, .float, reverse⟩] os) (hcol : col ∈ names)
    (hd : ∀ r ∈ tables.flatten, ∃ q, DecCell (cellOf names r col) q) (ht : GoodTable names tables.flatten)
    (hok : ∀ n ∈ names, nameOkBytes o.classes n = true) (htn : tables ≠ []) (hcap : 8 < o.cap) (hlen : (sepText TAB tables.flatten).length < o.cap) :
    ∃ out, o.run "sort" toks s = .ok { s with stdout := s.stdout ++ (sepHead TAB names ++ sepText TAB out) } ∧
      (SortOpt.unique ∉ os → StableSort (nearCmp (readVal o.exp10) names col reverse) tables.flatten out) ∧
      (SortOpt.unique ∈ os → UniqueSort (nearCmp (readVal o.exp10) names col reverse) tables.flatten out) := by
  obtain ⟨r1, r2⟩ := hr.read
  obtain ⟨out, g1, g2⟩ := float_sort (o.keyValue s) o.exp10 (nameOkBytes o.classes) o.pick o.rd o.cap m hf hcol hd ht hok htn hcap hlen
  refine ⟨out, ?_, g2⟩
  unfold Outside.run
  rw [← hn]
  refine run_writes (o.world s) hc (by rw [hn]; decide) (by rw [hn]; decide) h s r1 ?_
  rw [hn]
  unfold World.output
  simp only [if_false, if_true, String.reduceEq, opts_said, Res.run, Run.bind, zip_snd r2]
  exact g1

theorem dec_uniq (o : Outside) (s : Sys) (c : Cmd) (hc : c ∈ mainList) (hn : c.name = "uniq") (toks : List Tok) (t : Option TextMode)
    (opts : List (Bytes × Bytes)) (file : Bytes) (names : List Bytes) (rows : List (List Bytes)) (col : Bytes) (reverse : Bool) (name : Bytes) (pos : CountPos)
    (h : Says (o.world s) c toks .default t opts [file]) (hr : getReader (o.world s).s3 (o.world s).gunzip s file = some (sepHead TAB names ++ sepText TAB rows))
    (hg : GoodTable names rows) (hf : AsksUniq names [.col ⟨col, .float, reverse⟩] name pos opts) (hcol : col ∈ names)
    (hd : ∀ r ∈ rows, ∃ q, DecCell (cellOf names r col) q) :
    o.run "uniq" toks s = .ok { s with stdout := s.stdout ++ (sepHead TAB (addAt pos name names) ++
      sepText TAB ((runCounts (fun a b => nearCmp (readVal o.exp10) names col reverse a b == .eq) rows).map fun p => addAt pos (decText p.2) p.1)) } := by
  obtain ⟨ms, m1, m2⟩ := dec_made hg hcol hf.keys
  unfold Outside.run
  rw [← hn]
  refine run_writes (o.world s) hc (by rw [hn]; decide) (by rw [hn]; decide) h s (texts := [sepHead TAB names ++ sepText TAB rows]) (by simp [hr]) ?_
  rw [hn]
  unfold World.output
  simp only [if_false, if_true, String.reduceEq]
  rw [zip_snd (files := [file]) (texts := [_]) (by rfl), List.headD_cons,
    uniq_rows (o.world s).agg (o.world s).mkExpr ((o.world s).prn .default) (o.world s).compiles (o.world s).eval _ names rows ms
      _ (nearCmp (readVal o.exp10) names col reverse) name pos opts hg hf.known m1 (m2 _) hf.count hf.fresh (by
        intro a ha b hb
        unfold eqLines
        rw [compColsList_equal]
        exact congrArg (· == .eq) (dec_cols o.exp10 hg.1 hg.2.2.2.2 hd ha hb))]
  rfl

theorem dec_verify (o : Outside) (s : Sys) (c : Cmd) (hc : c ∈ mainList) (hn : c.name = "verify") (toks : List Tok) (t : Option TextMode)
    (opts : List (Bytes × Bytes)) (files names : List Bytes) (tables : List (List (List Bytes))) (col : Bytes) (reverse : Bool)
    (h : Says (o.world s) c toks .default t opts files) (hr : Tables (o.world s) s files names tables)
    (hg : GoodTable names tables.flatten) (htn : tables ≠ []) (hf : AsksVerify names [.col ⟨col, .float, reverse⟩] opts) (hcol : col ∈ names)
    (hd : ∀ r ∈ tables.flatten, ∃ q, DecCell (cellOf names r col) q) :
    let ordered := ∀ rows ∈ tables, rows.Pairwise fun x y => OrderAsked opts (nearCmp (readVal o.exp10) names col reverse x y)
    (ordered → o.run "verify" toks s = .ok s) ∧ (¬ ordered → o.run "verify" toks s = .fail .silent) := by
  obtain ⟨r1, r2⟩ := hr.read
  obtain ⟨ms, m1, m2⟩ := dec_made hg hcol hf.keys
  obtain ⟨b, hb, hiff⟩ := verify_rows (o.world s).matchers (o.world s).compiles (o.world s).eval names tables ms _
    (nearCmp (readVal o.exp10) names col reverse) (nearCmp_preorder _ names col reverse) opts htn
    (fun rows hr => ⟨hg.1, hg.2.1, hg.2.2.1, hg.2.2.2.1, fun r hrr => hg.2.2.2.2 r (List.mem_flatten.2 ⟨rows, hr, hrr⟩)⟩) hf.known (by
      intro e
      have := hf.keys.1
      rw [e] at this
      exact hf.some (List.length_eq_zero_iff.1 this.symm)) m1 (m2 _)
    (fun a ha b hb => dec_cols o.exp10 hg.1 hg.2.2.2.2 hd ha hb)
  have hrun : o.run "verify" toks s = if b then .ok s else .fail .silent := by
    unfold Outside.run
    rw [← hn, run_output (o.world s) hc (by rw [hn]; decide) (by rw [hn]; decide) h s r1, hn]
    unfold World.output
    simp only [if_false, if_true, String.reduceEq, zip_snd r2, hb, Res.run, Run.bind]
    cases b <;> simp
  intro ordered
  refine ⟨fun h => ?_, fun h => ?_⟩
  · rw [hrun, hiff.2 h, if_pos rfl]
  · rw [hrun, if_neg fun e => h (hiff.1 e)]

/-! ## C239 -/

/-- C239: one number for each text, at most one part in `2^41` off for decimals, decides what `uniq` and `verify` do: `uniq` writes the first row of each
run of rows with the same number, with their count, and `verify` succeeds if the rows are in the order of the numbers, and fails if not. -/
theorem C239_numbers (o : Outside) : ∃ near : Bytes → Rat,
    (∀ v q, DecCell v q → q - ratSize q / ((2 ^ 41 : Nat) : Rat) ≤ near v ∧ near v ≤ q + ratSize q / ((2 ^ 41 : Nat) : Rat)) ∧
    (∀ (s : Sys) (c : Cmd) (toks : List Tok) (t : Option TextMode) (opts : List (Bytes × Bytes)) (file : Bytes) (names : List Bytes)
      (rows : List (List Bytes)) (col : Bytes) (reverse : Bool) (name : Bytes) (pos : CountPos), c ∈ mainList → c.name = "uniq" →
      Says (o.world s) c toks .default t opts [file] →
      getReader (o.world s).s3 (o.world s).gunzip s file = some (sepHead TAB names ++ sepText TAB rows) → GoodTable names rows →
      AsksUniq names [.col ⟨col, .float, reverse⟩] name pos opts → col ∈ names → (∀ r ∈ rows, ∃ q, DecCell (cellOf names r col) q) →
      o.run "uniq" toks s = .ok { s with stdout := s.stdout ++ (sepHead TAB (addAt pos name names) ++
        sepText TAB ((runCounts (fun a b => nearCmp near names col reverse a b == .eq) rows).map fun p => addAt pos (decText p.2) p.1)) }) ∧
    (∀ (s : Sys) (c : Cmd) (toks : List Tok) (t : Option TextMode) (opts : List (Bytes × Bytes)) (files names : List Bytes)
      (tables : List (List (List Bytes))) (col : Bytes) (reverse : Bool), c ∈ mainList → c.name = "verify" →
      Says (o.world s) c toks .default t opts files → Tables (o.world s) s files names tables → GoodTable names tables.flatten → tables ≠ [] →
      AsksVerify names [.col ⟨col, .float, reverse⟩] opts → col ∈ names → (∀ r ∈ tables.flatten, ∃ q, DecCell (cellOf names r col) q) →
      ((∀ rows ∈ tables, rows.Pairwise fun x y => OrderAsked opts (nearCmp near names col reverse x y)) → o.run "verify" toks s = .ok s) ∧
      (¬ (∀ rows ∈ tables, rows.Pairwise fun x y => OrderAsked opts (nearCmp near names col reverse x y)) → o.run "verify" toks s = .fail .silent)) :=
  ⟨readVal o.exp10, readVal_near o.exp10,
    fun s c toks t opts file names rows col reverse name pos hc hn h hr hg hf hcol hd =>
      dec_uniq o s c hc hn toks t opts file names rows col reverse name pos h hr hg hf hcol hd,
    fun s c toks t opts files names tables col reverse hc hn h hr hg htn hf hcol hd =>
      dec_verify o s c hc hn toks t opts files names tables col reverse h hr hg htn hf hcol hd⟩

/-- C239: `sort | uniq` by a column of decimals writes what `sort --unique` writes. -/
theorem C239_unique (o : Outside) (s : Sys) (c d : Cmd) (hc : c ∈ mainList) (hcn : c.name = "sort") (hd : d ∈ mainList) (hdn : d.name = "uniq")
    (first second once : List Tok) (t t' t'' : Option TextMode) (os os' : List SortOpt) (opts : List (Bytes × Bytes)) (files names : List Bytes)
    (tables : List (List (List Bytes))) (col : Bytes) (reverse : Bool)
    (h1 : ∀ s, Says (o.world s) c first .default t (os.map SortOpt.said) files) (h2 : ∀ s, Says (o.world s) d second .default t' opts [[45]])
    (h3 : ∀ s, Says (o.world s) c once .default t'' (os'.map SortOpt.said) files)
    (hr : Tables (o.world s) s files names tables) (hs : AsksSort names [.col ⟨col, .float, reverse⟩] os)
    (hs' : AsksSort names [.col ⟨col, .float, reverse⟩] os') (hu : SortOpt.unique ∉ os) (hu' : SortOpt.unique ∈ os')
    (hf : AsksUniq names [.col ⟨col, .float, reverse⟩] [] .none opts) (hcol : col ∈ names)
    (hdec : ∀ r ∈ tables.flatten, ∃ q, DecCell (cellOf names r col) q)
    (ht : GoodTable names tables.flatten) (hok : ∀ n ∈ names, nameOkBytes o.classes n = true) (htn : tables ≠ [])
    (hcap : 8 < o.cap) (hlen : (sepText TAB tables.flatten).length < o.cap) :
    ∃ out, o.pipe [("sort", first), ("uniq", second)] s = .ok out ∧ o.pipe [("sort", once)] s = .ok out := by
  obtain ⟨mid, e1, e2, -⟩ := dec_sort o { s with stdout := [] } c hc hcn first .default t os files names tables col reverse (h1 _) hr hs hcol hdec
    ht hok htn hcap hlen
  obtain ⟨out, u1, -, u2⟩ := dec_sort o { s with stdout := [] } c hc hcn once .default t'' os' files names tables col reverse (h3 _) hr hs' hcol hdec
    ht hok htn hcap hlen
  have hst := e2 hu
  have hpre := nearCmp_preorder (readVal o.exp10) names col reverse
  have hm : ∀ r ∈ mid, r ∈ tables.flatten := fun r hr => hst.perm.mem_iff.1 hr
  have r2 := dec_uniq o { s with stdin := sepHead TAB names ++ sepText TAB mid, stdout := [] } d hd hdn second t' opts [45] names mid col reverse
    [] .none (h2 _) (by
      have := stdin_read (o.world { s with stdin := sepHead TAB names ++ sepText TAB mid, stdout := [] })
        { s with stdin := sepHead TAB names ++ sepText TAB mid, stdout := [] } names _ rfl
      simpa using this)
    ⟨ht.1, ht.2.1, ht.2.2.1, ht.2.2.2.1, fun r hr => ht.2.2.2.2 r (hm r hr)⟩ hf hcol (fun r hr => hdec r (hm r hr))
  have hout : out = uniq (fun a b => nearCmp (readVal o.exp10) names col reverse a b == .eq) mid :=
    uniqueSort_unique hpre (u2 hu') (UniqueSort.of_stable hst (uniq_spec hpre hst.sorted))
  refine ⟨sepHead TAB names ++ sepText TAB out, ?_, ?_⟩
  · simp only [Outside.pipe, e1, Run.bind, List.nil_append, r2]
    rw [runCounts_sorted hpre mid hst.sorted, hout, List.map_map]
    simp only [addAt]
    rw [show ((fun p : List Bytes × Nat => p.1) ∘ fun u => (u, (classOf (nearCmp (readVal o.exp10) names col reverse) u mid).length)) = id from rfl,
      List.map_id]
  · simp only [Outside.pipe, u1, Run.bind, List.nil_append]

/-- C239: `verify` finds that what `sort` writes is in order, and that no numbers are repeated in what `sort --unique` writes. -/
theorem C239_verify (o : Outside) (s : Sys) (c d : Cmd) (hc : c ∈ mainList) (hcn : c.name = "sort") (hd : d ∈ mainList) (hdn : d.name = "verify")
    (first second : List Tok) (t t' : Option TextMode) (os : List SortOpt) (opts : List (Bytes × Bytes)) (files names : List Bytes)
    (tables : List (List (List Bytes))) (col : Bytes) (reverse : Bool)
    (h1 : ∀ s, Says (o.world s) c first .default t (os.map SortOpt.said) files) (h2 : ∀ s, Says (o.world s) d second .default t' opts [[45]])
    (hr : Tables (o.world s) s files names tables) (hs : AsksSort names [.col ⟨col, .float, reverse⟩] os)
    (hf : AsksVerify names [.col ⟨col, .float, reverse⟩] opts) (hu : optVals "unique" opts ≠ [] → SortOpt.unique ∈ os) (hcol : col ∈ names)
    (hdec : ∀ r ∈ tables.flatten, ∃ q, DecCell (cellOf names r col) q)
    (ht : GoodTable names tables.flatten) (hok : ∀ n ∈ names, nameOkBytes o.classes n = true) (htn : tables ≠ [])
    (hcap : 8 < o.cap) (hlen : (sepText TAB tables.flatten).length < o.cap) :
    o.pipe [("sort", first), ("verify", second)] s = .ok [] := by
  obtain ⟨mid, e1, e2, e3⟩ := dec_sort o { s with stdout := [] } c hc hcn first .default t os files names tables col reverse (h1 _) hr hs hcol hdec
    ht hok htn hcap hlen
  have hpre := nearCmp_preorder (readVal o.exp10) names col reverse
  have hm : ∀ r ∈ mid, r ∈ tables.flatten := by
    by_cases h : SortOpt.unique ∈ os
    · exact (e3 h).mem hpre
    · exact fun r hr => (e2 h).perm.mem_iff.1 hr
  have r2 := (dec_verify o { s with stdin := sepHead TAB names ++ sepText TAB mid, stdout := [] } d hd hdn second t' opts [[45]] names [mid] col reverse
    (h2 _) (by
      have := stdin_read (o.world { s with stdin := sepHead TAB names ++ sepText TAB mid, stdout := [] })
        { s with stdin := sepHead TAB names ++ sepText TAB mid, stdout := [] } names _ rfl
      unfold Tables
      simpa using this)
    (by
      rw [List.flatten_singleton]
      exact ⟨ht.1, ht.2.1, ht.2.2.1, ht.2.2.2.1, fun r hr => ht.2.2.2.2 r (hm r hr)⟩) (by simp) hf hcol
    (by
      rw [List.flatten_singleton]
      exact fun r hr => hdec r (hm r hr))).1 (by
      intro rows hrw
      rw [List.mem_singleton.1 hrw]
      unfold OrderAsked
      by_cases h : SortOpt.unique ∈ os
      · refine (e3 h).strict.imp fun {a b} hab => ?_
        split
        · exact hab
        · split
          · rw [hab]; decide
          · trivial
      · have h0 : optVals "unique" opts = [] := by
          by_cases hx : optVals "unique" opts = []
          · exact hx
          · exact absurd (hu hx) h
        refine (e2 h).sorted.imp fun {a b} hab => ?_
        rw [if_neg (by simp [h0])]
        split
        · exact hab
        · trivial)
  simp only [Outside.pipe, e1, Run.bind, List.nil_append, r2]

/-! ## Examples -/

theorem textDec : ∀ x ∈ [SortAsk.col ⟨ascii "a", .float, false⟩].zip [ascii "a,float"], x.1.Text [ascii "a", ascii "b"] x.2 := by
  intro x hx
  have : x = (.col ⟨ascii "a", .float, false⟩, ascii "a,float") := by simpa using hx
  subst this
  exact ⟨ascii "a", .inl rfl, .inr ⟨ascii "float", by decide +kernel, by decide, by unfold AliasOk; decide +kernel,
    by unfold MethodOf; decide +kernel, by decide +kernel⟩⟩

def rowsDec : List (List Bytes) := [[ascii "3.25", ascii "x"], [ascii "-0.1", ascii "y"], [ascii "0.0", ascii "z"]]

theorem cellsDec : ∀ r ∈ [rowsDec].flatten, ∃ q, DecCell (cellOf [ascii "a", ascii "b"] r (ascii "a")) q := by
  intro r hr
  simp only [rowsDec, List.flatten_cons, List.flatten_nil, List.append_nil, List.mem_cons, List.not_mem_nil, or_false] at hr
  rcases hr with rfl | rfl | rfl
  · exact ⟨_, ⟨[], ascii "3", some (ascii "25"), none, none⟩, ⟨.inl rfl, by decide, by decide, by simp, by simp⟩, ⟨rfl, rfl⟩, by decide, by decide,
      by decide, rfl, by decide⟩
  · exact ⟨_, ⟨[45], ascii "0", some (ascii "1"), none, none⟩, ⟨.inr (.inr rfl), by decide, by decide, by simp, by simp⟩, ⟨rfl, rfl⟩, by decide, by decide,
      by decide, rfl, fun _ => by decide +kernel⟩
  · exact ⟨_, ⟨[], ascii "0", some (ascii "0"), none, none⟩, ⟨.inl rfl, by decide, by decide, by simp, by simp⟩, ⟨rfl, rfl⟩, by decide, by decide,
      by decide, rfl, by decide⟩

/-- `cdx sort --key a,float t | cdx uniq --key a,float -` and `cdx sort --key a,float --unique t`. -/
example : ∃ out, outside0.pipe [("sort", [.opt "key" (ascii "a,float"), .pos "input_files" (ascii "t")]),
      ("uniq", [.opt "key" (ascii "a,float"), .pos "input_files" (ascii "-")])] sysDec = .ok out ∧
    outside0.pipe [("sort", [.opt "key" (ascii "a,float"), .flag "unique", .pos "input_files" (ascii "t")])] sysDec = .ok out :=
  C239_unique outside0 sysDec (cmd0 "sort") (cmd0 "uniq") (cmd0_mem (by decide +kernel)) (by decide +kernel) (cmd0_mem (by decide +kernel)) (by decide +kernel)
    _ _ _ none none none [.key (ascii "a,float")] [.key (ascii "a,float"), .unique] [(ascii "key", ascii "a,float")] [ascii "t"] [ascii "a", ascii "b"]
    [rowsDec] (ascii "a") false
    (fun _ => says_plain (by decide +kernel) (by decide +kernel) (by decide +kernel) (by decide +kernel) (by decide +kernel))
    (fun _ => says_plain (by decide +kernel) (by decide +kernel) (by decide +kernel) (by decide +kernel) (by decide +kernel))
    (fun _ => says_plain (by decide +kernel) (by decide +kernel) (by decide +kernel) (by decide +kernel) (by decide +kernel))
    (by unfold Tables; decide +kernel) ⟨by simp, ⟨rfl, textDec⟩, by decide, by decide⟩ ⟨by simp, ⟨rfl, textDec⟩, by decide, by decide⟩ (by decide) (by decide)
    ⟨by decide +kernel, ⟨rfl, textDec⟩, lastMeans_nil.2 rfl, fun h => absurd rfl h⟩ (by decide) cellsDec
    (goodTable_ab (by decide +kernel)) (by decide +kernel) (by simp) (by decide +kernel) (by decide +kernel)

/-- `cdx sort --key a,float t | cdx verify --sort --key a,float -`. -/
example : outside0.pipe [("sort", [.opt "key" (ascii "a,float"), .pos "input_files" (ascii "t")]),
      ("verify", [.flag "sort", .opt "key" (ascii "a,float"), .pos "input_files" (ascii "-")])] sysDec = .ok [] :=
  C239_verify outside0 sysDec (cmd0 "sort") (cmd0 "verify") (cmd0_mem (by decide +kernel)) (by decide +kernel) (cmd0_mem (by decide +kernel)) (by decide +kernel)
    _ _ none none [.key (ascii "a,float")] [(ascii "sort", []), (ascii "key", ascii "a,float")] [ascii "t"] [ascii "a", ascii "b"]
    [rowsDec] (ascii "a") false
    (fun _ => says_plain (by decide +kernel) (by decide +kernel) (by decide +kernel) (by decide +kernel) (by decide +kernel))
    (fun _ => says_plain (by decide +kernel) (by decide +kernel) (by decide +kernel) (by decide +kernel) (by decide +kernel))
    (by unfold Tables; decide +kernel) ⟨by simp, ⟨rfl, textDec⟩, by decide, by decide⟩ ⟨by simp, by decide +kernel, rfl, textDec⟩
    (fun h => absurd (by decide +kernel) h) (by decide) cellsDec
    (goodTable_ab (by decide +kernel)) (by decide +kernel) (by simp) (by decide +kernel) (by decide +kernel)

end Cdx
