import Verif.Props.DecKeysAgree
import Verif.Props.PipesBin
import Verif.Props.GrepCount
import Verif.Props.TwiceNums

/-!
C246: choosing rows before or after sorting by numbers.
-/

namespace Cdx

theorem sepText_filter_le (p : List Bytes → Bool) (rows : List (List Bytes)) :
    (sepText TAB (rows.filter p)).length ≤ (sepText TAB rows).length := by
  induction rows with
  | nil => exact Nat.le_refl _
  | cons r rows ih =>
    rw [List.filter_cons]
    unfold sepText at *
    split
    · simp only [List.flatMap_cons, List.length_append]; omega
    · simp only [List.flatMap_cons, List.length_append]; omega

/-- C246: `cdx sort files | cdx cgrep -` writes what `cdx cgrep files | cdx sort -` writes, by whole numbers, texts and formulas. -/
theorem C246_sort (o : Outside) (s : Sys) (c g : Cmd) (hc : c ∈ mainList) (hcn : c.name = "sort") (hg : g ∈ mainList) (hgn : g.name = "cgrep")
    (sort1 grep1 grep2 sort2 : List Tok) (t t' : Option TextMode) (os os' : List SortOpt) (names files : List Bytes)
    (tables : List (Bytes × List (List Bytes))) (asks : List SortAsk) (num : Bytes → Int) (val : WholeFormula → List Bytes → Int)
    (as : List RowAsk) (opts : List (Bytes × Bytes)) (val' : WholeFormula → List Bytes → Int)
    (h1 : ∀ s, Says (o.world s) c sort1 .default t (os.map SortOpt.said) files) (h2 : ∀ s, Says (o.world s) g grep1 .default none opts [[45]])
    (h3 : ∀ s, Says (o.world s) g grep2 .default none opts files) (h4 : ∀ s, Says (o.world s) c sort2 .default t' (os'.map SortOpt.said) [[45]])
    (hfl : files = tables.map (·.1)) (hr : Tables (o.world s) s files names (tables.map (·.2)))
    (hs : AsksSort names asks os) (hs' : AsksSort names asks os') (hu : SortOpt.unique ∉ os) (hu' : SortOpt.unique ∉ os')
    (hfit : ∀ k ∈ asks, k.Fits names num val (tables.map (·.2)).flatten) (hfirst : ∀ k ∈ asks.head?, k.First names val (tables.map (·.2)).flatten)
    (hknown : ∀ o ∈ opts, o.1 ∈ [ascii "pattern", ascii "or", ascii "invert"]) (hlen : (valuesOf "pattern" opts).length = as.length)
    (htext : ∀ x ∈ as.zip (valuesOf "pattern" opts), x.1.Text names x.2) (hcols : ∀ a ∈ as, a.Cols names)
    (hval : ∀ f, .formula f ∈ as → ∀ t ∈ tables, ∀ r ∈ t.2, f.RowGives names r (val' f r)) (hslash : ∀ t ∈ tables, t.1.getLast? ≠ some 47)
    (hsome : ∃ r ∈ (tables.map (·.2)).flatten,
      ((if valuesOf "or" opts ≠ [] then as.any fun a => a.passes names val' r else as.all fun a => a.passes names val' r) ^^
        decide (valuesOf "invert" opts ≠ [])) = true)
    (ht : GoodTable names (tables.map (·.2)).flatten) (hok : ∀ n ∈ names, nameOkBytes o.classes n = true)
    (hcap : 8 < o.cap) (hmem : (sepText TAB (tables.map (·.2)).flatten).length < o.cap) :
    ∃ out, o.pipe [("sort", sort1), ("cgrep", grep1)] s = .ok out ∧ o.pipe [("cgrep", grep2), ("sort", sort2)] s = .ok out := by
  generalize hp : (fun r : List Bytes => (if valuesOf "or" opts ≠ [] then as.any fun a => a.passes names val' r else as.all fun a => a.passes names val' r) ^^
    decide (valuesOf "invert" opts ≠ [])) = p
  obtain ⟨r0, hr0, hpr⟩ := hsome
  have hpr : p r0 = true := by rw [← hp]; exact hpr
  have hrows : (tables.map (·.2)).flatten ≠ [] := List.ne_nil_of_mem hr0
  have htn : tables.map (·.2) ≠ [] := by intro e; rw [e] at hrows; exact hrows rfl
  have hin : ∀ t ∈ tables, ∀ r ∈ t.2, r ∈ (tables.map (·.2)).flatten := fun t ht r hr => List.mem_flatten.2 ⟨t.2, List.mem_map_of_mem ht, hr⟩
  have hv : ∀ n ∈ names, IsName n ∧ nameOkBytes o.classes n = true := fun n hn => ⟨ht.2.1 n hn, hok n hn⟩
  have hstd : ∀ mid, Tables (o.world { s with stdin := sepHead TAB names ++ sepText TAB mid, stdout := [] }) { s with stdin := sepHead TAB names ++ sepText TAB mid, stdout := [] } [[45]] names [mid] := by
    intro mid
    have := stdin_read (o.world { s with stdin := sepHead TAB names ++ sepText TAB mid, stdout := [] }) { s with stdin := sepHead TAB names ++ sepText TAB mid, stdout := [] } names _ rfl
    unfold Tables
    simpa using this
  -- sort, then cgrep
  obtain ⟨mid, e1, e2, -⟩ := C226_partial o { s with stdout := [] } c hc hcn sort1 .default t os files names _ asks num val (h1 _) hr hs
    hfit hfirst ht hok hrows hcap hmem
  have e2 := e2 hu
  have hm : ∀ r ∈ mid, r ∈ (tables.map (·.2)).flatten := fun r hr => e2.perm.mem_iff.1 hr
  have f1 := C225_grep o { s with stdin := sepHead TAB names ++ sepText TAB mid, stdout := [] } g hg hgn grep1 TAB names [[45]] as opts [([45], mid)] val'
    (h2 _) rfl (hstd mid) (by decide) (by decide) ht.1 ht.2.2.1 hv ht.2.2.2.1 hknown hlen htext hcols (by
      intro f hf t' ht' r hr
      rw [List.mem_singleton.1 ht'] at hr
      obtain ⟨l, hl, hr'⟩ := List.mem_flatten.1 (hm r hr)
      obtain ⟨t, htt, rfl⟩ := List.mem_map.1 hl
      exact hval f hf t htt r hr') ⟨_, List.mem_singleton.2 rfl, List.ne_nil_of_mem (e2.perm.mem_iff.2 hr0)⟩ (by
      intro t' ht'
      rw [List.mem_singleton.1 ht']
      exact ⟨show ([45] : Bytes).getLast? ≠ some 47 by decide, fun r hr => ht.2.2.2.2 r (hm r hr)⟩)
  simp only [List.map_cons, List.map_nil, List.flatten_singleton] at f1
  rw [hp, List.nil_append] at f1
  -- cgrep, then sort
  have g1 := C225_grep o { s with stdout := [] } g hg hgn grep2 TAB names files as opts tables val' (h3 _) hfl (by
      have := hr
      unfold Tables at this
      rw [List.map_map] at this
      exact this) (by decide) (by decide) ht.1 ht.2.2.1 hv ht.2.2.2.1 hknown hlen htext hcols hval (by
      obtain ⟨l, hl, hr'⟩ := List.mem_flatten.1 hr0
      obtain ⟨t, htt, rfl⟩ := List.mem_map.1 hl
      exact ⟨t, htt, List.ne_nil_of_mem hr'⟩) (fun t htt => ⟨hslash t htt, fun r hr => ht.2.2.2.2 r (hin t htt r hr)⟩)
  rw [hp, List.nil_append] at g1
  generalize hch : (tables.map (·.2)).flatten.filter p = chosen at g1
  have hcm : ∀ r ∈ chosen, r ∈ (tables.map (·.2)).flatten := by
    intro r hr
    rw [← hch] at hr
    exact (List.mem_filter.1 hr).1
  have hcn0 : chosen ≠ [] := by
    rw [← hch]
    exact List.ne_nil_of_mem (List.mem_filter.2 ⟨hr0, hpr⟩)
  have hfc : [chosen].flatten = chosen := List.flatten_singleton ..
  have hcl : (sepText TAB chosen).length < o.cap := by
    refine Nat.lt_of_le_of_lt ?_ hmem
    rw [← hch]
    exact sepText_filter_le p _
  obtain ⟨out, k1, k2, -⟩ := C226_partial o { s with stdin := sepHead TAB names ++ sepText TAB chosen, stdout := [] } c hc hcn sort2 .default t' os' [[45]] names [chosen] asks num val (h4 _) (hstd chosen) hs'
    (by rw [hfc]; exact fun k hk => (hfit k hk).mem hcm) (by rw [hfc]; exact fun k hk => (SortAsk.First.mem (hfirst k hk) hcm)) (by rw [hfc]; exact ⟨ht.1, ht.2.1, ht.2.2.1, ht.2.2.2.1, fun r hr => ht.2.2.2.2 r (hcm r hr)⟩) hok (by rw [hfc]; exact hcn0) hcap (by rw [hfc]; exact hcl)
  rw [hfc] at k2
  have e : out = mid.filter p := StableSort.unique (askCmp_preorder names num val asks) (k2 hu') (by
    rw [← hch]
    exact stableSort_filter p e2)
  refine ⟨sepHead TAB names ++ sepText TAB out, ?_, ?_⟩
  · simp only [Outside.pipe, e1, Run.bind, List.nil_append, f1, e]
  · simp only [Outside.pipe, g1, Run.bind, List.nil_append, k1]

/-- C246: `cdx sort files | cdx cgrep -` writes what `cdx cgrep files | cdx sort -` writes, by decimals and further keys. -/
theorem C246_decimals (o : Outside) (s : Sys) (c g : Cmd) (hc : c ∈ mainList) (hcn : c.name = "sort") (hg : g ∈ mainList) (hgn : g.name = "cgrep")
    (sort1 grep1 grep2 sort2 : List Tok) (t t' : Option TextMode) (os os' : List SortOpt) (names files : List Bytes)
    (tables : List (Bytes × List (List Bytes))) (col : Bytes) (reverse : Bool) (asks : List SortAsk) (num : Bytes → Int) (val : WholeFormula → List Bytes → Int)
    (as : List RowAsk) (opts : List (Bytes × Bytes)) (val' : WholeFormula → List Bytes → Int)
    (h1 : ∀ s, Says (o.world s) c sort1 .default t (os.map SortOpt.said) files) (h2 : ∀ s, Says (o.world s) g grep1 .default none opts [[45]])
    (h3 : ∀ s, Says (o.world s) g grep2 .default none opts files) (h4 : ∀ s, Says (o.world s) c sort2 .default t' (os'.map SortOpt.said) [[45]])
    (hfl : files = tables.map (·.1)) (hr : Tables (o.world s) s files names (tables.map (·.2)))
    (hs : AsksSort names (.col ⟨col, .float, reverse⟩ :: asks) os) (hs' : AsksSort names (.col ⟨col, .float, reverse⟩ :: asks) os') (hu : SortOpt.unique ∉ os) (hu' : SortOpt.unique ∉ os')
    (hcol : col ∈ names) (hdec : ∀ r ∈ (tables.map (·.2)).flatten, ∃ q, DecCell (cellOf names r col) q)
    (hfit : ∀ k ∈ asks, k.Fits names num val (tables.map (·.2)).flatten)
    (hknown : ∀ o ∈ opts, o.1 ∈ [ascii "pattern", ascii "or", ascii "invert"]) (hlen : (valuesOf "pattern" opts).length = as.length)
    (htext : ∀ x ∈ as.zip (valuesOf "pattern" opts), x.1.Text names x.2) (hcols : ∀ a ∈ as, a.Cols names)
    (hval : ∀ f, .formula f ∈ as → ∀ t ∈ tables, ∀ r ∈ t.2, f.RowGives names r (val' f r)) (hslash : ∀ t ∈ tables, t.1.getLast? ≠ some 47)
    (hsome : ∃ r ∈ (tables.map (·.2)).flatten,
      ((if valuesOf "or" opts ≠ [] then as.any fun a => a.passes names val' r else as.all fun a => a.passes names val' r) ^^
        decide (valuesOf "invert" opts ≠ [])) = true)
    (ht : GoodTable names (tables.map (·.2)).flatten) (hok : ∀ n ∈ names, nameOkBytes o.classes n = true)
    (hcap : 8 < o.cap) (hmem : (sepText TAB (tables.map (·.2)).flatten).length < o.cap) :
    ∃ out, o.pipe [("sort", sort1), ("cgrep", grep1)] s = .ok out ∧ o.pipe [("cgrep", grep2), ("sort", sort2)] s = .ok out := by
  generalize hp : (fun r : List Bytes => (if valuesOf "or" opts ≠ [] then as.any fun a => a.passes names val' r else as.all fun a => a.passes names val' r) ^^
    decide (valuesOf "invert" opts ≠ [])) = p
  obtain ⟨r0, hr0, hpr⟩ := hsome
  have hpr : p r0 = true := by rw [← hp]; exact hpr
  have hrows : (tables.map (·.2)).flatten ≠ [] := List.ne_nil_of_mem hr0
  have htn : tables.map (·.2) ≠ [] := by intro e; rw [e] at hrows; exact hrows rfl
  have hin : ∀ t ∈ tables, ∀ r ∈ t.2, r ∈ (tables.map (·.2)).flatten := fun t ht r hr => List.mem_flatten.2 ⟨t.2, List.mem_map_of_mem ht, hr⟩
  have hv : ∀ n ∈ names, IsName n ∧ nameOkBytes o.classes n = true := fun n hn => ⟨ht.2.1 n hn, hok n hn⟩
  have hstd : ∀ mid, Tables (o.world { s with stdin := sepHead TAB names ++ sepText TAB mid, stdout := [] }) { s with stdin := sepHead TAB names ++ sepText TAB mid, stdout := [] } [[45]] names [mid] := by
    intro mid
    have := stdin_read (o.world { s with stdin := sepHead TAB names ++ sepText TAB mid, stdout := [] }) { s with stdin := sepHead TAB names ++ sepText TAB mid, stdout := [] } names _ rfl
    unfold Tables
    simpa using this
  -- sort, then cgrep
  obtain ⟨mid, e1, e2, -⟩ := decKeys_run_sort o { s with stdout := [] } c hc hcn sort1 .default t os files names _ col reverse asks num val (h1 _) hr hs
    hcol hdec hfit hrows ht hok htn hcap hmem
  have e2 := e2 hu
  have hm : ∀ r ∈ mid, r ∈ (tables.map (·.2)).flatten := fun r hr => e2.perm.mem_iff.1 hr
  have f1 := C225_grep o { s with stdin := sepHead TAB names ++ sepText TAB mid, stdout := [] } g hg hgn grep1 TAB names [[45]] as opts [([45], mid)] val'
    (h2 _) rfl (hstd mid) (by decide) (by decide) ht.1 ht.2.2.1 hv ht.2.2.2.1 hknown hlen htext hcols (by
      intro f hf t' ht' r hr
      rw [List.mem_singleton.1 ht'] at hr
      obtain ⟨l, hl, hr'⟩ := List.mem_flatten.1 (hm r hr)
      obtain ⟨t, htt, rfl⟩ := List.mem_map.1 hl
      exact hval f hf t htt r hr') ⟨_, List.mem_singleton.2 rfl, List.ne_nil_of_mem (e2.perm.mem_iff.2 hr0)⟩ (by
      intro t' ht'
      rw [List.mem_singleton.1 ht']
      exact ⟨show ([45] : Bytes).getLast? ≠ some 47 by decide, fun r hr => ht.2.2.2.2 r (hm r hr)⟩)
  simp only [List.map_cons, List.map_nil, List.flatten_singleton] at f1
  rw [hp, List.nil_append] at f1
  -- cgrep, then sort
  have g1 := C225_grep o { s with stdout := [] } g hg hgn grep2 TAB names files as opts tables val' (h3 _) hfl (by
      have := hr
      unfold Tables at this
      rw [List.map_map] at this
      exact this) (by decide) (by decide) ht.1 ht.2.2.1 hv ht.2.2.2.1 hknown hlen htext hcols hval (by
      obtain ⟨l, hl, hr'⟩ := List.mem_flatten.1 hr0
      obtain ⟨t, htt, rfl⟩ := List.mem_map.1 hl
      exact ⟨t, htt, List.ne_nil_of_mem hr'⟩) (fun t htt => ⟨hslash t htt, fun r hr => ht.2.2.2.2 r (hin t htt r hr)⟩)
  rw [hp, List.nil_append] at g1
  generalize hch : (tables.map (·.2)).flatten.filter p = chosen at g1
  have hcm : ∀ r ∈ chosen, r ∈ (tables.map (·.2)).flatten := by
    intro r hr
    rw [← hch] at hr
    exact (List.mem_filter.1 hr).1
  have hcn0 : chosen ≠ [] := by
    rw [← hch]
    exact List.ne_nil_of_mem (List.mem_filter.2 ⟨hr0, hpr⟩)
  have hfc : [chosen].flatten = chosen := List.flatten_singleton ..
  have hcl : (sepText TAB chosen).length < o.cap := by
    refine Nat.lt_of_le_of_lt ?_ hmem
    rw [← hch]
    exact sepText_filter_le p _
  obtain ⟨out, k1, k2, -⟩ := decKeys_run_sort o { s with stdin := sepHead TAB names ++ sepText TAB chosen, stdout := [] } c hc hcn sort2 .default t' os' [[45]] names [chosen] col reverse asks num val (h4 _) (hstd chosen) hs'
    hcol (by rw [hfc]; exact fun r hr => hdec r (hcm r hr)) (by rw [hfc]; exact fits_of_mem hfit hcm) (by rw [hfc]; exact hcn0) (by rw [hfc]; exact ⟨ht.1, ht.2.1, ht.2.2.1, ht.2.2.2.1, fun r hr => ht.2.2.2.2 r (hcm r hr)⟩) hok (by simp) hcap (by rw [hfc]; exact hcl)
  rw [hfc] at k2
  have e : out = mid.filter p := StableSort.unique (decKeysCmp_preorder (readVal o.exp10) names col reverse num val asks) (k2 hu') (by
    rw [← hch]
    exact stableSort_filter p e2)
  refine ⟨sepHead TAB names ++ sepText TAB out, ?_, ?_⟩
  · simp only [Outside.pipe, e1, Run.bind, List.nil_append, f1, e]
  · simp only [Outside.pipe, g1, Run.bind, List.nil_append, k1]

/-- `cdx sort --key b t | cdx cgrep --invert --pattern b,exact,x -` and the other way round. -/
example : ∃ out, outside0.pipe [("sort", [.opt "key" (ascii "b"), .pos "input_files" (ascii "t")]),
      ("cgrep", [.opt "pattern" (ascii "b,exact,x"), .flag "invert", .pos "input_files" (ascii "-")])] sysDecKeys = .ok out ∧
    outside0.pipe [("cgrep", [.opt "pattern" (ascii "b,exact,x"), .flag "invert", .pos "input_files" (ascii "t")]),
      ("sort", [.opt "key" (ascii "b"), .pos "input_files" (ascii "-")])] sysDecKeys = .ok out :=
  C246_sort outside0 sysDecKeys (cmd0 "sort") (cmd0 "cgrep") (cmd0_mem (by decide +kernel)) (by decide +kernel) (cmd0_mem (by decide +kernel))
    (by decide +kernel) _ _ _ _ none none [.key (ascii "b")] [.key (ascii "b")] [ascii "a", ascii "b"] [ascii "t"] [(ascii "t", rowsDecKeys)]
    [.col ⟨ascii "b", .plain, false⟩] (fun _ => 0) (fun _ _ => 0) [.col ⟨ascii "b", fun v => v == ascii "x"⟩]
    [(ascii "pattern", ascii "b,exact,x"), (ascii "invert", [])] (fun _ _ => 0)
    (fun _ => says_plain (by decide +kernel) (by decide +kernel) (by decide +kernel) (by decide +kernel) (by decide +kernel))
    (fun _ => says_plain (by decide +kernel) (by decide +kernel) (by decide +kernel) (by decide +kernel) (by decide +kernel))
    (fun _ => says_plain (by decide +kernel) (by decide +kernel) (by decide +kernel) (by decide +kernel) (by decide +kernel))
    (fun _ => says_plain (by decide +kernel) (by decide +kernel) (by decide +kernel) (by decide +kernel) (by decide +kernel))
    rfl (by unfold Tables; decide +kernel) ⟨by simp, ⟨rfl, fun x hx => textDecKeys x (List.mem_cons_of_mem _ hx)⟩, by decide, by decide⟩
    ⟨by simp, ⟨rfl, fun x hx => textDecKeys x (List.mem_cons_of_mem _ hx)⟩, by decide, by decide⟩ (by decide) (by decide)
    fitsDecKeys (by
      intro k hk
      simp only [List.head?_cons, Option.mem_def, Option.some.injEq] at hk
      subst hk
      exact .inr ⟨.inr (.inr rfl), by decide +kernel⟩)
    (by decide +kernel) (by decide +kernel)
    (by
      intro x hx
      have : x = (.col ⟨ascii "b", fun v => v == ascii "x"⟩, ascii "b,exact,x") := by
        rw [show valuesOf "pattern" [(ascii "pattern", ascii "b,exact,x"), (ascii "invert", [])] = [ascii "b,exact,x"] by decide +kernel] at hx
        simpa using hx
      subst this
      exact ⟨ascii "b", ascii "exact", ascii "x", .inl rfl, by decide +kernel, (ascii "exact", fun p v => v = p), .inl (by simp [plainMethods]),
        .inl ⟨rfl, fun v => by simp⟩⟩)
    (by
      intro a ha
      rw [List.mem_singleton.1 ha]
      show ascii "b" ∈ [ascii "a", ascii "b"]
      decide)
    (by simp) (by decide) (by decide +kernel)
    (goodTable_ab (by decide +kernel)) (by decide +kernel) (by decide +kernel) (by decide +kernel)

/-- `cdx sort --key a,float --key b t | cdx cgrep --invert --pattern b,exact,x -` and the other way round. -/
example : ∃ out, outside0.pipe [("sort", [.opt "key" (ascii "a,float"), .opt "key" (ascii "b"), .pos "input_files" (ascii "t")]),
      ("cgrep", [.opt "pattern" (ascii "b,exact,x"), .flag "invert", .pos "input_files" (ascii "-")])] sysDecKeys = .ok out ∧
    outside0.pipe [("cgrep", [.opt "pattern" (ascii "b,exact,x"), .flag "invert", .pos "input_files" (ascii "t")]),
      ("sort", [.opt "key" (ascii "a,float"), .opt "key" (ascii "b"), .pos "input_files" (ascii "-")])] sysDecKeys = .ok out :=
  C246_decimals outside0 sysDecKeys (cmd0 "sort") (cmd0 "cgrep") (cmd0_mem (by decide +kernel)) (by decide +kernel) (cmd0_mem (by decide +kernel))
    (by decide +kernel) _ _ _ _ none none [.key (ascii "a,float"), .key (ascii "b")] [.key (ascii "a,float"), .key (ascii "b")] [ascii "a", ascii "b"] [ascii "t"] [(ascii "t", rowsDecKeys)] (ascii "a") false
    [.col ⟨ascii "b", .plain, false⟩] (fun _ => 0) (fun _ _ => 0) [.col ⟨ascii "b", fun v => v == ascii "x"⟩]
    [(ascii "pattern", ascii "b,exact,x"), (ascii "invert", [])] (fun _ _ => 0)
    (fun _ => says_plain (by decide +kernel) (by decide +kernel) (by decide +kernel) (by decide +kernel) (by decide +kernel))
    (fun _ => says_plain (by decide +kernel) (by decide +kernel) (by decide +kernel) (by decide +kernel) (by decide +kernel))
    (fun _ => says_plain (by decide +kernel) (by decide +kernel) (by decide +kernel) (by decide +kernel) (by decide +kernel))
    (fun _ => says_plain (by decide +kernel) (by decide +kernel) (by decide +kernel) (by decide +kernel) (by decide +kernel))
    rfl (by unfold Tables; decide +kernel) ⟨by simp, ⟨rfl, textDecKeys⟩, by decide, by decide⟩
    ⟨by simp, ⟨rfl, textDecKeys⟩, by decide, by decide⟩ (by decide) (by decide)
    (by decide) cellsDecKeys fitsDecKeys
    (by decide +kernel) (by decide +kernel)
    (by
      intro x hx
      have : x = (.col ⟨ascii "b", fun v => v == ascii "x"⟩, ascii "b,exact,x") := by
        rw [show valuesOf "pattern" [(ascii "pattern", ascii "b,exact,x"), (ascii "invert", [])] = [ascii "b,exact,x"] by decide +kernel] at hx
        simpa using hx
      subst this
      exact ⟨ascii "b", ascii "exact", ascii "x", .inl rfl, by decide +kernel, (ascii "exact", fun p v => v = p), .inl (by simp [plainMethods]),
        .inl ⟨rfl, fun v => by simp⟩⟩)
    (by
      intro a ha
      rw [List.mem_singleton.1 ha]
      show ascii "b" ∈ [ascii "a", ascii "b"]
      decide)
    (by simp) (by decide) (by decide +kernel)
    (goodTable_ab (by decide +kernel)) (by decide +kernel) (by decide +kernel) (by decide +kernel)

end Cdx
