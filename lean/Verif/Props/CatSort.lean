import Verif.Props.DecPipes
import Verif.Props.RunCmds

/-!
C245: `cat` before `sort`.
-/

namespace Cdx

theorem termLines_rows {k : Nat} {rows : List (List Bytes)} (h : SepTable TAB k rows) : (termLines (sepText TAB rows)).flatten = sepText TAB rows := by
  unfold termLines
  rw [sepText_lines, readLines_flatten _ (by
    intro l hl
    obtain ⟨r, hr, rfl⟩ := List.mem_map.1 hl
    exact sepRow_isLine (by decide) h hr)]

theorem termLines_table {names : List Bytes} (hn : SepNames TAB names) (rows : List (List Bytes)) :
    termLines (sepHead TAB names ++ sepText TAB rows) = sepHead TAB names :: termLines (sepText TAB rows) := by
  have he : ensureEof NL (sepHead TAB names) = sepHead TAB names := by simp [ensureEof, sepHead]
  rw [termLines_eq _ (by simp [sepHead]), firstLine, table_first names hn, he]

theorem catText_rest {names : List Bytes} (hn : SepNames TAB names) (tables : List (List (List Bytes))) :
    SepTable TAB names.length tables.flatten →
    catText (tables.map fun rows => sepHead TAB names ++ sepText TAB rows) (tables.map fun _ => false) = sepText TAB tables.flatten := by
  induction tables with
  | nil => intro _; rfl
  | cons rows tables ih =>
    intro ht
    have h1 : SepTable TAB names.length rows := fun r hr => ht r (by simp [hr])
    have h2 : SepTable TAB names.length tables.flatten := fun r hr => ht r (by
      rw [List.flatten_cons, List.mem_append]
      exact .inr hr)
    simp only [List.map_cons, catText, termLines_table hn, ih h2, Bool.false_eq_true, if_false, List.tail_cons, termLines_rows h1, List.flatten_cons,
      sepText_append]

/-- C245: `cat` of tables with the same header writes the header once and all rows. -/
theorem C245_cat (o : Outside) (s : Sys) (c : Cmd) (hc : c ∈ mainList) (hn : c.name = "cat") (toks : List Tok) (m : TextMode) (t : Option TextMode)
    (files names : List Bytes) (tables : List (List (List Bytes))) (h : Says (o.world s) c toks m t [] files)
    (hr : Tables (o.world s) s files names tables) (ht : GoodTable names tables.flatten)
    (hok : ∀ n ∈ names, nameOkBytes o.classes n = true) (htn : tables ≠ []) :
    o.run "cat" toks s = .ok { s with stdout := s.stdout ++ (sepHead TAB names ++ sepText TAB tables.flatten) } := by
  obtain ⟨t1, t2, t3, t4, t5⟩ := ht
  have hnm : SepNames TAB names := ⟨t1, fun n hn => name_free (d := TAB) (by decide) (by decide) (t2 n hn)⟩
  obtain ⟨r1, -⟩ := hr.read
  have hcdx : isCdx (sepHead TAB names) = true := by rw [sepHead_eq TAB names t1]; simp [isCdx, cdxTag, List.isPrefixOf]
  have hne : nonEmpty (tables.map fun rows => sepHead TAB names ++ sepText TAB rows) = tables.map fun rows => sepHead TAB names ++ sepText TAB rows := by
    unfold nonEmpty
    rw [List.filter_eq_self]
    intro f hf
    obtain ⟨rows, -, rfl⟩ := List.mem_map.1 hf
    simp [sepHead]
  have hfl : ∀ f ∈ nonEmpty (tables.map fun rows => sepHead TAB names ++ sepText TAB rows), firstLine f = sepHead TAB names := by
    intro f hf
    rw [hne] at hf
    obtain ⟨rows, -, rfl⟩ := List.mem_map.1 hf
    rw [firstLine, table_first names hnm]
  have hpol : headerPolicy .matching ((nonEmpty (tables.map fun rows => sepHead TAB names ++ sepText TAB rows)).map firstLine) =
      some (true :: tables.tail.map fun _ => false) := by
    have e : (nonEmpty (tables.map fun rows => sepHead TAB names ++ sepText TAB rows)).map firstLine = tables.map fun _ => sepHead TAB names := by
      rw [List.map_congr_left hfl, hne, List.map_map]
      rfl
    rw [e]
    cases tables with
    | nil => exact absurd rfl htn
    | cons rows tables =>
      unfold headerPolicy
      simp only
      rw [if_pos (.inl (by
        intro l hl
        obtain ⟨-, -, rfl⟩ := List.mem_map.1 hl
        exact ⟨hcdx, rfl⟩))]
      simp [hcdx]
  have g := C222_cat (o.world s) s c hc hn toks m t [] files _ _ {} h ((catOptions_iff _ _ _ _).1 rfl) (by simp) r1
    (by
      intro f hf
      rw [hfl f hf]
      exact sepHead_ok _ TAB (by decide) names hnm hok) hpol
    (by
      intro f hf
      rw [hne] at hf
      obtain ⟨rows, -, rfl⟩ := List.mem_map.1 hf
      rw [sepText_lines]
      rcases List.eq_nil_or_concat rows with rfl | ⟨l, r, rfl⟩
      · simp [sepHead]
      · simp [← List.append_assoc])
  unfold Outside.run
  rw [g, hne]
  cases tables with
  | nil => exact absurd rfl htn
  | cons rows tables =>
    have h1 : SepTable TAB names.length rows := fun r hr => t5 r (by simp [hr])
    have h2 : SepTable TAB names.length tables.flatten := fun r hr => t5 r (by
      rw [List.flatten_cons, List.mem_append]
      exact .inr hr)
    simp only [List.map_cons, List.tail_cons, catText, termLines_table hnm, catText_rest hnm tables h2, if_true, List.flatten_cons, termLines_rows h1,
      sepText_append, List.append_assoc]

/-- C245: `cdx cat files | cdx sort -` writes what `cdx sort files` writes, by whole numbers, texts and formulas. -/
theorem C245_sort (o : Outside) (s : Sys) (c d : Cmd) (hc : c ∈ mainList) (hcn : c.name = "sort") (hd : d ∈ mainList) (hdn : d.name = "cat")
    (first second once : List Tok) (m : TextMode) (t t' t'' : Option TextMode) (os os' : List SortOpt) (files names : List Bytes)
    (tables : List (List (List Bytes)))
    (asks : List SortAsk) (num : Bytes → Int) (val : WholeFormula → List Bytes → Int)
    (h1 : ∀ s, Says (o.world s) d first m t [] files) (h2 : ∀ s, Says (o.world s) c second .default t' (os.map SortOpt.said) [[45]])
    (h3 : ∀ s, Says (o.world s) c once .default t'' (os'.map SortOpt.said) files)
    (hr : Tables (o.world s) s files names tables) (hs : AsksSort names asks os) (hs' : AsksSort names asks os')
    (hu : SortOpt.unique ∈ os ↔ SortOpt.unique ∈ os')
    (hfit : ∀ k ∈ asks, k.Fits names num val tables.flatten) (hfirst : ∀ k ∈ asks.head?, k.First names val tables.flatten)
    (ht : GoodTable names tables.flatten) (hok : ∀ n ∈ names, nameOkBytes o.classes n = true) (hrows : tables.flatten ≠ [])
    (hcap : 8 < o.cap) (hlen : (sepText TAB tables.flatten).length < o.cap) :
    ∃ out, o.pipe [("cat", first), ("sort", second)] s = .ok out ∧ o.pipe [("sort", once)] s = .ok out := by
  have htn : tables ≠ [] := by rintro rfl; exact hrows rfl
  have hfl : [tables.flatten].flatten = tables.flatten := List.flatten_singleton ..
  have e1 := C245_cat o { s with stdout := [] } d hd hdn first m t files names tables (h1 _) hr ht hok htn
  have hstd : Tables (o.world { s with stdin := sepHead TAB names ++ sepText TAB tables.flatten, stdout := [] })
      { s with stdin := sepHead TAB names ++ sepText TAB tables.flatten, stdout := [] } [[45]] names [tables.flatten] := by
    have := stdin_read (o.world { s with stdin := sepHead TAB names ++ sepText TAB tables.flatten, stdout := [] })
      { s with stdin := sepHead TAB names ++ sepText TAB tables.flatten, stdout := [] } names _ rfl
    unfold Tables
    simpa using this
  obtain ⟨out, f1, f2, f3⟩ := C226_partial o { s with stdin := sepHead TAB names ++ sepText TAB tables.flatten, stdout := [] } c hc hcn second .default t' os
    [[45]] names [tables.flatten] asks num val (h2 _) hstd hs (by rw [hfl]; exact hfit) (by rw [hfl]; exact hfirst) (by rw [hfl]; exact ht) hok
    (by rw [hfl]; exact hrows) hcap (by rw [hfl]; exact hlen)
  obtain ⟨out', g1, g2, g3⟩ := C226_partial o { s with stdout := [] } c hc hcn once .default t'' os' files names tables asks num val (h3 _) hr hs' hfit
    hfirst ht hok hrows hcap hlen
  rw [hfl] at f2 f3
  have e : out' = out := by
    by_cases h : SortOpt.unique ∈ os
    · exact uniqueSort_unique (askCmp_preorder names num val asks) (g3 (hu.1 h)) (f3 h)
    · exact StableSort.unique (askCmp_preorder names num val asks) (g2 fun h' => h (hu.2 h')) (f2 h)
  refine ⟨sepHead TAB names ++ sepText TAB out, ?_, ?_⟩
  · simp only [Outside.pipe, e1, Run.bind, List.nil_append, f1]
  · simp only [Outside.pipe, g1, Run.bind, List.nil_append, e]

/-- C245: `cdx cat files | cdx sort -` writes what `cdx sort files` writes, by decimals and further keys. -/
theorem C245_decimals (o : Outside) (s : Sys) (c d : Cmd) (hc : c ∈ mainList) (hcn : c.name = "sort") (hd : d ∈ mainList) (hdn : d.name = "cat")
    (first second once : List Tok) (m : TextMode) (t t' t'' : Option TextMode) (os os' : List SortOpt) (files names : List Bytes)
    (tables : List (List (List Bytes))) (col : Bytes) (reverse : Bool)
    (asks : List SortAsk) (num : Bytes → Int) (val : WholeFormula → List Bytes → Int)
    (h1 : ∀ s, Says (o.world s) d first m t [] files) (h2 : ∀ s, Says (o.world s) c second .default t' (os.map SortOpt.said) [[45]])
    (h3 : ∀ s, Says (o.world s) c once .default t'' (os'.map SortOpt.said) files)
    (hr : Tables (o.world s) s files names tables) (hs : AsksSort names (.col ⟨col, .float, reverse⟩ :: asks) os) (hs' : AsksSort names (.col ⟨col, .float, reverse⟩ :: asks) os')
    (hu : SortOpt.unique ∈ os ↔ SortOpt.unique ∈ os')
    (hcol : col ∈ names) (hdec : ∀ r ∈ tables.flatten, ∃ q, DecCell (cellOf names r col) q)
    (hfit : ∀ k ∈ asks, k.Fits names num val tables.flatten)
    (ht : GoodTable names tables.flatten) (hok : ∀ n ∈ names, nameOkBytes o.classes n = true) (hrows : tables.flatten ≠ [])
    (hcap : 8 < o.cap) (hlen : (sepText TAB tables.flatten).length < o.cap) :
    ∃ out, o.pipe [("cat", first), ("sort", second)] s = .ok out ∧ o.pipe [("sort", once)] s = .ok out := by
  have htn : tables ≠ [] := by rintro rfl; exact hrows rfl
  have hfl : [tables.flatten].flatten = tables.flatten := List.flatten_singleton ..
  have e1 := C245_cat o { s with stdout := [] } d hd hdn first m t files names tables (h1 _) hr ht hok htn
  have hstd : Tables (o.world { s with stdin := sepHead TAB names ++ sepText TAB tables.flatten, stdout := [] })
      { s with stdin := sepHead TAB names ++ sepText TAB tables.flatten, stdout := [] } [[45]] names [tables.flatten] := by
    have := stdin_read (o.world { s with stdin := sepHead TAB names ++ sepText TAB tables.flatten, stdout := [] })
      { s with stdin := sepHead TAB names ++ sepText TAB tables.flatten, stdout := [] } names _ rfl
    unfold Tables
    simpa using this
  obtain ⟨out, f1, f2, f3⟩ := decKeys_run_sort o { s with stdin := sepHead TAB names ++ sepText TAB tables.flatten, stdout := [] } c hc hcn second .default t' os
    [[45]] names [tables.flatten] col reverse asks num val (h2 _) hstd hs hcol (by rw [hfl]; exact hdec) (by rw [hfl]; exact hfit)
    (by rw [hfl]; exact hrows) (by rw [hfl]; exact ht) hok (by simp) hcap (by rw [hfl]; exact hlen)
  obtain ⟨out', g1, g2, g3⟩ := decKeys_run_sort o { s with stdout := [] } c hc hcn once .default t'' os' files names tables col reverse asks num val
    (h3 _) hr hs' hcol hdec hfit hrows ht hok htn hcap hlen
  rw [hfl] at f2 f3
  have e : out' = out := by
    by_cases h : SortOpt.unique ∈ os
    · exact uniqueSort_unique (decKeysCmp_preorder (readVal o.exp10) names col reverse num val asks) (g3 (hu.1 h)) (f3 h)
    · exact StableSort.unique (decKeysCmp_preorder (readVal o.exp10) names col reverse num val asks) (g2 fun h' => h (hu.2 h')) (f2 h)
  refine ⟨sepHead TAB names ++ sepText TAB out, ?_, ?_⟩
  · simp only [Outside.pipe, e1, Run.bind, List.nil_append, f1]
  · simp only [Outside.pipe, g1, Run.bind, List.nil_append, e]

/-- `cdx cat t t`. -/
example : outside0.run "cat" [.pos "input_files" (ascii "t"), .pos "input_files" (ascii "t")] sysDecKeys =
    .ok { sysDecKeys with stdout := ascii "> CDX\ta\tb\n3.25\ty\n-0.1\tz\n3.25\tx\n3.25\ty\n-0.1\tz\n3.25\tx\n" } :=
  C245_cat outside0 sysDecKeys (cmd0 "cat") (cmd0_mem (by decide +kernel)) (by decide +kernel)
    [.pos "input_files" (ascii "t"), .pos "input_files" (ascii "t")] .default none [ascii "t", ascii "t"] [ascii "a", ascii "b"] [rowsDecKeys, rowsDecKeys]
    (says_plain (by decide +kernel) (by decide +kernel) (by decide +kernel) (by decide +kernel) (by decide +kernel)) (by unfold Tables; decide +kernel)
    (goodTable_ab (by decide +kernel)) (by decide +kernel) (by simp)

/-- `cdx cat t t | cdx sort --key b -` and `cdx sort --key b t t`. -/
example : ∃ out, outside0.pipe [("cat", [.pos "input_files" (ascii "t"), .pos "input_files" (ascii "t")]),
      ("sort", [.opt "key" (ascii "b"), .pos "input_files" (ascii "-")])] sysDecKeys = .ok out ∧
    outside0.pipe [("sort", [.opt "key" (ascii "b"), .pos "input_files" (ascii "t"), .pos "input_files" (ascii "t")])] sysDecKeys = .ok out :=
  C245_sort outside0 sysDecKeys (cmd0 "sort") (cmd0 "cat") (cmd0_mem (by decide +kernel)) (by decide +kernel) (cmd0_mem (by decide +kernel)) (by decide +kernel)
    _ _ _ .default none none none [.key (ascii "b")] [.key (ascii "b")] [ascii "t", ascii "t"] [ascii "a", ascii "b"] [rowsDecKeys, rowsDecKeys]
    [.col ⟨ascii "b", .plain, false⟩] (fun _ => 0) (fun _ _ => 0)
    (fun _ => says_plain (by decide +kernel) (by decide +kernel) (by decide +kernel) (by decide +kernel) (by decide +kernel))
    (fun _ => says_plain (by decide +kernel) (by decide +kernel) (by decide +kernel) (by decide +kernel) (by decide +kernel))
    (fun _ => says_plain (by decide +kernel) (by decide +kernel) (by decide +kernel) (by decide +kernel) (by decide +kernel))
    (by unfold Tables; decide +kernel)
    ⟨by simp, ⟨rfl, fun x hx => textDecKeys x (List.mem_cons_of_mem _ hx)⟩, by decide, by decide⟩
    ⟨by simp, ⟨rfl, fun x hx => textDecKeys x (List.mem_cons_of_mem _ hx)⟩, by decide, by decide⟩ Iff.rfl
    (fits_of_mem fitsDecKeys (by decide)) (by
      intro k hk
      simp only [List.head?_cons, Option.mem_def, Option.some.injEq] at hk
      subst hk
      exact .inr ⟨.inr (.inr rfl), by decide +kernel⟩)
    (goodTable_ab (by decide +kernel)) (by decide +kernel) (by decide) (by decide +kernel) (by decide +kernel)

/-- `cdx cat t t | cdx sort --key a,float --key b -` and `cdx sort --key a,float --key b t t`. -/
example : ∃ out, outside0.pipe [("cat", [.pos "input_files" (ascii "t"), .pos "input_files" (ascii "t")]),
      ("sort", [.opt "key" (ascii "a,float"), .opt "key" (ascii "b"), .pos "input_files" (ascii "-")])] sysDecKeys = .ok out ∧
    outside0.pipe [("sort", [.opt "key" (ascii "a,float"), .opt "key" (ascii "b"), .pos "input_files" (ascii "t"), .pos "input_files" (ascii "t")])] sysDecKeys =
      .ok out :=
  C245_decimals outside0 sysDecKeys (cmd0 "sort") (cmd0 "cat") (cmd0_mem (by decide +kernel)) (by decide +kernel) (cmd0_mem (by decide +kernel))
    (by decide +kernel) _ _ _ .default none none none [.key (ascii "a,float"), .key (ascii "b")] [.key (ascii "a,float"), .key (ascii "b")] [ascii "t", ascii "t"]
    [ascii "a", ascii "b"] [rowsDecKeys, rowsDecKeys] (ascii "a") false [.col ⟨ascii "b", .plain, false⟩] (fun _ => 0) (fun _ _ => 0)
    (fun _ => says_plain (by decide +kernel) (by decide +kernel) (by decide +kernel) (by decide +kernel) (by decide +kernel))
    (fun _ => says_plain (by decide +kernel) (by decide +kernel) (by decide +kernel) (by decide +kernel) (by decide +kernel))
    (fun _ => says_plain (by decide +kernel) (by decide +kernel) (by decide +kernel) (by decide +kernel) (by decide +kernel))
    (by unfold Tables; decide +kernel) ⟨by simp, ⟨rfl, textDecKeys⟩, by decide, by decide⟩ ⟨by simp, ⟨rfl, textDecKeys⟩, by decide, by decide⟩ Iff.rfl
    (by decide) (fun r hr => cellsDecKeys r ((by decide : ∀ r ∈ [rowsDecKeys, rowsDecKeys].flatten, r ∈ [rowsDecKeys].flatten) r hr))
    (fits_of_mem fitsDecKeys (by decide))
    (goodTable_ab (by decide +kernel)) (by decide +kernel) (by decide) (by decide +kernel) (by decide +kernel)

end Cdx
