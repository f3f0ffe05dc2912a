import Verif.Props.Totals
import Verif.Props.LinkedGrep

/-!
C233: `cdx cgrep | cdx wc`: counting rows by patterns.
-/

namespace Cdx

theorem rows_length : ∀ rows : List (List Bytes), rows.length ≤ (sepText TAB rows).length
  | [] => by simp
  | r :: rows => by
    have ih := rows_length rows
    simp only [sepText, List.flatMap_cons, List.length_append, List.length_cons, List.length_nil] at ih ⊢
    omega

theorem wc_head (a b : Bytes) : (if ((none : Option TextMode).getD .default).head = .cdx ∨ ((none : Option TextMode).getD .default).head = .maybe then
      ascii " CDX" ++ [((none : Option TextMode).getD .default).delim] else []) ++ ascii "lines" ++ [((none : Option TextMode).getD .default).delim] ++
      ascii "bytes" ++ [NL] ++ a ++ [((none : Option TextMode).getD .default).delim] ++ b ++ [NL] = ascii " CDX\tlines\tbytes\n" ++ a ++ [TAB] ++ b ++ [NL] := by
  rfl

theorem world_prn (o : Outside) (s : Sys) : (o.world s).prn = printNum := rfl

theorem world_agg (o : Outside) (s : Sys) : (o.world s).agg = o.agg := rfl

theorem world_short (o : Outside) (s : Sys) {n : Nat} (hn : n ≤ 2 ^ 53) : (o.world s).prn .default ((o.world s).agg.ops.ofNat n) = shortText n := by
  rw [world_prn, world_agg, agg_ofNat]
  exact short_is (is_ofNat hn) (fun e => by rw [Int.ofNat_eq_zero.1 e]; exact zero_pos) (by rw [Int.natAbs_natCast]; exact hn)

/-- C233: `cdx cgrep --pattern … files | cdx wc --lines --bytes -` writes how many rows of the files the patterns choose, and how many bytes they have with
their newlines. -/
theorem C233_counted (o : Outside) (s : Sys) (c d : Cmd) (hc : c ∈ mainList) (hcn : c.name = "cgrep") (hd : d ∈ mainList) (hdn : d.name = "wc")
    (first second : List Tok) (names files : List Bytes) (as : List RowAsk) (opts : List (Bytes × Bytes)) (tables : List (Bytes × List (List Bytes)))
    (val : WholeFormula → List Bytes → Int) (v v' : Bytes) (chosen : List (List Bytes))
    (h1 : ∀ s, Says (o.world s) c first .default none opts files)
    (h2 : ∀ s, Says (o.world s) d second .default none [(ascii "lines", v), (ascii "bytes", v')] [[45]]) (hfl : files = tables.map (·.1))
    (hr : files.map (getReader o.s3 o.gunzip s) = tables.map fun t => some (sepHead TAB names ++ sepText TAB t.2)) (hne : names ≠ []) (hnd : names.Nodup)
    (hv : ∀ n ∈ names, IsName n ∧ nameOkBytes o.classes n = true) (hl : names.length < 2 ^ 64)
    (hknown : ∀ o ∈ opts, o.1 ∈ [ascii "pattern", ascii "or", ascii "invert"]) (hlen : (valuesOf "pattern" opts).length = as.length)
    (htext : ∀ x ∈ as.zip (valuesOf "pattern" opts), x.1.Text names x.2) (hcols : ∀ a ∈ as, a.Cols names)
    (hval : ∀ f, .formula f ∈ as → ∀ t ∈ tables, ∀ r ∈ t.2, f.RowGives names r (val f r))
    (htab : ∀ t ∈ tables, t.1.getLast? ≠ some 47 ∧ SepTable TAB names.length t.2)
    (hch : chosen = (tables.map (·.2)).flatten.filter fun r =>
      (if valuesOf "or" opts ≠ [] then as.any fun a => a.passes names val r else as.all fun a => a.passes names val r) ^^ decide (valuesOf "invert" opts ≠ []))
    (hsome : chosen ≠ []) (hfit : (sepText TAB chosen).length ≤ 2 ^ 53) :
    o.pipe [("cgrep", first), ("wc", second)] s = .ok (ascii " CDX\tlines\tbytes\n" ++ shortText chosen.length ++ [TAB] ++
      shortText (sepText TAB chosen).length ++ [NL]) := by
  have hrows : ∃ t ∈ tables, t.2 ≠ [] := by
    obtain ⟨r, hm⟩ := List.exists_mem_of_ne_nil _ hsome
    rw [hch, List.mem_filter] at hm
    obtain ⟨l, hl, hr⟩ := List.mem_flatten.1 hm.1
    obtain ⟨t, ht, rfl⟩ := List.mem_map.1 hl
    exact ⟨t, ht, List.ne_nil_of_mem hr⟩
  have e1 := C225_grep o { s with stdout := [] } c hc hcn first TAB names files as opts tables val (h1 _) hfl hr (by decide) (by decide) hne hnd hv hl hknown
    hlen htext hcols hval hrows htab
  rw [← hch, List.nil_append] at e1
  have htc : SepTable TAB names.length chosen := by
    intro r hm
    rw [hch, List.mem_filter] at hm
    obtain ⟨l, hl, hr⟩ := List.mem_flatten.1 hm.1
    obtain ⟨t, ht, rfl⟩ := List.mem_map.1 hl
    exact (htab t ht).2 r hr
  have hsn : SepNames TAB names := ⟨hne, fun n hn => name_free (d := TAB) (by decide) (by decide) (hv n hn).1⟩
  obtain ⟨-, -, r3, -⟩ := table_read TAB (by decide) names hsn chosen htc
  have r3 : dataOf .default (sepHead TAB names ++ sepText TAB chosen) = chosen.map fun r => List.intercalate [TAB] r ++ [NL] := r3
  have hb : ((dataOf .default (sepHead TAB names ++ sepText TAB chosen)).map List.length).sum = (sepText TAB chosen).length := by
    rw [r3, sepText, List.length_flatMap, List.map_map]
    rfl
  have hcount : chosen.length ≤ 2 ^ 53 := by
    exact Nat.le_trans (rows_length chosen) hfit
  have e2 := C222_wc_format (o.world { s with stdin := sepHead TAB names ++ sepText TAB chosen, stdout := [] })
    { s with stdin := sepHead TAB names ++ sepText TAB chosen, stdout := [] } d hd hdn second .default none v v' [45]
    (sepHead TAB names ++ sepText TAB chosen) (h2 _) (by
      have := stdin_read (o.world { s with stdin := sepHead TAB names ++ sepText TAB chosen, stdout := [] })
        { s with stdin := sepHead TAB names ++ sepText TAB chosen, stdout := [] } names _ rfl
      simpa using this) rfl (by rw [r3]; simpa using hsome)
  rw [hb, r3, List.length_map] at e2
  rw [world_short o _ hcount, world_short o _ hfit] at e2
  simp only [Outside.pipe, e1, Run.bind]
  unfold Outside.run
  rw [e2]
  simp only [List.nil_append]
  rw [wc_head]

/-- `cdx cgrep --pattern ,expr,a*b --pattern b,exact,5 --invert t | cdx wc --lines --bytes -`. -/
example : outside0.pipe [("cgrep", [.opt "pattern" (ascii ",expr,a*b"), .opt "pattern" (ascii "b,exact,5"), .flag "invert", .pos "input_files" (ascii "t")]),
      ("wc", [.flag "lines", .flag "bytes", .pos "input_files" (ascii "-")])] sys8 = .ok (ascii " CDX\tlines\tbytes\n2\t9\n") := by
  rw [C233_counted outside0 sys8 (cmd0 "cgrep") (cmd0 "wc") (cmd0_mem (by decide +kernel)) (by decide +kernel) (cmd0_mem (by decide +kernel))
    (by decide +kernel) [.opt "pattern" (ascii ",expr,a*b"), .opt "pattern" (ascii "b,exact,5"), .flag "invert", .pos "input_files" (ascii "t")]
    [.flag "lines", .flag "bytes", .pos "input_files" (ascii "-")] [ascii "a", ascii "b"] [ascii "t"]
    [.formula product, .col ⟨ascii "b", fun v => v == ascii "5"⟩]
    [(ascii "pattern", ascii ",expr,a*b"), (ascii "pattern", ascii "b,exact,5"), (ascii "invert", [])] [(ascii "t", rows8)] val8 [] []
    [[ascii "5", ascii "3"], [ascii "10", ascii "2"]]
    (fun _ => says_plain (by decide +kernel) (by decide +kernel) (by decide +kernel) (by decide +kernel) (by decide +kernel))
    (fun _ => says_plain (by decide +kernel) (by decide +kernel) (by decide +kernel) (by decide +kernel) (by decide +kernel)) rfl (by decide +kernel)
    (by simp) (by decide +kernel)
    (by
      intro n hn
      have : n = ascii "a" ∨ n = ascii "b" := by simpa using hn
      rcases this with rfl | rfl
      · exact ⟨one_letter 97 (by unfold Letter; decide), by decide +kernel⟩
      · exact ⟨one_letter 98 (by unfold Letter; decide), by decide +kernel⟩) (by decide) (by decide +kernel) (by decide +kernel)
    (by
      intro x hx
      have : x = (.formula product, ascii ",expr,a*b") ∨ x = (.col ⟨ascii "b", fun v => v == ascii "5"⟩, ascii "b,exact,5") := by
        rw [show valuesOf "pattern" [(ascii "pattern", ascii ",expr,a*b"), (ascii "pattern", ascii "b,exact,5"), (ascii "invert", [])] =
          [ascii ",expr,a*b", ascii "b,exact,5"] by decide +kernel] at hx
        simpa using hx
      rcases this with rfl | rfl
      · show ascii ",expr,a*b" = _
        decide +kernel
      · exact ⟨ascii "b", ascii "exact", ascii "5", .inl rfl, by decide +kernel, (ascii "exact", fun p v => v = p), .inl (by simp [plainMethods]),
          .inl ⟨rfl, fun v => by simp⟩⟩)
    (by
      intro a ha
      simp only [List.mem_cons, List.not_mem_nil, or_false] at ha
      rcases ha with rfl | rfl
      · refine ⟨product_ok, by decide +kernel, ?_⟩
        intro x hx
        rcases product_names hx with rfl | rfl <;> decide
      · show ascii "b" ∈ _
        decide +kernel)
    (by
      intro f hf t ht r hr
      simp only [List.mem_cons, List.not_mem_nil, or_false, RowAsk.formula.injEq, reduceCtorEq] at hf
      subst hf
      simp only [List.mem_cons, List.not_mem_nil, or_false] at ht
      subst ht
      exact (fits8 (fun _ => 0) (.formula product false) (by simp)).2.2.2 r hr)
    (by decide +kernel) (by decide +kernel) (by simp) (by decide +kernel)]
  congr 1

end Cdx
