import Verif.Props.DecAgree
import Verif.Props.TwiceNums

/-!
C241: sorting and making unique twice by decimals.
-/

namespace Cdx

/-- C241: sorting what was sorted by the same column of decimals changes nothing. -/
theorem C241_sort (o : Outside) (s : Sys) (c : Cmd) (hc : c ∈ mainList) (hcn : c.name = "sort")
    (first second : List Tok) (t t' : Option TextMode) (os os' : List SortOpt) (files names : List Bytes)
    (tables : List (List (List Bytes))) (col : Bytes) (reverse : Bool)
    (h1 : ∀ s, Says (o.world s) c first .default t (os.map SortOpt.said) files)
    (h2 : ∀ s, Says (o.world s) c second .default t' (os'.map SortOpt.said) [[45]])
    (hr : Tables (o.world s) s files names tables) (hs : AsksSort names [.col ⟨col, .float, reverse⟩] os)
    (hs' : AsksSort names [.col ⟨col, .float, reverse⟩] os') (hu : SortOpt.unique ∉ os) (hu' : SortOpt.unique ∉ os') (hcol : col ∈ names)
    (hdec : ∀ r ∈ tables.flatten, ∃ q, DecCell (cellOf names r col) q)
    (ht : GoodTable names tables.flatten) (hok : ∀ n ∈ names, nameOkBytes o.classes n = true) (htn : tables ≠ [])
    (hcap : 8 < o.cap) (hlen : (sepText TAB tables.flatten).length < o.cap) :
    ∃ out, o.pipe [("sort", first)] s = .ok out ∧ o.pipe [("sort", first), ("sort", second)] s = .ok out := by
  obtain ⟨mid, e1, e2, -⟩ := dec_sort o { s with stdout := [] } c hc hcn first .default t os files names tables col reverse (h1 _) hr hs hcol hdec
    ht hok htn hcap hlen
  have e2 := e2 hu
  have hm : ∀ r ∈ mid, r ∈ tables.flatten := fun r hr => e2.perm.mem_iff.1 hr
  have hl : (sepText TAB mid).length = (sepText TAB tables.flatten).length := (e2.perm.flatMap_right _).length_eq
  obtain ⟨out, f1, f2, -⟩ := dec_sort o { s with stdin := sepHead TAB names ++ sepText TAB mid, stdout := [] } c hc hcn second .default t' os'
    [[45]] names [mid] col reverse (h2 _) (by
      have := stdin_read (o.world { s with stdin := sepHead TAB names ++ sepText TAB mid, stdout := [] })
        { s with stdin := sepHead TAB names ++ sepText TAB mid, stdout := [] } names _ rfl
      unfold Tables
      simpa using this) hs' hcol
    (by
      rw [List.flatten_singleton]
      exact fun r hr => hdec r (hm r hr))
    (by
      rw [List.flatten_singleton]
      exact ⟨ht.1, ht.2.1, ht.2.2.1, ht.2.2.2.1, fun r hr => ht.2.2.2.2 r (hm r hr)⟩) hok (by simp) hcap
    (by rw [List.flatten_singleton]; omega)
  rw [List.flatten_singleton] at f2
  have e : out = mid := StableSort.unique (nearCmp_preorder (readVal o.exp10) names col reverse) (f2 hu') ⟨.refl _, e2.sorted, fun _ => rfl⟩
  refine ⟨sepHead TAB names ++ sepText TAB mid, ?_, ?_⟩
  · simp only [Outside.pipe, e1, Run.bind, List.nil_append]
  · simp only [Outside.pipe, e1, Run.bind, List.nil_append, f1, e]

/-- C241: `uniq` of what `uniq` wrote, by the same column of decimals, changes nothing. -/
theorem C241_uniq (o : Outside) (s : Sys) (d : Cmd) (hd : d ∈ mainList) (hdn : d.name = "uniq")
    (first second : List Tok) (t t' : Option TextMode) (opts opts' : List (Bytes × Bytes)) (file : Bytes) (names : List Bytes)
    (rows : List (List Bytes)) (col : Bytes) (reverse : Bool)
    (h1 : ∀ s, Says (o.world s) d first .default t opts [file]) (h2 : ∀ s, Says (o.world s) d second .default t' opts' [[45]])
    (hr : getReader (o.world s).s3 (o.world s).gunzip s file = some (sepHead TAB names ++ sepText TAB rows))
    (hg : GoodTable names rows) (hf : AsksUniq names [.col ⟨col, .float, reverse⟩] [] .none opts)
    (hf' : AsksUniq names [.col ⟨col, .float, reverse⟩] [] .none opts') (hcol : col ∈ names)
    (hdec : ∀ r ∈ rows, ∃ q, DecCell (cellOf names r col) q) :
    ∃ out, o.pipe [("uniq", first)] s = .ok out ∧ o.pipe [("uniq", first), ("uniq", second)] s = .ok out := by
  have hpre := nearCmp_preorder (readVal o.exp10) names col reverse
  have r1 := dec_uniq o { s with stdout := [] } d hd hdn first t opts file names rows col reverse [] .none (h1 _) hr hg hf hcol hdec
  simp only [addAt] at r1
  have hm : ∀ r ∈ (runCounts (fun a b => nearCmp (readVal o.exp10) names col reverse a b == .eq) rows).map (·.1), r ∈ rows := by
    intro r hr
    obtain ⟨p, hp, rfl⟩ := List.mem_map.1 hr
    exact runCounts_mem _ _ p hp
  have hone := runCounts_single (fun a b => nearCmp (readVal o.exp10) names col reverse a b == .eq)
    ((runCounts (fun a b => nearCmp (readVal o.exp10) names col reverse a b == .eq) rows).map (·.1)) (by
      intro a b us vs e
      have := runCounts_apart hpre rows a b us vs e
      simpa using this)
  generalize hmid : (runCounts (fun a b => nearCmp (readVal o.exp10) names col reverse a b == .eq) rows).map (·.1) = mid at *
  have r2 := dec_uniq o { s with stdin := sepHead TAB names ++ sepText TAB mid, stdout := [] } d hd hdn second t' opts' [45] names mid col reverse
    [] .none (h2 _) (by
      have := stdin_read (o.world { s with stdin := sepHead TAB names ++ sepText TAB mid, stdout := [] })
        { s with stdin := sepHead TAB names ++ sepText TAB mid, stdout := [] } names _ rfl
      simpa using this)
    ⟨hg.1, hg.2.1, hg.2.2.1, hg.2.2.2.1, fun r hr => hg.2.2.2.2 r (hm r hr)⟩ hf' hcol (fun r hr => hdec r (hm r hr))
  simp only [addAt] at r2
  rw [hone, List.map_map, show ((fun p : List Bytes × Nat => p.1) ∘ fun x => (x, 1)) = id from rfl, List.map_id] at r2
  refine ⟨sepHead TAB names ++ sepText TAB mid, ?_, ?_⟩
  · simp only [Outside.pipe, r1, Run.bind, List.nil_append]
  · simp only [Outside.pipe, r1, Run.bind, List.nil_append, r2]

/-! ## Minus zero -/

/-- `0.0` before `-0.0`. -/
def sysZero : Sys :=
  { files := fun n => if n = ascii "t" then some (ascii " CDX\ta\tb\n0.0\tx\n-0.0\ty\n") else none
    stdin := [], stdout := [], stderr := [] }

/-- Why `-0` is left out of C238 and C239: `sort` puts it before the `0` that was before it, although `uniq` takes both for the same number. -/
theorem C238_minus_zero :
    written (outside0.run "sort" [.opt "key" (ascii "a,float"), .pos "input_files" (ascii "t")] sysZero) =
      written (.ok { sysZero with stdout := ascii " CDX\ta\tb\n-0.0\ty\n0.0\tx\n" }) ∧
    written (outside0.run "uniq" [.opt "key" (ascii "a,float"), .pos "input_files" (ascii "t")] sysZero) =
      written (.ok { sysZero with stdout := ascii " CDX\ta\tb\n0.0\tx\n" }) := by
  decide +kernel

/-! ## Examples -/

/-- `cdx sort --key a,float t | cdx sort --key a,float -`. -/
example : ∃ out, outside0.pipe [("sort", [.opt "key" (ascii "a,float"), .pos "input_files" (ascii "t")])] sysDec = .ok out ∧
    outside0.pipe [("sort", [.opt "key" (ascii "a,float"), .pos "input_files" (ascii "t")]),
      ("sort", [.opt "key" (ascii "a,float"), .pos "input_files" (ascii "-")])] sysDec = .ok out :=
  C241_sort outside0 sysDec (cmd0 "sort") (cmd0_mem (by decide +kernel)) (by decide +kernel)
    _ _ none none [.key (ascii "a,float")] [.key (ascii "a,float")] [ascii "t"] [ascii "a", ascii "b"] [rowsDec] (ascii "a") false
    (fun _ => says_plain (by decide +kernel) (by decide +kernel) (by decide +kernel) (by decide +kernel) (by decide +kernel))
    (fun _ => says_plain (by decide +kernel) (by decide +kernel) (by decide +kernel) (by decide +kernel) (by decide +kernel))
    (by unfold Tables; decide +kernel) ⟨by simp, ⟨rfl, textDec⟩, by decide, by decide⟩ ⟨by simp, ⟨rfl, textDec⟩, by decide, by decide⟩ (by decide) (by decide)
    (by decide) cellsDec (goodTable_ab (by decide +kernel)) (by decide +kernel) (by simp) (by decide +kernel) (by decide +kernel)

/-- `cdx uniq --key a,float t | cdx uniq --key a,float -`. -/
example : ∃ out, outside0.pipe [("uniq", [.opt "key" (ascii "a,float"), .pos "input_files" (ascii "t")])] sysDec = .ok out ∧
    outside0.pipe [("uniq", [.opt "key" (ascii "a,float"), .pos "input_files" (ascii "t")]),
      ("uniq", [.opt "key" (ascii "a,float"), .pos "input_files" (ascii "-")])] sysDec = .ok out :=
  C241_uniq outside0 sysDec (cmd0 "uniq") (cmd0_mem (by decide +kernel)) (by decide +kernel)
    _ _ none none [(ascii "key", ascii "a,float")] [(ascii "key", ascii "a,float")] (ascii "t") [ascii "a", ascii "b"] rowsDec (ascii "a") false
    (fun _ => says_plain (by decide +kernel) (by decide +kernel) (by decide +kernel) (by decide +kernel) (by decide +kernel))
    (fun _ => says_plain (by decide +kernel) (by decide +kernel) (by decide +kernel) (by decide +kernel) (by decide +kernel))
    (by decide +kernel) (goodTable_ab (by decide +kernel))
    ⟨by decide +kernel, ⟨rfl, textDec⟩, lastMeans_nil.2 rfl, fun h => absurd rfl h⟩
    ⟨by decide +kernel, ⟨rfl, textDec⟩, lastMeans_nil.2 rfl, fun h => absurd rfl h⟩ (by decide) (by simpa using cellsDec)

end Cdx
