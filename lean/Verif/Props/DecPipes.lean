import Verif.Props.DecKeysAgree
import Verif.Props.PipesSort

/-!
C244: sorting by keys and then by decimals.
-/

namespace Cdx

/-- C244: `cdx sort --key keys files | cdx sort --key col,float -` writes what `cdx sort --key col,float --key keys files` writes, byte for byte. -/
theorem C244_then (o : Outside) (s : Sys) (c : Cmd) (hc : c ∈ mainList) (hcn : c.name = "sort") (first second once : List Tok)
    (t t' t'' : Option TextMode) (os os' os'' : List SortOpt) (files names : List Bytes) (tables : List (List (List Bytes))) (col : Bytes)
    (reverse : Bool) (asks : List SortAsk) (num : Bytes → Int) (val : WholeFormula → List Bytes → Int)
    (h1 : ∀ s, Says (o.world s) c first .default t (os.map SortOpt.said) files)
    (h2 : ∀ s, Says (o.world s) c second .default t' (os'.map SortOpt.said) [[45]])
    (h3 : ∀ s, Says (o.world s) c once .default t'' (os''.map SortOpt.said) files)
    (hr : Tables (o.world s) s files names tables) (hs : AsksSort names asks os) (hs' : AsksSort names [.col ⟨col, .float, reverse⟩] os')
    (hs'' : AsksSort names (.col ⟨col, .float, reverse⟩ :: asks) os'') (hu : SortOpt.unique ∉ os) (hu' : SortOpt.unique ∉ os')
    (hu'' : SortOpt.unique ∉ os'') (hcol : col ∈ names) (hdec : ∀ r ∈ tables.flatten, ∃ q, DecCell (cellOf names r col) q)
    (hfit : ∀ k ∈ asks, k.Fits names num val tables.flatten) (hfirst : ∀ k ∈ asks.head?, k.First names val tables.flatten)
    (ht : GoodTable names tables.flatten) (hok : ∀ n ∈ names, nameOkBytes o.classes n = true) (hrows : tables.flatten ≠ [])
    (hcap : 8 < o.cap) (hlen : (sepText TAB tables.flatten).length < o.cap) :
    ∃ out, o.pipe [("sort", first), ("sort", second)] s = .ok out ∧ o.pipe [("sort", once)] s = .ok out := by
  have htn : tables ≠ [] := by rintro rfl; exact hrows rfl
  obtain ⟨mid, e1, e2, -⟩ := C226_partial o { s with stdout := [] } c hc hcn first .default t os files names tables asks num val (h1 _) hr hs hfit hfirst
    ht hok hrows hcap hlen
  have e2 := e2 hu
  have hm : ∀ r ∈ mid, r ∈ tables.flatten := fun r hr => e2.perm.mem_iff.1 hr
  have hl : (sepText TAB mid).length = (sepText TAB tables.flatten).length := (e2.perm.flatMap_right _).length_eq
  obtain ⟨out, f1, f2, -⟩ := dec_sort o { s with stdin := sepHead TAB names ++ sepText TAB mid, stdout := [] } c hc hcn second .default t' os'
    [[45]] names [mid] col reverse (h2 _) (by
      have := stdin_read (o.world { s with stdin := sepHead TAB names ++ sepText TAB mid, stdout := [] })
        { s with stdin := sepHead TAB names ++ sepText TAB mid, stdout := [] } names _ rfl
      unfold Tables
      simpa using this) hs' hcol
    (by
      rw [List.flatten_singleton]
      exact fun r hr => hdec r (hm r hr))
    (by
      rw [List.flatten_singleton]
      exact ⟨ht.1, ht.2.1, ht.2.2.1, ht.2.2.2.1, fun r hr => ht.2.2.2.2 r (hm r hr)⟩) hok (by simp) hcap
    (by rw [List.flatten_singleton]; omega)
  rw [List.flatten_singleton] at f2
  obtain ⟨once', g1, g2, -⟩ := decKeys_run_sort o { s with stdout := [] } c hc hcn once .default t'' os'' files names tables col reverse asks num val
    (h3 _) hr hs'' hcol hdec hfit hrows ht hok htn hcap hlen
  have e : once' = out := StableSort.unique (decKeysCmp_preorder (readVal o.exp10) names col reverse num val asks) (g2 hu'')
    (stableSort_then (nearCmp_preorder (readVal o.exp10) names col reverse) e2 (f2 hu'))
  refine ⟨sepHead TAB names ++ sepText TAB out, ?_, ?_⟩
  · simp only [Outside.pipe, e1, Run.bind, List.nil_append, f1]
  · simp only [Outside.pipe, g1, Run.bind, List.nil_append, e]

/-- `cdx sort --key b t | cdx sort --key a,float -` and `cdx sort --key a,float --key b t`. -/
example : ∃ out, outside0.pipe [("sort", [.opt "key" (ascii "b"), .pos "input_files" (ascii "t")]),
      ("sort", [.opt "key" (ascii "a,float"), .pos "input_files" (ascii "-")])] sysDecKeys = .ok out ∧
    outside0.pipe [("sort", [.opt "key" (ascii "a,float"), .opt "key" (ascii "b"), .pos "input_files" (ascii "t")])] sysDecKeys = .ok out :=
  C244_then outside0 sysDecKeys (cmd0 "sort") (cmd0_mem (by decide +kernel)) (by decide +kernel)
    _ _ _ none none none [.key (ascii "b")] [.key (ascii "a,float")] [.key (ascii "a,float"), .key (ascii "b")] [ascii "t"] [ascii "a", ascii "b"]
    [rowsDecKeys] (ascii "a") false [.col ⟨ascii "b", .plain, false⟩] (fun _ => 0) (fun _ _ => 0)
    (fun _ => says_plain (by decide +kernel) (by decide +kernel) (by decide +kernel) (by decide +kernel) (by decide +kernel))
    (fun _ => says_plain (by decide +kernel) (by decide +kernel) (by decide +kernel) (by decide +kernel) (by decide +kernel))
    (fun _ => says_plain (by decide +kernel) (by decide +kernel) (by decide +kernel) (by decide +kernel) (by decide +kernel))
    (by unfold Tables; decide +kernel)
    ⟨by simp, ⟨rfl, fun x hx => textDecKeys x (List.mem_cons_of_mem _ hx)⟩, by decide, by decide⟩
    ⟨by simp, ⟨rfl, textDec⟩, by decide, by decide⟩ ⟨by simp, ⟨rfl, textDecKeys⟩, by decide, by decide⟩ (by decide) (by decide) (by decide)
    (by decide) cellsDecKeys fitsDecKeys (by
      intro k hk
      simp only [List.head?_cons, Option.mem_def, Option.some.injEq] at hk
      subst hk
      exact .inr ⟨.inr (.inr rfl), by decide +kernel⟩)
    (goodTable_ab (by decide +kernel)) (by decide +kernel) (by decide) (by decide +kernel) (by decide +kernel)

end Cdx
