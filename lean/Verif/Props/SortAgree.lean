import Verif.Props.Totals

/-!
C234: `sort`, `uniq` and `verify` agree on keys that are numbers or formulas.
-/

namespace Cdx

/-- C234: `cdx sort --key … files | cdx uniq --key … -` writes what `cdx sort --unique --key … files` writes, byte for byte. -/
theorem C234_unique (o : Outside) (s : Sys) (c d : Cmd) (hc : c ∈ mainList) (hcn : c.name = "sort") (hd : d ∈ mainList) (hdn : d.name = "uniq")
    (first second once : List Tok) (t t' t'' : Option TextMode) (os os' : List SortOpt) (opts : List (Bytes × Bytes)) (files names : List Bytes)
    (tables : List (List (List Bytes))) (asks : List SortAsk) (num : Bytes → Int) (val : WholeFormula → List Bytes → Int)
    (h1 : ∀ s, Says (o.world s) c first .default t (os.map SortOpt.said) files) (h2 : ∀ s, Says (o.world s) d second .default t' opts [[45]])
    (h3 : ∀ s, Says (o.world s) c once .default t'' (os'.map SortOpt.said) files)
    (hr : Tables (o.world s) s files names tables) (hs : AsksSort names asks os) (hs' : AsksSort names asks os') (hu : SortOpt.unique ∉ os)
    (hu' : SortOpt.unique ∈ os') (hf : AsksUniq names asks [] .none opts)
    (hfit : ∀ k ∈ asks, k.Fits names num val tables.flatten) (hfirst : ∀ k ∈ asks.head?, k.First names val tables.flatten)
    (ht : GoodTable names tables.flatten) (hok : ∀ n ∈ names, nameOkBytes o.classes n = true) (hrows : tables.flatten ≠ [])
    (hcap : 8 < o.cap) (hlen : (sepText TAB tables.flatten).length < o.cap) :
    ∃ out, o.pipe [("sort", first), ("uniq", second)] s = .ok out ∧ o.pipe [("sort", once)] s = .ok out := by
  obtain ⟨mid, e1, e2, -⟩ := C226_partial o { s with stdout := [] } c hc hcn first .default t os files names tables asks num val (h1 _) hr hs hfit hfirst
    ht hok hrows hcap hlen
  obtain ⟨out, u1, -, u2⟩ := C226_partial o { s with stdout := [] } c hc hcn once .default t'' os' files names tables asks num val (h3 _) hr hs' hfit hfirst
    ht hok hrows hcap hlen
  have hst := e2 hu
  have hpre := askCmp_preorder names num val asks
  have hm : ∀ r ∈ mid, r ∈ tables.flatten := fun r hr => hst.perm.mem_iff.1 hr
  have hne : mid ≠ [] := by
    intro e
    have := hst.perm.length_eq
    rw [e] at this
    exact hrows (List.length_eq_zero_iff.1 this.symm)
  have r2 := C228_uniq o { s with stdin := sepHead TAB names ++ sepText TAB mid, stdout := [] } d hd hdn second t' opts [45] names mid asks num val
    [] .none (h2 _) (by
      have := stdin_read (o.world { s with stdin := sepHead TAB names ++ sepText TAB mid, stdout := [] })
        { s with stdin := sepHead TAB names ++ sepText TAB mid, stdout := [] } names _ rfl
      simpa using this)
    ⟨ht.1, ht.2.1, ht.2.2.1, ht.2.2.2.1, fun r hr => ht.2.2.2.2 r (hm r hr)⟩ hne hf (fun k hk => (hfit k hk).mem hm)
  have hout : out = uniq (fun a b => askCmp names num val asks a b == .eq) mid :=
    uniqueSort_unique hpre (u2 hu') (UniqueSort.of_stable hst (uniq_spec hpre hst.sorted))
  refine ⟨sepHead TAB names ++ sepText TAB out, ?_, ?_⟩
  · simp only [Outside.pipe, e1, Run.bind, List.nil_append, r2]
    rw [runCounts_sorted hpre mid hst.sorted, hout, List.map_map]
    simp only [addAt]
    rw [show ((fun p : List Bytes × Nat => p.1) ∘ fun u => (u, (classOf (askCmp names num val asks) u mid).length)) = id from rfl, List.map_id]
  · simp only [Outside.pipe, u1, Run.bind, List.nil_append]

/-- C234: `verify` with the same keys finds that what `sort` writes is in order, and that no values are repeated in what `sort --unique` writes. -/
theorem C234_verify (o : Outside) (s : Sys) (c d : Cmd) (hc : c ∈ mainList) (hcn : c.name = "sort") (hd : d ∈ mainList) (hdn : d.name = "verify")
    (first second : List Tok) (t t' : Option TextMode) (os : List SortOpt) (opts : List (Bytes × Bytes)) (files names : List Bytes)
    (tables : List (List (List Bytes))) (asks : List SortAsk) (num : Bytes → Int) (val : WholeFormula → List Bytes → Int)
    (h1 : ∀ s, Says (o.world s) c first .default t (os.map SortOpt.said) files) (h2 : ∀ s, Says (o.world s) d second .default t' opts [[45]])
    (hr : Tables (o.world s) s files names tables) (hs : AsksSort names asks os) (hf : AsksVerify names asks opts)
    (hu : optVals "unique" opts ≠ [] → SortOpt.unique ∈ os)
    (hfit : ∀ k ∈ asks, k.Fits names num val tables.flatten) (hfirst : ∀ k ∈ asks.head?, k.First names val tables.flatten)
    (ht : GoodTable names tables.flatten) (hok : ∀ n ∈ names, nameOkBytes o.classes n = true) (hrows : tables.flatten ≠ [])
    (hcap : 8 < o.cap) (hlen : (sepText TAB tables.flatten).length < o.cap) :
    o.pipe [("sort", first), ("verify", second)] s = .ok [] := by
  obtain ⟨mid, e1, e2, e3⟩ := C226_partial o { s with stdout := [] } c hc hcn first .default t os files names tables asks num val (h1 _) hr hs hfit hfirst
    ht hok hrows hcap hlen
  have hpre := askCmp_preorder names num val asks
  have hm : ∀ r ∈ mid, r ∈ tables.flatten := by
    by_cases h : SortOpt.unique ∈ os
    · exact (e3 h).mem hpre
    · exact fun r hr => (e2 h).perm.mem_iff.1 hr
  have hne : mid ≠ [] := by
    intro e
    by_cases h : SortOpt.unique ∈ os
    · obtain ⟨r, hr⟩ := List.exists_mem_of_ne_nil _ hrows
      have := (e3 h).first r
      rw [e] at this
      have hx : r ∈ classOf (askCmp names num val asks) r tables.flatten := List.mem_filter.2 ⟨hr, by simp [hpre.refl]⟩
      cases hcl : classOf (askCmp names num val asks) r tables.flatten with
      | nil => rw [hcl] at hx; simp at hx
      | cons a l => rw [hcl] at this; simp [classOf] at this
    · have := (e2 h).perm.length_eq
      rw [e] at this
      exact hrows (List.length_eq_zero_iff.1 this.symm)
  have r2 := (C229_verify o { s with stdin := sepHead TAB names ++ sepText TAB mid, stdout := [] } d hd hdn second t' opts [[45]] names [mid] asks num val
    (h2 _) (by
      have := stdin_read (o.world { s with stdin := sepHead TAB names ++ sepText TAB mid, stdout := [] })
        { s with stdin := sepHead TAB names ++ sepText TAB mid, stdout := [] } names _ rfl
      unfold Tables
      simpa using this)
    (by
      rw [List.flatten_singleton]
      exact ⟨ht.1, ht.2.1, ht.2.2.1, ht.2.2.2.1, fun r hr => ht.2.2.2.2 r (hm r hr)⟩) (by simpa using hne) hf
    (fun k hk => (hfit k hk).mem (by simpa using hm))).1 (by
      intro rows hrw
      rw [List.mem_singleton.1 hrw]
      unfold OrderAsked
      by_cases h : SortOpt.unique ∈ os
      · refine (e3 h).strict.imp fun {a b} hab => ?_
        split
        · exact hab
        · split
          · rw [hab]; decide
          · trivial
      · have h0 : optVals "unique" opts = [] := by
          by_cases hx : optVals "unique" opts = []
          · exact hx
          · exact absurd (hu hx) h
        refine (e2 h).sorted.imp fun {a b} hab => ?_
        rw [if_neg (by simp [h0])]
        split
        · exact hab
        · trivial)
  simp only [Outside.pipe, e1, Run.bind, List.nil_append, r2]

/-! ## Examples -/

theorem first9 : ∀ k ∈ [SortAsk.formula product false].head?, k.First [ascii "a", ascii "b"] val8 [rows9].flatten := by
  intro k hk
  have : k = .formula product false := by simpa using hk.symm
  subst this
  intro r _
  unfold val8
  split <;> decide

/-- `cdx sort --key ,expr,a*b t | cdx uniq --key ,expr,a*b -` and `cdx sort --key ,expr,a*b --unique t`. -/
example : ∃ out, outside0.pipe [("sort", [.opt "key" (ascii ",expr,a*b"), .pos "input_files" (ascii "t")]),
      ("uniq", [.opt "key" (ascii ",expr,a*b"), .pos "input_files" (ascii "-")])] sys9 = .ok out ∧
    outside0.pipe [("sort", [.opt "key" (ascii ",expr,a*b"), .flag "unique", .pos "input_files" (ascii "t")])] sys9 = .ok out :=
  C234_unique outside0 sys9 (cmd0 "sort") (cmd0 "uniq") (cmd0_mem (by decide +kernel)) (by decide +kernel) (cmd0_mem (by decide +kernel)) (by decide +kernel)
    _ _ _ none none none [.key (ascii ",expr,a*b")] [.key (ascii ",expr,a*b"), .unique] [(ascii "key", ascii ",expr,a*b")] [ascii "t"] [ascii "a", ascii "b"]
    [rows9] [.formula product false] num8 val8
    (fun _ => says_plain (by decide +kernel) (by decide +kernel) (by decide +kernel) (by decide +kernel) (by decide +kernel))
    (fun _ => says_plain (by decide +kernel) (by decide +kernel) (by decide +kernel) (by decide +kernel) (by decide +kernel))
    (fun _ => says_plain (by decide +kernel) (by decide +kernel) (by decide +kernel) (by decide +kernel) (by decide +kernel))
    (by unfold Tables; decide +kernel) ⟨by simp, ⟨rfl, text8⟩, by decide, by decide⟩ ⟨by simp, ⟨rfl, text8⟩, by decide, by decide⟩ (by decide) (by decide)
    ⟨by decide +kernel, ⟨rfl, text8⟩, lastMeans_nil.2 rfl, fun h => absurd rfl h⟩ (fun k hk => (fits8 _ k hk).mem rows9_mem) first9
    (goodTable_ab (by decide +kernel)) (by decide +kernel) (by decide +kernel) (by decide +kernel) (by decide +kernel)

/-- `cdx sort --key ,expr,a*b t | cdx verify --sort --key ,expr,a*b -`. -/
example : outside0.pipe [("sort", [.opt "key" (ascii ",expr,a*b"), .pos "input_files" (ascii "t")]),
      ("verify", [.flag "sort", .opt "key" (ascii ",expr,a*b"), .pos "input_files" (ascii "-")])] sys9 = .ok [] :=
  C234_verify outside0 sys9 (cmd0 "sort") (cmd0 "verify") (cmd0_mem (by decide +kernel)) (by decide +kernel) (cmd0_mem (by decide +kernel)) (by decide +kernel)
    _ _ none none [.key (ascii ",expr,a*b")] [(ascii "sort", []), (ascii "key", ascii ",expr,a*b")] [ascii "t"] [ascii "a", ascii "b"]
    [rows9] [.formula product false] num8 val8
    (fun _ => says_plain (by decide +kernel) (by decide +kernel) (by decide +kernel) (by decide +kernel) (by decide +kernel))
    (fun _ => says_plain (by decide +kernel) (by decide +kernel) (by decide +kernel) (by decide +kernel) (by decide +kernel))
    (by unfold Tables; decide +kernel) ⟨by simp, ⟨rfl, text8⟩, by decide, by decide⟩ ⟨by simp, by decide +kernel, rfl, text8⟩
    (fun h => absurd (by decide +kernel) h) (fun k hk => (fits8 _ k hk).mem rows9_mem) first9
    (goodTable_ab (by decide +kernel)) (by decide +kernel) (by decide +kernel) (by decide +kernel) (by decide +kernel)

end Cdx
