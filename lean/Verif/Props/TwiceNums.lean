import Verif.Props.SortAgree

/-!
C236: sorting, or making unique, what is sorted or unique by numbers and formulas.
-/

namespace Cdx

/-! ## Proof -/

theorem askCmp_append (names : List Bytes) (num : Bytes → Int) (val : WholeFormula → List Bytes → Int) (js ks : List SortAsk) (x y : List Bytes) :
    askCmp names num val (js ++ ks) x y = (askCmp names num val js x y).then (askCmp names num val ks x y) := by
  induction js with
  | nil => rfl
  | cons k js ih =>
    simp only [List.cons_append, askCmp, ih]
    cases k.cmp names num val x y <;> rfl

theorem AsksSort.append {names : List Bytes} {js ks : List SortAsk} {as bs : List SortOpt} (h : AsksSort names js as)
    (g : AsksSort names ks bs) : AsksSort names (js ++ ks) (as ++ bs) := by
  have e : sortSpecs (as ++ bs) = sortSpecs as ++ sortSpecs bs := by simp [sortSpecs]
  refine ⟨by simp [h.some], ⟨?_, ?_⟩, ?_, ?_⟩
  · rw [e, List.length_append, List.length_append, h.keys.1, g.keys.1]
  · intro x hx
    rw [e, List.zip_append h.keys.1.symm] at hx
    exact (List.mem_append.1 hx).elim (h.keys.2 x) (g.keys.2 x)
  · rw [List.mem_append]
    exact fun hm => hm.elim h.noMerge g.noMerge
  · intro x hx
    exact (List.mem_append.1 hx).elim (h.noCheck x) (g.noCheck x)

theorem SortAsk.First.mem {names : List Bytes} {val : WholeFormula → List Bytes → Int} {rows rows' : List (List Bytes)} {k : SortAsk}
    (h : k.First names val rows) (hm : ∀ r ∈ rows', r ∈ rows) : k.First names val rows' := by
  cases k with
  | col k => exact h.imp id fun g => ⟨g.1, fun r hr => g.2 r (hm r hr)⟩
  | formula f b => exact fun r hr => h r (hm r hr)

theorem runCounts_head {α : Type} (eq : α → α → Bool) (x : α) (l : List α) : ∃ n r, runCounts eq (x :: l) = (x, n) :: r := by
  rw [runCounts]
  unfold addRun
  split
  · split
    · exact ⟨_, _, rfl⟩
    · exact ⟨_, _, rfl⟩
  · exact ⟨_, _, rfl⟩

/-- Adjacent runs differ. -/
theorem runCounts_apart {α : Type} {cmp : α → α → Ordering} (hc : TotalPreorder cmp) : ∀ (l : List α) (a b : α) (us vs : List α),
    (runCounts (fun a b => cmp a b == .eq) l).map (·.1) = us ++ a :: b :: vs → cmp a b ≠ .eq
  | [], a, b, us, vs, h => by simp [runCounts] at h
  | [x], a, b, us, vs, h => by
    have := congrArg List.length h
    simp [runCounts, addRun] at this
    omega
  | x :: y :: l, a, b, us, vs, h => by
    have ih := runCounts_apart hc (y :: l)
    obtain ⟨n, r, e⟩ := runCounts_head (fun a b => cmp a b == .eq) y l
    rw [runCounts, e] at h
    rw [e] at ih
    simp only [List.head?_cons, addRun] at h
    by_cases hxy : cmp x y = .eq
    · rw [if_pos (by simp [hxy])] at h
      cases us with
      | nil =>
        simp only [List.map_cons, List.nil_append, List.cons.injEq] at h
        obtain ⟨rfl, h⟩ := h
        rw [hc.eq_left hxy]
        exact ih y b [] vs (by simp [h])
      | cons u us =>
        simp only [List.map_cons, List.cons_append, List.cons.injEq] at h
        exact ih a b (y :: us) vs (by simp [h.2])
    · rw [if_neg (by simp [hxy])] at h
      cases us with
      | nil =>
        simp only [List.map_cons, List.nil_append, List.cons.injEq] at h
        obtain ⟨rfl, rfl, _⟩ := h
        exact hxy
      | cons u us =>
        simp only [List.map_cons, List.cons_append, List.cons.injEq] at h
        exact ih a b us vs (by simpa using h.2)

/-- Where no adjacent elements are equal, each is a run. -/
theorem runCounts_single {α : Type} (eq : α → α → Bool) : ∀ (l : List α), (∀ a b us vs, l = us ++ a :: b :: vs → eq a b = false) →
    runCounts eq l = l.map fun x => (x, 1)
  | [], _ => rfl
  | [x], _ => rfl
  | x :: y :: l, h => by
    have ih := runCounts_single eq (y :: l) fun a b us vs e => h a b (x :: us) vs (by rw [e]; rfl)
    rw [runCounts, ih]
    simp only [List.head?_cons, List.map_cons, addRun]
    rw [if_neg (by rw [h x y [] l rfl]; decide)]

/-! ## C236 -/

/-- C236: `cdx sort --key K files | cdx sort --key J -` writes what `cdx sort --key J --key K files` writes, byte for byte. -/
theorem C236_keys (o : Outside) (s : Sys) (c : Cmd) (hc : c ∈ mainList) (hcn : c.name = "sort")
    (first second once : List Tok) (t t' t'' : Option TextMode) (as bs : List SortOpt) (files names : List Bytes)
    (tables : List (List (List Bytes))) (js ks : List SortAsk) (num : Bytes → Int) (val : WholeFormula → List Bytes → Int)
    (h1 : ∀ s, Says (o.world s) c first .default t (bs.map SortOpt.said) files)
    (h2 : ∀ s, Says (o.world s) c second .default t' (as.map SortOpt.said) [[45]])
    (h3 : ∀ s, Says (o.world s) c once .default t'' ((as ++ bs).map SortOpt.said) files)
    (hr : Tables (o.world s) s files names tables) (ha : AsksSort names js as) (hb : AsksSort names ks bs) (hau : SortOpt.unique ∉ as)
    (hbu : SortOpt.unique ∉ bs) (hfit : ∀ k ∈ js ++ ks, k.Fits names num val tables.flatten)
    (hj : ∀ k ∈ js.head?, k.First names val tables.flatten) (hk : ∀ k ∈ ks.head?, k.First names val tables.flatten)
    (ht : GoodTable names tables.flatten) (hok : ∀ n ∈ names, nameOkBytes o.classes n = true) (hrows : tables.flatten ≠ [])
    (hcap : 8 < o.cap) (hlen : (sepText TAB tables.flatten).length < o.cap) :
    ∃ out, o.pipe [("sort", first), ("sort", second)] s = .ok out ∧ o.pipe [("sort", once)] s = .ok out := by
  obtain ⟨mid, e1, e2, -⟩ := C226_partial o { s with stdout := [] } c hc hcn first .default t bs files names tables ks num val (h1 _) hr hb
    (fun k h => hfit k (List.mem_append_right _ h)) hk ht hok hrows hcap hlen
  have e2 := e2 hbu
  have hm : ∀ r ∈ mid, r ∈ tables.flatten := fun r hr => e2.perm.mem_iff.1 hr
  have hl : (sepText TAB mid).length = (sepText TAB tables.flatten).length := (e2.perm.flatMap_right _).length_eq
  have hne : mid ≠ [] := by
    intro e
    have := e2.perm.length_eq
    rw [e] at this
    exact hrows (List.length_eq_zero_iff.1 this.symm)
  obtain ⟨out, f1, f2, -⟩ := C226_partial o { s with stdin := sepHead TAB names ++ sepText TAB mid, stdout := [] } c hc hcn second .default t' as
    [[45]] names [mid] js num val (h2 _) (by
      have := stdin_read (o.world { s with stdin := sepHead TAB names ++ sepText TAB mid, stdout := [] })
        { s with stdin := sepHead TAB names ++ sepText TAB mid, stdout := [] } names _ rfl
      unfold Tables
      simpa using this) ha
    (fun k h => (hfit k (List.mem_append_left _ h)).mem (by simpa using hm)) (fun k h => (hj k h).mem (by simpa using hm))
    (by
      rw [List.flatten_singleton]
      exact ⟨ht.1, ht.2.1, ht.2.2.1, ht.2.2.2.1, fun r hr => ht.2.2.2.2 r (hm r hr)⟩) hok (by simpa using hne) hcap
    (by rw [List.flatten_singleton]; omega)
  rw [List.flatten_singleton] at f2
  obtain ⟨both, g1, g2, -⟩ := C226_partial o { s with stdout := [] } c hc hcn once .default t'' (as ++ bs) files names tables (js ++ ks) num val
    (h3 _) hr (ha.append hb) hfit (by
      intro k hk'
      cases js with
      | nil => exact absurd rfl ha.some
      | cons j js => exact hj k hk') ht hok hrows hcap hlen
  have e : both = out := by
    refine StableSort.unique (askCmp_preorder names num val (js ++ ks)) (g2 (by simp [hau, hbu])) ?_
    have := stableSort_then (askCmp_preorder names num val js) e2 (f2 hau)
    rwa [show (fun x y => (askCmp names num val js x y).then (askCmp names num val ks x y)) = askCmp names num val (js ++ ks) from
      funext fun x => funext fun y => (askCmp_append names num val js ks x y).symm] at this
  refine ⟨sepHead TAB names ++ sepText TAB out, ?_, ?_⟩
  · simp only [Outside.pipe, e1, Run.bind, List.nil_append, f1]
  · simp only [Outside.pipe, g1, Run.bind, List.nil_append, e]

/-- C236: `cdx uniq --key … file | cdx uniq --key … -` writes what the first `uniq` writes. -/
theorem C236_uniq (o : Outside) (s : Sys) (d : Cmd) (hd : d ∈ mainList) (hdn : d.name = "uniq")
    (first second : List Tok) (t t' : Option TextMode) (opts opts' : List (Bytes × Bytes)) (file : Bytes) (names : List Bytes)
    (rows : List (List Bytes)) (asks : List SortAsk) (num : Bytes → Int) (val : WholeFormula → List Bytes → Int)
    (h1 : ∀ s, Says (o.world s) d first .default t opts [file]) (h2 : ∀ s, Says (o.world s) d second .default t' opts' [[45]])
    (hr : getReader (o.world s).s3 (o.world s).gunzip s file = some (sepHead TAB names ++ sepText TAB rows))
    (hg : GoodTable names rows) (hrows : rows ≠ []) (hf : AsksUniq names asks [] .none opts) (hf' : AsksUniq names asks [] .none opts')
    (hfit : ∀ k ∈ asks, k.Fits names num val rows) :
    ∃ out, o.pipe [("uniq", first)] s = .ok out ∧ o.pipe [("uniq", first), ("uniq", second)] s = .ok out := by
  have hpre := askCmp_preorder names num val asks
  have r1 := C228_uniq o { s with stdout := [] } d hd hdn first t opts file names rows asks num val [] .none (h1 _) hr hg hrows hf hfit
  simp only [addAt] at r1
  have hm : ∀ r ∈ (runCounts (fun a b => askCmp names num val asks a b == .eq) rows).map (·.1), r ∈ rows := by
    intro r hr
    obtain ⟨p, hp, rfl⟩ := List.mem_map.1 hr
    exact runCounts_mem _ _ p hp
  have hne : (runCounts (fun a b => askCmp names num val asks a b == .eq) rows).map (·.1) ≠ [] := by
    cases rows with
    | nil => exact absurd rfl hrows
    | cons x l =>
      obtain ⟨n, r, e⟩ := runCounts_head (fun a b => askCmp names num val asks a b == .eq) x l
      rw [e]
      simp
  have hone := runCounts_single (fun a b => askCmp names num val asks a b == .eq)
    ((runCounts (fun a b => askCmp names num val asks a b == .eq) rows).map (·.1)) (by
      intro a b us vs e
      have := runCounts_apart hpre rows a b us vs e
      simpa using this)
  generalize hmid : (runCounts (fun a b => askCmp names num val asks a b == .eq) rows).map (·.1) = mid at *
  have r2 := C228_uniq o { s with stdin := sepHead TAB names ++ sepText TAB mid, stdout := [] } d hd hdn second t' opts' [45] names mid asks num val
    [] .none (h2 _) (by
      have := stdin_read (o.world { s with stdin := sepHead TAB names ++ sepText TAB mid, stdout := [] })
        { s with stdin := sepHead TAB names ++ sepText TAB mid, stdout := [] } names _ rfl
      simpa using this)
    ⟨hg.1, hg.2.1, hg.2.2.1, hg.2.2.2.1, fun r hr => hg.2.2.2.2 r (hm r hr)⟩ hne hf' (fun k hk => (hfit k hk).mem hm)
  simp only [addAt] at r2
  rw [hone, List.map_map, show ((fun p : List Bytes × Nat => p.1) ∘ fun x => (x, 1)) = id from rfl, List.map_id] at r2
  refine ⟨sepHead TAB names ++ sepText TAB mid, ?_, ?_⟩
  · simp only [Outside.pipe, r1, Run.bind, List.nil_append]
  · simp only [Outside.pipe, r1, Run.bind, List.nil_append, r2]

/-! ## Examples -/

/-- `cdx sort --key ,expr,a*b t | cdx sort --key ,expr,a*b -` and `cdx sort --key ,expr,a*b --key ,expr,a*b t`. -/
example : ∃ out, outside0.pipe [("sort", [.opt "key" (ascii ",expr,a*b"), .pos "input_files" (ascii "t")]),
      ("sort", [.opt "key" (ascii ",expr,a*b"), .pos "input_files" (ascii "-")])] sys9 = .ok out ∧
    outside0.pipe [("sort", [.opt "key" (ascii ",expr,a*b"), .opt "key" (ascii ",expr,a*b"), .pos "input_files" (ascii "t")])] sys9 = .ok out :=
  C236_keys outside0 sys9 (cmd0 "sort") (cmd0_mem (by decide +kernel)) (by decide +kernel)
    _ _ _ none none none [.key (ascii ",expr,a*b")] [.key (ascii ",expr,a*b")] [ascii "t"] [ascii "a", ascii "b"]
    [rows9] [.formula product false] [.formula product false] num8 val8
    (fun _ => says_plain (by decide +kernel) (by decide +kernel) (by decide +kernel) (by decide +kernel) (by decide +kernel))
    (fun _ => says_plain (by decide +kernel) (by decide +kernel) (by decide +kernel) (by decide +kernel) (by decide +kernel))
    (fun _ => says_plain (by decide +kernel) (by decide +kernel) (by decide +kernel) (by decide +kernel) (by decide +kernel))
    (by unfold Tables; decide +kernel) ⟨by simp, ⟨rfl, text8⟩, by decide, by decide⟩ ⟨by simp, ⟨rfl, text8⟩, by decide, by decide⟩ (by decide) (by decide)
    (fun k hk => by
      have hk : k ∈ [SortAsk.formula product false] := by simpa using hk
      exact (fits8 _ k hk).mem rows9_mem) first9 first9
    (goodTable_ab (by decide +kernel)) (by decide +kernel) (by decide +kernel) (by decide +kernel) (by decide +kernel)

/-- `cdx uniq --key ,expr,a*b t | cdx uniq --key ,expr,a*b -`. -/
example : ∃ out, outside0.pipe [("uniq", [.opt "key" (ascii ",expr,a*b"), .pos "input_files" (ascii "t")])] sys9 = .ok out ∧
    outside0.pipe [("uniq", [.opt "key" (ascii ",expr,a*b"), .pos "input_files" (ascii "t")]),
      ("uniq", [.opt "key" (ascii ",expr,a*b"), .pos "input_files" (ascii "-")])] sys9 = .ok out :=
  C236_uniq outside0 sys9 (cmd0 "uniq") (cmd0_mem (by decide +kernel)) (by decide +kernel)
    _ _ none none [(ascii "key", ascii ",expr,a*b")] [(ascii "key", ascii ",expr,a*b")] (ascii "t") [ascii "a", ascii "b"]
    rows9 [.formula product false] num8 val8
    (fun _ => says_plain (by decide +kernel) (by decide +kernel) (by decide +kernel) (by decide +kernel) (by decide +kernel))
    (fun _ => says_plain (by decide +kernel) (by decide +kernel) (by decide +kernel) (by decide +kernel) (by decide +kernel))
    (by decide +kernel) (goodTable_ab (by decide +kernel)) (by decide +kernel)
    ⟨by decide +kernel, ⟨rfl, text8⟩, lastMeans_nil.2 rfl, fun h => absurd rfl h⟩
    ⟨by decide +kernel, ⟨rfl, text8⟩, lastMeans_nil.2 rfl, fun h => absurd rfl h⟩ (fun k hk => (fits8 _ k hk).mem (by simpa using rows9_mem))

end Cdx
