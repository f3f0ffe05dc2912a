import Verif.Props.SortMain

/-!
C139: the two merges of `sort -m`. C140: sorting tables by named columns.
-/

namespace Cdx

/-! ## C139: the merges -/

/-- Whole lines compared byte by byte. -/
def plainKey : LineComp := ⟨.whole .plain, false, TAB⟩

theorem mergeComp_plain (toF64 : Bytes → F64) (a b : Bytes) (ha : IsLine a) (hb : IsLine b) :
    mergeComp toF64 [plainKey] a b = listCmp compare a b := by
  rw [mergeComp_lines toF64 [plainKey] (by simp [plainKey]) a b ha hb]
  simp only [compLinesList, LineComp.compLines, plainKey, LineComp.inner, rev, compK, lexCmp_eq_listCmp]
  by_cases h : listCmp compare a b = .eq <;> simp [h]

theorem someUnique_same {α : Type} {cmp : α → α → Ordering} (hc : TotalPreorder cmp) {inp a b : List α}
    (hd : ∀ x ∈ inp, ∀ y ∈ inp, cmp x y = .eq → x = y) (ha : SomeUniqueSort cmp inp a) (hb : SomeUniqueSort cmp inp b) : a = b := by
  have nd : ∀ l : List α, l.Pairwise (fun x y => cmp x y = .lt) → l.Nodup := by
    intro l h
    refine h.imp ?_
    rintro x y h rfl
    rw [hc.refl] at h
    exact absurd h (by decide)
  have mem : ∀ l, SomeUniqueSort cmp inp l → ∀ x, x ∈ l ↔ x ∈ inp := by
    intro l h x
    refine ⟨h.sub x, fun hx => ?_⟩
    obtain ⟨y, hy, e⟩ := h.covers x hx
    rw [hd x hx y (h.sub y hy) e]
    exact hy
  have hp : a.Perm b := by
    rw [List.perm_ext_iff_of_nodup (nd a ha.strict) (nd b hb.strict)]
    intro x
    rw [mem a ha, mem b hb]
  refine hp.eq_of_pairwise (le := fun x y => cmp x y ≠ .gt) ?_ (ha.strict.imp fun h => by simp [h]) (hb.strict.imp fun h => by simp [h])
  intro x y hx hy h1 h2
  exact hd x (ha.sub x hx) y (hb.sub y hy) (hc.eq_iff.2 ⟨h1, h2⟩)

theorem mergeConf_same (toF64 : Bytes → F64) (pick : Nat → List (Nat × Bytes) → Nat) (unique : Bool) (files : List Bytes) (hne : files ≠ [])
    (hp : PicksSmallest (mergeComp toF64 [plainKey]) (fun _ => True) pick)
    (hs : ∀ f ∈ files, (openMerge f).2.Pairwise fun a b => listCmp compare a b ≠ .gt) :
    mergeT2 toF64 [plainKey] pick unique files = mergeT1 toF64 [plainKey] unique files := by
  have hc := C29_preorder toF64 [plainKey] (by simp [plainKey])
  have hl : ∀ l ∈ allLines files, IsLine l := by
    intro l hl
    obtain ⟨x, hx, hlx⟩ := List.mem_flatten.1 hl
    obtain ⟨f, hf, rfl⟩ := List.mem_map.1 hx
    exact dataLines_isLine f l hlx
  have hs' : SortedFiles (mergeComp toF64 [plainKey]) files := by
    intro f hf
    refine (hs f hf).imp_of_mem ?_
    intro a b ha hb h
    rw [mergeComp_plain toF64 a b (dataLines_isLine f a ha) (dataLines_isLine f b hb)]
    exact h
  have hd : ∀ x ∈ allLines files, ∀ y ∈ allLines files, mergeComp toF64 [plainKey] x y = .eq → x = y := by
    intro x hx y hy h
    rw [mergeComp_plain toF64 x y (hl x hx) (hl y hy), ← lexCmp_eq_listCmp] at h
    exact lexCmp_eq.1 h
  cases unique with
  | false =>
    match files, hne with
    | [c], _ => rfl
    | c :: c' :: fs, _ => exact C29_heap_tree toF64 [plainKey] pick _ hc hp (by simp) hs' hd
  | true =>
    obtain ⟨a, h1, h2⟩ := C29_heap_unique toF64 [plainKey] pick files hc hp hne hs'
    obtain ⟨b, g1, g2⟩ := C29_tree_unique toF64 [plainKey] files hc hne hs'
    rw [h2, g2, someUnique_same hc hd h1 (g1.some hc)]

/-- The two merges of `sort -m` write the same for sorted files, when whole lines are compared: `--alt-merge` changes nothing. -/
theorem C139_alt_merge (toF64 : Bytes → F64) (nameOk : Bytes → Bool) (pick : Nat → List (Nat × Bytes) → Nat)
    (rd : Nat → Nat → Nat) (cap : Nat) (m : TextMode) (os : List SortOpt) (files : List Bytes) (o : SortOpts)
    (h : SortOpts.addAll {} os = .ok o) (h1 : SortOpt.merge ∈ os) (h2 : ∀ x ∈ os, x.isCheck = false) (h3 : ∀ s, SortOpt.key s ∉ os)
    (hne : files ≠ []) (hp : PicksSmallest (mergeComp toF64 [plainKey]) (fun _ => True) pick)
    (hs : ∀ f ∈ files, (openMerge f).2.Pairwise fun a b => listCmp compare a b ≠ .gt) :
    sortMain toF64 nameOk pick rd cap m os files = .ok (mergeT2 toF64 [plainKey] pick (decide (SortOpt.unique ∈ os)) files) := by
  obtain ⟨hk, hu, hm, hc, _⟩ := C139_options os o h
  have e1 : o.merge = true := by rw [hm]; simpa using h1
  have e2 : o.check = false := by
    rw [hc, List.any_eq_false]
    intro x hx
    simp [h2 x hx]
  have e3 : ∀ os : List SortOpt, (∀ s, SortOpt.key s ∉ os) → keysAsked os = some [] := by
    intro os
    induction os with
    | nil => intro _; rfl
    | cons x os ih =>
      intro h
      have := ih fun s hs => h s (by simp [hs])
      cases x <;> first | exact this | exact absurd (List.mem_cons_self ..) (h _)
  rw [e3 os h3] at hk
  have e4 : o.sortKeys.map (·.fresh) = [plainKey] := by
    rw [SortOpts.sortKeys, ← Option.some.inj hk]; rfl
  simp only [sortMain, h, Res.run, Run.bind, SortOpts.run, e1, e2, Bool.false_and, Bool.false_eq_true, if_false, if_true, e4, mergeConf, hu]
  split
  · rw [mergeConf_same toF64 pick _ files hne hp hs]
  · rfl


example : SortOpts.addAll {} [.merge, .altMerge, .unique] = .ok { unique := true, merge := true, conf := ⟨false, true⟩ } ∧
    (∀ f ∈ [ascii "a\nc\n", ascii " CDX\tx\nb\nc\n"], (openMerge f).2.Pairwise fun a b => listCmp compare a b ≠ .gt) :=
  ⟨by decide +kernel, by decide +kernel⟩

/-! ## C140: the keys -/

/-- The order a key method stands for. -/
def cellCmp : CompKind → Bytes → Bytes → Ordering
  | .plain, a, b => listCmp compare a b
  | .lower, a, b => listCmp compare (lower a) (lower b)
  | .length, a, b => compare a.length b.length
  | .ip, a, b => listCmp segCmp (ipSegs (a.dropWhile (· ≤ 32))) (ipSegs (b.dropWhile (· ≤ 32)))
  | _, _, _ => .eq

/-- The position of the column of a key. -/
def keyPos (names : List Bytes) (c : NamedCol) : Nat := if c.name = [] then c.num else names.idxOf c.name

/-- The order of rows that column keys stand for: the first key that tells them apart. -/
def rowsCmp (names : List Bytes) : List Key → List Bytes → List Bytes → Ordering
  | .col k c false :: ks, a, b => (cellCmp k (a.getD (keyPos names c) []) (b.getD (keyPos names c) [])).then (rowsCmp names ks a b)
  | .col k c true :: ks, a, b => (cellCmp k (b.getD (keyPos names c) []) (a.getD (keyPos names c) [])).then (rowsCmp names ks a b)
  | _, _, _ => .eq

/-- Column keys whose methods are orders, of columns that are there. -/
def TableKey (names : List Bytes) : Key → Prop
  | .col k c _ => k ≠ .numeric ∧ k ≠ .float ∧ (c.name = [] ∨ c.name ∈ names)
  | .whole _ _ => False

/-- First keys whose cached comparison is the direct one (C25). -/
def TableFirst : Key → Prop
  | .col k _ r => k = .length ∨ k = .equal ∨ r = false
  | .whole _ _ => False

theorem compK_cell (toF64 : Bytes → F64) (k : CompKind) (h1 : k ≠ .numeric) (h2 : k ≠ .float) (a b : Bytes) :
    compK toF64 k a b = cellCmp k a b := by
  obtain ⟨e1, e2, e3, e4⟩ := C22_meaning toF64 a b
  cases k with
  | plain => exact e1
  | lower => exact e2
  | length => exact e3
  | ip => exact e4
  | numeric => exact absurd rfl h1
  | float => exact absurd rfl h2
  | equal => rfl

/-- What a key becomes. -/
def Key.at (names : List Bytes) : Key → LineComp
  | .whole k r => ⟨.whole k, r, TAB⟩
  | .col k c r => ⟨.col k fun _ => keyPos names c, r, TAB⟩

theorem lookupKeys_at (names : List Bytes) (ks : List Key) (h : ∀ k ∈ ks, TableKey names k) : lookupKeys names ks = .ok (ks.map (·.at names)) := by
  induction ks with
  | nil => rfl
  | cons k ks ih =>
    have hk := h k (by simp)
    cases k with
    | whole k r => exact absurd hk (by simp [TableKey])
    | col k c r =>
      have e : c.lookup names = .ok (keyPos names c) := by
        unfold NamedCol.lookup keyPos
        rcases hk.2.2 with h0 | h0
        · simp [h0]
        · by_cases hn : c.name = []
          · simp [hn]
          · simp only [ne_eq, hn, not_false_eq_true, if_true, if_false]
            exact lookupCol_mem names _ h0
      simp only [lookupKeys, Key.lookup, e, Res.bind_ok, ih fun k hk => h k (by simp [hk]), List.map_cons, Key.at]

theorem goodKeys_at (names : List Bytes) (ks : List Key) (h : ∀ k ∈ ks, TableKey names k) (hf : ∀ k ks', ks = k :: ks' → TableFirst k) :
    GoodKeys (ks.map (·.at names)) := by
  refine ⟨?_, ?_, ?_⟩
  · intro c hc
    obtain ⟨k, hk, rfl⟩ := List.mem_map.1 hc
    cases k <;> rfl
  · intro c hc
    obtain ⟨k, hk, rfl⟩ := List.mem_map.1 hc
    have := h k hk
    cases k with
    | whole k r => exact absurd this (by simp [TableKey])
    | col k c r => exact ⟨this.1, this.2.1⟩
  · intro c cs hc
    cases ks with
    | nil => simp at hc
    | cons k ks =>
      have h1 := hf k ks rfl
      have h2 := h k (by simp)
      simp only [List.map_cons, List.cons.injEq] at hc
      rw [← hc.1]
      cases k with
      | whole k r => exact absurd h2 (by simp [TableKey])
      | col k c r =>
        by_cases hk : k = .length ∨ k = .equal
        · exact Or.inr ⟨k, _, rfl, hk⟩
        · refine Or.inl ⟨?_, Or.inr ⟨k, _, rfl, ?_⟩⟩
          · rcases h1 with h1 | h1 | h1
            · exact absurd (Or.inl h1) hk
            · exact absurd (Or.inr h1) hk
            · exact h1
          · have := h2.1
            have := h2.2.1
            cases k <;> simp_all

theorem cellCmp_preorder (k : CompKind) (r : Bool) : TotalPreorder fun a b => if r then cellCmp k b a else cellCmp k a b := by
  have h0 : TotalPreorder (cellCmp k) := by
    by_cases h : k = .numeric ∨ k = .float
    · rcases h with rfl | rfl <;> exact ⟨fun _ => rfl, fun _ _ => rfl, fun _ _ _ h _ => h⟩
    · have hk : k ≠ .numeric := fun e => h (Or.inl e)
      have hf : k ≠ .float := fun e => h (Or.inr e)
      have := C22_preorder_partial (fun _ => 0) k false hk (fun e => absurd e hf)
      simp only [rev, Bool.false_eq_true, if_false, compK_cell _ k hk hf] at this
      exact this
  have := rev_preorder h0 r
  cases r with
  | false => exact h0
  | true =>
    simp only [rev, if_true] at this ⊢
    have e : (fun a b => cellCmp k b a) = fun a b => (cellCmp k a b).swap := by
      funext a b; exact h0.swap a b
    rw [e]
    exact this

theorem rowsCmp_preorder (names : List Bytes) (ks : List Key) : TotalPreorder (rowsCmp names ks) := by
  induction ks with
  | nil => exact ⟨fun _ => rfl, fun _ _ => rfl, fun _ _ _ h _ => h⟩
  | cons k ks ih =>
    cases k with
    | whole k r => exact ⟨fun _ => rfl, fun _ _ => rfl, fun _ _ _ h _ => h⟩
    | col k c r =>
      have h1 := ((cellCmp_preorder k r).comap fun row : List Bytes => row.getD (keyPos names c) []).then ih
      cases r with
      | false => exact h1
      | true => exact h1

theorem lineCmp_rows (toF64 : Bytes → F64) (names : List Bytes) (ks : List Key) (h : ∀ k ∈ ks, TableKey names k) (n : Nat) (hn : 0 < n)
    (a b : List Bytes) (ha : a.length = n ∧ ∀ c ∈ a, TAB ∉ c ∧ NL ∉ c) (hb : b.length = n ∧ ∀ c ∈ b, TAB ∉ c ∧ NL ∉ c) :
    lineCmp toF64 (ks.map (·.at names)) (List.intercalate [TAB] a ++ [NL]) (List.intercalate [TAB] b ++ [NL]) = rowsCmp names ks a b := by
  have na : a ≠ [] := by rintro rfl; simp at ha; omega
  have nb : b ≠ [] := by rintro rfl; simp at hb; omega
  induction ks with
  | nil => rfl
  | cons k ks ih =>
    have hk := h k (by simp)
    have ih := ih fun k hk => h k (by simp [hk])
    cases k with
    | whole k r => exact absurd hk (by simp [TableKey])
    | col k c r =>
      unfold lineCmp at ih ⊢
      simp only [List.map_cons, compLinesList, ih]
      simp only [LineComp.compLines, Key.at, LineComp.inner,
        getCol_row TAB (by decide) a na ha.2, getCol_row TAB (by decide) b nb hb.2, compK_cell toF64 k hk.1 hk.2.1]
      have sw : ∀ x y, cellCmp k y x = (cellCmp k x y).swap := (cellCmp_preorder k false).swap
      cases r with
      | false =>
        simp only [rev, Bool.false_eq_true, if_false, rowsCmp]
        cases cellCmp k (a.getD (keyPos names c) []) (b.getD (keyPos names c) []) <;> rfl
      | true =>
        simp only [rev, if_true, rowsCmp, sw (a.getD (keyPos names c) []) (b.getD (keyPos names c) [])]
        cases cellCmp k (a.getD (keyPos names c) []) (b.getD (keyPos names c) []) <;> rfl

/-! ## C140: back from lines to rows -/

theorem StableSort.back {α β : Type} {cmp : β → β → Ordering} {cmp' : α → α → Ordering} (hc : TotalPreorder cmp) (hc' : TotalPreorder cmp')
    (f : α → β) (inp : List α) (hag : ∀ a ∈ inp, ∀ b ∈ inp, cmp (f a) (f b) = cmp' a b) (ls : List β)
    (h : StableSort cmp (inp.map f) ls) : ∃ out, ls = out.map f ∧ StableSort cmp' inp out := by
  refine ⟨stableSort (leOf cmp') inp, ?_, stableSort_stable hc' inp⟩
  rw [stableSort_map (leOf cmp') (leOf cmp) f inp fun a ha b hb => by simp only [leOf, hag a ha b hb]]
  exact h.unique hc (stableSort_stable hc _)

theorem UniqueSort.back {α β : Type} {cmp : β → β → Ordering} {cmp' : α → α → Ordering} (hc : TotalPreorder cmp) (hc' : TotalPreorder cmp')
    (f : α → β) (g : β → α) (inp : List α) (hag : ∀ a ∈ inp, ∀ b ∈ inp, cmp (f a) (f b) = cmp' a b) (hg : ∀ a ∈ inp, g (f a) = a)
    (ls : List β) (h : UniqueSort cmp (inp.map f) ls) : ∃ out, ls = out.map f ∧ UniqueSort cmp' inp out := by
  have hm : ∀ l ∈ ls, ∃ a ∈ inp, f a = l := fun l hl => List.mem_map.1 (h.mem hc l hl)
  refine ⟨ls.map g, ?_, ?_, ?_⟩
  · rw [List.map_map]
    conv => lhs; rw [← List.map_id ls]
    apply List.map_congr_left
    intro l hl
    obtain ⟨a, ha, rfl⟩ := hm l hl
    simp [hg a ha]
  · rw [List.pairwise_map]
    refine h.strict.imp_of_mem ?_
    intro x y hx hy hlt
    obtain ⟨a, ha, rfl⟩ := hm x hx
    obtain ⟨b, hb, rfl⟩ := hm y hy
    rw [hg a ha, hg b hb, ← hag a ha b hb]
    exact hlt
  · intro x
    -- the class of an element of the input
    have key : ∀ a ∈ inp, classOf cmp' a (ls.map g) = (classOf cmp' a inp).take 1 := by
      intro a ha
      have h1 := h.first (f a)
      have e1 : classOf cmp' a (ls.map g) = (classOf cmp (f a) ls).map g := by
        unfold classOf
        rw [List.filter_map]
        congr 1
        apply List.filter_congr
        intro y hy
        obtain ⟨b, hb, rfl⟩ := hm y hy
        simp only [Function.comp, hg b hb, hag a ha b hb]
      have e2 : classOf cmp (f a) (inp.map f) = (classOf cmp' a inp).map f := by
        unfold classOf
        rw [List.filter_map]
        congr 1
        apply List.filter_congr
        intro b hb
        simp only [Function.comp, hag a ha b hb]
      rw [e1, h1, e2, ← List.map_take, List.map_map]
      conv => rhs; rw [← List.map_id (List.take 1 (classOf cmp' a inp))]
      apply List.map_congr_left
      intro b hb
      have hb' : b ∈ inp := (List.mem_filter.1 (List.mem_of_mem_take hb)).1
      simp [hg b hb']
    by_cases hx : ∃ a ∈ inp, cmp' x a = .eq
    · obtain ⟨a, ha, he⟩ := hx
      have cl : ∀ l, classOf cmp' x l = classOf cmp' a l := by
        intro l
        unfold classOf
        apply List.filter_congr
        intro y _
        have : cmp' x y = .eq ↔ cmp' a y = .eq := by
          have hxa := hc'.eq_iff.1 he
          rw [hc'.eq_iff, hc'.eq_iff]
          constructor
          · rintro ⟨p, q⟩; exact ⟨hc'.trans _ _ _ hxa.2 p, hc'.trans _ _ _ q hxa.1⟩
          · rintro ⟨p, q⟩; exact ⟨hc'.trans _ _ _ hxa.1 p, hc'.trans _ _ _ q hxa.2⟩
        rw [Bool.eq_iff_iff]
        simpa using this
      rw [cl, cl]
      exact key a ha
    · have nil : ∀ l : List α, (∀ y ∈ l, y ∈ inp) → classOf cmp' x l = [] := by
        intro l hl
        unfold classOf
        rw [List.filter_eq_nil_iff]
        intro y hy he
        exact hx ⟨y, hl y hy, by simpa using he⟩
      rw [nil inp fun _ h => h, nil (ls.map g)]
      · rfl
      · intro y hy
        obtain ⟨l, hl, rfl⟩ := List.mem_map.1 hy
        obtain ⟨a, ha, rfl⟩ := hm l hl
        rw [hg a ha]
        exact ha

/-! ## C140: the command -/

theorem makeHeader_sep (names : List Bytes) (hn : SepNames TAB names) : makeHeader (sepHead TAB names) = .ok names := by
  have hcdx : isCdx (sepHead TAB names) = true := by rw [sepHead_eq TAB names hn.1]; simp [isCdx, cdxTag, List.isPrefixOf]
  have hlen : ¬ (sepHead TAB names).length < 5 := by rw [sepHead_eq TAB names hn.1]; simp [cdxTag]
  have hdrop : (sepHead TAB names).drop 5 = List.intercalate [TAB] names ++ [NL] := by
    rw [sepHead_eq TAB names hn.1]; rfl
  simp only [makeHeader, hcdx, if_true, hlen, if_false, hdrop]
  rw [lineNames_row TAB (by decide) names hn.1 fun c hc => (hn.2 c hc).2]

theorem table_first (names : List Bytes) (hn : SepNames TAB names) (rest : Bytes) :
    readUntil NL (sepHead TAB names ++ rest) = (sepHead TAB names, rest) := by
  have := readUntil_line NL _ rest (sepHead_free TAB (by decide) names hn)
  simpa [sepHead] using this

theorem table_open (names : List Bytes) (hn : SepNames TAB names) (rows : List (List Bytes)) (ht : SepTable TAB names.length rows) :
    openMerge (sepHead TAB names ++ sepText TAB rows) = (sepHead TAB names, rows.map fun r => List.intercalate [TAB] r ++ [NL]) := by
  have hcdx : isCdx (sepHead TAB names ++ sepText TAB rows) = true := by
    rw [sepHead_eq TAB names hn.1]; simp [isCdx, cdxTag, List.isPrefixOf]
  have e := table_first names hn (sepText TAB rows)
  rw [openMerge_cdx _ hcdx (by rw [e]; simp [sepHead]), e]
  simp only
  rw [sepText_lines, readLines_flatten]
  intro l hl
  obtain ⟨r, hr, rfl⟩ := List.mem_map.1 hl
  exact sepRow_isLine (by decide) ht hr

/-- `sort` of tables with the same header by column keys, given by name or number: the header once, and the rows of all tables stably
sorted by the keys; with `--unique` the first row of each class of rows that the keys do not tell apart. -/
theorem C140_table_sort (toF64 : Bytes → F64) (nameOk : Bytes → Bool) (pick : Nat → List (Nat × Bytes) → Nat)
    (rd : Nat → Nat → Nat) (cap : Nat) (m : TextMode) (os : List SortOpt) (names : List Bytes) (tables : List (List (List Bytes)))
    (o : SortOpts) (h : SortOpts.addAll {} os = .ok o) (hm : SortOpt.merge ∉ os) (hc : ∀ x ∈ os, x.isCheck = false)
    (ks : List Key) (hks : keysAsked os = some ks) (hne : ks ≠ []) (hk : ∀ k ∈ ks, TableKey names k)
    (hfirst : ∀ k ks', ks = k :: ks' → TableFirst k)
    (hn : SepNames TAB names) (hok : ∀ n ∈ names, nameOk n = true) (htn : tables ≠ [])
    (ht : SepTable TAB names.length tables.flatten) (hz : ∀ r ∈ tables.flatten, ∀ c ∈ r, 0 ∉ c)
    (hcap : 8 < cap) (hfit : (sepText TAB tables.flatten).length < cap) :
    ∃ out, sortMain toF64 nameOk pick rd cap m os (tables.map fun rows => sepHead TAB names ++ sepText TAB rows) =
        .ok (sepHead TAB names ++ sepText TAB out) ∧
      (SortOpt.unique ∉ os → StableSort (rowsCmp names ks) tables.flatten out) ∧
      (SortOpt.unique ∈ os → UniqueSort (rowsCmp names ks) tables.flatten out) := by
  obtain ⟨h1, h2, h3, h4, _⟩ := C139_options os o h
  have e1 : o.merge = false := by rw [h3]; simpa using hm
  have e2 : o.check = false := by rw [h4, List.any_eq_false]; intro x hx; simp [hc x hx]
  have e3 : o.sortKeys = ks := by
    rw [hks, Option.some.injEq] at h1
    rw [SortOpts.sortKeys, ← h1]
    cases ks with
    | nil => exact absurd rfl hne
    | cons k ks => rfl
  have hpos : 0 < names.length := List.length_pos_iff.2 hn.1
  have hrows : ∀ rows ∈ tables, SepTable TAB names.length rows := fun rows hr r hrr => ht r (List.mem_flatten.2 ⟨rows, hr, hrr⟩)
  generalize hfiles : (tables.map fun rows => sepHead TAB names ++ sepText TAB rows) = files
  have hall : allLines files = tables.flatten.map fun r => List.intercalate [TAB] r ++ [NL] := by
    rw [← hfiles, allLines, List.map_map, List.map_flatten]
    congr 1
    apply List.map_congr_left
    intro rows hr
    simp only [Function.comp, table_open names hn rows (hrows rows hr)]
  have hhead : sortHeader files = sepHead TAB names := by
    rw [← hfiles]
    cases tables with
    | nil => exact absurd rfl htn
    | cons rows ts =>
      simp only [List.map_cons, sortHeader, table_open names hn rows (hrows rows (by simp))]
      rw [if_neg (by simp [sepHead])]
  have hg := goodKeys_at names ks hk hfirst
  have hclean : CleanFiles files := by
    intro l hl
    rw [hall] at hl
    obtain ⟨r, hr, rfl⟩ := List.mem_map.1 hl
    intro h0
    rcases List.mem_append.1 h0 with h0 | h0
    · rcases mem_intercalate h0 with h0 | ⟨c, hc, h0⟩
      · exact absurd h0 (by decide)
      · exact hz r hr c hc h0
    · exact absurd (List.mem_singleton.1 h0) (by decide)
  have hfit' : (allLines files).flatten.length < cap := by rw [hall, ← sepText_lines]; exact hfit
  have hck : (HeaderChecker.fromMode .matching).checkAll nameOk ((files.filter (· ≠ [])).map fun f => (readUntil NL f).1) ≠ none := by
    have e : ((files.filter (· ≠ [])).map fun f => (readUntil NL f).1) = List.replicate tables.length (sepHead TAB names) := by
      rw [List.filter_eq_self.2 (by
        intro f hf
        rw [← hfiles] at hf
        obtain ⟨rows, _, rfl⟩ := List.mem_map.1 hf
        simp [sepHead]), ← hfiles, List.map_map, ← List.map_const']
      apply List.map_congr_left
      intro rows _
      simp only [Function.comp, table_first names hn]
    have hcdx : isCdx (sepHead TAB names) = true := by rw [sepHead_eq TAB names hn.1]; simp [isCdx, cdxTag, List.isPrefixOf]
    rw [e]
    cases tables with
    | nil => exact absurd rfl htn
    | cons rows ts =>
      rw [List.length_cons, checkAll_same nameOk _ (sepHead_ok nameOk TAB (by decide) names hn hok) hcdx]
      simp
  have hsort : sortMain toF64 nameOk pick rd cap m os files =
      (sortCmd toF64 nameOk pick rd cap o.unique (ks.map (·.at names)) files).run := by
    simp only [sortMain, h, Res.run, Run.bind, SortOpts.run, e1, e2, Bool.false_and, Bool.false_eq_true, if_false, e3]
    rw [sortFiles_lookup toF64 nameOk _ pick rd cap o.unique _ (ks.map (·.at names)) files]
    intro f hf _ _
    rw [← hfiles] at hf
    obtain ⟨rows, _, rfl⟩ := List.mem_map.1 hf
    simp only [table_first names hn, makeHeader_sep names hn, Res.bind_ok]
    exact lookupKeys_at names ks hk
  obtain ⟨out, hout⟩ := C28_succeeds_in_memory toF64 nameOk pick rd cap o.unique _ files hcap hg hclean hfit' hck
  have hmem := C28_in_memory toF64 nameOk pick rd cap _ files out hcap hg hclean hfit'
  have hag : ∀ a ∈ tables.flatten, ∀ b ∈ tables.flatten, lineCmp toF64 (ks.map (·.at names)) (List.intercalate [TAB] a ++ [NL])
      (List.intercalate [TAB] b ++ [NL]) = rowsCmp names ks a b :=
    fun a ha b hb => lineCmp_rows toF64 names ks hk names.length hpos a b (ht a ha) (ht b hb)
  have hp := lineCmp_preorder toF64 _ hg.ordered
  rw [hall, hhead] at hmem
  rw [hsort]
  by_cases hu : SortOpt.unique ∈ os
  · have eu : o.unique = true := by rw [h2]; simpa using hu
    rw [eu] at hout ⊢
    obtain ⟨ls, g1, g2⟩ := hmem.2 hout
    obtain ⟨rows, r1, r2⟩ := g1.back hp (rowsCmp_preorder names ks) _ (fun l => lineNames l TAB) _ hag fun r hr =>
      lineNames_row TAB (by decide) r (by
        have := (ht r hr).1
        rintro rfl
        simp at this
        omega) (ht r hr).2
    refine ⟨rows, ?_, fun h => absurd hu h, fun _ => r2⟩
    rw [hout, g2, r1, ← sepText_lines]
    rfl
  · have eu : o.unique = false := by rw [h2]; simpa using hu
    rw [eu] at hout ⊢
    obtain ⟨ls, g1, g2⟩ := hmem.1 hout
    obtain ⟨rows, r1, r2⟩ := g1.back hp (rowsCmp_preorder names ks) _ _ hag
    refine ⟨rows, ?_, fun _ => r2, fun h => absurd h hu⟩
    rw [hout, g2, r1, ← sepText_lines]
    rfl

/-- A key given by name and method. -/
theorem C140_key_text (x method : Bytes) (hne : x ≠ []) (hv : isValidColumnName x = true) (hd : 46 ∉ x) (hcx : 44 ∉ x) (hcm : 44 ∉ method)
    (ha : AliasOk (nameOf method)) (k : CompKind) (hm : MethodOf (nameOf method) (.kind k)) :
    keyOfSpec (x ++ 44 :: method) = .ok (.col k ⟨x, 0⟩ (confOf method).reverse) := by
  unfold keyOfSpec
  rw [(C110_short (fun _ => true) x method [] hcx hcm).1, C110_line_partial _ x method [] ha _ hm hcx hcm, if_neg hne]
  have e : sliceSplit 46 x = [x] := by
    have := sliceSplit_intercalate 46 [x] (by simp) (by simpa using hd)
    simpa using this
  simp [e, colsNew, newFrom_valid x hne hv, Res.bind]

example : isValidColumnName (ascii "size") = true ∧ MethodOf (nameOf (ascii "length.rev")) (.kind .length) ∧
    (confOf (ascii "length.rev")).reverse = true ∧ AliasOk (nameOf (ascii "length.rev")) := by
  refine ⟨by decide +kernel, by unfold MethodOf; decide +kernel, by decide +kernel, ?_⟩
  rintro (h | h) <;> exact absurd h (by decide +kernel)

example : ∃ o, SortOpts.addAll {} [.key (ascii "b"), .key (ascii "a,len.rev"), .unique] = .ok o ∧
    o.keys = [.col .plain ⟨ascii "b", 0⟩ false, .col .length ⟨ascii "a", 0⟩ true] ∧ (∀ k ∈ o.keys, TableKey [ascii "a", ascii "b"] k) ∧
    (∀ k ks, o.keys = k :: ks → TableFirst k) ∧ SepNames TAB [ascii "a", ascii "b"] ∧
    SepTable TAB 2 [[ascii "x", ascii "2"], [ascii "yy", ascii "1"]] := by
  refine ⟨{ keys := [.col .plain ⟨ascii "b", 0⟩ false, .col .length ⟨ascii "a", 0⟩ true], unique := true },
    by decide +kernel, rfl, ?_, ?_, by unfold SepNames; decide +kernel, by decide +kernel⟩
  · intro k hk
    simp only [List.mem_cons, List.not_mem_nil, or_false] at hk
    rcases hk with rfl | rfl <;> exact ⟨by decide, by decide, Or.inr (by decide +kernel)⟩
  · intro k ks hk
    simp only [List.cons.injEq] at hk
    rw [← hk.1]
    exact Or.inr (Or.inr rfl)

theorem lookupKeys_unknown (names : List Bytes) (ks : List Key) (h : ∃ k c r, Key.col k c r ∈ ks ∧ c.name ≠ [] ∧ c.name ∉ names) :
    lookupKeys names ks = .err := by
  have hl : ∀ (c : NamedCol), c.name ≠ [] → c.name ∉ names → c.lookup names = .err := by
    intro c h1 h2
    have : names.findIdx? (· == c.name) = none := by
      rw [List.findIdx?_eq_none_iff]
      intro x hx
      simp only [beq_eq_false_iff_ne, ne_eq]
      rintro rfl
      exact h2 hx
    simp [NamedCol.lookup, h1, lookupCol, this]
  induction ks with
  | nil => obtain ⟨k, c, r, hm, _⟩ := h; simp at hm
  | cons x ks ih =>
    obtain ⟨k, c, r, hm, h1, h2⟩ := h
    rcases List.mem_cons.1 hm with rfl | hm
    · simp [lookupKeys, Key.lookup, hl c h1 h2, Res.bind]
    · have ih := ih ⟨k, c, r, hm, h1, h2⟩
      cases x with
      | whole k r => simp [lookupKeys, Key.lookup, ih, Res.bind]
      | col k c r =>
        simp only [lookupKeys, Key.lookup, ih, NamedCol.lookup, lookupCol]
        split
        · cases List.findIdx? (· == c.name) names <;> rfl
        · rfl

/-- A key for a column that is not in the header: nothing is written, with an error. -/
theorem C140_unknown_column (toF64 : Bytes → F64) (nameOk : Bytes → Bool) (pick : Nat → List (Nat × Bytes) → Nat)
    (rd : Nat → Nat → Nat) (cap : Nat) (m : TextMode) (os : List SortOpt) (names : List Bytes) (hn : SepNames TAB names) (rest : Bytes)
    (files : List Bytes) (o : SortOpts) (h : SortOpts.addAll {} os = .ok o) (hm : SortOpt.merge ∉ os) (hc : ∀ x ∈ os, x.isCheck = false)
    (hk : ∃ k c r, Key.col k c r ∈ o.keys ∧ c.name ≠ [] ∧ c.name ∉ names) :
    sortMain toF64 nameOk pick rd cap m os ((sepHead TAB names ++ rest) :: files) = .fail .other := by
  obtain ⟨h1, h2, h3, h4, _⟩ := C139_options os o h
  have e1 : o.merge = false := by rw [h3]; simpa using hm
  have e2 : o.check = false := by rw [h4, List.any_eq_false]; intro x hx; simp [hc x hx]
  have e3 : o.sortKeys = o.keys := by
    obtain ⟨k, c, r, hm, _⟩ := hk
    rw [SortOpts.sortKeys]
    cases hks : o.keys with
    | nil => simp [hks] at hm
    | cons k ks => rfl
  have hu := lookupKeys_unknown names o.keys hk
  have hf : ∀ (cs : List LineComp) (u : Bool), (Sorter.new cs).addFile toF64 nameOk
      (fun _ line => (makeHeader line).bind fun names => lookupKeys names o.keys) cap u (rd 0) (sepHead TAB names ++ rest) = .err := by
    intro cs u
    have hne : sepHead TAB names ≠ [] := by simp [sepHead]
    unfold Sorter.addFile
    simp only [table_first names hn, hne, if_false]
    cases hck : (Sorter.new cs).checker.check nameOk (sepHead TAB names) with
    | none => rfl
    | some x =>
      obtain ⟨ck, b⟩ := x
      have hb := (check_flags nameOk _ ck _ b hck hne rfl).2.2 rfl
      subst hb
      simp [makeHeader_sep names hn, hu, Res.bind]
  simp only [sortMain, h, Res.run, Run.bind, SortOpts.run, e1, e2, Bool.false_and, Bool.false_eq_true, if_false, e3, sortFiles,
    Sorter.addFiles, hf]
  rfl

example : SepNames TAB [ascii "a"] ∧ SortOpts.addAll {} [.key (ascii "b")] = .ok { keys := [.col .plain ⟨ascii "b", 0⟩ false] } ∧
    ascii "b" ∉ [ascii "a"] := ⟨by unfold SepNames; decide +kernel, by decide +kernel, by decide +kernel⟩

end Cdx
