import Verif.Props.PipesUniq

/-!
C212: merging sorted tables, and sorting in parts.
-/

namespace Cdx

/-- Options that ask for merging by these keys. -/
structure MergeFits (names : List Bytes) (ks : List TabKey) (os : List SortOpt) : Prop where
  suits : ∀ k ∈ ks, k.Suits names
  some : ks ≠ []
  keys : (sortSpecs os).length = ks.length ∧ ∀ x ∈ ks.zip (sortSpecs os), x.1.Text names x.2
  merge : SortOpt.merge ∈ os
  noCheck : ∀ x ∈ os, x.isCheck = false

/-- The files of tables with one header. -/
def tabFiles (names : List Bytes) (tables : List (List (List Bytes))) : List Bytes := tables.map fun rows => sepHead TAB names ++ sepText TAB rows

/-- The claim: merging sorted tables gives the rows of all of them stably sorted, whether the keys are given by name or number. -/
def C212_statement : Prop :=
  ∀ (toF64 : Bytes → F64) (nameOk : Bytes → Bool) (pick : Nat → List (Nat × Bytes) → Nat) (rd : Nat → Nat → Nat) (cap : Nat) (m : TextMode)
    (names : List Bytes) (tables : List (List (List Bytes))) (ks : List TabKey) (os : List SortOpt),
    GoodTable names tables.flatten → tables ≠ [] → MergeFits names ks os → SortOpt.altMerge ∈ os → SortOpt.unique ∉ os →
    (∀ rows ∈ tables, SortedBy (tabCmp names ks) rows) →
    ∃ out, sortMain toF64 nameOk pick rd cap m os (tabFiles names tables) = .ok (sepHead TAB names ++ sepText TAB out) ∧
      StableSort (tabCmp names ks) tables.flatten out

theorem mergeFits_example : MergeFits [ascii "a", ascii "b"] [⟨ascii "b", .plain, false⟩] [.merge, .altMerge, .key (ascii "b")] := by
  refine ⟨?_, by simp, ⟨rfl, ?_⟩, by simp, by decide⟩
  · intro k hk
    rw [List.mem_singleton] at hk
    subst hk
    exact ⟨by decide +kernel, by simp, by simp⟩
  · intro x hx
    simp only [sortSpecs, List.filterMap_cons, List.filterMap_nil, List.zip_cons_cons, List.zip_nil_left, List.mem_singleton] at hx
    subst hx
    exact ⟨ascii "b", .inl rfl, .inl ⟨rfl, rfl, rfl⟩⟩

/-- A key given by name is not looked up when merging: the first column is compared. -/
theorem C212_refuted : ¬ C212_statement := by
  intro h
  obtain ⟨out, h1, h2⟩ := h (fun _ => 0) (fun _ => true) (fun _ _ => 0) (fun _ _ => 0) 100 .default [ascii "a", ascii "b"]
    [[[ascii "y", ascii "1"]], [[ascii "x", ascii "2"]]] [⟨ascii "b", .plain, false⟩] [.merge, .altMerge, .key (ascii "b")]
    ⟨by decide, goodTable_example.2.1, by decide +kernel, by decide, by decide +kernel⟩ (by simp) mergeFits_example (by simp) (by simp)
    (by
      intro rows hr
      simp only [List.mem_cons, List.not_mem_nil, or_false] at hr
      rcases hr with rfl | rfl <;> simp [SortedBy])
  have e := h1.symm.trans (by decide +kernel :
    sortMain (fun _ => 0) (fun _ => true) (fun _ _ => 0) (fun _ _ => 0) 100 .default [.merge, .altMerge, .key (ascii "b")]
      (tabFiles [ascii "a", ascii "b"] [[[ascii "y", ascii "1"]], [[ascii "x", ascii "2"]]]) =
      .ok (sepHead TAB [ascii "a", ascii "b"] ++ sepText TAB [[ascii "x", ascii "2"], [ascii "y", ascii "1"]]))
  have h3 : StableSort (tabCmp [ascii "a", ascii "b"] [⟨ascii "b", .plain, false⟩]) [[ascii "y", ascii "1"], [ascii "x", ascii "2"]]
      [[ascii "y", ascii "1"], [ascii "x", ascii "2"]] := by
    refine ⟨List.Perm.refl _, ?_, fun _ => rfl⟩
    simp only [SortedBy, List.pairwise_cons, List.mem_cons, List.not_mem_nil, or_false, forall_eq, false_implies, implies_true, List.Pairwise.nil, and_true]
    decide +kernel
  have := StableSort.unique (tabCmp_preorder _ _) h2 h3
  rw [this] at e
  revert e
  decide +kernel

/-- C212, keys given by number: merging sorted tables gives the rows of all of them stably sorted; with `--unique` the first row of each key. The
default merge needs that rows with equal keys are equal, `--alt-merge` does not. -/
theorem C212_merge_partial (toF64 : Bytes → F64) (nameOk : Bytes → Bool) (pick : Nat → List (Nat × Bytes) → Nat) (rd : Nat → Nat → Nat) (cap : Nat)
    (m : TextMode) (names : List Bytes) (tables : List (List (List Bytes))) (ks : List TabKey) (os : List SortOpt)
    (hg : GoodTable names tables.flatten) (htn : tables ≠ []) (hf : MergeFits names ks os) (hnum : ∀ s ∈ sortSpecs os, DigitFirst s)
    (hs : ∀ rows ∈ tables, SortedBy (tabCmp names ks) rows)
    (heap : SortOpt.altMerge ∈ os ∨ PicksSmallest (mergeComp toF64 (ks.map fun k => k.at names)) (fun _ => True) pick ∧
      ∀ x ∈ tables.flatten, ∀ y ∈ tables.flatten, tabCmp names ks x y = .eq → x = y) :
    ∃ out, sortMain toF64 nameOk pick rd cap m os (tabFiles names tables) = .ok (sepHead TAB names ++ sepText TAB out) ∧
      (SortOpt.unique ∉ os → StableSort (tabCmp names ks) tables.flatten out) ∧
      (SortOpt.unique ∈ os → UniqueSort (tabCmp names ks) tables.flatten out) := by
  obtain ⟨t1, t2, t3, t4, t5⟩ := hg
  have hn : SepNames TAB names := ⟨t1, fun n hn => name_free (d := TAB) (by decide) (by decide) (t2 n hn)⟩
  have hp := tabCmp_preorder names ks
  have hpos : 0 < names.length := List.length_pos_iff.2 t1
  have hne : ∀ r ∈ tables.flatten, r ≠ [] := by
    intro r hr e
    have := (t5 r hr).1
    rw [e] at this
    simp at this
    omega
  obtain ⟨qs, g1, g2, -, -, -, g6, g7⟩ := tabKeys_asked t2 t4 os ks hf.suits hf.keys.1 hf.keys.2 hf.noCheck
  have g7 := g7 hnum
  obtain ⟨o, ho⟩ := g6 {}
  obtain ⟨h1, h2, h3, h4, h5, -⟩ := C139_options os o ho
  have e1 : o.merge = true := by rw [h3]; simpa using hf.merge
  have e2 : o.check = false := by rw [h4, List.any_eq_false]; intro x hx; simp [hf.noCheck x hx]
  have e3 : o.sortKeys = qs := by
    rw [g1, Option.some.injEq] at h1
    rw [SortOpts.sortKeys, ← h1]
    cases qs with
    | nil => exact absurd (List.length_eq_zero_iff.1 g2.symm) hf.some
    | cons k ks => rfl
  have e4 : qs.map (·.fresh) = ks.map fun k => k.at names := by
    rw [g7, List.map_map]
    rfl
  have hrows : ∀ rows ∈ tables, SepTable TAB names.length rows := fun rows hr r hrr => t5 r (List.mem_flatten.2 ⟨rows, hr, hrr⟩)
  have hall : allLines (tabFiles names tables) = tables.flatten.map tabLine := by
    rw [tabFiles, allLines, List.map_map, List.map_flatten]
    congr 1
    apply List.map_congr_left
    intro rows hr
    simp only [Function.comp, table_open names hn rows (hrows rows hr)]
    rfl
  have hhead : (openMerge ((tabFiles names tables).headD [])).1 = sepHead TAB names := by
    cases tables with
    | nil => exact absurd rfl htn
    | cons rows ts => simp only [tabFiles, List.map_cons, List.headD_cons, table_open names hn rows (hrows rows (by simp))]
  have hag : ∀ a ∈ tables.flatten, ∀ b ∈ tables.flatten, mergeComp toF64 (ks.map fun k => k.at names) (tabLine a) (tabLine b) = tabCmp names ks a b :=
    fun a ha b hb => tabCmp_cols toF64 names ks (fun k hk => (hf.suits k hk).2) a b ⟨hne a ha, (t5 a ha).2⟩ ⟨hne b hb, (t5 b hb).2⟩
  have hc : TotalPreorder (mergeComp toF64 (ks.map fun k => k.at names)) := by
    apply C29_preorder
    intro c hc
    obtain ⟨k, hk, rfl⟩ := List.mem_map.1 hc
    exact (hf.suits k hk).2
  have hsf : SortedFiles (mergeComp toF64 (ks.map fun k => k.at names)) (tabFiles names tables) := by
    intro c hcm
    obtain ⟨rows, hr, rfl⟩ := List.mem_map.1 hcm
    rw [table_open names hn rows (hrows rows hr)]
    simp only [SortedBy, List.pairwise_map]
    refine (hs rows hr).imp_of_mem fun {a b} ha hb h => ?_
    have := hag a (List.mem_flatten.2 ⟨rows, hr, ha⟩) b (List.mem_flatten.2 ⟨rows, hr, hb⟩)
    simp only [tabLine] at this
    rwa [this]
  have hfn : tabFiles names tables ≠ [] := by simpa [tabFiles] using htn
  have many : (∃ rows, tables = [rows]) ∨ 1 < (tabFiles names tables).length := by
    match tables, htn with
    | [rows], _ => exact .inl ⟨rows, rfl⟩
    | r1 :: r2 :: ts, _ => exact .inr (by simp [tabFiles])
  have same : ∀ u, mergeConf o.conf toF64 (ks.map fun k => k.at names) pick u (tabFiles names tables) =
      mergeT1 toF64 (ks.map fun k => k.at names) u (tabFiles names tables) := by
    intro u
    unfold mergeConf
    rcases heap with ha | ⟨hpk, hd⟩
    · rw [if_pos (by rw [h5]; simpa using ha)]
    · split
      · rfl
      · have hd' : ∀ x ∈ allLines (tabFiles names tables), ∀ y ∈ allLines (tabFiles names tables),
            mergeComp toF64 (ks.map fun k => k.at names) x y = .eq → x = y := by
          intro x hx y hy h
          rw [hall] at hx hy
          obtain ⟨a, ha, rfl⟩ := List.mem_map.1 hx
          obtain ⟨b, hb, rfl⟩ := List.mem_map.1 hy
          rw [hag a ha b hb] at h
          rw [hd a ha b hb h]
        cases u with
        | true =>
          obtain ⟨a, h1, h2⟩ := C29_heap_unique toF64 _ pick _ hc hpk hfn hsf
          obtain ⟨b, g1, g2⟩ := C29_tree_unique toF64 _ _ hc hfn hsf
          rw [h2, g2, someUnique_same hc hd' h1 (g1.some hc)]
        | false =>
          rcases many with ⟨rows, rfl⟩ | many
          · rfl
          · exact C29_heap_tree toF64 _ pick _ hc hpk many hsf hd'
  have hrun : sortMain toF64 nameOk pick rd cap m os (tabFiles names tables) =
      .ok (mergeT1 toF64 (ks.map fun k => k.at names) o.unique (tabFiles names tables)) := by
    simp only [sortMain, ho, Res.run, Run.bind, SortOpts.run, e1, e2, Bool.false_and, Bool.false_eq_true, if_false, if_true, e3, e4, same]
  rw [hrun]
  by_cases hu : SortOpt.unique ∈ os
  · have eu : o.unique = true := by rw [h2]; simpa using hu
    obtain ⟨ls, r1, r2⟩ := C29_tree_unique toF64 _ _ hc hfn hsf
    rw [hall] at r1
    obtain ⟨rows, r3, r4⟩ := r1.back hc hp _ (fun l => lineNames l TAB) _ hag fun r hr =>
      lineNames_row TAB (by decide) r (hne r hr) (t5 r hr).2
    refine ⟨rows, ?_, fun h => absurd hu h, fun _ => r4⟩
    rw [eu, r2, hhead, r3, sepText_lines]
    rfl
  · have eu : o.unique = false := by rw [h2]; simpa using hu
    rw [eu]
    rcases many with ⟨rows, rfl⟩ | many
    · refine ⟨rows, rfl, fun _ => ?_, fun h => absurd h hu⟩
      simp only [List.flatten_cons, List.flatten_nil, List.append_nil]
      exact ⟨List.Perm.refl _, hs rows (by simp), fun _ => rfl⟩
    · obtain ⟨ls, s1, s2⟩ := C29_tree toF64 _ _ hc many hsf
      rw [hall] at s1
      obtain ⟨rows, s3, s4⟩ := s1.back hc hp _ _ hag
      refine ⟨rows, ?_, fun _ => s4, fun h => absurd h hu⟩
      rw [s2, hhead, s3, sepText_lines]
      rfl

/-! ## Sorting in parts -/

theorem classOf_flatten {α : Type} (cmp : α → α → Ordering) (x : α) (ls : List (List α)) : classOf cmp x ls.flatten = (ls.map (classOf cmp x)).flatten := by
  unfold classOf
  rw [List.filter_flatten]

theorem take_one_flatten {α β : Type} (f g : α → List β) (ls : List α) (h : ∀ l ∈ ls, (f l).take 1 = (g l).take 1) :
    ((ls.map f).flatten).take 1 = ((ls.map g).flatten).take 1 := by
  induction ls with
  | nil => rfl
  | cons l ls ih =>
    have ih := ih fun l hl => h l (by simp [hl])
    have h := h l (by simp)
    simp only [List.map_cons, List.flatten_cons]
    cases hf : f l with
    | nil =>
      cases hg : g l with
      | nil => simpa using ih
      | cons y ys => rw [hf, hg] at h; simp at h
    | cons x xs =>
      cases hg : g l with
      | nil => rw [hf, hg] at h; simp at h
      | cons y ys => rw [hf, hg] at h; simpa using h

theorem perm_flatten_map {α β : Type} (f g : α → List β) (ls : List α) (h : ∀ l ∈ ls, (f l).Perm (g l)) : (ls.map f).flatten.Perm (ls.map g).flatten := by
  induction ls with
  | nil => exact List.Perm.refl _
  | cons l ls ih => exact (h l (by simp)).append (ih fun l hl => h l (by simp [hl]))

/-- C212: tables sorted in parts, and the parts merged with keys given by number, are the tables sorted at once. -/
theorem C212_parts_partial (toF64 : Bytes → F64) (nameOk : Bytes → Bool) (pick : Nat → List (Nat × Bytes) → Nat) (rd : Nat → Nat → Nat) (cap : Nat)
    (m : TextMode) (names : List Bytes) (groups : List (List (List (List Bytes)))) (ks : List TabKey) (os om ow : List SortOpt)
    (hg : GoodTable names groups.flatten.flatten) (hgn : groups ≠ []) (hgs : ∀ g ∈ groups, g ≠ [])
    (fs : SortFits names ks os) (fm : MergeFits names ks om) (fw : SortFits names ks ow) (hnum : ∀ s ∈ sortSpecs om, DigitFirst s)
    (hu : SortOpt.unique ∈ os → SortOpt.unique ∈ om) (huw : SortOpt.unique ∈ ow ↔ SortOpt.unique ∈ om)
    (heap : SortOpt.altMerge ∈ om ∨ PicksSmallest (mergeComp toF64 (ks.map fun k => k.at names)) (fun _ => True) pick ∧
      ∀ x ∈ groups.flatten.flatten, ∀ y ∈ groups.flatten.flatten, tabCmp names ks x y = .eq → x = y)
    (hok : ∀ n ∈ names, nameOk n = true) (hz : ∀ r ∈ groups.flatten.flatten, ∀ c ∈ r, 0 ∉ c) (hcap : 8 < cap)
    (hfit : (sepText TAB groups.flatten.flatten).length < cap) :
    ∃ parts whole, (groups.map fun g => sortMain toF64 nameOk pick rd cap m os (tabFiles names g)) = parts.map Run.ok ∧
      sortMain toF64 nameOk pick rd cap m om parts = .ok whole ∧
      sortMain toF64 nameOk pick rd cap m ow (tabFiles names groups.flatten) = .ok whole := by
  have hp := tabCmp_preorder names ks
  have sub : ∀ g ∈ groups, ∀ r ∈ g.flatten, r ∈ groups.flatten.flatten := by
    intro g hm r hr
    obtain ⟨t, ht, hr⟩ := List.mem_flatten.1 hr
    exact List.mem_flatten.2 ⟨t, List.mem_flatten.2 ⟨g, hm, ht⟩, hr⟩
  have one : ∀ g ∈ groups, ∃ out, sortMain toF64 nameOk pick rd cap m os (tabFiles names g) = .ok (sepHead TAB names ++ sepText TAB out) ∧
      SortedBy (tabCmp names ks) out ∧ (∀ r ∈ out, r ∈ g.flatten) ∧
      (SortOpt.unique ∉ os → StableSort (tabCmp names ks) g.flatten out) ∧
      (SortOpt.unique ∈ os → UniqueSort (tabCmp names ks) g.flatten out) := by
    intro g hm
    have hlen : (sepText TAB g.flatten).length ≤ (sepText TAB groups.flatten.flatten).length := by
      obtain ⟨l1, l2, rfl⟩ := List.append_of_mem hm
      simp only [sepText_lines, List.flatten_append, List.flatten_cons, List.map_append, List.length_append]
      omega
    obtain ⟨out, s1, s2, s3⟩ := sort_tables toF64 nameOk pick rd cap m (tables := g) fs
      ⟨hg.1, hg.2.1, hg.2.2.1, hg.2.2.2.1, fun r hr => hg.2.2.2.2 r (sub g hm r hr)⟩ hok (hgs g hm) (fun r hr => hz r (sub g hm r hr)) hcap (by omega)
    refine ⟨out, s1, ?_, ?_, s2, s3⟩
    · by_cases h : SortOpt.unique ∈ os
      · exact (s3 h).strict.imp fun h => by simp [h]
      · exact (s2 h).sorted
    · intro r hr
      by_cases h : SortOpt.unique ∈ os
      · exact (s3 h).mem hp r hr
      · exact (s2 h).perm.mem_iff.1 hr
  obtain ⟨f, hf⟩ : ∃ f : List (List (List Bytes)) → List (List Bytes), ∀ g ∈ groups,
      sortMain toF64 nameOk pick rd cap m os (tabFiles names g) = .ok (sepHead TAB names ++ sepText TAB (f g)) ∧
      SortedBy (tabCmp names ks) (f g) ∧ (∀ r ∈ f g, r ∈ g.flatten) ∧
      (SortOpt.unique ∉ os → StableSort (tabCmp names ks) g.flatten (f g)) ∧
      (SortOpt.unique ∈ os → UniqueSort (tabCmp names ks) g.flatten (f g)) := by
    classical
    refine ⟨fun g => if h : g ∈ groups then (one g h).choose else [], fun g h => ?_⟩
    simp only [h, dif_pos]
    exact (one g h).choose_spec
  have back : ∀ r ∈ (groups.map f).flatten, r ∈ groups.flatten.flatten := by
    intro r hr
    obtain ⟨l, hl, hr⟩ := List.mem_flatten.1 hr
    obtain ⟨g, hm, rfl⟩ := List.mem_map.1 hl
    exact sub g hm r ((hf g hm).2.2.1 r hr)
  obtain ⟨out, m1, m2, m3⟩ := C212_merge_partial toF64 nameOk pick rd cap m names (groups.map f) ks om
    ⟨hg.1, hg.2.1, hg.2.2.1, hg.2.2.2.1, fun r hr => hg.2.2.2.2 r (back r hr)⟩ (by simpa using hgn) fm hnum
    (by
      intro rows hr
      obtain ⟨g, hm, rfl⟩ := List.mem_map.1 hr
      exact (hf g hm).2.1)
    (heap.imp id fun h => ⟨h.1, fun x hx y hy => h.2 x (back x hx) y (back y hy)⟩)
  obtain ⟨out', w1, w2, w3⟩ := sort_tables toF64 nameOk pick rd cap m (tables := groups.flatten) fw hg hok (by
    obtain ⟨g, hm⟩ := List.exists_mem_of_ne_nil _ hgn
    obtain ⟨t, ht⟩ := List.exists_mem_of_ne_nil _ (hgs g hm)
    exact List.ne_nil_of_mem (List.mem_flatten.2 ⟨g, hm, ht⟩)) hz hcap hfit
  have ecls : ∀ x, classOf (tabCmp names ks) x groups.flatten.flatten = (groups.map fun g => classOf (tabCmp names ks) x g.flatten).flatten := by
    intro x
    rw [List.flatten_flatten, classOf_flatten, List.map_map]
    rfl
  have efs : ∀ x, classOf (tabCmp names ks) x (groups.map f).flatten = (groups.map fun g => classOf (tabCmp names ks) x (f g)).flatten := by
    intro x
    rw [classOf_flatten, List.map_map]
    rfl
  refine ⟨groups.map fun g => sepHead TAB names ++ sepText TAB (f g), sepHead TAB names ++ sepText TAB out, ?_, ?_, ?_⟩
  · rw [List.map_map]
    exact List.map_congr_left fun g hm => (hf g hm).1
  · rw [tabFiles, List.map_map] at m1
    exact m1
  · rw [tabFiles, w1]
    congr 3
    by_cases h : SortOpt.unique ∈ om
    · have w3 := w3 (huw.2 h)
      refine uniqueSort_unique hp w3 ⟨(m3 h).strict, fun x => ?_⟩
      rw [(m3 h).first x, ecls, efs]
      apply take_one_flatten
      intro g hm
      by_cases ho : SortOpt.unique ∈ os
      · rw [((hf g hm).2.2.2.2 ho).first x, List.take_take]
        rfl
      · rw [((hf g hm).2.2.2.1 ho).stable x]
    · have w2 := w2 fun h' => h (huw.1 h')
      have ho : SortOpt.unique ∉ os := fun h' => h (hu h')
      refine StableSort.unique hp w2 ⟨(m2 h).perm.trans ?_, (m2 h).sorted, fun x => ?_⟩
      · rw [List.flatten_flatten]
        exact perm_flatten_map f List.flatten groups fun g hm => ((hf g hm).2.2.2.1 ho).perm
      · rw [(m2 h).stable x, ecls, efs]
        congr 1
        exact List.map_congr_left fun g hm => ((hf g hm).2.2.2.1 ho).stable x

/-- Two parts, the second of two tables, merged by the second column. -/
example : ∃ parts whole, ([[[[ascii "x", ascii "1"], [ascii "y", ascii "22"]]], [[[ascii "x", ascii "3"]], [[ascii "y", ascii "44"]]]].map fun g =>
      sortMain (fun _ => 0) (fun _ => true) (fun _ _ => 0) (fun _ _ => 0) 100 .default [.key (ascii "b")] (tabFiles [ascii "a", ascii "b"] g)) =
        parts.map Run.ok ∧
    sortMain (fun _ => 0) (fun _ => true) (fun _ _ => 0) (fun _ _ => 0) 100 .default [.merge, .altMerge, .key (ascii "2")] parts = .ok whole ∧
    whole = ascii " CDX\ta\tb\nx\t1\ny\t22\nx\t3\ny\t44\n" := by
  have fm : MergeFits [ascii "a", ascii "b"] [⟨ascii "b", .plain, false⟩] [.merge, .altMerge, .key (ascii "2")] := by
    refine ⟨mergeFits_example.1, by simp, ⟨rfl, ?_⟩, by simp, by decide⟩
    intro x hx
    simp only [sortSpecs, List.filterMap_cons, List.filterMap_nil, List.zip_cons_cons, List.zip_nil_left, List.mem_singleton] at hx
    subst hx
    exact ⟨ascii "2", .inr (by decide +kernel), .inl ⟨rfl, rfl, rfl⟩⟩
  obtain ⟨parts, whole, h1, h2, h3⟩ := C212_parts_partial (fun _ => 0) (fun _ => true) (fun _ _ => 0) (fun _ _ => 0) 100 .default
    [ascii "a", ascii "b"] [[[[ascii "x", ascii "1"], [ascii "y", ascii "22"]]], [[[ascii "x", ascii "3"]], [[ascii "y", ascii "44"]]]] _
    [.key (ascii "b")] [.merge, .altMerge, .key (ascii "2")] [.key (ascii "b")] goodTable_example (by simp) (by simp)
    (sortFits_one _ _ (by decide +kernel)) fm (sortFits_one _ _ (by decide +kernel))
    (by
      intro s hs
      simp only [sortSpecs, List.filterMap_cons, List.filterMap_nil, List.mem_singleton] at hs
      subst hs
      exact ⟨50, [], by decide +kernel, by unfold Digit; decide⟩)
    (by simp) (by simp) (.inl (by simp)) (by simp) (by decide +kernel) (by decide) (by decide +kernel)
  refine ⟨parts, whole, h1, h2, ?_⟩
  have := h3.symm.trans (by decide +kernel :
    sortMain (fun _ => 0) (fun _ => true) (fun _ _ => 0) (fun _ _ => 0) 100 .default [.key (ascii "b")] (tabFiles [ascii "a", ascii "b"]
      [[[[ascii "x", ascii "1"], [ascii "y", ascii "22"]]], [[[ascii "x", ascii "3"]], [[ascii "y", ascii "44"]]]].flatten) =
      .ok (ascii " CDX\ta\tb\nx\t1\ny\t22\nx\t3\ny\t44\n"))
  simpa using this

end Cdx
