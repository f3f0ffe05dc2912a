import Verif.Props.PipesUniq
import Verif.Props.BinMain

/-!
C213: sorting tables and searching the result.
-/

namespace Cdx

/-! ## Choosing from a sorted list -/

theorem classOf_filter {α : Type} (cmp : α → α → Ordering) (p : α → Bool) (x : α) (l : List α) :
    classOf cmp x (l.filter p) = (classOf cmp x l).filter p := by
  unfold classOf
  rw [List.filter_filter, List.filter_filter]
  congr 1
  funext y
  exact Bool.and_comm _ _

/-- What is chosen from a stable sort is the stable sort of what is chosen. -/
theorem stableSort_filter {α : Type} {cmp : α → α → Ordering} {inp out : List α} (p : α → Bool) (h : StableSort cmp inp out) :
    StableSort cmp (inp.filter p) (out.filter p) :=
  ⟨h.perm.filter p, h.sorted.filter p, fun x => by rw [classOf_filter, classOf_filter, h.stable x]⟩

/-- As `stableSort_filter`, for a choice that does not tell equal elements apart. -/
theorem uniqueSort_filter {α : Type} {cmp : α → α → Ordering} {inp out : List α} (p : α → Bool)
    (he : ∀ x y, cmp x y = .eq → p x = p y) (h : UniqueSort cmp inp out) : UniqueSort cmp (inp.filter p) (out.filter p) := by
  refine ⟨h.strict.filter p, fun x => ?_⟩
  have hc : ∀ l : List α, ∀ y ∈ classOf cmp x l, p y = p x := by
    intro l y hy
    unfold classOf at hy
    rw [List.mem_filter, beq_iff_eq] at hy
    exact (he x y hy.2).symm
  rw [classOf_filter, classOf_filter, h.first x]
  cases hx : p x with
  | true =>
    rw [List.filter_eq_self.2 fun y hy => by rw [hc inp y (List.mem_of_mem_take hy), hx],
      List.filter_eq_self.2 fun y hy => by rw [hc inp y hy, hx]]
  | false =>
    rw [List.filter_eq_nil_iff.2 fun y hy => by rw [hc inp y (List.mem_of_mem_take hy), hx]; simp,
      List.filter_eq_nil_iff.2 fun y hy => by rw [hc inp y hy, hx]; simp]
    rfl

/-! ## C213 -/

/-- The text of a column is a key that compares its values byte by byte. -/
theorem ref_keyFor {names : List Bytes} (hn : ∀ n ∈ names, IsName n) (hd : names.Nodup) (hl : names.length < 2 ^ 64) {r c : Bytes} (hc : c ∈ names)
    (h : RefOf names r c) (compiles : Bytes → Bool) : ∃ key, makeLineComp compiles r = .ok key ∧ KeyFor names (names.idxOf c) key := by
  obtain ⟨r1, r2, r3, k, r4, r5⟩ := newFrom_ref hn hl hc h
  have e : colsNew (sliceSplit 46 r) = .ok [k] := by
    have := sliceSplit_intercalate 46 [r] (by simp) (by simpa using r2)
    rw [intercalate_singleton] at this
    rw [this]
    simp only [colsNew, r4, Res.bind_ok]
  refine ⟨⟨confOf [], [], .col (.kind .plain) [k]⟩, ?_, k, ?_, ?_⟩
  · have := C110_line_partial compiles r [] [] (by unfold AliasOk; decide +kernel) (.kind .plain) (by unfold MethodOf; decide +kernel) r1 (by simp)
    rw [if_neg r3, e, Res.bind_ok] at this
    rw [(C110_short compiles r [] [] r1 (by simp)).2.1]
    exact this
  · have : confOf [] = {} := by decide +kernel
    rw [this]
  · have hi : names.idxOf c < names.length := List.idxOf_lt_length_iff.2 hc
    unfold NamedCol.lookup at r5
    by_cases hk : k.name = []
    · rw [if_neg (by simpa using hk), Res.ok.injEq] at r5
      exact .inl ⟨hk, r5⟩
    · rw [if_pos hk] at r5
      unfold lookupCol at r5
      cases hf : names.findIdx? (· == k.name) with
      | none => rw [hf] at r5; cases r5
      | some i =>
        rw [hf] at r5
        simp only [Res.ok.injEq] at r5
        rw [List.findIdx?_eq_some_iff_getElem] at hf
        obtain ⟨h1, h2, -⟩ := hf
        refine .inr ⟨hd, hk, ?_⟩
        rw [← r5, List.getElem?_eq_getElem h1]
        simpa using h2

/-- Full statement: tables sorted by a column, then searched for a value in that column: the header and the rows with the value, in the order they
have in the tables. -/
def C213_statement : Prop :=
  ∀ (toF64 : Bytes → F64) (nameOk : Bytes → Bool) (pick : Nat → List (Nat × Bytes) → Nat) (rd : Nat → Nat → Nat) (cap : Nat) (m : TextMode)
    (eval : Bytes → List Bytes → Res (Bytes → F64)) (compiles utf8 : Bytes → Bool) (names : List Bytes) (tables : List (List (List Bytes)))
    (col : Bytes) (os : List SortOpt) (spec value fname : Bytes) (key : LineCompMade),
    SortFits names [⟨col, .plain, false⟩] os → GoodTable names tables.flatten → (∀ n ∈ names, nameOk n = true) → tables ≠ [] →
    (∀ r ∈ tables.flatten, ∀ c ∈ r, 0 ∉ c) → 8 < cap → (sepText TAB tables.flatten).length < cap → SortOpt.unique ∉ os →
    utf8 (sepHead TAB names) = true → RefOf names spec col → makeLineComp compiles spec = .ok key →
    ∃ sorted fuel, sortMain toF64 nameOk pick rd cap m os (tables.map fun rows => sepHead TAB names ++ sepText TAB rows) = .ok sorted ∧
      binMain toF64 eval compiles utf8 nameOk fuel [key] none .new value [(fname, sorted)] =
        .ok (some (sepHead TAB names ++ sepText TAB (tables.flatten.filter fun r => cellOf names r col = value)))

theorem tabCmp_head {names : List Bytes} {col : Bytes} {ks : List TabKey} {x y : List Bytes} :
    (tabCmp names (⟨col, .plain, false⟩ :: ks) x y ≠ .gt → lexCmp (cellOf names x col) (cellOf names y col) ≠ .gt) ∧
    (tabCmp names (⟨col, .plain, false⟩ :: ks) x y = .eq → cellOf names x col = cellOf names y col) := by
  simp only [tabCmp, Bool.false_eq_true, if_false, cellCmp, ← lexCmp_eq_listCmp]
  cases h : lexCmp (cellOf names x col) (cellOf names y col) with
  | lt => simp [Ordering.then]
  | gt => simp [Ordering.then]
  | eq => exact ⟨fun _ => by simp, fun _ => lexCmp_eq.1 h⟩

/-- The rows found, when the first key is the column that is searched: the sort of the rows with the value. Holds if the value is greater than what
the header line has at the place of the column. -/
theorem C213_search_partial (toF64 : Bytes → F64) (nameOk : Bytes → Bool) (pick : Nat → List (Nat × Bytes) → Nat) (rd : Nat → Nat → Nat)
    (cap : Nat) (m : TextMode) (eval : Bytes → List Bytes → Res (Bytes → F64)) (compiles utf8 : Bytes → Bool) (names : List Bytes)
    (tables : List (List (List Bytes))) (col : Bytes) (ks : List TabKey) (os : List SortOpt) (spec value fname : Bytes)
    (h : SortFits names (⟨col, .plain, false⟩ :: ks) os) (ht : GoodTable names tables.flatten) (hok : ∀ n ∈ names, nameOk n = true)
    (htn : tables ≠ []) (hz : ∀ r ∈ tables.flatten, ∀ c ∈ r, 0 ∉ c) (hcap : 8 < cap) (hfit : (sepText TAB tables.flatten).length < cap)
    (hu : utf8 (sepHead TAB names) = true) (hspec : RefOf names spec col)
    (hv : lexCmp value ((ascii " CDX" :: names).getD (names.idxOf col) []) = .gt) :
    ∃ sorted key found,
      sortMain toF64 nameOk pick rd cap m os (tables.map fun rows => sepHead TAB names ++ sepText TAB rows) = .ok sorted ∧
      makeLineComp compiles spec = .ok key ∧
      (∀ fuel, 2 * sorted.length + 1 < fuel → binMain toF64 eval compiles utf8 nameOk fuel [key] none .new value [(fname, sorted)] =
        .ok (some (sepHead TAB names ++ sepText TAB found))) ∧
      (SortOpt.unique ∉ os → StableSort (tabCmp names (⟨col, .plain, false⟩ :: ks))
        (tables.flatten.filter fun r => cellOf names r col = value) found) ∧
      (SortOpt.unique ∈ os → UniqueSort (tabCmp names (⟨col, .plain, false⟩ :: ks))
        (tables.flatten.filter fun r => cellOf names r col = value) found) := by
  obtain ⟨out, s1, s2, s3⟩ := sort_tables toF64 nameOk pick rd cap m h ht hok htn hz hcap hfit
  obtain ⟨t1, t2, t3, t4, t5⟩ := ht
  obtain ⟨key, k1, k2⟩ := ref_keyFor t2 t3 t4 (h.suits ⟨col, .plain, false⟩ (by simp)).1 hspec compiles
  have hp := tabCmp_preorder names (⟨col, .plain, false⟩ :: ks)
  have hmem : ∀ r ∈ out, r ∈ tables.flatten := by
    intro r hr
    by_cases hq : SortOpt.unique ∈ os
    · have h1 := (s3 hq).first r
      have h2 : r ∈ classOf (tabCmp names (⟨col, .plain, false⟩ :: ks)) r out := by
        unfold classOf
        rw [List.mem_filter, beq_iff_eq]
        exact ⟨hr, hp.refl r⟩
      rw [h1] at h2
      have := List.mem_of_mem_take h2
      unfold classOf at this
      exact (List.mem_filter.1 this).1
    · exact (s2 hq).perm.mem_iff.1 hr
  have hsort : out.Pairwise fun r s => lexCmp (r.getD (names.idxOf col) []) (s.getD (names.idxOf col) []) ≠ .gt := by
    by_cases hq : SortOpt.unique ∈ os
    · exact (s3 hq).strict.imp fun e => tabCmp_head.1 (by rw [e]; simp)
    · exact (s2 hq).sorted.imp fun e => tabCmp_head.1 e
  have hlen : out.length + 1 ≤ (sepHead TAB names ++ sepText TAB out).length := by
    have h1 : ∀ l : List (List Bytes), l.length ≤ (sepText TAB l).length := by
      intro l
      induction l with
      | nil => simp
      | cons r l ih =>
        simp only [sepText_lines, List.map_cons, List.flatten_cons, List.length_append, List.length_cons, List.length_nil] at ih ⊢
        omega
    have h2 : 0 < (sepHead TAB names).length := by simp [sepHead]
    rw [List.length_append]
    have := h1 out
    omega
  have hb := fun fuel (hf : 2 * (sepHead TAB names ++ sepText TAB out).length + 1 < fuel) =>
    C127_table_partial toF64 eval compiles utf8 nameOk names ⟨t1, fun n hn => name_free (d := TAB) (by decide) (by decide) (t2 n hn)⟩
      hok hu out (fun r hr => t5 r (hmem r hr)) (names.idxOf col) key k2 value fname hsort hv fuel (by omega)
  refine ⟨_, key, out.filter fun r => cellOf names r col = value, s1, k1, hb, fun hq => stableSort_filter _ (s2 hq), fun hq => ?_⟩
  refine uniqueSort_filter _ (fun x y e => ?_) (s3 hq)
  rw [tabCmp_head.2 e]

/-- C213 with one key, under the condition of `C213_search_partial`: byte for byte the rows with the value, in the order of the tables. -/
theorem C213_found_partial (toF64 : Bytes → F64) (nameOk : Bytes → Bool) (pick : Nat → List (Nat × Bytes) → Nat) (rd : Nat → Nat → Nat)
    (cap : Nat) (m : TextMode) (eval : Bytes → List Bytes → Res (Bytes → F64)) (compiles utf8 : Bytes → Bool) (names : List Bytes)
    (tables : List (List (List Bytes))) (col : Bytes) (os : List SortOpt) (spec value fname : Bytes) (key : LineCompMade)
    (h : SortFits names [⟨col, .plain, false⟩] os) (ht : GoodTable names tables.flatten) (hok : ∀ n ∈ names, nameOk n = true)
    (htn : tables ≠ []) (hz : ∀ r ∈ tables.flatten, ∀ c ∈ r, 0 ∉ c) (hcap : 8 < cap) (hfit : (sepText TAB tables.flatten).length < cap)
    (hq : SortOpt.unique ∉ os) (hu : utf8 (sepHead TAB names) = true) (hspec : RefOf names spec col) (hkey : makeLineComp compiles spec = .ok key)
    (hv : lexCmp value ((ascii " CDX" :: names).getD (names.idxOf col) []) = .gt) :
    ∃ sorted, sortMain toF64 nameOk pick rd cap m os (tables.map fun rows => sepHead TAB names ++ sepText TAB rows) = .ok sorted ∧
      ∀ fuel, 2 * sorted.length + 1 < fuel → binMain toF64 eval compiles utf8 nameOk fuel [key] none .new value [(fname, sorted)] =
        .ok (some (sepHead TAB names ++ sepText TAB (tables.flatten.filter fun r => cellOf names r col = value))) := by
  obtain ⟨sorted, key', found, h1, h2, h3, h4, -⟩ := C213_search_partial toF64 nameOk pick rd cap m eval compiles utf8 names tables col [] os
    spec value fname h ht hok htn hz hcap hfit hu hspec hv
  rw [hkey, Res.ok.injEq] at h2
  subst h2
  have := h4 hq
  have e : found = tables.flatten.filter fun r => cellOf names r col = value := by
    refine StableSort.unique (tabCmp_preorder _ _) this ⟨.refl _, ?_, fun _ => rfl⟩
    rw [SortedBy, List.pairwise_iff_forall_sublist]
    intro a b hab
    have ha : cellOf names a col = value := by
      have := hab.subset (List.mem_cons_self ..)
      simpa using (List.mem_filter.1 this).2
    have hb : cellOf names b col = value := by
      have := hab.subset (List.mem_cons_of_mem _ (List.mem_cons_self ..))
      simpa using (List.mem_filter.1 this).2
    simp only [tabCmp, Bool.false_eq_true, if_false, cellCmp, ha, hb, ← lexCmp_eq_listCmp, (lexCmp_eq (a := value)).2 rfl]
    simp [Ordering.then]
  exact ⟨sorted, h1, fun fuel hf => by rw [h3 fuel hf, e]⟩

/-- Searching the second column for `1` stops at the name `x` of the header line. -/
theorem C213_refuted : ¬ C213_statement := by
  intro h
  obtain ⟨sorted, fuel, h1, h2⟩ := h (fun _ => 0) (fun _ => true) (fun _ _ => 0) (fun _ _ => 0) 100 .default (fun _ _ => .err) (fun _ => true)
    (fun _ => true) [ascii "a", ascii "b"] [[[ascii "x", ascii "1"], [ascii "y", ascii "22"], [ascii "x", ascii "3"], [ascii "y", ascii "44"]]]
    (ascii "b") [.key (ascii "b")] (ascii "2") (ascii "1") [] (colKey 1) (sortFits_one _ _ (by decide +kernel)) goodTable_example (by simp) (by simp)
    (by decide +kernel) (by decide) (by decide +kernel) (by simp) rfl (.inr (by decide +kernel)) (by decide +kernel)
  have e := h1.symm.trans (by decide +kernel :
    sortMain (fun _ => 0) (fun _ => true) (fun _ _ => 0) (fun _ _ => 0) 100 .default [.key (ascii "b")]
      ([[[ascii "x", ascii "1"], [ascii "y", ascii "22"], [ascii "x", ascii "3"], [ascii "y", ascii "44"]]].map fun rows =>
        sepHead TAB [ascii "a", ascii "b"] ++ sepText TAB rows) =
      .ok (ascii " CDX\ta\tb\nx\t1\ny\t22\nx\t3\ny\t44\n"))
  rw [Run.ok.injEq] at e
  rw [e] at h2
  have := binMain_all _ _ _ _ _ 20 fuel _ _ _ _ _ (some (ascii " CDX\ta\tb\n")) _ (by decide +kernel) h2
  revert this
  decide +kernel

/-- Two tables, sorted by their first column, given by name, and searched for `y`. -/
example : ∃ sorted fuel, sortMain (fun _ => 0) (fun _ => true) (fun _ _ => 0) (fun _ _ => 0) 100 .default [.key (ascii "a")]
      ([[[ascii "x", ascii "1"], [ascii "y", ascii "22"]], [[ascii "x", ascii "3"], [ascii "y", ascii "44"]]].map fun rows =>
        sepHead TAB [ascii "a", ascii "b"] ++ sepText TAB rows) = .ok sorted ∧
    binMain (fun _ => 0) (fun _ _ => .err) (fun _ => true) (fun _ => true) (fun _ => true) fuel [colKey 0] none .new (ascii "y") [([], sorted)] =
      .ok (some (ascii " CDX\ta\tb\ny\t22\ny\t44\n")) := by
  obtain ⟨sorted, h1, h2⟩ := C213_found_partial (fun _ => 0) (fun _ => true) (fun _ _ => 0) (fun _ _ => 0) 100 .default (fun _ _ => .err) (fun _ => true) (fun _ => true)
    [ascii "a", ascii "b"] [[[ascii "x", ascii "1"], [ascii "y", ascii "22"]], [[ascii "x", ascii "3"], [ascii "y", ascii "44"]]] (ascii "a")
    [.key (ascii "a")] (ascii "1") (ascii "y") [] (colKey 0) (sortFits_one _ _ (by decide +kernel)) goodTable_example (by simp) (by simp)
    (by decide +kernel) (by decide) (by decide +kernel) (by simp) rfl (.inr (by decide +kernel)) (by decide +kernel) (by decide +kernel)
  exact ⟨sorted, _, h1, h2 _ (Nat.lt_succ_self _)⟩

end Cdx
