import Verif.Props.Agg

/-! C46: the `merge` aggregator. -/

namespace Cdx

theorem tidyLast_snoc (a : List Bytes) (l : Bytes) : tidyLast (a ++ [l]) = if l = [] then a else a ++ [chopNL l] := by
  simp [tidyLast]

/-- The parts of a line are the pieces between delimiters, the last one tidied. -/
theorem splitPlain_tidy (line : Bytes) (d : UInt8) :
    (splitPlain line d).map (·.get line) = tidyLast (sliceSplit d line) ∧ ∀ s ∈ splitPlain line d, s.Within line := by
  obtain ⟨P, b, h1, h2, h3, hd, tl, h4, h5⟩ := splitPlainLoop_spec d line [] 0 [] (Nat.le_refl _)
  simp only [List.nil_append, List.length_nil, List.drop_nil] at h1 h2 h3 h5
  have e5 : (⟨b, line.length⟩ : Slice).get line = line.drop b := by
    simp only [Slice.get]; rw [List.take_of_length_le (by simp)]
  rw [e5] at h5
  rw [h4, ← h5, tidyLast_snoc]
  simp only [splitPlain, h1]
  by_cases hb : b = line.length
  · subst hb
    simp only [ne_eq, not_true_eq_false, if_false, List.drop_length, if_true]
    exact ⟨trivial, h3⟩
  · have hlt : b < line.length := by omega
    have hne : line.drop b ≠ [] := by simp; omega
    simp only [ne_eq, hb, not_false_eq_true, if_true, hne, if_false, chopNL]
    have hlast : (line.drop b).getLast? = line[line.length - 1]? := by
      rw [List.getLast?_eq_getElem?, List.getElem?_drop, List.length_drop]
      congr 1; omega
    rw [hlast]
    by_cases hn : line[line.length - 1]? = some NL
    · have hn' : line[line.length - 1]? = some 10 := hn
      simp only [hn, if_true]
      constructor
      · rw [List.map_append, List.map_singleton]
        congr 2
        simp only [Slice.get]
        rw [List.dropLast_eq_take, List.length_drop]
        congr 1; omega
      · intro s hs
        rcases List.mem_append.1 hs with hs | hs
        · exact h3 s hs
        · simp only [List.mem_singleton] at hs; subst hs
          constructor <;> dsimp only <;> omega
    · have hn' : line[line.length - 1]? ≠ some 10 := hn
      rw [if_neg hn, if_neg hn']
      constructor
      · rw [List.map_append, List.map_singleton, e5]
      · intro s hs
        rcases List.mem_append.1 hs with hs | hs
        · exact h3 s hs
        · simp only [List.mem_singleton] at hs; subst hs
          constructor <;> dsimp only <;> omega

/-! ## The line kept -/

/-- The parts of all values that are not empty. -/
def mergeParts (d : UInt8) (vs : List Bytes) : List Bytes := (vs.filter fun v => decide (v ≠ [])).flatMap (sliceSplit d)

theorem addAll_merge {F : Type} (env : AggEnv F) (c : MergeConf) (vs : List Bytes) (line : Bytes) :
    ∃ l, (Agg.merge c line).addAll env vs = .merge c l ∧
      tidyLast (sliceSplit c.delim l) =
        tidyLast ((if line = [] then [] else sliceSplit c.delim line) ++ mergeParts c.delim vs) := by
  induction vs generalizing line with
  | nil =>
    refine ⟨line, rfl, ?_⟩
    by_cases h : line = []
    · subst h; simp [sliceSplit, mergeParts, tidyLast]
    · simp [h, mergeParts]
  | cons v vs ih =>
    rw [addAll_cons]
    by_cases hv : v = []
    · subst hv
      simp only [Agg.add, ne_eq, not_true_eq_false, if_false]
      obtain ⟨l, h1, h2⟩ := ih line
      exact ⟨l, h1, by rw [h2]; simp [mergeParts]⟩
    · simp only [Agg.add, ne_eq, hv, not_false_eq_true, if_true]
      obtain ⟨l, h1, h2⟩ := ih ((if ¬line = [] then line ++ [c.delim] else line) ++ v)
      refine ⟨l, h1, ?_⟩
      rw [h2, if_neg (by simp [hv])]
      have : mergeParts c.delim (v :: vs) = sliceSplit c.delim v ++ mergeParts c.delim vs := by
        simp [mergeParts, hv]
      rw [this, ← List.append_assoc]
      congr 2
      by_cases h : line = []
      · simp [h]
      · simp only [h, not_false_eq_true, if_true, if_false, sliceSplit_join]

/-! ## Sorting and collapsing -/

variable {α β : Type}

theorem dedupLoop_map (eq : β → β → Bool) (f : α → β) (last : α) (l : List α) :
    (dedupLoop (fun a b => eq (f a) (f b)) last l).map f = dedupLoop eq (f last) (l.map f) := by
  induction l generalizing last with
  | nil => rfl
  | cons x l ih =>
    simp only [dedupLoop, List.map_cons]
    split
    · exact ih last
    · rw [List.map_cons, ih]

theorem dedupBy_map' (eq : β → β → Bool) (f : α → β) (l : List α) :
    (dedupBy (fun a b => eq (f a) (f b)) l).map f = dedupBy eq (l.map f) := by
  cases l with
  | nil => rfl
  | cons x l => simp only [dedupBy, List.map_cons, dedupLoop_map]

theorem dedupLoop_run (eq : α → α → Bool) (last : α) (l : List α) :
    ∃ same rest, l = same ++ rest ∧ (∀ y ∈ same, eq y last = true) ∧ (∀ y, rest.head? = some y → eq y last = false) ∧
      dedupLoop eq last l = dedupBy eq rest := by
  induction l with
  | nil => exact ⟨[], [], rfl, by simp, by simp, rfl⟩
  | cons x l ih =>
    by_cases h : eq x last = true
    · obtain ⟨s, r, e, h1, h2, h3⟩ := ih
      refine ⟨x :: s, r, by simp [e], ?_, h2, by simp [dedupLoop, h, h3]⟩
      intro y hy
      rcases List.mem_cons.1 hy with rfl | hy
      · exact h
      · exact h1 y hy
    · refine ⟨[], x :: l, rfl, by simp, ?_, by simp [dedupLoop, h, dedupBy]⟩
      intro y hy
      simp only [List.head?_cons, Option.some.injEq] at hy; subst hy; simpa using h

theorem dedupBy_collapsed (eq : α → α → Bool) (l : List α) : Collapsed eq l (dedupBy eq l) := by
  cases l with
  | nil => exact .nil
  | cons x l =>
    obtain ⟨s, r, e, h1, h2, h3⟩ := dedupLoop_run eq x l
    have : r.length < (x :: l).length := by simp [e]; omega
    have ih := dedupBy_collapsed eq r
    rw [dedupBy, h3, e]
    exact .run x s r _ h1 h2 ih
termination_by l.length

theorem Collapsed.mem {eq : α → α → Bool} {l out : List α} (h : Collapsed eq l out) : ∀ y ∈ out, y ∈ l := by
  induction h with
  | nil => simp
  | run x same rest out _ _ _ ih =>
    intro y hy
    rcases List.mem_cons.1 hy with rfl | hy
    · simp
    · simp [ih y hy]

/-- Sorted and collapsed: strictly increasing, and every element has an equal one. -/
theorem Collapsed.strict {S : α → Prop} {cmp : α → α → Ordering} (hc : PreorderOn S cmp) {l out : List α}
    (h : Collapsed (fun a b => cmp a b == .eq) l out) (hS : ∀ x ∈ l, S x) (hs : SortedBy cmp l) :
    (out.Pairwise fun a b => cmp a b = .lt) ∧ ∀ x ∈ l, ∃ y ∈ out, cmp x y = .eq := by
  obtain ⟨cmp', ht, hag⟩ := hc.extend
  induction h with
  | nil => exact ⟨.nil, by simp⟩
  | run x same rest out h1 h2 h3 ih =>
    have hSr : ∀ y ∈ rest, S y := fun y hy => hS y (by simp [hy])
    have hx : S x := hS x (by simp)
    have hsr : SortedBy cmp rest := by
      have := hs.tail
      exact (List.pairwise_append.1 this).2.1
    obtain ⟨p1, p2⟩ := ih hSr hsr
    constructor
    · refine List.Pairwise.cons ?_ p1
      intro y hy
      have hy' := h3.mem y hy
      cases rest with
      | nil => simp at hy'
      | cons z r =>
        have hz := h2 z rfl
        have hSz : S z := hSr z (by simp)
        have hxz : cmp x z ≠ .gt := hs.head z (by simp)
        have hlt : cmp' x z = .lt := by
          rw [← hag x z hx hSz] at hxz
          rw [beq_eq_false_iff_ne, ne_eq, ← hag z x hSz hx] at hz
          cases hh : cmp' x z with
          | lt => rfl
          | gt => exact absurd hh hxz
          | eq => exact absurd (ht.eq_symm hh) hz
        rcases List.mem_cons.1 hy' with rfl | hyr
        · rw [← hag x y hx hSz]; exact hlt
        · have hSy := hSr y (by simp [hyr])
          rw [← hag x y hx hSy]
          refine ht.lt_of_lt_of_le hlt ?_
          rw [hag z y hSz hSy]
          exact hsr.head y hyr
    · intro y hy
      rcases List.mem_cons.1 hy with rfl | hy
      · exact ⟨y, by simp, hc.refl y hx⟩
      · rcases List.mem_append.1 hy with hy | hy
        · exact ⟨x, by simp, by simpa using h1 y hy⟩
        · obtain ⟨z, hz, e⟩ := p2 y hy
          exact ⟨z, by simp [hz], e⟩

theorem stableSort_on {S : α → Prop} {cmp : α → α → Ordering} (hc : PreorderOn S cmp) (l : List α) (hS : ∀ x ∈ l, S x) :
    StableOn cmp l (stableSort (fun a b => decide (cmp a b ≠ .gt)) l) := by
  obtain ⟨cmp', ht, hag⟩ := hc.extend
  have he : stableSort (fun a b => decide (cmp a b ≠ .gt)) l = stableSort (leOf cmp') l := by
    have := stableSort_map (fun a b => decide (cmp a b ≠ .gt)) (leOf cmp') id l (by
      intro a ha b hb
      simp only [id, leOf, hag a b (hS a ha) (hS b hb)])
    simpa using this
  obtain ⟨h1, h2, h3⟩ := stableSort_stable ht l
  rw [he]
  have hm : ∀ x ∈ stableSort (leOf cmp') l, S x := fun x hx => hS x (h1.mem_iff.1 hx)
  have hcl : ∀ x, S x → ∀ m : List α, (∀ y ∈ m, S y) → classOf cmp x m = classOf cmp' x m := by
    intro x hx m hm
    refine List.filter_congr fun y hy => ?_
    rw [hag x y hx (hm y hy)]
  refine ⟨h1, ?_, ?_⟩
  · refine List.Pairwise.imp_of_mem ?_ h2
    intro a b ha hb hab
    rwa [← hag a b (hm a ha) (hm b hb)]
  · intro x hx
    rw [hcl x (hS x hx) _ hm, hcl x (hS x hx) _ hS, h3]

/-! ## The whole aggregator -/

theorem mergeSlices_listed {F : Type} (env : AggEnv F) (c : MergeConf) (line : Bytes)
    (hk : ∀ p ∈ tidyLast (sliceSplit c.delim line), KeyOk env.toF64 c.comp p) :
    Listed (compK env.toF64 c.comp) c.doSort c.doUniq (tidyLast (sliceSplit c.delim line))
      ((mergeSlices env c line).map (·.get line)) ∧ ∀ s ∈ mergeSlices env c line, s.Within line := by
  obtain ⟨h1, h2⟩ := splitPlain_tidy line c.delim
  have heq : (fun a b => equalK env.toF64 c.comp a b) = fun a b => compK env.toF64 c.comp a b == .eq := by
    funext a b
    have := C22_equal_consistent env.toF64 c.comp a b
    cases h : equalK env.toF64 c.comp a b
    · rw [h] at this
      simp only [Bool.false_eq_true, false_iff] at this
      simp [this]
    · simp [this.1 h]
  let srt := if c.doSort then
    stableSort (fun a b : Slice => decide (compK env.toF64 c.comp (a.get line) (b.get line) ≠ .gt)) (splitPlain line c.delim)
    else splitPlain line c.delim
  have hsrt : (if c.doSort then StableOn (compK env.toF64 c.comp) (tidyLast (sliceSplit c.delim line)) (srt.map (·.get line))
      else srt.map (·.get line) = tidyLast (sliceSplit c.delim line)) ∧ ∀ s ∈ srt, s.Within line := by
    cases hs : c.doSort
    · simp only [srt, hs, Bool.false_eq_true, if_false]
      exact ⟨h1, h2⟩
    · simp only [srt, hs, if_true]
      refine ⟨?_, fun s hm => h2 s (mem_stableSort.1 hm)⟩
      rw [stableSort_map _ (fun a b => decide (compK env.toF64 c.comp a b ≠ .gt)) (fun s : Slice => s.get line) _
        (fun a _ b _ => rfl), h1]
      exact stableSort_on (compK_on env.toF64 c.comp) _ hk
  have hm : mergeSlices env c line =
      if c.doUniq then dedupBy (fun a b => equalK env.toF64 c.comp (a.get line) (b.get line)) srt else srt := rfl
  rw [hm]
  cases hu : c.doUniq
  · simp only [Bool.false_eq_true, if_false]
    exact ⟨⟨_, hsrt.1, rfl⟩, hsrt.2⟩
  · simp only [if_true]
    constructor
    · refine ⟨_, hsrt.1, ?_⟩
      simp only [if_true]
      rw [dedupBy_map' (equalK env.toF64 c.comp) (fun s : Slice => s.get line)]
      have := dedupBy_collapsed (equalK env.toF64 c.comp) (srt.map (·.get line))
      have e2 : equalK env.toF64 c.comp = fun a b => compK env.toF64 c.comp a b == .eq := heq
      rw [e2] at this ⊢
      exact this
    · intro s hs
      exact hsrt.2 s ((dedupBy_collapsed _ _).mem s hs)

theorem intercalate_cons (d : Bytes) (y : Bytes) (ys : List Bytes) :
    List.intercalate d (y :: ys) = y ++ ys.flatMap fun z => d ++ z := by
  induction ys generalizing y with
  | nil => simp [List.intercalate]
  | cons z ys ih =>
    have : List.intercalate d (y :: z :: ys) = y ++ (d ++ List.intercalate d (z :: ys)) := by simp [List.intercalate]
    rw [this, ih]; simp

theorem mergeWrite_tail (c : MergeConf) (line : Bytes) (xs : List Slice) (hw : ∀ s ∈ xs, s.Within line) (n : Nat)
    (h0 : 0 < n) (hn : n < c.maxParts) :
    mergeWrite c line xs n =
      (limited c.minLen c.maxLen (c.maxParts - n) (xs.map (·.get line))).flatMap fun z => [c.outDelim] ++ z := by
  induction xs generalizing n with
  | nil => simp [mergeWrite, limited]
  | cons x xs ih =>
    have hx := hw x (by simp)
    have hl : (x.get line).length = x.fin - x.beg := by
      simp only [Slice.get, List.length_take, List.length_drop]
      have := hx.1; have := hx.2; omega
    have ih := fun n => ih (fun s hs => hw s (List.mem_cons_of_mem _ hs)) n
    simp only [mergeWrite, List.map_cons, limited, List.filter_cons, hl]
    by_cases hc : x.fin - x.beg ≥ c.minLen ∧ x.fin - x.beg ≤ c.maxLen
    · have hc' : c.minLen ≤ x.fin - x.beg ∧ x.fin - x.beg ≤ c.maxLen := hc
      rw [if_pos hc]
      simp only [hc', and_self, decide_true, if_true, h0, gt_iff_lt]
      rw [show c.maxParts - n = (c.maxParts - (n + 1)) + 1 by omega, List.take_succ_cons, List.flatMap_cons]
      by_cases hm : n + 1 ≥ c.maxParts
      · rw [if_pos hm, show c.maxParts - (n + 1) = 0 by omega]; simp
      · rw [if_neg hm, ih (n + 1) (by omega) (by omega)]; rfl
    · have hc' : ¬ (c.minLen ≤ x.fin - x.beg ∧ x.fin - x.beg ≤ c.maxLen) := hc
      rw [if_neg hc]
      simp only [hc', decide_false, Bool.false_eq_true, if_false]
      exact ih n h0 hn

theorem mergeWrite_eq (c : MergeConf) (line : Bytes) (xs : List Slice) (hw : ∀ s ∈ xs, s.Within line) :
    mergeWrite c line xs 0 =
      List.intercalate [c.outDelim] (limited c.minLen c.maxLen (max 1 c.maxParts) (xs.map (·.get line))) := by
  induction xs with
  | nil => simp [mergeWrite, limited, List.intercalate]
  | cons x xs ih =>
    have hx := hw x (by simp)
    have hl : (x.get line).length = x.fin - x.beg := by
      simp only [Slice.get, List.length_take, List.length_drop]
      have := hx.1; have := hx.2; omega
    have hw' := fun s hs => hw s (List.mem_cons_of_mem _ hs)
    simp only [mergeWrite, List.map_cons, limited, List.filter_cons, hl]
    by_cases hc : x.fin - x.beg ≥ c.minLen ∧ x.fin - x.beg ≤ c.maxLen
    · have hc' : c.minLen ≤ x.fin - x.beg ∧ x.fin - x.beg ≤ c.maxLen := hc
      rw [if_pos hc]
      simp only [hc', and_self, decide_true, if_true, gt_iff_lt, Nat.lt_irrefl, if_false, List.nil_append]
      rw [show max 1 c.maxParts = (max 1 c.maxParts - 1) + 1 by omega, List.take_succ_cons, intercalate_cons]
      by_cases hm : 0 + 1 ≥ c.maxParts
      · rw [if_pos hm, show max 1 c.maxParts - 1 = 0 by omega]; simp
      · rw [if_neg hm, mergeWrite_tail c line xs hw' (0 + 1) (by omega) (by omega),
          show max 1 c.maxParts - 1 = c.maxParts - (0 + 1) by omega]; rfl
    · have hc' : ¬ (c.minLen ≤ x.fin - x.beg ∧ x.fin - x.beg ≤ c.maxLen) := hc
      rw [if_neg hc]
      simp only [hc', decide_false, Bool.false_eq_true, if_false]
      exact ih hw'

/-- C46 in full: the parts of the values, sorted and collapsed as asked for, those of the right length, at most
`max_parts` of them; or how many these are. -/
def C46_statement : Prop :=
  ∀ (F : Type) (env : AggEnv F) (c : MergeConf) (vs : List Bytes),
    (∀ p ∈ mergeParts c.delim vs, KeyOk env.toF64 c.comp p) →
    ∃ ps, Listed (compK env.toF64 c.comp) c.doSort c.doUniq (mergeParts c.delim vs) ps ∧
      ((Agg.merge c []).addAll env vs).result env =
        if c.doCount then .num (env.ops.ofNat (limited c.minLen c.maxLen c.maxParts ps).length)
        else .text (List.intercalate [c.outDelim] (limited c.minLen c.maxLen c.maxParts ps))

/-- The empty part after the last delimiter is lost, though not if another value follows. -/
theorem C46_refuted : ¬ C46_statement := by
  intro h
  obtain ⟨ps, ⟨mid, h1, h2⟩, h3⟩ := h Nat AggEnv.plain .default [ascii "a,"] (by simp [KeyOk, MergeConf.default])
  simp only [MergeConf.default, Bool.false_eq_true, if_false] at h1 h2 h3
  subst h1; subst h2
  exact absurd h3 (by decide +kernel)

/-- The same values in another order give another list, even if it is sorted. -/
example : ((Agg.merge { MergeConf.default with doSort := true } []).addAll AggEnv.plain [ascii "a,", ascii "b"]).result AggEnv.plain
      = .text (ascii ",a,b") ∧
    ((Agg.merge { MergeConf.default with doSort := true } []).addAll AggEnv.plain [ascii "b", ascii "a,"]).result AggEnv.plain
      = .text (ascii "a,b") := by decide +kernel

/-- With `max_parts:0` one part is still printed, and counting ignores all limits. -/
theorem C46_refuted_limits :
    ((Agg.merge { MergeConf.default with maxParts := 0 } []).addAll AggEnv.plain [ascii "a", ascii "b"]).result AggEnv.plain
      = .text (ascii "a") ∧
    ((Agg.merge { MergeConf.default with maxParts := 1, minLen := 2, doCount := true } []).addAll AggEnv.plain
      [ascii "a", ascii "b"]).result AggEnv.plain = .num 2 := by decide +kernel

/-- What `merge` does, for all values and options. -/
theorem C46_exact {F : Type} (env : AggEnv F) (c : MergeConf) (vs : List Bytes)
    (hk : ∀ p ∈ tidyLast (mergeParts c.delim vs), KeyOk env.toF64 c.comp p) :
    ∃ ps, Listed (compK env.toF64 c.comp) c.doSort c.doUniq (tidyLast (mergeParts c.delim vs)) ps ∧
      ((Agg.merge c []).addAll env vs).result env =
        if c.doCount then .num (env.ops.ofNat ps.length)
        else .text (List.intercalate [c.outDelim] (limited c.minLen c.maxLen (max 1 c.maxParts) ps)) := by
  obtain ⟨l, h1, h2⟩ := addAll_merge env c vs []
  simp only [if_true, List.nil_append] at h2
  rw [← h2] at hk ⊢
  obtain ⟨h3, h4⟩ := mergeSlices_listed env c l hk
  refine ⟨_, h3, ?_⟩
  rw [h1, Agg.result, mergeWrite_eq c l _ h4, List.length_map]

/-- C46 if the last part is not empty and ends in no newline, at least one part is asked for, and limits are not used
together with counting. -/
theorem C46_merge_partial {F : Type} (env : AggEnv F) (c : MergeConf) (vs : List Bytes)
    (hk : ∀ p ∈ mergeParts c.delim vs, KeyOk env.toF64 c.comp p)
    (hl : ∀ p, (mergeParts c.delim vs).getLast? = some p → p ≠ [] ∧ p.getLast? ≠ some 10)
    (hm : 1 ≤ c.maxParts)
    (hc : c.doCount = true → c.minLen = 0 ∧ (∀ p ∈ mergeParts c.delim vs, p.length ≤ c.maxLen) ∧
      (mergeParts c.delim vs).length ≤ c.maxParts) :
    ∃ ps, Listed (compK env.toF64 c.comp) c.doSort c.doUniq (mergeParts c.delim vs) ps ∧
      ((Agg.merge c []).addAll env vs).result env =
        if c.doCount then .num (env.ops.ofNat (limited c.minLen c.maxLen c.maxParts ps).length)
        else .text (List.intercalate [c.outDelim] (limited c.minLen c.maxLen c.maxParts ps)) := by
  have ht : tidyLast (mergeParts c.delim vs) = mergeParts c.delim vs := by
    unfold tidyLast
    cases h : (mergeParts c.delim vs).getLast? with
    | none => rw [List.getLast?_eq_none_iff.1 h]
    | some p =>
      obtain ⟨h1, h2⟩ := hl p h
      simp only [h1, if_false, chopNL, h2]
      obtain ⟨ys, e⟩ := List.getLast?_eq_some_iff.1 h
      rw [e]; simp
  obtain ⟨ps, h1, h2⟩ := C46_exact env c vs (by rwa [ht])
  rw [ht] at h1
  refine ⟨ps, h1, ?_⟩
  rw [h2, Nat.max_eq_right hm]
  cases hd : c.doCount
  · rfl
  · obtain ⟨c1, c2, c3⟩ := hc hd
    have hsub : (∀ p ∈ ps, p ∈ mergeParts c.delim vs) ∧ ps.length ≤ (mergeParts c.delim vs).length := by
      obtain ⟨mid, m1, m2⟩ := h1
      have hmid : (∀ p ∈ mid, p ∈ mergeParts c.delim vs) ∧ mid.length = (mergeParts c.delim vs).length := by
        split at m1
        · exact ⟨fun p hp => m1.perm.mem_iff.1 hp, m1.perm.length_eq⟩
        · rw [m1]; exact ⟨fun _ h => h, rfl⟩
      split at m2
      · refine ⟨fun p hp => hmid.1 p (m2.mem p hp), ?_⟩
        rw [← hmid.2]
        clear h2 hmid m1
        induction m2 with
        | nil => simp
        | run x same rest out _ _ _ ih => simp; omega
      · rw [m2]; exact ⟨hmid.1, Nat.le_of_eq hmid.2⟩
    have : limited c.minLen c.maxLen c.maxParts ps = ps := by
      unfold limited
      rw [List.filter_eq_self.2 (fun p hp => by simpa [c1] using c2 p (hsub.1 p hp)), List.take_of_length_le (by omega)]
    rw [this]

/-- C46: sorted with `uniq`, the parts are strictly increasing and none is lost. -/
theorem C46_sort_uniq (toF64 : Bytes → F64) (k : CompKind) (inp ps : List Bytes) (hk : ∀ p ∈ inp, KeyOk toF64 k p)
    (h : Listed (compK toF64 k) true true inp ps) :
    (ps.Pairwise fun a b => compK toF64 k a b = .lt) ∧ (∀ p ∈ ps, p ∈ inp) ∧
      ∀ p ∈ inp, ∃ q ∈ ps, compK toF64 k p q = .eq := by
  obtain ⟨mid, h1, h2⟩ := h
  simp only [if_true] at h1 h2
  have hm : ∀ p, p ∈ mid ↔ p ∈ inp := fun p => h1.perm.mem_iff
  obtain ⟨h3, h4⟩ := h2.strict (compK_on toF64 k) (fun x hx => hk x ((hm x).1 hx)) h1.sorted
  exact ⟨h3, fun p hp => (hm p).1 (h2.mem p hp), fun p hp => h4 p ((hm p).2 hp)⟩

/-- C46: at most `max_parts` parts, if that is not 0, and all of them of a length in bounds. -/
theorem C46_limits (c : MergeConf) (ps : List Bytes) (h : 1 ≤ c.maxParts) :
    (limited c.minLen c.maxLen (max 1 c.maxParts) ps).length ≤ c.maxParts ∧
    ∀ p ∈ limited c.minLen c.maxLen (max 1 c.maxParts) ps, p ∈ ps ∧ c.minLen ≤ p.length ∧ p.length ≤ c.maxLen := by
  unfold limited
  constructor
  · rw [List.length_take]; omega
  · intro p hp
    have := List.mem_filter.1 (List.mem_of_mem_take hp)
    simpa using this

example : (∀ p ∈ mergeParts 44 [ascii "b,a", [], ascii "b"], KeyOk AggEnv.plain.toF64 .plain p) ∧
    (∀ p, (mergeParts 44 [ascii "b,a", [], ascii "b"]).getLast? = some p → p ≠ [] ∧ p.getLast? ≠ some 10) ∧
    ((Agg.merge { MergeConf.default with doSort := true, doUniq := true, outDelim := 59 } []).addAll AggEnv.plain
      [ascii "b,a", [], ascii "b"]).result AggEnv.plain = .text (ascii "a;b") := by
  refine ⟨by simp [KeyOk], ?_, by decide +kernel⟩
  intro p hp
  have : (mergeParts 44 [ascii "b,a", [], ascii "b"]).getLast? = some (ascii "b") := by decide +kernel
  rw [this] at hp; simp only [Option.some.injEq] at hp; subst hp; decide

end Cdx
