import Verif.Lemmas.MergeFiles

/-!
C29: merging sorted files.
-/

namespace Cdx

/-- A heap that pops the oldest of its smallest entries. -/
def pickOldest (cmp : Bytes → Bytes → Ordering) (_ : Nat) (entries : List (Nat × Bytes)) : Nat :=
  entries.findIdx fun e => entries.all fun e' => decide (cmp e.2 e'.2 ≠ .gt)

theorem exists_smallest {α : Type} {cmp : α → α → Ordering} (hc : TotalPreorder cmp) (l : List α) (hne : l ≠ []) :
    ∃ x ∈ l, ∀ y ∈ l, cmp x y ≠ .gt := by
  induction l with
  | nil => exact absurd rfl hne
  | cons a l ih =>
    by_cases hl : l = []
    · exact ⟨a, by simp, by subst hl; simp [hc.refl]⟩
    · obtain ⟨x, hx, hy⟩ := ih hl
      by_cases h : cmp a x = .gt
      · refine ⟨x, by simp [hx], ?_⟩
        intro y hy'
        rcases List.mem_cons.1 hy' with rfl | hy'
        · rw [hc.swap y x, h]; decide
        · exact hy y hy'
      · refine ⟨a, by simp, ?_⟩
        intro y hy'
        rcases List.mem_cons.1 hy' with rfl | hy'
        · rw [hc.refl]; decide
        · exact hc.trans a x y h (hy y hy')

/-- There are heaps as the theorems below require, for every total preorder. -/
theorem pickOldest_smallest {cmp : Bytes → Bytes → Ordering} (hc : TotalPreorder cmp) (L : Bytes → Prop) :
    PicksSmallest cmp L (pickOldest cmp) := by
  intro n entries hne _
  have hex : ∃ e ∈ entries, (entries.all fun e' => decide (cmp e.2 e'.2 ≠ .gt)) = true := by
    obtain ⟨e, he, h⟩ := exists_smallest (hc.comap fun e : Nat × Bytes => e.2) entries hne
    exact ⟨e, he, by simpa [List.all_eq_true] using fun a b hab => h (a, b) hab⟩
  have hlt : pickOldest cmp n entries < entries.length := List.findIdx_lt_length_of_exists hex
  refine ⟨hlt, ?_⟩
  have := List.findIdx_getElem (w := hlt)
  intro e he
  have h2 := List.all_eq_true.1 this e he
  exact of_decide_eq_true h2

/-- Files that are sorted for a merge. -/
def SortedFiles (cmp : Bytes → Bytes → Ordering) (contents : List Bytes) : Prop :=
  ∀ c ∈ contents, SortedBy cmp (openMerge c).2

/-- All the lines, in the order of the files. -/
def allLines (contents : List Bytes) : List Bytes := (contents.map fun c => (openMerge c).2).flatten

theorem allLines_eq (contents : List Bytes) : allLines contents = (contents.map dataLines).flatten := rfl

/-- The claim for the default merge, the heap. -/
def C29_statement : Prop :=
  ∀ (toF64 : Bytes → F64) (cs : List LineComp) (pick : Nat → List (Nat × Bytes) → Nat) (contents : List Bytes),
    TotalPreorder (mergeComp toF64 cs) → PicksSmallest (mergeComp toF64 cs) (fun _ => True) pick →
    1 < contents.length → SortedFiles (mergeComp toF64 cs) contents →
    ∃ out, StableSort (mergeComp toF64 cs) (allLines contents) out ∧
      mergeT2 toF64 cs pick false contents = (openMerge (contents.headD [])).1 ++ out.flatten

/-- The comparison of a merge with the usual methods is a total preorder. -/
theorem C29_preorder (toF64 : Bytes → F64) (cs : List LineComp)
    (h : ∀ c ∈ cs, match c.kind with
      | .whole k => k ≠ .numeric ∧ k ≠ .float
      | .col k _ => k ≠ .numeric ∧ k ≠ .float
      | .expr eval => ∀ n l, (eval n l).isNaN = false) : TotalPreorder (mergeComp toF64 cs) := by
  apply mergeComp_preorder
  intro c hc
  have h := h c hc
  unfold LineComp.compCols
  apply rev_preorder
  cases hk : c.kind with
  | whole k =>
    rw [hk] at h
    exact (C22_preorder_partial toF64 k false h.1 (fun e => absurd e h.2)).comap fun x : TextLine => x.text
  | col k n =>
    rw [hk] at h
    exact (C22_preorder_partial toF64 k false h.1 (fun e => absurd e h.2)).comap fun x : TextLine => x.get (n 0)
  | expr e =>
    rw [hk] at h
    have := preorder_int.comap fun x : TextLine => (e 0 x.text).scaled
    simpa only [fcmp_eq (h _ _) (h _ _)] using this

/-- Sort by the first column. -/
abbrev firstCol : LineComp := ⟨.col .plain (fun _ => 0), false, TAB⟩

theorem firstCol_preorder (toF64 : Bytes → F64) : TotalPreorder (mergeComp toF64 [firstCol]) :=
  C29_preorder toF64 [firstCol] (by simp)

/-- The files "a\t1\na\t2\n" and "a\t3\n". -/
abbrev tieFiles : List Bytes := [[97, 9, 49, 10, 97, 9, 50, 10], [97, 9, 51, 10]]

theorem tieFiles_sorted : SortedFiles (mergeComp (fun _ => 0) [firstCol]) tieFiles := by
  intro c hc
  simp only [tieFiles, List.mem_cons, List.not_mem_nil, or_false] at hc
  rcases hc with rfl | rfl
  · have : (openMerge [97, 9, 49, 10, 97, 9, 50, 10]).2 = [[97, 9, 49, 10], [97, 9, 50, 10]] := by decide
    rw [this]
    simp only [SortedBy, List.pairwise_cons, List.mem_cons, List.not_mem_nil, or_false, forall_eq, false_implies,
      implies_true, List.Pairwise.nil, and_true, ne_eq]
    decide
  · have : (openMerge [97, 9, 51, 10]).2 = [[97, 9, 51, 10]] := by decide
    rw [this]
    simp [SortedBy]

/-- With the heap, lines of a later file can come before equal lines of an earlier file. -/
theorem C29_refuted : ¬ C29_statement := by
  intro h
  obtain ⟨out, h1, h2⟩ := h (fun _ => 0) [firstCol] (pickOldest (mergeComp (fun _ => 0) [firstCol])) tieFiles
    (firstCol_preorder _) (pickOldest_smallest (firstCol_preorder _) _) (by decide) tieFiles_sorted
  have e1 : allLines tieFiles = [[97, 9, 49, 10], [97, 9, 50, 10], [97, 9, 51, 10]] := by decide
  have e2 : mergeT2 (fun _ => 0) [firstCol] (pickOldest (mergeComp (fun _ => 0) [firstCol])) false tieFiles
      = [97, 9, 49, 10, 97, 9, 51, 10, 97, 9, 50, 10] := by decide
  have e3 : (openMerge (tieFiles.headD [])).1 = [] := by decide
  have h3 : StableSort (mergeComp (fun _ => 0) [firstCol]) (allLines tieFiles) (allLines tieFiles) := by
    refine ⟨List.Perm.refl _, ?_, fun _ => rfl⟩
    rw [e1]
    simp only [SortedBy, List.pairwise_cons, List.mem_cons, List.not_mem_nil, or_false, forall_eq, forall_eq_or_imp,
      false_implies, implies_true, List.Pairwise.nil, and_true, ne_eq]
    decide
  have := StableSort.unique (firstCol_preorder _) h1 h3
  rw [e2, e3, this, e1] at h2
  revert h2
  decide

/-- The heap: all the lines, sorted, each file's lines in their order. Missing: the order of equal lines of different
files. -/
theorem C29_heap_partial (toF64 : Bytes → F64) (cs : List LineComp) (pick : Nat → List (Nat × Bytes) → Nat)
    (contents : List Bytes) (hc : TotalPreorder (mergeComp toF64 cs))
    (hp : PicksSmallest (mergeComp toF64 cs) (fun _ => True) pick) (hn : 1 < contents.length)
    (hs : SortedFiles (mergeComp toF64 cs) contents) :
    ∃ out, out.Perm (allLines contents) ∧ SortedBy (mergeComp toF64 cs) out ∧
      (∀ c ∈ contents, (openMerge c).2.Sublist out) ∧
      mergeT2 toF64 cs pick false contents = (openMerge (contents.headD [])).1 ++ out.flatten := by
  obtain ⟨seq, h1, h2, h3⟩ := mergeT2_spec (L := fun _ => True) hc
    ⟨fun _ _ _ _ => rfl, fun l r _ _ => by rw [mergeEqual_eq]⟩ hp false contents (Or.inl hn) hs (fun _ _ _ _ => trivial)
  refine ⟨seq, h1.perm, h2, fun c hc => h1.sublist _ (List.mem_map.2 ⟨c, hc, rfl⟩), by simpa using h3⟩

example : 1 < tieFiles.length ∧ SortedFiles (mergeComp (fun _ => 0) [firstCol]) tieFiles ∧
    TotalPreorder (mergeComp (fun _ => 0) [firstCol]) ∧
    PicksSmallest (mergeComp (fun _ => 0) [firstCol]) (fun _ => True) (pickOldest (mergeComp (fun _ => 0) [firstCol])) :=
  ⟨by decide, tieFiles_sorted, firstCol_preorder _, pickOldest_smallest (firstCol_preorder _) _⟩

/-- The heap with unique: one line of each class of equal lines, in strictly increasing order. -/
theorem C29_heap_unique (toF64 : Bytes → F64) (cs : List LineComp) (pick : Nat → List (Nat × Bytes) → Nat)
    (contents : List Bytes) (hc : TotalPreorder (mergeComp toF64 cs))
    (hp : PicksSmallest (mergeComp toF64 cs) (fun _ => True) pick) (hn : contents ≠ [])
    (hs : SortedFiles (mergeComp toF64 cs) contents) :
    ∃ out, SomeUniqueSort (mergeComp toF64 cs) (allLines contents) out ∧
      mergeT2 toF64 cs pick true contents = (openMerge (contents.headD [])).1 ++ out.flatten := by
  obtain ⟨seq, h1, h2, h3⟩ := mergeT2_spec (L := fun _ => True) hc
    ⟨fun _ _ _ _ => rfl, fun l r _ _ => by rw [mergeEqual_eq]⟩ hp true contents (Or.inr ⟨rfl, hn⟩) hs
    (fun _ _ _ _ => trivial)
  exact ⟨_, ((uniq_spec hc h2).some hc).of_mem fun x => h1.perm.mem_iff, by simpa using h3⟩

example : tieFiles ≠ [] := by decide

/-- The tree: the stable sort of all the lines. -/
theorem C29_tree (toF64 : Bytes → F64) (cs : List LineComp) (contents : List Bytes)
    (hc : TotalPreorder (mergeComp toF64 cs)) (hn : 1 < contents.length)
    (hs : SortedFiles (mergeComp toF64 cs) contents) :
    ∃ out, StableSort (mergeComp toF64 cs) (allLines contents) out ∧
      mergeT1 toF64 cs false contents = (openMerge (contents.headD [])).1 ++ out.flatten := by
  cases contents with
  | nil => simp at hn
  | cons c rest =>
    refine ⟨_, treeSeq_spec hc ((c :: rest).map dataLines) (by simp) ?_, ?_⟩
    · intro l hl; obtain ⟨x, hx, rfl⟩ := List.mem_map.1 hl; exact hs x hx
    · have hcond : rest ≠ [] := by
        rintro rfl
        simp at hn
      simp only [mergeT1, hcond, false_and, map_openMerge, List.headD_cons, Bool.false_eq_true, if_false]

/-- The tree with unique: exactly the first line, in the order of the files, of each class of equal lines. -/
theorem C29_tree_unique (toF64 : Bytes → F64) (cs : List LineComp) (contents : List Bytes)
    (hc : TotalPreorder (mergeComp toF64 cs)) (hn : contents ≠ [])
    (hs : SortedFiles (mergeComp toF64 cs) contents) :
    ∃ out, UniqueSort (mergeComp toF64 cs) (allLines contents) out ∧
      mergeT1 toF64 cs true contents = (openMerge (contents.headD [])).1 ++ out.flatten := by
  cases contents with
  | nil => simp at hn
  | cons c rest =>
    have h := treeSeq_spec hc ((c :: rest).map dataLines) (by simp)
      (by intro l hl; obtain ⟨x, hx, rfl⟩ := List.mem_map.1 hl; exact hs x hx)
    refine ⟨_, UniqueSort.of_stable h (uniq_spec hc h.sorted), ?_⟩
    simp only [mergeT1, Bool.true_eq_false, and_false, if_false, map_openMerge, List.headD_cons, if_true, mergeEqual_eq,
      uniquePrev_eq hc]

/-- One file, not unique: copied as it is, not even ended by a newline. -/
theorem C29_single (toF64 : Bytes → F64) (cs : List LineComp) (pick : Nat → List (Nat × Bytes) → Nat) (c : Bytes) :
    mergeT1 toF64 cs false [c] = c ∧ mergeT2 toF64 cs pick false [c] = c := ⟨rfl, rfl⟩

/-- When no two lines of different files are equal, the heap gives the output of the tree. -/
theorem C29_heap_tree (toF64 : Bytes → F64) (cs : List LineComp) (pick : Nat → List (Nat × Bytes) → Nat)
    (contents : List Bytes) (hc : TotalPreorder (mergeComp toF64 cs))
    (hp : PicksSmallest (mergeComp toF64 cs) (fun _ => True) pick) (hn : 1 < contents.length)
    (hs : SortedFiles (mergeComp toF64 cs) contents)
    (hd : ∀ x ∈ allLines contents, ∀ y ∈ allLines contents, mergeComp toF64 cs x y = .eq → x = y) :
    mergeT2 toF64 cs pick false contents = mergeT1 toF64 cs false contents := by
  obtain ⟨a, h1, h2, _, h4⟩ := C29_heap_partial toF64 cs pick contents hc hp hn hs
  obtain ⟨b, g1, g2⟩ := C29_tree toF64 cs contents hc hn hs
  suffices a = b by rw [h4, g2, this]
  apply (h1.trans g1.perm.symm).eq_of_pairwise (le := fun x y => mergeComp toF64 cs x y ≠ .gt) ?_ h2 g1.sorted
  intro x y hx hy hxy hyx
  exact hd x (h1.mem_iff.1 hx) y (g1.perm.mem_iff.1 hy) (hc.eq_iff.2 ⟨hxy, hyx⟩)

end Cdx
