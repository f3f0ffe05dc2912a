import Verif.Lemmas.SortFiles
import Verif.Props.TextLine

/-!
The two merges on the contents of files, and when their comparison is that of `compLinesList`.
-/

namespace Cdx

theorem map_openMerge (contents : List Bytes) : (contents.map openMerge).map (·.2) = contents.map dataLines := by
  simp [List.map_map, Function.comp_def, dataLines]

theorem compCols_equal (toF64 : Bytes → F64) (c : LineComp) (l r : TextLine) :
    c.equalCols toF64 l r = true ↔ c.compCols toF64 l r = .eq := by
  have sw : ∀ o : Ordering, rev c.reverse o = .eq ↔ o = .eq := by
    intro o; cases c.reverse <;> cases o <;> simp [rev]
  rw [LineComp.compCols, sw, LineComp.equalCols]
  cases c.kind with
  | whole k => exact C22_equal_consistent _ _ _ _
  | col k n => exact C22_equal_consistent _ _ _ _
  | expr e => exact (F64.eq_false_gt_false _ _).symm

theorem compColsList_equal (toF64 : Bytes → F64) (cs : List LineComp) (l r : TextLine) :
    equalColsList toF64 cs l r = (compColsList toF64 cs l r == .eq) := by
  induction cs with
  | nil => rfl
  | cons c cs ih =>
    simp only [equalColsList, compColsList]
    have := compCols_equal toF64 c l r
    by_cases h : c.compCols toF64 l r = .eq
    · simp [this.2 h, h, ih]
    · have h2 : c.equalCols toF64 l r = false := by
        cases hh : c.equalCols toF64 l r
        · rfl
        · exact absurd (this.1 hh) h
      simp [h2, h]

theorem mergeEqual_eq (toF64 : Bytes → F64) (cs : List LineComp) :
    mergeEqual toF64 cs = fun l r => mergeComp toF64 cs l r == .eq := by
  funext l r
  exact compColsList_equal toF64 cs _ _

theorem compColsList_foldr (toF64 : Bytes → F64) (cs : List LineComp) (l r : TextLine) :
    compColsList toF64 cs l r = cs.foldr (fun c o => (c.compCols toF64 l r).then o) .eq := by
  induction cs with
  | nil => rfl
  | cons c cs ih =>
    simp only [compColsList, List.foldr_cons, ← ih]
    cases h : c.compCols toF64 l r <;> simp [Ordering.then]

/-- The comparison of a merge is a total preorder when that of every key is. -/
theorem mergeComp_preorder (toF64 : Bytes → F64) (cs : List LineComp)
    (h : ∀ c ∈ cs, TotalPreorder (c.compCols toF64)) : TotalPreorder (mergeComp toF64 cs) := by
  have : TotalPreorder (compColsList toF64 cs) := by
    induction cs with
    | nil => exact ⟨fun _ => rfl, fun _ _ => rfl, fun _ _ _ h _ => h⟩
    | cons c cs ih =>
      have := (h c (by simp)).then (ih fun d hd => h d (by simp [hd]))
      have e : compColsList toF64 (c :: cs) = fun l r => (c.compCols toF64 l r).then (compColsList toF64 cs l r) := by
        funext l r
        rw [compColsList_foldr, List.foldr_cons, ← compColsList_foldr]
      rw [e]
      exact this
  exact this.comap mergeLine

/-- On lines that end in a newline, and keys separated by tabs, the merge compares like `comp_lines`. -/
theorem mergeComp_lines (toF64 : Bytes → F64) (cs : List LineComp) (hd : ∀ c ∈ cs, c.delim = TAB) (l r : Bytes)
    (hl : IsLine l) (hr : IsLine r) : mergeComp toF64 cs l r = compLinesList toF64 cs 0 0 l r := by
  have text : ∀ l, (mergeLine l).text = l := by
    intro l
    simp [mergeLine, TextLine.text, TextLine.split, TextLine.ofRaw]
  have col : ∀ l n, IsLine l → (mergeLine l).get n = getCol l n TAB := by
    rintro l n ⟨b, rfl, hb⟩
    exact (C05_get_col_agrees TAB (by decide) b hb n).symm
  unfold mergeComp
  induction cs with
  | nil => rfl
  | cons c cs ih =>
    have e : c.compCols toF64 (mergeLine l) (mergeLine r) = c.compLines toF64 0 0 l r := by
      unfold LineComp.compCols LineComp.compLines LineComp.inner
      rw [hd c (by simp)]
      cases c.kind <;> simp only [text, col _ _ hl, col _ _ hr]
    simp only [compColsList, compLinesList, e, ih fun d h => hd d (by simp [h])]

/-! ## The tree -/

theorem treeSeq_spec {cmp : Bytes → Bytes → Ordering} (hc : TotalPreorder cmp) (files : List (List Bytes))
    (hne : files ≠ []) (hs : ∀ l ∈ files, SortedBy cmp l) :
    StableSort cmp files.flatten
      (treeRun cmp (files.flatten.length + 1) (MTree.new files.length (List.range files.length)) files) := by
  obtain ⟨h1, _, h3⟩ := MTree.new_spec hc files hs files.length (List.range files.length)
    (by simpa using hne) (by simp) List.nodup_range (by simp)
  rw [map_getD_range] at h3
  rw [treeRun_eq cmp _ _ _ h1 (by rw [h3.perm.length_eq]; omega)]
  exact h3

/-! ## The heap -/

theorem heapSeq_spec {cmp : Bytes → Bytes → Ordering} (hc : TotalPreorder cmp)
    {pick : Nat → List (Nat × Bytes) → Nat} {L : Bytes → Prop} (hp : PicksSmallest cmp L pick) (files : List (List Bytes))
    (hs : ∀ l ∈ files, SortedBy cmp l) (hL : ∀ l ∈ files, ∀ x ∈ l, L x) :
    Interleaving files (heapRun pick files.flatten.length 0 (liveFiles files) files) ∧
    SortedBy cmp (heapRun pick files.flatten.length 0 (liveFiles files) files) :=
  heapRun_spec hc hp _ 0 _ files (liveFiles_inv cmp files hs) hL (Nat.le_refl _)

theorem uniq_congr {α : Type} {eq eq' : α → α → Bool} (l : List α) (h : ∀ a ∈ l, ∀ b ∈ l, eq a b = eq' a b) :
    uniq eq l = uniq eq' l := by
  have key : ∀ (x : α) (l : List α), (∀ a ∈ x :: l, ∀ b ∈ x :: l, eq a b = eq' a b) → keepNew eq x l = keepNew eq' x l := by
    intro x l
    induction l generalizing x with
    | nil => intro _; rfl
    | cons y ys ih =>
      intro h
      simp only [keepNew]
      rw [h x (by simp) y (by simp), ih x (fun a ha b hb => h a (by simp at ha ⊢; grind) b (by simp at hb ⊢; grind)),
        ih y (fun a ha b hb => h a (by simp at ha ⊢; grind) b (by simp at hb ⊢; grind))]
  cases l with
  | nil => rfl
  | cons x xs => rw [uniq, uniq, key x xs h]

/-- What `merge_t2` writes after the header. -/
theorem mergeT2_spec {toF64 : Bytes → F64} {cs : List LineComp} {cmp : Bytes → Bytes → Ordering} {L : Bytes → Prop}
    (hc : TotalPreorder cmp) (hag : MergeAgree toF64 cs cmp L)
    {pick : Nat → List (Nat × Bytes) → Nat} (hp : PicksSmallest cmp L pick) (unique : Bool) (contents : List Bytes)
    (hn : 1 < contents.length ∨ (unique = true ∧ contents ≠ [])) (hs : ∀ c ∈ contents, SortedBy cmp (dataLines c))
    (hL : ∀ c ∈ contents, ∀ l ∈ dataLines c, L l) :
    ∃ seq, Interleaving (contents.map dataLines) seq ∧ SortedBy cmp seq ∧
      mergeT2 toF64 cs pick unique contents = (openMerge (contents.headD [])).1 ++
        (if unique then uniq (fun a b => cmp a b == .eq) seq else seq).flatten := by
  cases contents with
  | nil => simp at hn
  | cons c rest =>
    obtain ⟨h1, h2⟩ := heapSeq_spec hc hp ((c :: rest).map dataLines)
      (by intro l hl; obtain ⟨x, hx, rfl⟩ := List.mem_map.1 hl; exact hs x hx)
      (by intro l hl; obtain ⟨x, hx, rfl⟩ := List.mem_map.1 hl; exact hL x hx)
    refine ⟨_, h1, h2, ?_⟩
    have hcond : ¬ (rest = [] ∧ unique = false) := by
      rintro ⟨rfl, rfl⟩
      simp at hn
    simp only [mergeT2, if_neg hcond, map_openMerge, List.headD_cons, uniqueWritten_eq]
    congr 2
    cases unique with
    | false => rfl
    | true =>
      simp only [if_true]
      apply uniq_congr
      intro a ha b hb
      have mem : ∀ x ∈ heapRun pick ((c :: rest).map dataLines).flatten.length 0 (liveFiles ((c :: rest).map dataLines))
          ((c :: rest).map dataLines), L x := by
        intro x hx
        have := h1.perm.mem_iff.1 hx
        obtain ⟨l, hl, hxl⟩ := List.mem_flatten.1 this
        obtain ⟨y, hy, rfl⟩ := List.mem_map.1 hl
        exact hL y hy x hxl
      exact hag.equal a b (mem a ha) (mem b hb)

end Cdx
