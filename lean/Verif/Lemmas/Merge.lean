import Verif.Lemmas.SortList

/-!
The two ways of merging.
-/

namespace Cdx

/-! ## Interleaving -/

/-- `out` takes the elements of the lists one by one, each time the first of one of the lists. -/
inductive Interleaving {α : Type} : List (List α) → List α → Prop
  | nil (files : List (List α)) : (∀ l ∈ files, l = []) → Interleaving files []
  | step (files : List (List α)) (f : Nat) (x : α) (xs out : List α) :
      files[f]? = some (x :: xs) → Interleaving (files.set f xs) out → Interleaving files (x :: out)

theorem flatten_set_perm {α : Type} (files : List (List α)) (f : Nat) (x : α) (xs : List α)
    (h : files[f]? = some (x :: xs)) : files.flatten.Perm (x :: (files.set f xs).flatten) := by
  induction files generalizing f with
  | nil => simp at h
  | cons l files ih =>
    cases f with
    | zero =>
      have h : l = x :: xs := by simpa using h
      subst h
      simp
    | succ f =>
      have h : files[f]? = some (x :: xs) := by simpa using h
      simp only [List.flatten_cons, List.set_cons_succ]
      exact ((ih f h).append_left l).trans (List.perm_middle)

theorem Interleaving.perm {α : Type} {files : List (List α)} {out : List α} (h : Interleaving files out) :
    out.Perm files.flatten := by
  induction h with
  | nil files h =>
    have : files.flatten = [] := by simpa using h
    rw [this]
  | step files f x xs out hf _ ih => exact ((flatten_set_perm files f x xs hf).trans (ih.symm.cons x)).symm

theorem Interleaving.sublist {α : Type} {files : List (List α)} {out : List α} (h : Interleaving files out) :
    ∀ l ∈ files, l.Sublist out := by
  induction h with
  | nil files h => intro l hl; rw [h l hl]; exact List.Sublist.refl _
  | step files f x xs out hf _ ih =>
    intro l hl
    obtain ⟨i, hi, rfl⟩ := List.mem_iff_getElem.1 hl
    by_cases hif : i = f
    · subst hif
      have : files[i] = x :: xs := by
        rw [List.getElem?_eq_getElem hi] at hf
        exact Option.some.inj hf
      rw [this]
      apply List.Sublist.cons_cons
      apply ih
      exact List.mem_iff_getElem.2 ⟨i, by simpa using hi, by simp⟩
    · apply List.Sublist.cons
      apply ih
      exact List.mem_iff_getElem.2 ⟨i, by simpa using hi, by rw [List.getElem_set_ne (Ne.symm hif)]⟩

/-! ## The heap -/

/-- What the documentation of the heap promises, for lines in `L`: popping gives a smallest entry. -/
def PicksSmallest (cmp : Bytes → Bytes → Ordering) (L : Bytes → Prop) (pick : Nat → List (Nat × Bytes) → Nat) : Prop :=
  ∀ n entries, entries ≠ [] → (∀ e ∈ entries, L e.2) →
    ∃ h : pick n entries < entries.length, ∀ e ∈ entries, cmp (entries[pick n entries]).2 e.2 ≠ .gt

theorem mem_eraseIdx_nodup {α : Type} (l : List α) (i : Nat) (x : α) (hn : l.Nodup) (hx : l[i]? = some x) (y : α) :
    y ∈ l.eraseIdx i ↔ y ∈ l ∧ y ≠ x := by
  induction l generalizing i with
  | nil => simp at hx
  | cons a l ih =>
    rw [List.nodup_cons] at hn
    cases i with
    | zero =>
      have hx : a = x := by simpa using hx
      subst hx
      simp only [List.eraseIdx_cons_zero, List.mem_cons]
      constructor
      · intro hy
        exact ⟨.inr hy, fun e => hn.1 (e ▸ hy)⟩
      · rintro ⟨rfl | hy, hne⟩
        · exact absurd rfl hne
        · exact hy
    | succ i =>
      have hx : l[i]? = some x := by simpa using hx
      have hmem : x ∈ l := List.mem_of_getElem? hx
      simp only [List.eraseIdx_cons_succ, List.mem_cons, ih i hn.2 hx]
      constructor
      · rintro (rfl | ⟨h1, h2⟩)
        · exact ⟨.inl rfl, fun e => hn.1 (e ▸ hmem)⟩
        · exact ⟨.inr h1, h2⟩
      · rintro ⟨rfl | h1, h2⟩
        · exact .inl rfl
        · exact .inr ⟨h1, h2⟩

theorem getD_set_self {α : Type} (l : List (List α)) (i : Nat) (x : List α) (h : i < l.length) : (l.set i x).getD i [] = x := by
  simp [List.getD, h]

theorem getD_set_ne {α : Type} (l : List (List α)) (i j : Nat) (x : List α) (h : i ≠ j) :
    (l.set i x).getD j [] = l.getD j [] := by
  simp [List.getD, List.getElem?_set_ne h]

theorem headD_cons {α : Type} (l : List α) (d : α) (h : l ≠ []) : l.headD d :: l.tail = l := by
  cases l with
  | nil => exact absurd rfl h
  | cons => rfl

/-- The state of the heap loop. -/
structure HeapInv (cmp : Bytes → Bytes → Ordering) (heap : List Nat) (files : List (List Bytes)) : Prop where
  nodup : heap.Nodup
  live : ∀ f, f ∈ heap ↔ files.getD f [] ≠ []
  sorted : ∀ l ∈ files, SortedBy cmp l

theorem liveFiles_inv (cmp : Bytes → Bytes → Ordering) (files : List (List Bytes)) (hs : ∀ l ∈ files, SortedBy cmp l) :
    HeapInv cmp (liveFiles files) files := by
  refine ⟨(List.nodup_range).filter _, fun f => ?_, hs⟩
  simp only [liveFiles, List.mem_filter, List.mem_range, decide_eq_true_eq]
  constructor
  · exact fun h => h.2
  · intro h
    refine ⟨?_, h⟩
    rcases Nat.lt_or_ge f files.length with hf | hf
    · exact hf
    · exact absurd (by simp [List.getD, hf]) h

theorem heapRun_spec {cmp : Bytes → Bytes → Ordering} (hc : TotalPreorder cmp) {pick : Nat → List (Nat × Bytes) → Nat}
    {L : Bytes → Prop} (hp : PicksSmallest cmp L pick) (fuel round : Nat) (heap : List Nat) (files : List (List Bytes))
    (hi : HeapInv cmp heap files) (hL : ∀ l ∈ files, ∀ x ∈ l, L x) (hf : files.flatten.length ≤ fuel) :
    Interleaving files (heapRun pick fuel round heap files) ∧ SortedBy cmp (heapRun pick fuel round heap files) := by
  induction fuel generalizing round heap files with
  | zero =>
    refine ⟨.nil _ ?_, by simp [heapRun, SortedBy]⟩
    have : files.flatten = [] := by
      apply List.eq_nil_of_length_eq_zero
      omega
    simpa using this
  | succ fuel ih =>
    simp only [heapRun]
    cases hheap : heap with
    | nil =>
      simp only [List.map_nil, List.getElem?_nil]
      refine ⟨.nil _ fun l hl => ?_, by simp [SortedBy]⟩
      obtain ⟨i, hil, rfl⟩ := List.mem_iff_getElem.1 hl
      have := hi.live i
      rw [hheap] at this
      simp only [List.not_mem_nil, false_iff, ne_eq, Decidable.not_not] at this
      simpa [List.getD, hil] using this
    | cons f0 heap0 =>
      rw [← hheap]
      have hLe : ∀ e ∈ heap.map (fun f => (f, curOf files f)), L e.2 := by
        intro e he
        obtain ⟨f, hf, rfl⟩ := List.mem_map.1 he
        have hne := (hi.live f).1 hf
        rcases Nat.lt_or_ge f files.length with h | h
        · have e : files.getD f [] = files[f] := by simp [List.getD, h]
          rw [e] at hne
          have : curOf files f ∈ files[f] := by
            rw [curOf, e, ← headD_cons files[f] [] hne]
            simp
          exact hL _ (List.getElem_mem h) _ this
        · exact absurd (by simp [List.getD, h]) hne
      obtain ⟨hlt, hmin⟩ := hp round (heap.map fun f => (f, curOf files f)) (by simp [hheap]) hLe
      generalize hpick : pick round (heap.map fun f => (f, curOf files f)) = i at *
      have hlt' : i < heap.length := by simpa using hlt
      rw [List.getElem?_eq_getElem hlt']
      generalize hfv : heap[i] = f at *
      have hget : heap[i]? = some f := by rw [List.getElem?_eq_getElem hlt', hfv]
      have hfmem : f ∈ heap := List.mem_of_getElem? hget
      have hfne := (hi.live f).1 hfmem
      have hflen : f < files.length := by
        rcases Nat.lt_or_ge f files.length with h | h
        · exact h
        · exact absurd (by simp [List.getD, h]) hfne
      obtain ⟨x, xs, hx⟩ : ∃ x xs, files.getD f [] = x :: xs := by
        cases h : files.getD f [] with
        | nil => exact absurd h hfne
        | cons x xs => exact ⟨x, xs, rfl⟩
      have hx' : files[f]? = some (x :: xs) := by
        rw [List.getElem?_eq_getElem hflen]
        simpa [List.getD, hflen] using hx
      have hcur : curOf files f = x := by rw [curOf, hx]; rfl
      simp only [hx, List.tail_cons, hcur, getD_set_self _ _ _ hflen]
      have hmin' : ∀ g ∈ heap, cmp x (curOf files g) ≠ .gt := by
        intro g hg
        have := hmin (g, curOf files g) (List.mem_map.2 ⟨g, hg, rfl⟩)
        simpa [hfv, hcur] using this
      have hinv : HeapInv cmp (if xs = [] then heap.eraseIdx i else heap.eraseIdx i ++ [f]) (files.set f xs) := by
        refine ⟨?_, fun g => ?_, ?_⟩
        · have h1 : (heap.eraseIdx i).Nodup := hi.nodup.sublist (List.eraseIdx_sublist ..)
          split
          · exact h1
          · rw [List.nodup_append]
            refine ⟨h1, by simp, fun a ha b hb => ?_⟩
            rw [mem_eraseIdx_nodup heap i f hi.nodup hget] at ha
            simp only [List.mem_singleton] at hb
            subst hb
            exact ha.2
        · by_cases hg : g = f
          · subst hg
            rw [getD_set_self _ _ _ hflen]
            split
            · rename_i h
              simp [h, mem_eraseIdx_nodup heap i g hi.nodup hget]
            · rename_i h
              simp [h]
          · rw [getD_set_ne _ _ _ _ (Ne.symm hg), ← hi.live g]
            split
            · simp [mem_eraseIdx_nodup heap i f hi.nodup hget, hg]
            · simp [mem_eraseIdx_nodup heap i f hi.nodup hget, hg]
        · intro l hl
          rcases List.mem_or_eq_of_mem_set hl with h | h
          · exact hi.sorted l h
          · subst h
            exact (hi.sorted (x :: l) (List.mem_of_getElem? hx')).tail
      have hlen : (files.set f xs).flatten.length ≤ fuel := by
        have := (flatten_set_perm files f x xs hx').length_eq
        simp only [List.length_cons] at this
        omega
      have hL' : ∀ l ∈ files.set f xs, ∀ x ∈ l, L x := by
        intro l hl z hz
        rcases List.mem_or_eq_of_mem_set hl with h | h
        · exact hL l h z hz
        · subst h
          exact hL _ (List.mem_of_getElem? hx') z (List.mem_cons_of_mem _ hz)
      obtain ⟨ih1, ih2⟩ := ih (round + 1) _ _ hinv hL' hlen
      refine ⟨.step files f x xs _ hx' ih1, ?_⟩
      unfold SortedBy
      rw [List.pairwise_cons]
      refine ⟨fun y hy => ?_, ih2⟩
      have hy2 : y ∈ files.flatten := by
        apply (flatten_set_perm files f x xs hx').symm.subset
        exact List.mem_cons_of_mem _ (ih1.perm.subset hy)
      obtain ⟨l, hl, hyl⟩ := List.mem_flatten.1 hy2
      obtain ⟨g, hgl, rfl⟩ := List.mem_iff_getElem.1 hl
      have hgd : files.getD g [] = files[g] := by simp [List.getD, hgl]
      cases hfg : files[g] with
      | nil => simp [hfg] at hyl
      | cons z zs =>
        have hgm : g ∈ heap := (hi.live g).2 (by rw [hgd, hfg]; simp)
        have h1 := hmin' g hgm
        rw [curOf, hgd, hfg] at h1
        rw [hfg] at hyl
        rcases List.mem_cons.1 hyl with rfl | hyl
        · simpa using h1
        · have := hi.sorted files[g] (List.getElem_mem hgl)
          rw [hfg] at this
          exact hc.trans _ _ _ (by simpa using h1) (this.head y hyl)

/-! ## The tree -/

/-- The files at the leaves. -/
def MTree.leaves : MTree → List Nat
  | .leaf f _ => [f]
  | .node l r _ _ => l.leaves ++ r.leaves

/-- The line that waits at a node. -/
def pend (files : List (List Bytes)) : Option Nat → List Bytes
  | none => []
  | some f => [curOf files f]

/-- All lines a tree has yet to deliver, in the order in which it will. -/
def MTree.out (cmp : Bytes → Bytes → Ordering) (files : List (List Bytes)) : MTree → List Bytes
  | .leaf f first => if first then files.getD f [] else (files.getD f []).tail
  | .node l r ld rd =>
    (pend files ld ++ l.out cmp files).merge (pend files rd ++ r.out cmp files) (leOf cmp)

/-- What holds of the tree between calls of `next`. -/
def MTree.WF (files : List (List Bytes)) : MTree → Prop
  | .leaf f _ => f < files.length
  | .node l r ld rd =>
    l.WF files ∧ r.WF files ∧ (∀ f ∈ l.leaves, f ∉ r.leaves) ∧
    (∀ f, ld = some f → f ∈ l.leaves ∧ files.getD f [] ≠ []) ∧ (∀ f, rd = some f → f ∈ r.leaves ∧ files.getD f [] ≠ [])

theorem curOf_congr {files files' : List (List Bytes)} {f : Nat} (h : files.getD f [] = files'.getD f []) :
    curOf files f = curOf files' f := by
  rw [curOf, curOf, h]

theorem pend_congr {files files' : List (List Bytes)} {L : List Nat} {o : Option Nat} (ho : ∀ f, o = some f → f ∈ L)
    (h : ∀ f ∈ L, files.getD f [] = files'.getD f []) : pend files o = pend files' o := by
  cases o with
  | none => rfl
  | some f => simp [pend, curOf_congr (h f (ho f rfl))]

theorem MTree.out_congr {cmp : Bytes → Bytes → Ordering} {files files' : List (List Bytes)} (t : MTree)
    (hw : t.WF files) (h : ∀ f ∈ t.leaves, files.getD f [] = files'.getD f []) : t.out cmp files = t.out cmp files' := by
  induction t with
  | leaf f first =>
    have := h f (by simp [MTree.leaves])
    simp only [MTree.out, this]
  | node l r ld rd ihl ihr =>
    obtain ⟨h1, h2, _, h4, h5⟩ := hw
    have hl : ∀ f ∈ l.leaves, files.getD f [] = files'.getD f [] := fun f hf => h f (by simp [MTree.leaves, hf])
    have hr : ∀ f ∈ r.leaves, files.getD f [] = files'.getD f [] := fun f hf => h f (by simp [MTree.leaves, hf])
    simp only [MTree.out, ihl h1 hl, ihr h2 hr, pend_congr (fun f e => (h4 f e).1) hl,
      pend_congr (fun f e => (h5 f e).1) hr]

theorem MTree.WF_congr {files files' : List (List Bytes)} (t : MTree) (hlen : files.length = files'.length)
    (hw : t.WF files) (h : ∀ f ∈ t.leaves, files.getD f [] = files'.getD f []) : t.WF files' := by
  induction t with
  | leaf f first =>
    simp only [MTree.WF] at *
    omega
  | node l r ld rd ihl ihr =>
    obtain ⟨h1, h2, h3, h4, h5⟩ := hw
    have hl : ∀ f ∈ l.leaves, files.getD f [] = files'.getD f [] := fun f hf => h f (by simp [MTree.leaves, hf])
    have hr : ∀ f ∈ r.leaves, files.getD f [] = files'.getD f [] := fun f hf => h f (by simp [MTree.leaves, hf])
    exact ⟨ihl h1 hl, ihr h2 hr, h3, fun f e => ⟨(h4 f e).1, by rw [← hl f (h4 f e).1]; exact (h4 f e).2⟩,
      fun f e => ⟨(h5 f e).1, by rw [← hr f (h5 f e).1]; exact (h5 f e).2⟩⟩

/-- What a call of `next` guarantees. -/
structure NextOK (cmp : Bytes → Bytes → Ordering) (t : MTree) (files : List (List Bytes)) (o : Option Nat) (t' : MTree)
    (files' : List (List Bytes)) : Prop where
  wf : t'.WF files'
  leaves : t'.leaves = t.leaves
  len : files'.length = files.length
  other : ∀ f, f ∉ t.leaves → files'.getD f [] = files.getD f []
  valid : ∀ f, o = some f → f ∈ t.leaves ∧ files'.getD f [] ≠ []
  out : t.out cmp files = pend files' o ++ t'.out cmp files'
  fin : o = none → t'.out cmp files' = []

theorem MTree.next_ok (cmp : Bytes → Bytes → Ordering) (t : MTree) (files : List (List Bytes)) (hw : t.WF files) :
    NextOK cmp t files (t.next cmp files).1 (t.next cmp files).2.1 (t.next cmp files).2.2 := by
  induction t generalizing files with
  | leaf f first =>
    simp only [MTree.next]
    by_cases he : files.getD f [] = []
    · rw [if_pos he]
      refine ⟨hw, rfl, rfl, fun _ _ => rfl, by simp, by simp [pend], fun _ => ?_⟩
      simp only [MTree.out]
      cases first
      · rw [he]; rfl
      · rw [he]; rfl
    · rw [if_neg he]
      by_cases hfirst : first = true
      · subst hfirst
        rw [if_pos rfl]
        refine ⟨hw, rfl, rfl, fun _ _ => rfl, ?_, ?_, by simp⟩
        · intro g hg
          simp only [Option.some.injEq] at hg
          subst hg
          exact ⟨by simp [MTree.leaves], he⟩
        · simp only [MTree.out, pend, if_true, curOf]
          exact (headD_cons _ _ he).symm
      · have hfirst : first = false := by simpa using hfirst
        subst hfirst
        simp only [Bool.false_eq_true, if_false]
        have hw : f < files.length := hw
        refine ⟨by simpa [MTree.WF] using hw, rfl, by simp, fun g hg => ?_, ?_, ?_, ?_⟩
        · simp only [MTree.leaves, List.mem_singleton] at hg
          exact getD_set_ne _ _ _ _ (Ne.symm hg)
        · intro g hg
          split at hg
          · simp at hg
          · simp only [Option.some.injEq] at hg
            subst hg
            rename_i h
            exact ⟨by simp [MTree.leaves], h⟩
        · rw [getD_set_self _ _ _ hw]
          simp only [MTree.out, Bool.false_eq_true, if_false, getD_set_self _ _ _ hw]
          split
          · rename_i h
            rw [h]; rfl
          · rename_i h
            simp only [pend, curOf, getD_set_self _ _ _ hw]
            exact (headD_cons _ _ h).symm
        · rw [getD_set_self _ _ _ hw]
          simp only [MTree.out, Bool.false_eq_true, if_false, getD_set_self _ _ _ hw]
          split
          · rename_i h
            rw [h]; simp
          · simp
  | node l r ld rd ihl ihr =>
    obtain ⟨hwl, hwr, hdis, hld, hrd⟩ := hw
    have hdis' : ∀ f ∈ r.leaves, f ∉ l.leaves := fun f hf hf' => hdis f hf' hf
    -- the left side
    have hA : ∃ (o : Option Nat) (l' : MTree) (files' : List (List Bytes)),
        (if ld = none then l.next cmp files else (ld, l, files)) = (o, l', files') ∧
        l'.WF files' ∧ l'.leaves = l.leaves ∧ files'.length = files.length ∧
        (∀ f, f ∉ l.leaves → files'.getD f [] = files.getD f []) ∧
        (∀ f, o = some f → f ∈ l.leaves ∧ files'.getD f [] ≠ []) ∧
        pend files ld ++ l.out cmp files = pend files' o ++ l'.out cmp files' ∧
        (o = none → l'.out cmp files' = []) := by
      by_cases h : ld = none
      · have := ihl files hwl
        exact ⟨_, _, _, by rw [if_pos h], this.wf, this.leaves, this.len, this.other, this.valid,
          by rw [h]; simpa [pend] using this.out, this.fin⟩
      · exact ⟨_, _, _, by rw [if_neg h], hwl, rfl, rfl, fun _ _ => rfl, hld, rfl, fun e => absurd e h⟩
    obtain ⟨lo, l', files1, hAe, hl1, hl2, hl3, hl4, hl5, hl6, hl7⟩ := hA
    have hr_same : ∀ f ∈ r.leaves, files.getD f [] = files1.getD f [] := fun f hf => (hl4 f (hdis' f hf)).symm
    have hwr1 : r.WF files1 := MTree.WF_congr r hl3.symm hwr hr_same
    have hrd1 : ∀ f, rd = some f → f ∈ r.leaves ∧ files1.getD f [] ≠ [] := fun f e =>
      ⟨(hrd f e).1, by rw [← hr_same f (hrd f e).1]; exact (hrd f e).2⟩
    have hB : ∃ (o : Option Nat) (r' : MTree) (files' : List (List Bytes)),
        (if rd = none then r.next cmp files1 else (rd, r, files1)) = (o, r', files') ∧
        r'.WF files' ∧ r'.leaves = r.leaves ∧ files'.length = files1.length ∧
        (∀ f, f ∉ r.leaves → files'.getD f [] = files1.getD f []) ∧
        (∀ f, o = some f → f ∈ r.leaves ∧ files'.getD f [] ≠ []) ∧
        pend files1 rd ++ r.out cmp files1 = pend files' o ++ r'.out cmp files' ∧
        (o = none → r'.out cmp files' = []) := by
      by_cases h : rd = none
      · have := ihr files1 hwr1
        exact ⟨_, _, _, by rw [if_pos h], this.wf, this.leaves, this.len, this.other, this.valid,
          by rw [h]; simpa [pend] using this.out, this.fin⟩
      · exact ⟨_, _, _, by rw [if_neg h], hwr1, rfl, rfl, fun _ _ => rfl, hrd1, rfl, fun e => absurd e h⟩
    obtain ⟨ro, r', files2, hBe, hr1, hr2, hr3, hr4, hr5, hr6, hr7⟩ := hB
    have hl_same : ∀ f ∈ l.leaves, files1.getD f [] = files2.getD f [] := fun f hf => (hr4 f (hdis f hf)).symm
    have hwl2 : l'.WF files2 := MTree.WF_congr l' hr3.symm hl1 (by rw [hl2]; exact hl_same)
    have hl5' : ∀ f, lo = some f → f ∈ l.leaves ∧ files2.getD f [] ≠ [] := fun f e =>
      ⟨(hl5 f e).1, by rw [← hl_same f (hl5 f e).1]; exact (hl5 f e).2⟩
    have hlout : l'.out cmp files1 = l'.out cmp files2 := MTree.out_congr l' hl1 (by rw [hl2]; exact hl_same)
    have hlpend : pend files1 lo = pend files2 lo := pend_congr (fun f e => (hl5 f e).1) hl_same
    have hrpend : pend files rd = pend files1 rd := pend_congr (fun f e => (hrd f e).1) hr_same
    have hrout : r.out cmp files = r.out cmp files1 := MTree.out_congr r hwr hr_same
    have hnext : (MTree.node l r ld rd).next cmp files =
        ((nodeChoice cmp files2 lo ro).1, .node l' r' (nodeChoice cmp files2 lo ro).2.1 (nodeChoice cmp files2 lo ro).2.2,
          files2) := by
      simp only [MTree.next, hAe, hBe]
    have hout : (MTree.node l r ld rd).out cmp files =
        (pend files2 lo ++ l'.out cmp files2).merge (pend files2 ro ++ r'.out cmp files2) (leOf cmp) := by
      simp only [MTree.out]
      rw [hl6, hrpend, hrout, hr6, hlout, hlpend]
    rw [hnext]
    have hleaves : ∀ a b, (MTree.node l' r' a b).leaves = (MTree.node l r ld rd).leaves := by
      intro a b; simp [MTree.leaves, hl2, hr2]
    have hother : ∀ f, f ∉ (MTree.node l r ld rd).leaves → files2.getD f [] = files.getD f [] := by
      intro f hf
      simp only [MTree.leaves, List.mem_append, not_or] at hf
      rw [hr4 f hf.2, hl4 f hf.1]
    have hwf : ∀ a b, (∀ f, a = some f → lo = some f) → (∀ f, b = some f → ro = some f) →
        (MTree.node l' r' a b).WF files2 := by
      intro a b ha hb
      refine ⟨hwl2, hr1, ?_, fun f e => ?_, fun f e => ?_⟩
      · rw [hl2, hr2]; exact hdis
      · rw [hl2]; exact hl5' f (ha f e)
      · rw [hr2]; exact hr5 f (hb f e)
    have hlen : files2.length = files.length := hr3.trans hl3
    cases hlo : lo with
    | none =>
      have hl7' : l'.out cmp files2 = [] := by rw [← hlout]; exact hl7 hlo
      cases hro : ro with
      | none =>
        refine ⟨hwf _ _ (by simp [nodeChoice]) (by simp [nodeChoice]), hleaves _ _, hlen, hother, by simp [nodeChoice], ?_, ?_⟩
        · rw [hout, hlo, hro]
          simp [nodeChoice, pend, MTree.out]
        · intro _
          simp [nodeChoice, pend, MTree.out, hl7', hr7 hro]
      | some rf =>
        refine ⟨hwf _ _ (by simp [nodeChoice]) (by simp [nodeChoice]), hleaves _ _, hlen, hother, ?_, ?_, by simp [nodeChoice]⟩
        · intro f hf
          simp only [nodeChoice, Option.some.injEq] at hf
          subst hf
          have := hr5 rf hro
          exact ⟨by simp [MTree.leaves, this.1], this.2⟩
        · rw [hout, hlo, hro]
          simp [nodeChoice, pend, MTree.out, hl7', List.nil_merge]
    | some lf =>
      cases hro : ro with
      | none =>
        refine ⟨hwf _ _ (by simp [nodeChoice]) (by simp [nodeChoice]), hleaves _ _, hlen, hother, ?_, ?_, by simp [nodeChoice]⟩
        · intro f hf
          simp only [nodeChoice, Option.some.injEq] at hf
          subst hf
          have := hl5' lf hlo
          exact ⟨by simp [MTree.leaves, this.1], this.2⟩
        · rw [hout, hlo, hro]
          simp [nodeChoice, pend, MTree.out, hr7 hro]
      | some rf =>
        by_cases hgt : cmp (curOf files2 lf) (curOf files2 rf) = .gt
        · have hch : nodeChoice cmp files2 (some lf) (some rf) = (some rf, some lf, none) := by simp [nodeChoice, hgt]
          rw [hch]
          refine ⟨hwf _ _ (by simp [hlo]) (by simp), hleaves _ _, hlen, hother, ?_, ?_, by simp⟩
          · intro f hf
            simp only [Option.some.injEq] at hf
            subst hf
            have := hr5 rf hro
            exact ⟨by simp [MTree.leaves, this.1], this.2⟩
          · rw [hout, hlo, hro]
            simp only [pend, MTree.out, List.cons_append, List.nil_append]
            rw [List.cons_merge_cons, if_neg (by simp [leOf, hgt])]
        · have hch : nodeChoice cmp files2 (some lf) (some rf) = (some lf, none, some rf) := by simp [nodeChoice, hgt]
          rw [hch]
          refine ⟨hwf _ _ (by simp) (by simp [hro]), hleaves _ _, hlen, hother, ?_, ?_, by simp⟩
          · intro f hf
            simp only [Option.some.injEq] at hf
            subst hf
            have := hl5' lf hlo
            exact ⟨by simp [MTree.leaves, this.1], this.2⟩
          · rw [hout, hlo, hro]
            simp only [pend, MTree.out, List.cons_append, List.nil_append]
            rw [List.cons_merge_cons, if_pos (by simp [leOf, hgt])]

theorem treeRun_eq (cmp : Bytes → Bytes → Ordering) (fuel : Nat) (t : MTree) (files : List (List Bytes))
    (hw : t.WF files) (hf : (t.out cmp files).length < fuel) : treeRun cmp fuel t files = t.out cmp files := by
  induction fuel generalizing t files with
  | zero => omega
  | succ fuel ih =>
    have hn := MTree.next_ok cmp t files hw
    simp only [treeRun]
    cases ho : (t.next cmp files).1 with
    | none =>
      rw [ho] at hn
      simp [hn.out, hn.fin rfl, pend]
    | some f =>
      rw [ho] at hn
      have he := hn.out
      simp only [pend, List.cons_append, List.nil_append] at he
      simp only
      rw [he] at hf ⊢
      rw [ih _ _ hn.wf (by simp only [List.length_cons] at hf; omega)]

theorem MTree.new_spec {cmp : Bytes → Bytes → Ordering} (hc : TotalPreorder cmp) (files : List (List Bytes))
    (hs : ∀ l ∈ files, SortedBy cmp l) (fuel : Nat) (nums : List Nat) (hne : nums ≠ []) (hlen : nums.length ≤ fuel)
    (hn : nums.Nodup) (hr : ∀ f ∈ nums, f < files.length) :
    (MTree.new fuel nums).WF files ∧ (MTree.new fuel nums).leaves = nums ∧
    StableSort cmp (nums.map fun f => files.getD f []).flatten ((MTree.new fuel nums).out cmp files) := by
  induction fuel generalizing nums with
  | zero => exact absurd (List.eq_nil_of_length_eq_zero (by omega)) hne
  | succ fuel ih =>
    simp only [MTree.new]
    by_cases h1 : nums.length ≤ 1
    · rw [if_pos h1]
      obtain ⟨f, rfl⟩ : ∃ f, nums = [f] := by
        match nums, hne, h1 with
        | [f], _, _ => exact ⟨f, rfl⟩
      have hf := hr f (by simp)
      refine ⟨hf, rfl, ?_⟩
      simp only [List.map_cons, List.map_nil, List.flatten_cons, List.flatten_nil, List.append_nil, MTree.out,
        List.headD_cons, if_true]
      refine ⟨List.Perm.refl _, ?_, fun _ => rfl⟩
      have : files.getD f [] = files[f] := by simp [List.getD, hf]
      rw [this]
      exact hs _ (List.getElem_mem hf)
    · rw [if_neg h1]
      have hmid1 : 0 < nums.length / 2 := by omega
      have hmid2 : nums.length / 2 < nums.length := by omega
      have htd : nums.take (nums.length / 2) ++ nums.drop (nums.length / 2) = nums := List.take_append_drop ..
      generalize nums.length / 2 = mid at *
      have hnod := hn
      rw [← htd, List.nodup_append] at hnod
      obtain ⟨wl, ll, sl⟩ := ih (nums.take mid) (by
          rw [ne_eq, List.take_eq_nil_iff]; simp only [hne, or_false]; omega)
        (by simp; omega) hnod.1 (fun f hf => hr f (List.mem_of_mem_take hf))
      obtain ⟨wr, lr, sr⟩ := ih (nums.drop mid) (by
          rw [ne_eq, List.drop_eq_nil_iff]; omega)
        (by simp; omega) hnod.2.1 (fun f hf => hr f (List.mem_of_mem_drop hf))
      refine ⟨⟨wl, wr, ?_, by simp, by simp⟩, ?_, ?_⟩
      · rw [ll, lr]
        intro f hf hf'
        exact hnod.2.2 f hf f hf' rfl
      · simp only [MTree.leaves, ll, lr, htd]
      · simp only [MTree.out, pend, List.nil_append]
        have hm := merge_stable hc _ _ sl.sorted sr.sorted
        have e : (nums.map fun f => files.getD f []).flatten =
            ((nums.take mid).map fun f => files.getD f []).flatten ++ ((nums.drop mid).map fun f => files.getD f []).flatten := by
          rw [← List.flatten_append, ← List.map_append, htd]
        rw [e]
        refine ⟨hm.perm.trans (sl.perm.append sr.perm), hm.sorted, fun x => ?_⟩
        rw [hm.stable, classOf_append, classOf_append, sl.stable, sr.stable]

theorem map_getD_range {α : Type} (files : List (List α)) : (List.range files.length).map (fun f => files.getD f []) = files := by
  apply List.ext_getElem
  · simp
  · intro i h1 h2
    simp [List.getD, h2]

end Cdx
