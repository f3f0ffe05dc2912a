import Verif.Lemmas.SortFinal
import Verif.Props.Merge

/-!
C28: the sort outputs a sorted stable permutation. C30: the memory limit does not matter.
-/

namespace Cdx

/-- The comparison of lines that the keys stand for. -/
def lineCmp (toF64 : Bytes → F64) (cs : List LineComp) (l r : Bytes) : Ordering := compLinesList toF64 cs 0 0 l r

/-- Methods whose comparison is a total preorder (C22). -/
def OrderedKey (c : LineComp) : Prop :=
  match c.kind with
  | .whole k => k ≠ .numeric ∧ k ≠ .float
  | .col k _ => k ≠ .numeric ∧ k ≠ .float
  | .expr eval => ∀ n l, (eval n l).isNaN = false

/-- First keys whose cached comparison is the direct one (C25). -/
def GoodFirstKey (c : LineComp) : Prop :=
  (c.reverse = false ∧ ((∃ k, c.kind = .whole k ∧ (k = .plain ∨ k = .lower ∨ k = .ip)) ∨
    ∃ k num, c.kind = .col k num ∧ (k = .plain ∨ k = .lower ∨ k = .ip))) ∨
  ∃ k num, c.kind = .col k num ∧ (k = .length ∨ k = .equal)

/-- Sort keys: tab separated, with ordered methods, and a first key whose cache is good. -/
structure GoodKeys (cs : List LineComp) : Prop where
  tab : ∀ c ∈ cs, c.delim = TAB
  ordered : ∀ c ∈ cs, OrderedKey c
  first : ∀ c cs', cs = c :: cs' → GoodFirstKey c

/-- A line that ends in a newline and has no NUL. -/
def CleanLine (l : Bytes) : Prop := IsLine l ∧ 0 ∉ l

theorem lineCmp_preorder (toF64 : Bytes → F64) (cs : List LineComp) (h : ∀ c ∈ cs, OrderedKey c) :
    TotalPreorder (lineCmp toF64 cs) :=
  (C27_preorder toF64 cs fun c hc => C27_preorder_methods toF64 c (h c hc)).comap fun l : Bytes => ((0 : Nat), l)

theorem sliceSplit_mem (d : UInt8) (l : Bytes) : ∀ p ∈ sliceSplit d l, ∀ x ∈ p, x ∈ l := by
  induction l with
  | nil => simp [sliceSplit]
  | cons a l ih =>
    intro p hp x hx
    unfold sliceSplit at hp
    split at hp
    · rcases List.mem_cons.1 hp with rfl | hp
      · simp at hx
      · exact List.mem_cons_of_mem _ (ih p hp x hx)
    · split at hp
      · simp only [List.mem_singleton] at hp
        subst hp
        simp only [List.mem_singleton] at hx
        simp [hx]
      · rename_i q qs hq
        rcases List.mem_cons.1 hp with rfl | hp
        · rcases List.mem_cons.1 hx with rfl | hx
          · simp
          · exact List.mem_cons_of_mem _ (ih q (by rw [hq]; simp) x hx)
        · exact List.mem_cons_of_mem _ (ih p (by rw [hq]; simp [hp]) x hx)

theorem getCol_mem (l : Bytes) (n : Nat) (d : UInt8) : ∀ x ∈ getCol l n d, x ∈ l := by
  intro x hx
  unfold getCol at hx
  split at hx
  · simp at hx
  · rename_i s hs
    have hm := sliceSplit_mem d l s (List.mem_of_getElem? hs)
    split at hx
    · exact hm x (List.dropLast_subset s hx)
    · exact hm x hx

theorem equalItemsList_list (toF64 : Bytes → F64) (c : LineComp) (cs : List LineComp) (base : Bytes) (l r : Item)
    (h : c.equalItems toF64 base (c.fillCacheLine toF64 l base) (c.fillCacheLine toF64 r base)
      = c.equalLines toF64 0 0 (l.get base) (r.get base)) :
    equalItemsList toF64 (c :: cs) base (fillCacheList toF64 (c :: cs) l base) (fillCacheList toF64 (c :: cs) r base)
      = equalLinesList toF64 (c :: cs) 0 0 (l.get base) (r.get base) := by
  simp only [equalItemsList, fillCacheList, equalLinesList, h, fillCacheLine_get]

theorem goodKeys_items (toF64 : Bytes → F64) (cs : List LineComp) (h : GoodKeys cs) :
    ItemsAgree toF64 cs (lineCmp toF64 cs) CleanLine := by
  have eqv : ∀ l r, equalLinesList toF64 cs 0 0 l r = (lineCmp toF64 cs l r == .eq) := by
    intro l r
    rw [Bool.eq_iff_iff, C27_equal_agrees, beq_iff_eq]
    rfl
  cases cs with
  | nil =>
    exact ⟨fun _ _ _ _ _ _ _ _ => rfl, fun _ _ _ _ _ _ _ _ => rfl⟩
  | cons c cs =>
    obtain ⟨kind, rv, d⟩ := c
    have h1 := h.first _ _ rfl
    have key : ∀ base (l r : Item), 8 < base.length → l.complete = false → r.complete = false →
        CleanLine (l.get base) → CleanLine (r.get base) →
        LineComp.compItems toF64 ⟨kind, rv, d⟩ base (LineComp.fillCacheLine toF64 ⟨kind, rv, d⟩ l base)
          (LineComp.fillCacheLine toF64 ⟨kind, rv, d⟩ r base)
          = LineComp.compLines toF64 ⟨kind, rv, d⟩ 0 0 (l.get base) (r.get base) ∧
        LineComp.equalItems toF64 ⟨kind, rv, d⟩ base (LineComp.fillCacheLine toF64 ⟨kind, rv, d⟩ l base)
          (LineComp.fillCacheLine toF64 ⟨kind, rv, d⟩ r base)
          = LineComp.equalLines toF64 ⟨kind, rv, d⟩ 0 0 (l.get base) (r.get base) := by
      intro base l r hb hl hr cl cr
      have zl : ∀ n, 0 ∉ itemCol base n d l := fun n hn => cl.2 (getCol_mem _ _ _ _ hn)
      have zr : ∀ n, 0 ∉ itemCol base n d r := fun n hn => cr.2 (getCol_mem _ _ _ _ hn)
      rcases h1 with ⟨hrv, hk⟩ | ⟨k, num, hk, hk2⟩
      · simp only at hrv
        subst hrv
        rcases hk with ⟨k, hk, hk2⟩ | ⟨k, num, hk, hk2⟩
        · simp only at hk
          subst hk
          refine ⟨C25_whole_line_partial toF64 k (by grind) d base hb l r hl, ?_⟩
          have hd : decide (base.length ≤ 8) = false := by simp; omega
          unfold LineComp.equalItems
          rw [fillCacheLine_get, fillCacheLine_get]
          unfold LineComp.fillCacheLine
          rcases hk2 with rfl | rfl | rfl <;> simp [fillCache, hd]
        · simp only at hk
          subst hk
          refine ⟨?_, C25_equal_column_partial toF64 k num false d base l r (by grind) hl (fun _ => zl _) (fun _ => zr _)⟩
          rcases hk2 with hk2 | hk2 | hk2
          · exact C25_text_column_partial toF64 k (.inl hk2) num false d base l r (zl _) (zr _) (.inl rfl)
          · exact C25_text_column_partial toF64 k (.inr hk2) num false d base l r (zl _) (zr _) (.inl rfl)
          · subst hk2
            exact C25_ip_column_partial toF64 num d base l r
      · simp only at hk
        subst hk
        exact ⟨C25_length_column_partial toF64 k hk2 num rv d base l r,
          C25_equal_column_partial toF64 k num rv d base l r (by grind) hl (fun _ => zl _) (fun _ => zr _)⟩
    refine ⟨?_, ?_⟩
    · intro base l r hb hl hr cl cr
      exact C25_list toF64 _ cs base l r (key base l r hb hl hr cl cr).1
    · intro base l r hb hl hr cl cr
      rw [← eqv]
      exact equalItemsList_list toF64 _ cs base l r (key base l r hb hl hr cl cr).2

theorem goodKeys_merge (toF64 : Bytes → F64) (cs : List LineComp) (h : GoodKeys cs) :
    MergeAgree toF64 cs (lineCmp toF64 cs) CleanLine := by
  refine ⟨fun l r hl hr => mergeComp_lines toF64 cs h.tab l r hl.1 hr.1, fun l r hl hr => ?_⟩
  simp only [mergeEqual_eq, mergeComp_lines toF64 cs h.tab l r hl.1 hr.1, lineCmp]

theorem goodKeys_pick (toF64 : Bytes → F64) (cs : List LineComp) (h : GoodKeys cs)
    (pick : Nat → List (Nat × Bytes) → Nat) (hp : PicksSmallest (mergeComp toF64 cs) (fun _ => True) pick) :
    PicksSmallest (lineCmp toF64 cs) CleanLine pick := by
  intro n entries hne hL
  obtain ⟨h1, h2⟩ := hp n entries hne (fun _ _ => trivial)
  refine ⟨h1, fun e he => ?_⟩
  have := h2 e he
  rwa [mergeComp_lines toF64 cs h.tab _ _ (hL _ (List.getElem_mem h1)).1 (hL e he).1] at this

/-- The sort leaves the keys as they are: no column names to resolve. -/
def sortLookup (cs : List LineComp) (_ : Bytes) : Res (List LineComp) := .ok cs

/-- The sort of the files with keys that name no columns. -/
abbrev sortCmd (toF64 : Bytes → F64) (nameOk : Bytes → Bool) (pick : Nat → List (Nat × Bytes) → Nat)
    (rd : Nat → Nat → Nat) (cap : Nat) (unique : Bool) (cs : List LineComp) (files : List Bytes) : Res Bytes :=
  sortFiles toF64 nameOk sortLookup pick rd cap unique cs files

/-- The lines to sort: those after the headers. None has a NUL. -/
def CleanFiles (files : List Bytes) : Prop := ∀ l ∈ allLines files, 0 ∉ l

/-- The claim, without the case where the memory limit matters less than 9 bytes. -/
def C28_statement : Prop :=
  ∀ (toF64 : Bytes → F64) (nameOk : Bytes → Bool) (pick : Nat → List (Nat × Bytes) → Nat) (rd : Nat → Nat → Nat)
    (cap : Nat) (cs : List LineComp) (files : List Bytes) (out : Bytes), 8 < cap → GoodKeys cs → CleanFiles files →
    PicksSmallest (mergeComp toF64 cs) (fun _ => True) pick →
    (sortCmd toF64 nameOk pick rd cap false cs files = .ok out →
      ∃ ls, StableSort (lineCmp toF64 cs) (allLines files) ls ∧ out = sortHeader files ++ ls.flatten) ∧
    (sortCmd toF64 nameOk pick rd cap true cs files = .ok out →
      ∃ ls, UniqueSort (lineCmp toF64 cs) (allLines files) ls ∧ out = sortHeader files ++ ls.flatten)

theorem cleanFiles_lines {files : List Bytes} (h : CleanFiles files) : ∀ l ∈ (files.map dataLines).flatten, CleanLine l := by
  intro l hl
  refine ⟨?_, h l hl⟩
  obtain ⟨x, hx, hlx⟩ := List.mem_flatten.1 hl
  obtain ⟨f, hf, rfl⟩ := List.mem_map.1 hx
  exact dataLines_isLine f l hlx

/-- In memory the sort is stable, and with unique keeps exactly the first line of each class. -/
theorem C28_in_memory (toF64 : Bytes → F64) (nameOk : Bytes → Bool) (pick : Nat → List (Nat × Bytes) → Nat)
    (rd : Nat → Nat → Nat) (cap : Nat) (cs : List LineComp) (files : List Bytes) (out : Bytes) (hcap : 8 < cap)
    (hk : GoodKeys cs) (hz : CleanFiles files) (hfit : (allLines files).flatten.length < cap) :
    (sortCmd toF64 nameOk pick rd cap false cs files = .ok out →
      ∃ ls, StableSort (lineCmp toF64 cs) (allLines files) ls ∧ out = sortHeader files ++ ls.flatten) ∧
    (sortCmd toF64 nameOk pick rd cap true cs files = .ok out →
      ∃ ls, UniqueSort (lineCmp toF64 cs) (allLines files) ls ∧ out = sortHeader files ++ ls.flatten) := by
  have hc := lineCmp_preorder toF64 cs hk.ordered
  constructor
  · intro hok
    obtain ⟨blocks, B, h1, h2, h3, _⟩ := sortFiles_spec hc (goodKeys_items toF64 cs hk) nameOk sortLookup
      (fun l cs' h => (Res.ok.inj h).symm) pick false cap hcap rd files (cleanFiles_lines hz) out hok
    have hb := h2 hfit
    refine ⟨_, ?_, h3 hb⟩
    rw [allLines_eq, h1, hb]
    exact sortBlock_stable hc B
  · intro hok
    obtain ⟨blocks, B, h1, h2, h3, _⟩ := sortFiles_spec hc (goodKeys_items toF64 cs hk) nameOk sortLookup
      (fun l cs' h => (Res.ok.inj h).symm) pick true cap hcap rd files (cleanFiles_lines hz) out hok
    have hb := h2 hfit
    refine ⟨_, ?_, h3 hb⟩
    rw [allLines_eq, h1, hb]
    exact sortBlock_unique hc B

/-- No line to be sorted looks like a header. -/
def NoHeaderLines (files : List Bytes) : Prop := ∀ l ∈ allLines files, isCdx l = false

/-- However the memory limit cuts the input: a sorted permutation, or with unique a sorted choice of one line of each
class. Missing: which of equal lines comes first or is kept. -/
theorem C28_any_limit_partial (toF64 : Bytes → F64) (nameOk : Bytes → Bool) (pick : Nat → List (Nat × Bytes) → Nat)
    (rd : Nat → Nat → Nat) (cap : Nat) (cs : List LineComp) (files : List Bytes) (out : Bytes) (hcap : 8 < cap)
    (hk : GoodKeys cs) (hz : CleanFiles files) (hh : NoHeaderLines files)
    (hp : PicksSmallest (mergeComp toF64 cs) (fun _ => True) pick) :
    (sortCmd toF64 nameOk pick rd cap false cs files = .ok out →
      ∃ ls, ls.Perm (allLines files) ∧ SortedBy (lineCmp toF64 cs) ls ∧ out = sortHeader files ++ ls.flatten) ∧
    (sortCmd toF64 nameOk pick rd cap true cs files = .ok out →
      ∃ ls, SomeUniqueSort (lineCmp toF64 cs) (allLines files) ls ∧ out = sortHeader files ++ ls.flatten) := by
  have hc := lineCmp_preorder toF64 cs hk.ordered
  constructor
  · intro hok
    obtain ⟨blocks, B, h1, h2, h3, h4⟩ := sortFiles_spec hc (goodKeys_items toF64 cs hk) nameOk sortLookup
      (fun l cs' h => (Res.ok.inj h).symm) pick false cap hcap rd files (cleanFiles_lines hz) out hok
    by_cases hb : blocks = []
    · refine ⟨_, ?_, (sortBlock_stable hc B).sorted, h3 hb⟩
      rw [allLines_eq, h1, hb]
      exact (sortBlock_stable hc B).perm
    · obtain ⟨seq, g1, g2, g3⟩ := h4 hb (goodKeys_merge toF64 cs hk) (goodKeys_pick toF64 cs hk pick hp) hh
      refine ⟨seq, ?_, g2, by simpa using g3⟩
      rw [allLines_eq, h1]
      refine g1.perm.trans ?_
      have : ∀ bs : List (List Bytes), ((bs.map (sortBlock (lineCmp toF64 cs) false)).flatten).Perm bs.flatten := by
        intro bs
        induction bs with
        | nil => exact List.Perm.refl _
        | cons b bs ih => exact ((sortBlock_stable hc b).perm.append ih)
      simpa using this (blocks ++ [B])
  · intro hok
    obtain ⟨blocks, B, h1, h2, h3, h4⟩ := sortFiles_spec hc (goodKeys_items toF64 cs hk) nameOk sortLookup
      (fun l cs' h => (Res.ok.inj h).symm) pick true cap hcap rd files (cleanFiles_lines hz) out hok
    by_cases hb : blocks = []
    · refine ⟨_, ?_, h3 hb⟩
      rw [allLines_eq, h1, hb]
      exact (sortBlock_unique hc B).some hc
    · obtain ⟨seq, g1, g2, g3⟩ := h4 hb (goodKeys_merge toF64 cs hk) (goodKeys_pick toF64 cs hk pick hp) hh
      refine ⟨uniq (fun a b => lineCmp toF64 cs a b == .eq) seq, ?_, by simpa using g3⟩
      have hu := ((uniq_spec hc g2).some hc).of_mem (fun x => g1.perm.mem_iff)
      have := SomeUniqueSort.of_parts hc (parts := blocks ++ [B]) (fun p _ => (sortBlock_unique hc p).some hc) hu
      rw [allLines_eq, h1]
      simpa using this

/-! ## Success -/

/-- When everything fits in memory and the headers are accepted (C12), the sort succeeds. -/
theorem C28_succeeds_in_memory (toF64 : Bytes → F64) (nameOk : Bytes → Bool) (pick : Nat → List (Nat × Bytes) → Nat)
    (rd : Nat → Nat → Nat) (cap : Nat) (unique : Bool) (cs : List LineComp) (files : List Bytes) (hcap : 8 < cap)
    (hk : GoodKeys cs) (hz : CleanFiles files) (hfit : (allLines files).flatten.length < cap)
    (hck : (HeaderChecker.fromMode .matching).checkAll nameOk
      ((files.filter (· ≠ [])).map fun f => (readUntil NL f).1) ≠ none) :
    ∃ out, sortCmd toF64 nameOk pick rd cap unique cs files = .ok out := by
  have hc := lineCmp_preorder toF64 cs hk.ordered
  obtain ⟨s, hs⟩ := addFiles_ok hc (goodKeys_items toF64 cs hk) nameOk sortLookup (fun _ => rfl) unique cap hcap rd 0
    (Sorter.new cs) [] [] [] (new_inv _ unique cap cs) files (by simpa using cleanFiles_lines hz) hck
    (by simpa [allLines_eq] using hfit)
  exact ⟨s.finalize toF64 pick unique, by simp [sortCmd, sortFiles, hs]⟩

/-- One file with lines shorter than the memory limit: the sort succeeds, however many temporary files it needs. -/
theorem C28_succeeds_one_file (toF64 : Bytes → F64) (nameOk : Bytes → Bool) (pick : Nat → List (Nat × Bytes) → Nat)
    (rd : Nat → Nat → Nat) (cap : Nat) (unique : Bool) (cs : List LineComp) (file : Bytes) (hcap : 8 < cap)
    (hk : GoodKeys cs) (hz : CleanFiles [file]) (hlen : ∀ l ∈ allLines [file], l.length < cap)
    (hck : file = [] ∨ (HeaderChecker.fromMode .matching).check nameOk (readUntil NL file).1 ≠ none) :
    ∃ out, sortCmd toF64 nameOk pick rd cap unique cs [file] = .ok out := by
  have hc := lineCmp_preorder toF64 cs hk.ordered
  have hcl := cleanFiles_lines hz
  simp only [List.map_cons, List.map_nil, List.flatten_cons, List.flatten_nil, List.append_nil] at hcl
  simp only [allLines_eq, List.map_cons, List.map_nil, List.flatten_cons, List.flatten_nil, List.append_nil] at hlen
  obtain ⟨s, hs, _⟩ := addFile_ok hc (goodKeys_items toF64 cs hk) nameOk sortLookup (fun _ => rfl) unique cap hcap (rd 0)
    (Sorter.new cs) [] [] [] (new_inv _ unique cap cs) file (by simpa using hcl) hck
    (by
      cases h : dataLines file with
      | nil => simp [Sorter.new]; omega
      | cons a l => simpa [Sorter.new] using hlen a (by rw [h]; simp))
    (by simpa using fun l hl => Nat.le_of_lt (hlen l hl))
  exact ⟨s.finalize toF64 pick unique, by simp [sortCmd, sortFiles, Sorter.addFiles, hs]⟩

/-! ## Independence of the limit -/

/-- The same keys at every position. -/
def SameKeys (cmp : Bytes → Bytes → Ordering) : List Bytes → List Bytes → Prop
  | [], [] => True
  | x :: xs, y :: ys => cmp x y = .eq ∧ SameKeys cmp xs ys
  | _, _ => False

theorem sameKeys_of_classes {cmp : Bytes → Bytes → Ordering} (hc : TotalPreorder cmp) (a b : List Bytes)
    (ha : SortedBy cmp a) (hb : SortedBy cmp b) (h : ∀ z, (classOf cmp z a).length = (classOf cmp z b).length) :
    SameKeys cmp a b := by
  induction a generalizing b with
  | nil =>
    cases b with
    | nil => trivial
    | cons y b =>
      have := h y
      rw [classOf_cons, if_pos (hc.refl y)] at this
      simp [classOf] at this
  | cons x a ih =>
    cases b with
    | nil =>
      have := h x
      rw [classOf_cons, if_pos (hc.refl x)] at this
      simp [classOf] at this
    | cons y b =>
      have hxy : cmp x y = .eq := by
        rw [hc.eq_iff]
        constructor
        · intro hgt
          -- `y` is less than everything in `x :: a`
          have := h y
          rw [classOf_cons (l := b), if_pos (hc.refl y), classOf_eq_nil_of_lt hc ha (hc.gt_iff.1 hgt)] at this
          simp at this
        · intro hgt
          have := h x
          rw [classOf_cons (l := a), if_pos (hc.refl x), classOf_eq_nil_of_lt hc hb (hc.gt_iff.1 hgt)] at this
          simp at this
      refine ⟨hxy, ih b ha.tail hb.tail fun z => ?_⟩
      have := h z
      rw [classOf_cons, classOf_cons, hc.eq_right hxy z] at this
      split at this
      · simpa using this
      · exact this

theorem sameKeys_perm {cmp : Bytes → Bytes → Ordering} (hc : TotalPreorder cmp) {a b : List Bytes}
    (ha : SortedBy cmp a) (hb : SortedBy cmp b) (h : a.Perm b) : SameKeys cmp a b :=
  sameKeys_of_classes hc a b ha hb fun _ => (h.filter _).length_eq

theorem sameKeys_unique {cmp : Bytes → Bytes → Ordering} (hc : TotalPreorder cmp) {inp a b : List Bytes}
    (ha : SomeUniqueSort cmp inp a) (hb : SomeUniqueSort cmp inp b) : SameKeys cmp a b := by
  have le1 : ∀ {c : List Bytes}, ∀ z, SomeUniqueSort cmp inp c → (classOf cmp z c).length ≤ 1 := by
    intro c z h
    have hp : (classOf cmp z c).Pairwise fun a b => cmp a b = .lt := h.strict.filter _
    match hcl : classOf cmp z c with
    | [] => simp
    | [_] => simp
    | x :: y :: l =>
      exfalso
      rw [hcl] at hp
      have hxy := (List.pairwise_cons.1 hp).1 y (by simp)
      have hx : cmp z x = .eq := by
        have : x ∈ classOf cmp z c := by rw [hcl]; simp
        simpa using (List.mem_filter.1 this).2
      have hy : cmp z y = .eq := by
        have : y ∈ classOf cmp z c := by rw [hcl]; simp
        simpa using (List.mem_filter.1 this).2
      rw [hc.eq_trans (hc.eq_symm hx) hy] at hxy
      simp at hxy
  have pos : ∀ {c d : List Bytes} (z : Bytes), SomeUniqueSort cmp inp c → SomeUniqueSort cmp inp d →
      classOf cmp z c ≠ [] → classOf cmp z d ≠ [] := by
    intro c d z h1 h2 hne
    obtain ⟨x, hx⟩ := List.exists_mem_of_ne_nil _ hne
    obtain ⟨hx1, hx2⟩ := List.mem_filter.1 hx
    obtain ⟨y, hy1, hy2⟩ := h2.covers x (h1.sub x hx1)
    have : y ∈ classOf cmp z d := List.mem_filter.2 ⟨hy1, by simpa using hc.eq_trans (by simpa using hx2) hy2⟩
    intro h0
    rw [h0] at this
    simp at this
  have sorted : ∀ {c : List Bytes}, SomeUniqueSort cmp inp c → SortedBy cmp c :=
    fun h => h.strict.imp (by intro x y e; rw [e]; decide)
  apply sameKeys_of_classes hc a b (sorted ha) (sorted hb)
  intro z
  have h1 := le1 z ha
  have h2 := le1 z hb
  by_cases h0 : classOf cmp z a = []
  · have : classOf cmp z b = [] := by
      apply Classical.byContradiction
      intro hne
      exact pos z hb ha hne h0
    rw [h0, this]
  · have h3 := List.length_pos_iff.2 h0
    have h4 := List.length_pos_iff.2 (pos z ha hb h0)
    omega

/-- The claim. -/
def C30_statement : Prop :=
  ∀ (toF64 : Bytes → F64) (nameOk : Bytes → Bool) (pick : Nat → List (Nat × Bytes) → Nat) (rd : Nat → Nat → Nat)
    (cap cap' : Nat) (unique : Bool) (cs : List LineComp) (files : List Bytes), 8 < cap → 8 < cap' → GoodKeys cs →
    CleanFiles files → PicksSmallest (mergeComp toF64 cs) (fun _ => True) pick →
    sortCmd toF64 nameOk pick rd cap unique cs files = sortCmd toF64 nameOk pick rd cap' unique cs files

/-- Two limits (and two heaps, and two ways of reading) under which the sort succeeds give the same header, and lines
with the same keys in every position; without unique they are the same lines up to their order. Missing: the order or
choice among lines with equal keys, and that the sort succeeds under both. -/
theorem C30_keys_partial (toF64 : Bytes → F64) (nameOk : Bytes → Bool) (pick pick' : Nat → List (Nat × Bytes) → Nat)
    (rd rd' : Nat → Nat → Nat) (cap cap' : Nat) (unique : Bool) (cs : List LineComp) (files : List Bytes) (out out' : Bytes)
    (hcap : 8 < cap) (hcap' : 8 < cap') (hk : GoodKeys cs) (hz : CleanFiles files) (hh : NoHeaderLines files)
    (hp : PicksSmallest (mergeComp toF64 cs) (fun _ => True) pick)
    (hp' : PicksSmallest (mergeComp toF64 cs) (fun _ => True) pick')
    (h : sortCmd toF64 nameOk pick rd cap unique cs files = .ok out)
    (h' : sortCmd toF64 nameOk pick' rd' cap' unique cs files = .ok out') :
    ∃ ls ls', out = sortHeader files ++ ls.flatten ∧ out' = sortHeader files ++ ls'.flatten ∧
      SameKeys (lineCmp toF64 cs) ls ls' ∧ (unique = false → ls.Perm ls') := by
  have hc := lineCmp_preorder toF64 cs hk.ordered
  have g := C28_any_limit_partial toF64 nameOk pick rd cap cs files out hcap hk hz hh hp
  have g' := C28_any_limit_partial toF64 nameOk pick' rd' cap' cs files out' hcap' hk hz hh hp'
  cases unique with
  | false =>
    obtain ⟨a, a1, a2, a3⟩ := g.1 h
    obtain ⟨b, b1, b2, b3⟩ := g'.1 h'
    exact ⟨a, b, a3, b3, sameKeys_perm hc a2 b2 (a1.trans b1.symm), fun _ => a1.trans b1.symm⟩
  | true =>
    obtain ⟨a, a1, a2⟩ := g.2 h
    obtain ⟨b, b1, b2⟩ := g'.2 h'
    exact ⟨a, b, a2, b2, sameKeys_unique hc a1 b1, by simp⟩

theorem sameKeys_eq {cmp : Bytes → Bytes → Ordering} {a b : List Bytes} (h : SameKeys cmp a b)
    (hd : ∀ x ∈ a, ∀ y ∈ b, cmp x y = .eq → x = y) : a = b := by
  induction a generalizing b with
  | nil => cases b <;> simp_all [SameKeys]
  | cons x a ih =>
    cases b with
    | nil => simp [SameKeys] at h
    | cons y b =>
      rw [hd x (by simp) y (by simp) h.1, ih h.2 fun u hu v hv => hd u (by simp [hu]) v (by simp [hv])]

/-- The default sort key, the whole line. -/
abbrev wholeLine : LineComp := ⟨.whole .plain, false, TAB⟩

theorem wholeLine_good : GoodKeys [wholeLine] := by
  refine ⟨by simp, by simp [OrderedKey], ?_⟩
  intro c cs' h
  simp only [List.cons.injEq] at h
  rw [← h.1]
  left
  exact ⟨rfl, .inl ⟨.plain, rfl, .inl rfl⟩⟩

theorem firstCol_good : GoodKeys [firstCol] := by
  refine ⟨by simp, by simp [OrderedKey], ?_⟩
  intro c cs' h
  simp only [List.cons.injEq] at h
  rw [← h.1]
  left
  exact ⟨rfl, .inr ⟨.plain, _, rfl, .inl rfl⟩⟩

theorem wholeLine_eq (toF64 : Bytes → F64) (x y : Bytes) (h : lineCmp toF64 [wholeLine] x y = .eq) : x = y := by
  simp only [lineCmp, compLinesList, LineComp.compLines, LineComp.inner, rev, compK] at h
  have : lexCmp x y = .eq := by
    by_cases he : lexCmp x y = .eq
    · exact he
    · simp [he] at h
  exact lexCmp_eq.1 this

/-- Sorting by the whole line: the output is the same under any two limits under which the sort succeeds. -/
theorem C30_whole_line (toF64 : Bytes → F64) (nameOk : Bytes → Bool) (pick pick' : Nat → List (Nat × Bytes) → Nat)
    (rd rd' : Nat → Nat → Nat) (cap cap' : Nat) (unique : Bool) (files : List Bytes) (out out' : Bytes)
    (hcap : 8 < cap) (hcap' : 8 < cap') (hz : CleanFiles files) (hh : NoHeaderLines files)
    (hp : PicksSmallest (mergeComp toF64 [wholeLine]) (fun _ => True) pick)
    (hp' : PicksSmallest (mergeComp toF64 [wholeLine]) (fun _ => True) pick')
    (h : sortCmd toF64 nameOk pick rd cap unique [wholeLine] files = .ok out)
    (h' : sortCmd toF64 nameOk pick' rd' cap' unique [wholeLine] files = .ok out') : out = out' := by
  obtain ⟨a, b, h1, h2, h3, _⟩ := C30_keys_partial toF64 nameOk pick pick' rd rd' cap cap' unique [wholeLine] files out out'
    hcap hcap' wholeLine_good hz hh hp hp' h h'
  rw [h1, h2, sameKeys_eq h3 fun x _ y _ => wholeLine_eq toF64 x y]

/-! ## Counterexamples -/

/-- Five lines with the same key: "a\t1\n" to "a\t5\n". -/
abbrev fiveTies : Bytes := [97, 9, 49, 10, 97, 9, 50, 10, 97, 9, 51, 10, 97, 9, 52, 10, 97, 9, 53, 10]

/-- A heap that satisfies the hypotheses, for sorting by the first column and by the line. -/
abbrev tiePick : Nat → List (Nat × Bytes) → Nat := pickOldest (mergeComp (fun _ => 0) [firstCol])

theorem tiePick_ok : PicksSmallest (mergeComp (fun _ => 0) [firstCol]) (fun _ => True) tiePick :=
  pickOldest_smallest (firstCol_preorder _) _

theorem cleanFiles_dec (files : List Bytes) (h : ((allLines files).all fun l => !l.contains 0) = true) : CleanFiles files := by
  intro l hl
  have := List.all_eq_true.1 h l hl
  simpa using this

example : CleanFiles [fiveTies] ∧ NoHeaderLines [fiveTies] ∧ (allLines [fiveTies]).flatten.length = 20 ∧
    (HeaderChecker.fromMode .matching).checkAll (fun _ => true)
      (([fiveTies].filter (· ≠ [])).map fun f => (readUntil NL f).1) ≠ none ∧
    (∀ l ∈ allLines [fiveTies], l.length < 16) ∧
    (HeaderChecker.fromMode .matching).check (fun _ => true) (readUntil NL fiveTies).1 ≠ none := by
  refine ⟨cleanFiles_dec _ (by decide +kernel), ?_, ?_⟩
  · unfold NoHeaderLines; decide +kernel
  · decide +kernel

/-- With a memory limit of 16 bytes the fifth of the lines is written second. -/
theorem fiveTies_spilled (rd : Nat → Nat → Nat) (h : rd = fun _ _ => 100) :
    sortCmd (fun _ => 0) (fun _ => true) tiePick rd 16 false [firstCol] [fiveTies]
      = .ok [97, 9, 49, 10, 97, 9, 53, 10, 97, 9, 50, 10, 97, 9, 51, 10, 97, 9, 52, 10] := by
  subst h
  decide +kernel

theorem fiveTies_lines : allLines [fiveTies] =
    [[97, 9, 49, 10], [97, 9, 50, 10], [97, 9, 51, 10], [97, 9, 52, 10], [97, 9, 53, 10]] := by decide +kernel

/-- Equal lines of different runs can come out in another order. -/
theorem C28_refuted : ¬ C28_statement := by
  intro h
  obtain ⟨ls, h1, h2⟩ := (h (fun _ => 0) (fun _ => true) tiePick (fun _ _ => 100) 16 [firstCol] [fiveTies] _ (by decide)
    firstCol_good (cleanFiles_dec _ (by decide +kernel)) tiePick_ok).1 (fiveTies_spilled _ rfl)
  have h3 : StableSort (lineCmp (fun _ => 0) [firstCol]) (allLines [fiveTies]) (allLines [fiveTies]) := by
    refine ⟨List.Perm.refl _, ?_, fun _ => rfl⟩
    rw [fiveTies_lines]
    simp only [SortedBy, List.pairwise_cons, List.mem_cons, List.not_mem_nil, or_false, forall_eq, forall_eq_or_imp,
      false_implies, implies_true, List.Pairwise.nil, and_true, ne_eq]
    decide
  have := StableSort.unique (lineCmp_preorder _ _ firstCol_good.ordered) h1 h3
  rw [this, fiveTies_lines] at h2
  revert h2
  decide +kernel

/-- The memory limit changes the order of equal lines. -/
theorem C30_refuted : ¬ C30_statement := by
  intro h
  have := h (fun _ => 0) (fun _ => true) tiePick (fun _ _ => 100) 16 100 false [firstCol] [fiveTies] (by decide) (by decide)
    firstCol_good (cleanFiles_dec _ (by decide +kernel)) tiePick_ok
  revert this
  decide +kernel

/-- A heap for sorting by the line. -/
abbrev linePick : Nat → List (Nat × Bytes) → Nat := pickOldest (mergeComp (fun _ => 0) [wholeLine])

/-- With unique, the memory limit changes which of equal lines is kept. The lines are "a\t1\n", "b\t1\n" three times and
"a\t5\n"; a heap that prefers the later run gives the latter. -/
theorem C30_refuted_unique :
    let file : Bytes := [97, 9, 49, 10, 98, 9, 49, 10, 98, 9, 49, 10, 98, 9, 49, 10, 97, 9, 53, 10]
    let pick : Nat → List (Nat × Bytes) → Nat := fun _ e =>
      if e.length = 2 ∧ mergeComp (fun _ => 0) [firstCol] (e.getD 1 (0, [])).2 (e.getD 0 (0, [])).2 ≠ .gt then 1 else 0
    sortCmd (fun _ => 0) (fun _ => true) pick (fun _ _ => 100) 16 true [firstCol] [file]
      = .ok [97, 9, 53, 10, 98, 9, 49, 10] ∧
    sortCmd (fun _ => 0) (fun _ => true) pick (fun _ _ => 100) 100 true [firstCol] [file]
      = .ok [97, 9, 49, 10, 98, 9, 49, 10] := by decide +kernel

/-- A temporary run that begins with a line starting with " CDX" loses it: the file is a line of 16 bytes and the line
" CDX\n", which is missing in the output. -/
theorem C30_refuted_lost_line :
    let file : Bytes := List.replicate 15 97 ++ [10, 32, 67, 68, 88, 10]
    sortCmd (fun _ => 0) (fun _ => true) linePick (fun _ _ => 16) 17 false [wholeLine] [file]
      = .ok (List.replicate 15 97 ++ [10]) ∧
    sortCmd (fun _ => 0) (fun _ => true) linePick (fun _ _ => 16) 100 false [wholeLine] [file]
      = .ok ([32, 67, 68, 88, 10] ++ List.replicate 15 97 ++ [10]) := by decide +kernel

/-- A second file without header whose first line does not fit in the rest of the buffer is an error. -/
theorem C30_refuted_error :
    sortCmd (fun _ => 0) (fun _ => true) linePick (fun _ _ => 100) 16 false [wholeLine]
      [List.replicate 9 97 ++ [10], List.replicate 9 97 ++ [10]] = .err ∧
    sortCmd (fun _ => 0) (fun _ => true) linePick (fun _ _ => 100) 100 false [wholeLine]
      [List.replicate 9 97 ++ [10], List.replicate 9 97 ++ [10]]
      = .ok (List.replicate 9 97 ++ [10] ++ List.replicate 9 97 ++ [10]) := by decide +kernel

/-- A line longer than the buffer is a panic. -/
theorem C30_refuted_long_line :
    sortCmd (fun _ => 0) (fun _ => true) linePick (fun _ _ => 100) 16 false [wholeLine] [[97, 10] ++ List.replicate 20 97]
      = .panic := by decide +kernel

end Cdx
