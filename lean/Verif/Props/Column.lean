import Verif.Lemmas.Column

/-!
C18-C21: column selections, output headers, cutting.
-/

namespace Cdx

/-! ## C18: column selection -/

/-- Calls of `add_yes` (`false`) and `add_no` (`true`) with lists of items, in order. -/
def addCalls (transOk : Bytes → Bool) : ColumnSet → List (Bool × List ColItem) → Res ColumnSet
  | c, [] => .ok c
  | c, (neg, is) :: rest =>
    (c.add transOk (List.intercalate [44] (is.map ColItem.text)) neg).bind fun c => addCalls transOk c rest

/-- The columns found by a sequence of calls on a header. -/
def selectCode (transOk : Bytes → Bool) (mk : Bytes → Res (Bytes → Bool)) (names : List Bytes)
    (calls : List (Bool × List ColItem)) : Res (List OutCol) :=
  (addCalls transOk .empty calls).bind fun c => c.lookup mk names

/-- The calls are well formed: non-empty lists of well-formed items. -/
def CallsWF (calls : List (Bool × List ColItem)) : Prop :=
  ∀ c ∈ calls, c.2 ≠ [] ∧ ∀ i ∈ c.2, i.WF

/-- All references of the calls. -/
def allRefs (calls : List (Bool × List ColItem)) : List ColRef :=
  calls.flatMap fun c => c.2.flatMap fun i => i.sel.refs

def part (i : ColItem) : ColSetPart := ⟨i.body, none⟩

theorem addCalls_spec (transOk : Bytes → Bool) (calls : List (Bool × List ColItem)) (h : CallsWF calls)
    (c : ColumnSet) :
    addCalls transOk c calls =
      .ok { c with pos := c.pos ++ (chosenOf calls).map part, neg := c.neg ++ (rejectedOf calls).map part } := by
  induction calls generalizing c with
  | nil => simp [addCalls, chosenOf, rejectedOf]
  | cons x rest ih =>
    obtain ⟨neg, is⟩ := x
    have hx := h (neg, is) (List.mem_cons_self ..)
    rw [addCalls, add_items transOk c neg is hx.1 hx.2, Res.bind_ok, foldl_addItem,
      ih (fun y hy => h y (List.mem_cons_of_mem _ hy))]
    simp [chosenOf, rejectedOf, part]

theorem noCols_spec (mk : Bytes → Res (Bytes → Bool)) (names : List Bytes) (hn : ∀ n ∈ names, IsName n)
    (is : List ColItem) (h : ∀ i ∈ is, i.WF ∧ ∀ r ∈ i.sel.refs, r.Fair names) :
    noCols mk names (is.map part) =
      match denoteAll names is with | some v => .ok (v.map (·.1)) | none => .err := by
  induction is with
  | nil => rfl
  | cons i is ih =>
    have hi := h i (List.mem_cons_self ..)
    simp only [List.map_cons, noCols, denoteAll]
    rw [show (part i).val = i.body from rfl, range_spec mk names hn i hi.1 hi.2,
      ih (fun j hj => h j (List.mem_cons_of_mem _ hj))]
    cases i.sel.denote names with
    | none => rfl
    | some v =>
      cases denoteAll names is with
      | none => rfl
      | some w => simp [toOutcols, Function.comp_def]

theorem yesCols_spec (mk : Bytes → Res (Bytes → Bool)) (names : List Bytes) (hn : ∀ n ∈ names, IsName n)
    (no : List Nat) (is : List ColItem) (h : ∀ i ∈ is, i.WF ∧ ∀ r ∈ i.sel.refs, r.Fair names) :
    yesCols mk names no (is.map part) =
      match denoteAll names is with
      | some v => .ok ((v.filter fun x => !no.contains x.1).map fun x => ⟨x.1, x.2, none⟩)
      | none => .err := by
  induction is with
  | nil => rfl
  | cons i is ih =>
    have hi := h i (List.mem_cons_self ..)
    simp only [List.map_cons, yesCols, denoteAll]
    rw [show (part i).val = i.body from rfl, range_spec mk names hn i hi.1 hi.2,
      ih (fun j hj => h j (List.mem_cons_of_mem _ hj))]
    cases i.sel.denote names with
    | none => rfl
    | some v =>
      cases denoteAll names is with
      | none => rfl
      | some w =>
        simp [toOutcols, List.filter_map, Function.comp_def, part]

theorem mem_chosen {calls : List (Bool × List ColItem)} {i : ColItem}
    (h : i ∈ chosenOf calls ∨ i ∈ rejectedOf calls) : ∃ c ∈ calls, i ∈ c.2 := by
  simp only [chosenOf, rejectedOf, List.mem_flatMap, List.mem_filter] at h
  rcases h with ⟨c, h1, h2, _⟩ | ⟨c, h1, h2, _⟩ <;> exact ⟨c, h1, h2⟩

/-- The claim: resolving a sequence of selections gives the selected columns in order without the rejected
ones, and fails if one of them makes no sense for the header. -/
def C18_statement : Prop :=
  ∀ (transOk : Bytes → Bool) (mk : Bytes → Res (Bytes → Bool)) (names : List Bytes),
    (∀ n ∈ names, IsName n) → ∀ calls, CallsWF calls →
    selectCode transOk mk names calls =
      match selectSpec names (chosenOf calls) (rejectedOf calls) with
      | some v => .ok (v.map fun x => ⟨x.1, x.2, none⟩)
      | none => .err

/-- The claim holds if no column number is larger than the header and no count from the end is `+0`. Missing:
exactly those references (`C18_exceptions`). -/
theorem C18_partial (transOk : Bytes → Bool) (mk : Bytes → Res (Bytes → Bool)) (names : List Bytes)
    (hn : ∀ n ∈ names, IsName n) (calls : List (Bool × List ColItem)) (h : CallsWF calls)
    (hf : ∀ r ∈ allRefs calls, r.Fair names) :
    selectCode transOk mk names calls =
      match selectSpec names (chosenOf calls) (rejectedOf calls) with
      | some v => .ok (v.map fun x => ⟨x.1, x.2, none⟩)
      | none => .err := by
  have hall : ∀ i, (i ∈ chosenOf calls ∨ i ∈ rejectedOf calls) → i.WF ∧ ∀ r ∈ i.sel.refs, r.Fair names := by
    intro i hi
    obtain ⟨c, hc, hm⟩ := mem_chosen hi
    refine ⟨(h c hc).2 i hm, fun r hr => hf r ?_⟩
    simp only [allRefs, List.mem_flatMap]
    exact ⟨c, hc, i, hm, hr⟩
  unfold selectCode
  rw [addCalls_spec transOk calls h]
  simp only [Res.bind_ok, ColumnSet.lookup, ColumnSet.empty, List.nil_append]
  rw [noCols_spec mk names hn _ (fun i hi => hall i (Or.inr hi))]
  unfold selectSpec
  cases hno : denoteAll names (rejectedOf calls) with
  | none => cases denoteAll names (chosenOf calls) <;> rfl
  | some no =>
    simp only [Res.bind_ok]
    by_cases hc : chosenOf calls = []
    · simp [hc, denoteAll, List.filter_map, Function.comp_def]
    · rw [if_neg (by simpa using hc), yesCols_spec mk names hn _ _ (fun i hi => hall i (Or.inl hi))]
      cases denoteAll names (chosenOf calls) with
      | none => rfl
      | some yes => simp [hc]

/-- The two exceptions: any number from 1 on selects that column, whether or not it exists, and `+0` selects the
column after the last. -/
theorem C18_exceptions (names : List Bytes) (ds : Bytes) (h : IsNumber ds) :
    (1 ≤ decVal ds → single names ds = .ok (decVal ds - 1)) ∧
      (decVal ds = 0 → single names (43 :: ds) = .ok names.length) :=
  single_unfair names ds h

/-- A three column header. -/
def abc : List Bytes := [[97], [98], [99]]

theorem abc_names : ∀ n ∈ abc, IsName n := by
  intro n hn
  simp only [abc, List.mem_cons, List.not_mem_nil, or_false] at hn
  rcases hn with rfl | rfl | rfl
  · exact ⟨97, [], rfl, by decide, by simp⟩
  · exact ⟨98, [], rfl, by decide, by simp⟩
  · exact ⟨99, [], rfl, by decide, by simp⟩

def five : ColItem := ⟨false, none, .one (.num [53])⟩

theorem five_wf : CallsWF [(false, [five])] := by
  intro c hc
  simp only [List.mem_singleton] at hc
  subst hc
  refine ⟨by simp, ?_⟩
  simp only [List.mem_singleton, forall_eq]
  refine ⟨by simp [five], ?_⟩
  simp only [five, Sel.refs, List.mem_singleton, forall_eq]
  refine ⟨by simp, ?_, by simp, by decide⟩
  simp only [List.mem_singleton, forall_eq]
  decide

/-- `5` on a three column header selects a column that does not exist. -/
theorem C18_refuted : ¬ C18_statement := by
  intro h
  have := h (fun _ => false) (fun _ => .err) abc abc_names _ five_wf
  revert this
  decide

/-- One more: the translator after `+` is attached to every chosen column and changes nothing else. -/
theorem C18_translator (transOk : Bytes → Bool) (c : ColumnSet) (neg : Bool) (is : List ColItem) (hne : is ≠ [])
    (h : ∀ i ∈ is, i.WF) (l : UInt8) (tr : Bytes) (hl : Letter l) (ht : transOk (l :: tr) = true) :
    c.add transOk (List.intercalate [44] (is.map ColItem.text) ++ 43 :: l :: tr) neg =
      .ok { c with pos := c.pos ++ (is.filter fun i => i.tilde == neg).map (fun i => ⟨i.body, some c.trans.length⟩), neg := c.neg ++ (is.filter fun i => i.tilde != neg).map (fun i => ⟨i.body, some c.trans.length⟩), trans := c.trans ++ [l :: tr] } := by
  rw [add_items_trans transOk c neg is hne h l tr hl, if_pos ht, foldl_addItem]

/-- `c,1-2` and `~b`, on the header `a b c`: columns 2, 0. -/
def exCalls : List (Bool × List ColItem) :=
  [(false, [⟨false, some [120], .one (.name [99])⟩, ⟨false, none, .span (some (.num [49])) (some (.fromEnd [50]))⟩]),
    (true, [⟨false, none, .one (.name [98])⟩])]

theorem exCalls_wf : CallsWF exCalls := by
  have n1 : IsNumber [49] := one_number
  have n2 : IsNumber [50] := by
    refine ⟨by simp, ?_, by simp, by decide⟩
    simp only [List.mem_singleton, forall_eq]; decide
  have hc : IsName [99] := ⟨99, [], rfl, by decide, by simp⟩
  have hx : IsName [120] := ⟨120, [], rfl, by decide, by simp⟩
  have hb : IsName [98] := ⟨98, [], rfl, by decide, by simp⟩
  intro c hm
  simp only [exCalls, List.mem_cons, List.not_mem_nil, or_false] at hm
  rcases hm with rfl | rfl
  · refine ⟨by simp, ?_⟩
    simp only [List.mem_cons, List.not_mem_nil, or_false]
    rintro i (rfl | rfl)
    · refine ⟨by simpa using hx, by simpa [Sel.refs, ColRef.WF] using hc⟩
    · refine ⟨by simp, ?_⟩
      simp only [Sel.refs, Option.toList_some, List.cons_append, List.nil_append, List.mem_cons,
        List.not_mem_nil, or_false]
      rintro r (rfl | rfl)
      · exact n1
      · exact n2
  · refine ⟨by simp, ?_⟩
    simp only [List.mem_cons, List.not_mem_nil, or_false]
    rintro i rfl
    exact ⟨by simp, by simpa [Sel.refs, ColRef.WF] using hb⟩

example : CallsWF exCalls ∧ (∀ n ∈ abc, IsName n) ∧ (∀ r ∈ allRefs exCalls, r.Fair abc) ∧
    selectSpec abc (chosenOf exCalls) (rejectedOf exCalls) = some [(2, [120]), (0, [])] := by
  refine ⟨exCalls_wf, abc_names, ?_, by decide⟩
  simp only [allRefs, exCalls, List.flatMap_cons, List.flatMap_nil, Sel.refs, Option.toList_some, List.append_nil,
    List.cons_append, List.nil_append, List.mem_cons, List.not_mem_nil, or_false]
  rintro r (rfl | rfl | rfl | rfl) <;> simp [ColRef.Fair, abc] <;> decide

/-! ## C19: invalid selections are rejected -/

/-- The claim: if any item makes no sense for the header, the lookup fails. -/
def C19_statement : Prop :=
  ∀ (transOk : Bytes → Bool) (mk : Bytes → Res (Bytes → Bool)) (names : List Bytes),
    (∀ n ∈ names, IsName n) → ∀ calls, CallsWF calls →
    (∃ c ∈ calls, ∃ i ∈ c.2, i.sel.denote names = none) → selectCode transOk mk names calls = .err

theorem C19_refuted : ¬ C19_statement := by
  intro h
  have := h (fun _ => false) (fun _ => .err) abc abc_names _ five_wf ⟨_, List.mem_singleton_self _, five,
    List.mem_singleton_self _, by decide⟩
  revert this
  decide

theorem single_ne_panic (names : List Bytes) (r : ColRef) (hr : r.WF) : single names r.text ≠ .panic := by
  cases r with
  | num ds =>
    obtain ⟨h1, h2, h3, h4⟩ := hr
    have hw := digits_whole _ h1 h2 h4
    cases ds with
    | nil => exact absurd rfl h1
    | cons c cs =>
      have hc := h2 c (List.mem_cons_self ..)
      simp only [ColRef.text, single, (digit_ne hc).1, if_false, (isDigit_iff c).2 hc, true_and]
      split
      · rw [hw, Res.bind_ok]; split <;> simp
      · unfold lookupCol; split <;> simp
  | fromEnd ds =>
    obtain ⟨h1, h2, h3, h4⟩ := hr
    have hw := digits_whole _ h1 h2 h4
    simp only [ColRef.text, single, if_true, hw, Res.bind_ok]
    split <;> simp
  | name s =>
    obtain ⟨c, cs, rfl, hc, _⟩ := hr
    simp only [ColRef.text, single, (letter_ne hc).1, if_false, letter_not_digit hc, Bool.false_eq_true, false_and,
      lookupCol]
    split <;> simp

theorem Res.bind_ne_panic {α β : Type} {r : Res α} {f : α → Res β} (h1 : r ≠ .panic)
    (h2 : ∀ a, f a ≠ .panic) : r.bind f ≠ .panic := by
  cases r with
  | ok a => exact h2 a
  | err => simp
  | panic => exact absurd rfl h1

theorem rangeBody_ne_panic (names : List Bytes) (s : Sel) (hs : ∀ r ∈ s.refs, r.WF) (name : Bytes) :
    rangeBody names s.text name ≠ .panic := by
  have hdef1 : single names [49] ≠ .panic := single_ne_panic names (.num [49]) one_number
  have hdef2 : single names [43, 49] ≠ .panic := single_ne_panic names (.fromEnd [49]) one_number
  cases s with
  | one r =>
    have hr := hs r (by simp [Sel.refs])
    have h45 : (45 : UInt8) ∉ r.text := fun hm => (ref_chars hr _ hm).2.1 rfl
    simp only [rangeBody, Sel.text, sliceSplit_free 45 _ h45, ref_ne_nil hr, if_false]
    exact Res.bind_ne_panic (single_ne_panic names r hr) (by simp)
  | span lo hi =>
    have hlo : ∀ r ∈ lo.toList, r.WF := fun r h => hs r (by simp only [Sel.refs, List.mem_append]; exact Or.inl h)
    have hhi : ∀ r ∈ hi.toList, r.WF := fun r h => hs r (by simp only [Sel.refs, List.mem_append]; exact Or.inr h)
    have ha : (45 : UInt8) ∉ (lo.map ColRef.text).getD [] := fun hm => (optText_chars hlo _ hm).2.1 rfl
    have hb : (45 : UInt8) ∉ (hi.map ColRef.text).getD [] := fun hm => (optText_chars hhi _ hm).2.1 rfl
    have hsplit : sliceSplit 45 (Sel.span lo hi).text =
        [(lo.map ColRef.text).getD [], (hi.map ColRef.text).getD []] := by
      have := sliceSplit_intercalate 45 [(lo.map ColRef.text).getD [], (hi.map ColRef.text).getD []] (by simp)
        (by intro c hc
            simp only [List.mem_cons, List.not_mem_nil, or_false] at hc
            rcases hc with rfl | rfl
            · exact ha
            · exact hb)
      simpa [Sel.text] using this
    simp only [rangeBody, hsplit]
    refine Res.bind_ne_panic ?_ (fun a => Res.bind_ne_panic ?_ (fun b => ?_))
    · cases lo with
      | none => simpa using hdef1
      | some r => simpa [ref_ne_nil (hlo r (by simp))] using single_ne_panic names r (hlo r (by simp))
    · cases hi with
      | none => simpa using hdef2
      | some r => simpa [ref_ne_nil (hhi r (by simp))] using single_ne_panic names r (hhi r (by simp))
    · split <;> simp

theorem range_body (mk : Bytes → Res (Bytes → Bool)) (names : List Bytes) (i : ColItem) (hi : i.WF) :
    range mk names i.body = rangeBody names i.sel.text (i.outName.getD []) := by
  have hch := sel_chars hi.2
  have hsp : nameSplit i.body = (i.outName.getD [], i.sel.text) := by
    unfold ColItem.body nameSplit namePart
    cases ho : i.outName with
    | none =>
      simp only [List.nil_append]
      rw [splitOnce_none 58 _ (fun hm => (hch _ hm).2.1 rfl)]
      rfl
    | some n =>
      have := name_chars (hi.1 n ho)
      simp only [List.append_assoc, List.singleton_append]
      rw [splitOnce_some 58 n _ (fun hm => (this _ hm).2.2.1 rfl)]
      rfl
  unfold range
  rw [if_neg (body_ne_nil hi), hsp]
  cases ht : i.sel.text with
  | nil => exact absurd ht (sel_ne_nil hi.2)
  | cons ch rest =>
    have h40 : ch ≠ 40 := (hch ch (by rw [ht]; simp)).2.2.1
    simp only [h40, if_false]

theorem noCols_ne_panic (mk : Bytes → Res (Bytes → Bool)) (names : List Bytes) (is : List ColItem)
    (h : ∀ i ∈ is, i.WF) : noCols mk names (is.map part) ≠ .panic := by
  induction is with
  | nil => simp [noCols]
  | cons i is ih =>
    have hi := h i (List.mem_cons_self ..)
    simp only [List.map_cons, noCols]
    rw [show (part i).val = i.body from rfl, range_body mk names i hi]
    exact Res.bind_ne_panic (rangeBody_ne_panic names _ hi.2 _) fun a =>
      Res.bind_ne_panic (ih (fun j hj => h j (List.mem_cons_of_mem _ hj))) (by simp)

theorem noCols_err (mk : Bytes → Res (Bytes → Bool)) (names : List Bytes) (is : List ColItem)
    (h : ∀ i ∈ is, i.WF) (j : ColItem) (hj : j ∈ is) (he : range mk names j.body = .err) :
    noCols mk names (is.map part) = .err := by
  induction is with
  | nil => simp at hj
  | cons i is ih =>
    simp only [List.map_cons, noCols]
    rw [show (part i).val = i.body from rfl]
    simp only [List.mem_cons] at hj
    rcases hj with rfl | hj
    · rw [he]; rfl
    · have hi := h i (List.mem_cons_self ..)
      rw [ih (fun j hj => h j (List.mem_cons_of_mem _ hj)) hj]
      have := rangeBody_ne_panic names i.sel hi.2 (i.outName.getD [])
      rw [← range_body mk names i hi] at this
      cases hr : range mk names i.body with
      | ok a => rfl
      | err => rfl
      | panic => exact absurd hr this

theorem yesCols_err (mk : Bytes → Res (Bytes → Bool)) (names : List Bytes) (no : List Nat) (is : List ColItem)
    (h : ∀ i ∈ is, i.WF) (j : ColItem) (hj : j ∈ is) (he : range mk names j.body = .err) :
    yesCols mk names no (is.map part) = .err := by
  induction is with
  | nil => simp at hj
  | cons i is ih =>
    simp only [List.map_cons, yesCols]
    rw [show (part i).val = i.body from rfl]
    simp only [List.mem_cons] at hj
    rcases hj with rfl | hj
    · rw [he]; rfl
    · have hi := h i (List.mem_cons_self ..)
      rw [ih (fun j hj => h j (List.mem_cons_of_mem _ hj)) hj]
      have := rangeBody_ne_panic names i.sel hi.2 (i.outName.getD [])
      rw [← range_body mk names i hi] at this
      cases hr : range mk names i.body with
      | ok a => rfl
      | err => rfl
      | panic => exact absurd hr this

theorem mem_chosen_of {calls : List (Bool × List ColItem)} {i : ColItem} {c : Bool × List ColItem}
    (hc : c ∈ calls) (hi : i ∈ c.2) : i ∈ chosenOf calls ∨ i ∈ rejectedOf calls := by
  by_cases h : (i.tilde == c.1) = true
  · left
    simp only [chosenOf, List.mem_flatMap, List.mem_filter]
    exact ⟨c, hc, hi, h⟩
  · right
    simp only [rejectedOf, List.mem_flatMap, List.mem_filter]
    exact ⟨c, hc, hi, by simpa [bne] using h⟩

/-- The claim holds for every failing item without a too large number or `+0`, whatever the other items:
inverted ranges, unknown names, column 0, counts from the end that reach before the first column. Missing: items
that are wrong only because of a too large number or `+0`. -/
theorem C19_partial (transOk : Bytes → Bool) (mk : Bytes → Res (Bytes → Bool)) (names : List Bytes)
    (hn : ∀ n ∈ names, IsName n) (calls : List (Bool × List ColItem)) (h : CallsWF calls)
    (hbad : ∃ c ∈ calls, ∃ i ∈ c.2, i.sel.denote names = none ∧ ∀ r ∈ i.sel.refs, r.Fair names) :
    selectCode transOk mk names calls = .err := by
  obtain ⟨c, hc, i, hi, hd, hf⟩ := hbad
  have hw : ∀ j, (j ∈ chosenOf calls ∨ j ∈ rejectedOf calls) → j.WF := by
    intro j hj
    obtain ⟨c, hc, hm⟩ := mem_chosen hj
    exact (h c hc).2 j hm
  have he : range mk names i.body = .err := by
    rw [range_spec mk names hn i ((h c hc).2 i hi) hf, hd]
  unfold selectCode
  rw [addCalls_spec transOk calls h]
  simp only [Res.bind_ok, ColumnSet.lookup, ColumnSet.empty, List.nil_append]
  rcases mem_chosen_of hc hi with hm | hm
  · have hne := noCols_ne_panic mk names (rejectedOf calls) (fun j hj => hw j (Or.inr hj))
    cases hno : noCols mk names ((rejectedOf calls).map part) with
    | panic => exact absurd hno hne
    | err => rfl
    | ok no =>
      rw [Res.bind_ok, if_neg (by simpa using List.ne_nil_of_mem hm)]
      exact yesCols_err mk names no _ (fun j hj => hw j (Or.inl hj)) i hm he
  · rw [noCols_err mk names _ (fun j hj => hw j (Or.inr hj)) i hm he]
    rfl

/-- `b-a` on the header `a b c`. -/
example : ∃ i : ColItem, i.WF ∧ i.sel.denote abc = none ∧ ∀ r ∈ i.sel.refs, r.Fair abc :=
  ⟨⟨false, none, .span (some (.name [98])) (some (.name [97]))⟩,
    ⟨by simp, by
      simp only [Sel.refs, Option.toList_some, List.cons_append, List.nil_append, List.mem_cons,
        List.not_mem_nil, or_false]
      rintro r (rfl | rfl)
      · exact ⟨98, [], rfl, by decide, by simp⟩
      · exact ⟨97, [], rfl, by decide, by simp⟩⟩, by decide, by
      simp only [Sel.refs, Option.toList_some, List.cons_append, List.nil_append, List.mem_cons,
        List.not_mem_nil, or_false]
      rintro r (rfl | rfl) <;> simp [ColRef.Fair]⟩

end Cdx
