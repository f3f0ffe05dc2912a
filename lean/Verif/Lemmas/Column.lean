import Verif.Model.Column
import Verif.Spec.Column
import Verif.Props.Parts

/-!
Lemmas on column specs.
-/

namespace Cdx

theorem isDigit_iff (c : UInt8) : isDigit c = true ↔ Digit c := by
  simp [isDigit, Digit]

theorem isAlpha_iff (c : UInt8) : isAlpha c = true ↔ Letter c := by
  simp [isAlpha, Letter]

theorem isNameChar_iff (c : UInt8) : isNameChar c = true ↔ Letter c ∨ Digit c ∨ c = 95 := by
  simp [isNameChar, isAlpha_iff, isDigit_iff, or_assoc]

theorem isValid_iff (s : Bytes) : (s ≠ [] ∧ isValidColumnName s = true) ↔ IsName s := by
  cases s with
  | nil => simp [IsName]
  | cons c cs =>
    simp only [isValidColumnName, getColName, IsName, List.cons.injEq, ne_eq, reduceCtorEq, not_false_eq_true,
      true_and]
    have key : (List.takeWhile isNameChar cs).length = cs.length ↔ ∀ x ∈ cs, isNameChar x = true := by
      constructor
      · intro h
        have := (List.takeWhile_sublist (l := cs) isNameChar).eq_of_length h
        intro x hx
        rw [← this] at hx
        have := List.all_takeWhile (p := isNameChar) (l := cs)
        rw [List.all_eq_true] at this
        exact this x hx
      · intro h
        have : ∀ l : Bytes, (∀ x ∈ l, isNameChar x = true) → List.takeWhile isNameChar l = l := by
          intro l
          induction l with
          | nil => simp
          | cons a l ih => intro h; simp [List.takeWhile_cons, h a, ih (fun x hx => h x (List.mem_cons_of_mem _ hx))]
        rw [this cs h]
    by_cases hc : isAlpha c = true
    · simp only [hc, Bool.true_eq_false, if_false, List.length_cons, decide_eq_true_eq]
      constructor
      · intro h
        refine ⟨c, cs, ⟨rfl, rfl⟩, (isAlpha_iff c).1 hc, ?_⟩
        intro x hx
        rw [← isNameChar_iff]
        exact key.1 (by omega) x hx
      · rintro ⟨c', cs', ⟨rfl, rfl⟩, _, h⟩
        have := key.2 (fun x hx => (isNameChar_iff x).2 (h x hx))
        omega
    · simp only [Bool.not_eq_true] at hc
      simp only [hc, if_true]
      constructor
      · intro h; simp at h
      · rintro ⟨c', cs', ⟨rfl, rfl⟩, h, _⟩
        rw [← isAlpha_iff, hc] at h; simp at h

theorem digits_whole (b : Bytes) (h1 : b ≠ []) (h2 : ∀ c ∈ b, Digit c) (h3 : decVal b < 2 ^ 64) :
    toUsizeWhole b = .ok (decVal b) := by
  rw [C39_whole]
  right
  refine ⟨[], b, [], Or.inl rfl, h1, fun c hc => (isDigit_iff c).2 (h2 c hc), by simp, Or.inl ⟨rfl, rfl⟩, ?_⟩
  have e : usizeMax = 2 ^ 64 - 1 := rfl
  omega

/-- What holds for the 256 bytes holds for every byte. -/
theorem byte_forall {P : UInt8 → Prop} (h : ∀ n : Fin 256, P (UInt8.ofNat n.val)) (c : UInt8) : P c := by
  have := h ⟨c.toNat, c.toNat_lt⟩
  simpa using this

theorem letter_not_digit {c : UInt8} (h : Letter c) : isDigit c = false := by
  have : ∀ c : UInt8, Letter c → isDigit c = false := byte_forall (by decide +kernel)
  exact this c h

theorem letter_ne {c : UInt8} (h : Letter c) : c ≠ 43 ∧ c ≠ 44 ∧ c ≠ 45 ∧ c ≠ 58 ∧ c ≠ 40 ∧ c ≠ 126 := by
  have : ∀ c : UInt8, Letter c → c ≠ 43 ∧ c ≠ 44 ∧ c ≠ 45 ∧ c ≠ 58 ∧ c ≠ 40 ∧ c ≠ 126 :=
    byte_forall (by decide +kernel)
  exact this c h

theorem digit_ne {c : UInt8} (h : Digit c) :
    c ≠ 43 ∧ c ≠ 44 ∧ c ≠ 45 ∧ c ≠ 58 ∧ c ≠ 40 ∧ c ≠ 126 ∧ isAlpha c = false := by
  have : ∀ c : UInt8, Digit c →
      c ≠ 43 ∧ c ≠ 44 ∧ c ≠ 45 ∧ c ≠ 58 ∧ c ≠ 40 ∧ c ≠ 126 ∧ isAlpha c = false :=
    byte_forall (by decide +kernel)
  exact this c h

/-- Numbers beyond the header and `+0` are the references the code resolves differently. -/
def ColRef.Fair (names : List Bytes) : ColRef → Prop
  | .num ds => decVal ds ≤ names.length
  | .fromEnd ds => 1 ≤ decVal ds
  | .name _ => True

theorem isName_ne_digits {names : List Bytes} (hn : ∀ n ∈ names, IsName n) {c : UInt8} (hc : Digit c) (cs : Bytes) :
    names.findIdx? (· == c :: cs) = none := by
  rw [List.findIdx?_eq_none_iff]
  intro n hm
  obtain ⟨a, as, rfl, ha, _⟩ := hn n hm
  have := letter_not_digit ha
  have h2 := (isDigit_iff c).2 hc
  simp only [beq_eq_false_iff_ne, ne_eq, List.cons.injEq, not_and]
  rintro rfl
  rw [this] at h2; simp at h2

theorem single_spec (names : List Bytes) (hn : ∀ n ∈ names, IsName n) (r : ColRef) (hr : r.WF)
    (hf : r.Fair names) :
    single names r.text = match r.resolve names with | some n => .ok n | none => .err := by
  cases r with
  | num ds =>
    obtain ⟨h1, h2, h3, h4⟩ := hr
    simp only [ColRef.Fair] at hf
    cases ds with
    | nil => exact absurd rfl h1
    | cons c cs =>
      have hc := h2 c (List.mem_cons_self ..)
      have hw := digits_whole _ h1 h2 h4
      simp only [ColRef.text, single, (digit_ne hc).1, if_false, (isDigit_iff c).2 hc, true_and]
      by_cases h0 : c = 48
      · have := h3 (by simp [h0])
        rw [this]
        have hv : decVal [48] = 0 := by decide
        simp only [List.cons.injEq] at this
        simp only [h0, ne_eq, not_true_eq_false, if_false, lookupCol, ColRef.resolve, hv]
        rw [isName_ne_digits hn (by decide : Digit 48) []]
        simp
      · simp only [ne_eq, h0, not_false_eq_true, if_true, hw, Res.bind_ok, ColRef.resolve]
        by_cases h1 : 1 ≤ decVal (c :: cs)
        · rw [if_neg (by omega), if_pos ⟨h1, hf⟩]
        · rw [if_pos (by omega), if_neg (by omega)]
  | fromEnd ds =>
    obtain ⟨h1, h2, h3, h4⟩ := hr
    simp only [ColRef.Fair] at hf
    have hw := digits_whole _ h1 h2 h4
    simp only [ColRef.text, single, if_true, hw, Res.bind_ok, ColRef.resolve]
    by_cases h : decVal ds > names.length
    · rw [if_pos h, if_neg (by omega)]
    · rw [if_neg h, if_pos (by omega)]
  | name s =>
    obtain ⟨c, cs, rfl, hc, _⟩ := hr
    simp only [ColRef.text, single, (letter_ne hc).1, if_false, letter_not_digit hc, Bool.false_eq_true, false_and,
      lookupCol, ColRef.resolve]
    rfl

/-- The references of the code, whatever the numbers. -/
theorem single_unfair (names : List Bytes) (ds : Bytes) (h : IsNumber ds) :
    (1 ≤ decVal ds → single names (ColRef.num ds).text = .ok (decVal ds - 1)) ∧
      (decVal ds = 0 → single names (ColRef.fromEnd ds).text = .ok names.length) := by
  obtain ⟨h1, h2, h3, h4⟩ := h
  have hw := digits_whole _ h1 h2 h4
  constructor
  · intro hv
    cases ds with
    | nil => exact absurd rfl h1
    | cons c cs =>
      have hc := h2 c (List.mem_cons_self ..)
      have h0 : c ≠ 48 := by
        rintro rfl
        rw [h3 rfl] at hv
        revert hv; decide
      simp only [ColRef.text, single, (digit_ne hc).1, if_false, (isDigit_iff c).2 hc, true_and, ne_eq, h0,
        not_false_eq_true, if_true, hw, Res.bind_ok]
      rw [if_neg (by omega)]
  · intro hv
    simp [ColRef.text, single, hw, hv]

/-- Characters of a reference. -/
theorem ref_chars {r : ColRef} (hr : r.WF) : ∀ c ∈ r.text, c ≠ 44 ∧ c ≠ 45 ∧ c ≠ 58 ∧ c ≠ 40 ∧ c ≠ 126 := by
  have num : ∀ ds, IsNumber ds → ∀ c ∈ ds, c ≠ 44 ∧ c ≠ 45 ∧ c ≠ 58 ∧ c ≠ 40 ∧ c ≠ 126 := by
    intro ds h c hc
    have := digit_ne (h.2.1 c hc)
    exact ⟨this.2.1, this.2.2.1, this.2.2.2.1, this.2.2.2.2.1, this.2.2.2.2.2.1⟩
  cases r with
  | num ds => exact num ds hr
  | fromEnd ds =>
    intro c hc
    simp only [ColRef.text, List.mem_cons] at hc
    rcases hc with rfl | hc
    · decide
    · exact num ds hr c hc
  | name s =>
    obtain ⟨a, as, rfl, ha, has⟩ := hr
    intro c hc
    have : Letter c ∨ Digit c ∨ c = 95 := by
      simp only [ColRef.text, List.mem_cons] at hc
      rcases hc with rfl | hc
      · exact Or.inl ha
      · exact has c hc
    rcases this with h | h | rfl
    · have := letter_ne h
      exact ⟨this.2.1, this.2.2.1, this.2.2.2.1, this.2.2.2.2.1, this.2.2.2.2.2⟩
    · have := digit_ne h
      exact ⟨this.2.1, this.2.2.1, this.2.2.2.1, this.2.2.2.2.1, this.2.2.2.2.2.1⟩
    · decide

theorem name_chars {s : Bytes} (hs : IsName s) : ∀ c ∈ s, c ≠ 44 ∧ c ≠ 45 ∧ c ≠ 58 ∧ c ≠ 40 ∧ c ≠ 126 :=
  ref_chars (r := .name s) hs

theorem ref_ne_nil {r : ColRef} (hr : r.WF) : r.text ≠ [] := by
  cases r with
  | num ds => exact hr.1
  | fromEnd ds => simp [ColRef.text]
  | name s => obtain ⟨a, as, rfl, _⟩ := hr; simp [ColRef.text]

theorem optText_chars {o : Option ColRef} (h : ∀ r ∈ o.toList, r.WF) :
    ∀ c ∈ (o.map ColRef.text).getD [], c ≠ 44 ∧ c ≠ 45 ∧ c ≠ 58 ∧ c ≠ 40 ∧ c ≠ 126 := by
  cases o with
  | none => simp
  | some r => exact ref_chars (h r (by simp))

theorem one_number : IsNumber [49] := by
  refine ⟨by simp, ?_, by simp, by decide⟩
  simp only [List.mem_singleton, forall_eq]
  decide

theorem rangeBody_spec (names : List Bytes) (hn : ∀ n ∈ names, IsName n) (s : Sel) (hs : ∀ r ∈ s.refs, r.WF)
    (hf : ∀ r ∈ s.refs, r.Fair names) (name : Bytes) :
    rangeBody names s.text name =
      match s.denote names with | some v => .ok (toOutcols v name) | none => .err := by
  have hv1 : decVal [49] = 1 := by decide
  cases s with
  | one r =>
    have hr := hs r (by simp [Sel.refs])
    have h45 : (45 : UInt8) ∉ r.text := fun hm => (ref_chars hr _ hm).2.1 rfl
    simp only [rangeBody, Sel.text, sliceSplit_free 45 _ h45, ref_ne_nil hr, if_false, Sel.denote]
    rw [single_spec names hn r hr (hf r (by simp [Sel.refs]))]
    cases r.resolve names with
    | none => rfl
    | some n => simp
  | span lo hi =>
    have hlo : ∀ r ∈ lo.toList, r.WF := fun r h => hs r (by simp only [Sel.refs, List.mem_append]; exact Or.inl h)
    have hhi : ∀ r ∈ hi.toList, r.WF := fun r h => hs r (by simp only [Sel.refs, List.mem_append]; exact Or.inr h)
    have flo : ∀ r ∈ lo.toList, r.Fair names :=
      fun r h => hf r (by simp only [Sel.refs, List.mem_append]; exact Or.inl h)
    have fhi : ∀ r ∈ hi.toList, r.Fair names :=
      fun r h => hf r (by simp only [Sel.refs, List.mem_append]; exact Or.inr h)
    have ha : (45 : UInt8) ∉ (lo.map ColRef.text).getD [] := fun hm => (optText_chars hlo _ hm).2.1 rfl
    have hb : (45 : UInt8) ∉ (hi.map ColRef.text).getD [] := fun hm => (optText_chars hhi _ hm).2.1 rfl
    have hsplit : sliceSplit 45 (Sel.span lo hi).text =
        [(lo.map ColRef.text).getD [], (hi.map ColRef.text).getD []] := by
      have := sliceSplit_intercalate 45 [(lo.map ColRef.text).getD [], (hi.map ColRef.text).getD []] (by simp)
        (by intro c hc
            simp only [List.mem_cons, List.not_mem_nil, or_false] at hc
            rcases hc with rfl | rfl
            · exact ha
            · exact hb)
      simpa [Sel.text] using this
    simp only [rangeBody, hsplit, Sel.denote]
    have e1 : single names (if (lo.map ColRef.text).getD [] = [] then [49] else (lo.map ColRef.text).getD []) =
        match lo with
        | none => .ok 0
        | some r => match r.resolve names with | some n => .ok n | none => .err := by
      cases lo with
      | none => simpa [hv1, ColRef.text] using (single_unfair names [49] one_number).1
      | some r =>
        have hr := hlo r (by simp)
        simp only [Option.map_some, Option.getD_some, ref_ne_nil hr, if_false]
        exact single_spec names hn r hr (flo r (by simp))
    have e2 : single names (if (hi.map ColRef.text).getD [] = [] then [43, 49] else (hi.map ColRef.text).getD []) =
        match hiEnd names hi with | some n => .ok n | none => .err := by
      cases hi with
      | none =>
        have := single_spec names hn (.fromEnd [49]) one_number (by simp [ColRef.Fair, hv1])
        simp only [ColRef.text, ColRef.resolve, hv1] at this
        simp only [Option.map_none, Option.getD_none, if_true, this, hiEnd]
        cases names with
        | nil => simp
        | cons n ns => simp
      | some r =>
        have hr := hhi r (by simp)
        simp only [Option.map_some, Option.getD_some, ref_ne_nil hr, if_false]
        exact single_spec names hn r hr (fhi r (by simp))
    rw [e1, e2]
    -- an open lower end on an empty header: the upper end fails too
    have emptyhi : names = [] → hiEnd names hi = none := by
      rintro rfl
      cases hi with
      | none => simp [hiEnd]
      | some r =>
        cases r with
        | num ds => simp [hiEnd, ColRef.resolve]; omega
        | fromEnd ds => simp [hiEnd, ColRef.resolve]; omega
        | name s => simp [hiEnd, ColRef.resolve]
    revert emptyhi
    generalize hiEnd names hi = ohi
    intro emptyhi
    cases lo with
    | none =>
      simp only [Res.bind_ok, loEnd]
      by_cases hne : names = []
      · simp [emptyhi hne]
      · simp only [hne, if_false]
        cases ohi with
        | none => rfl
        | some b => simp
    | some r =>
      simp only [loEnd]
      cases r.resolve names with
      | none => rfl
      | some a =>
        simp only [Res.bind_ok]
        cases ohi with
        | none => rfl
        | some b =>
          simp only [Res.bind_ok]
          by_cases hab : a ≤ b
          · rw [if_neg (by omega), if_pos hab]
          · rw [if_pos (by omega), if_neg hab]

theorem sel_ne_nil {s : Sel} (hs : ∀ r ∈ s.refs, r.WF) : s.text ≠ [] := by
  cases s with
  | one r => exact ref_ne_nil (hs r (by simp [Sel.refs]))
  | span lo hi => simp [Sel.text]

theorem sel_chars {s : Sel} (hs : ∀ r ∈ s.refs, r.WF) : ∀ c ∈ s.text, c ≠ 44 ∧ c ≠ 58 ∧ c ≠ 40 ∧ c ≠ 126 := by
  cases s with
  | one r =>
    intro c hc
    have := ref_chars (hs r (by simp [Sel.refs])) c hc
    exact ⟨this.1, this.2.2.1, this.2.2.2.1, this.2.2.2.2⟩
  | span lo hi =>
    have hlo : ∀ r ∈ lo.toList, r.WF := fun r h => hs r (by simp only [Sel.refs, List.mem_append]; exact Or.inl h)
    have hhi : ∀ r ∈ hi.toList, r.WF := fun r h => hs r (by simp only [Sel.refs, List.mem_append]; exact Or.inr h)
    intro c hc
    simp only [Sel.text, List.mem_append, List.mem_cons] at hc
    rcases hc with hc | rfl | hc
    · have := optText_chars hlo c hc
      exact ⟨this.1, this.2.2.1, this.2.2.2.1, this.2.2.2.2⟩
    · decide
    · have := optText_chars hhi c hc
      exact ⟨this.1, this.2.2.1, this.2.2.2.1, this.2.2.2.2⟩

theorem range_spec (mk : Bytes → Res (Bytes → Bool)) (names : List Bytes) (hn : ∀ n ∈ names, IsName n)
    (i : ColItem) (hi : i.WF) (hf : ∀ r ∈ i.sel.refs, r.Fair names) :
    range mk names i.body =
      match i.sel.denote names with | some v => .ok (toOutcols v (i.outName.getD [])) | none => .err := by
  have hne : i.body ≠ [] := by simp [ColItem.body, sel_ne_nil hi.2]
  have hch := sel_chars hi.2
  have hsp : nameSplit i.body = (i.outName.getD [], i.sel.text) := by
    unfold ColItem.body nameSplit namePart
    cases ho : i.outName with
    | none =>
      simp only [List.nil_append]
      rw [splitOnce_none 58 _ (fun hm => (hch _ hm).2.1 rfl)]
      rfl
    | some n =>
      have := name_chars (hi.1 n ho)
      simp only [List.append_assoc, List.singleton_append]
      rw [splitOnce_some 58 n _ (fun hm => (this _ hm).2.2.1 rfl)]
      rfl
  unfold range
  rw [if_neg hne, hsp]
  have hb := rangeBody_spec names hn i.sel hi.2 hf (i.outName.getD [])
  rw [← hb]
  cases ht : i.sel.text with
  | nil => exact absurd ht (sel_ne_nil hi.2)
  | cons ch rest =>
    have h40 : ch ≠ 40 := (hch ch (by rw [ht]; simp)).2.2.1
    simp only [h40, if_false]

/-! ## No translator in the text -/

/-- State of the search for `+` followed by a letter: `none` if found, else whether the last was an open `+`. -/
def ftRun : Bool → Bytes → Option Bool
  | lp, [] => some lp
  | true, x :: xs => if isAlpha x then none else ftRun false xs
  | false, x :: xs => ftRun (x == 43) xs

theorem ftRun_append (lp : Bool) (a b : Bytes) : ftRun lp (a ++ b) = (ftRun lp a).bind fun l => ftRun l b := by
  induction a generalizing lp with
  | nil => cases lp <;> rfl
  | cons x xs ih =>
    cases lp with
    | true =>
      simp only [List.cons_append, ftRun]
      by_cases h : isAlpha x = true
      · simp [h]
      · simp [h, ih]
    | false => simp only [List.cons_append, ftRun, ih]

theorem findTransLoop_none (seen : Bytes) (lp : Bool) (a : Bytes) (h : ftRun lp a ≠ none) :
    findTransLoop seen lp a = none := by
  induction a generalizing seen lp with
  | nil => cases lp <;> rfl
  | cons x xs ih =>
    cases lp with
    | true =>
      simp only [ftRun] at h
      simp only [findTransLoop]
      by_cases hx : isAlpha x = true
      · simp [hx] at h
      · simp only [hx] at h ⊢
        exact ih _ _ h
    | false =>
      simp only [ftRun] at h
      simp only [findTransLoop]
      exact ih _ _ h

theorem findTransLoop_some (seen a : Bytes) (l : UInt8) (b : Bytes) (lp : Bool) (h : ftRun lp a = some false)
    (hl : isAlpha l = true) :
    findTransLoop seen lp (a ++ 43 :: l :: b) = some (seen.reverse ++ a, l :: b) := by
  induction a generalizing seen lp with
  | nil =>
    simp only [ftRun, Option.some.injEq] at h
    subst h
    simp [findTransLoop, hl]
  | cons x xs ih =>
    cases lp with
    | true =>
      simp only [ftRun] at h
      by_cases hx : isAlpha x = true
      · simp [hx] at h
      · simp only [hx] at h
        simp only [List.cons_append, findTransLoop, hx]
        have := ih (x :: seen) _ h
        simp only [Bool.false_eq_true, if_false]
        rw [this]; simp
    | false =>
      simp only [ftRun] at h
      simp only [List.cons_append, findTransLoop]
      rw [ih _ _ h]; simp

theorem ftRun_plain (a : Bytes) (h : ∀ c ∈ a, c ≠ 43) : ftRun false a = some false := by
  induction a with
  | nil => rfl
  | cons x xs ih =>
    have hx := h x (List.mem_cons_self ..)
    simp only [ftRun, beq_eq_false_iff_ne.2 hx]
    exact ih (fun c hc => h c (List.mem_cons_of_mem _ hc))

theorem ftRun_name {s : Bytes} (hs : IsName s) : ftRun false s = some false := by
  apply ftRun_plain
  obtain ⟨c, cs, rfl, hc, h⟩ := hs
  intro x hx
  simp only [List.mem_cons] at hx
  rcases hx with rfl | hx
  · exact (letter_ne hc).1
  · rcases h x hx with h | h | rfl
    · exact (letter_ne h).1
    · exact (digit_ne h).1
    · decide

theorem ftRun_ref {r : ColRef} (hr : r.WF) : ftRun false r.text = some false := by
  cases r with
  | num ds => exact ftRun_plain _ (fun c hc => (digit_ne (hr.2.1 c hc)).1)
  | fromEnd ds =>
    obtain ⟨h1, h2, _⟩ := hr
    cases ds with
    | nil => exact absurd rfl h1
    | cons d ds =>
      have hd := (digit_ne (h2 d (List.mem_cons_self ..))).2.2.2.2.2.2
      simp only [ColRef.text, ftRun, beq_self_eq_true, hd, Bool.false_eq_true, if_false]
      exact ftRun_plain _ (fun c hc => (digit_ne (h2 c (List.mem_cons_of_mem _ hc))).1)
  | name s => exact ftRun_name hr

theorem ftRun_opt {o : Option ColRef} (h : ∀ r ∈ o.toList, r.WF) :
    ftRun false ((o.map ColRef.text).getD []) = some false := by
  cases o with
  | none => rfl
  | some r => exact ftRun_ref (h r (by simp))

theorem ftRun_sel {s : Sel} (hs : ∀ r ∈ s.refs, r.WF) : ftRun false s.text = some false := by
  cases s with
  | one r => exact ftRun_ref (hs r (by simp [Sel.refs]))
  | span lo hi =>
    have hlo : ∀ r ∈ lo.toList, r.WF := fun r h => hs r (by simp only [Sel.refs, List.mem_append]; exact Or.inl h)
    have hhi : ∀ r ∈ hi.toList, r.WF := fun r h => hs r (by simp only [Sel.refs, List.mem_append]; exact Or.inr h)
    simp only [Sel.text, ftRun_append, ftRun_opt hlo, Option.bind_some]
    exact ftRun_opt hhi

theorem item_text (i : ColItem) : i.text = (if i.tilde then [126] else []) ++ i.body := by
  rfl

theorem ftRun_item {i : ColItem} (hi : i.WF) : ftRun false i.text = some false := by
  have h1 : ftRun false (if i.tilde then [126] else []) = some false := by
    cases i.tilde <;> rfl
  have h2 : ftRun false (namePart i.outName) = some false := by
    cases ho : i.outName with
    | none => rfl
    | some n => simp only [namePart, ftRun_append, ftRun_name (hi.1 n ho), Option.bind_some]; rfl
  rw [item_text, ColItem.body, ftRun_append, h1, Option.bind_some, ftRun_append, h2, Option.bind_some,
    ftRun_sel hi.2]

theorem ftRun_items (is : List ColItem) (h : ∀ i ∈ is, i.WF) :
    ftRun false (List.intercalate [44] (is.map ColItem.text)) = some false := by
  induction is with
  | nil => rfl
  | cons i is ih =>
    have hi := ftRun_item (h i (List.mem_cons_self ..))
    by_cases hne : is = []
    · subst hne; simpa using hi
    · rw [List.map_cons, intercalate_cons_ne _ _ (by simpa using hne), ftRun_append, ftRun_append, hi]
      simp only [Option.bind_some]
      exact ih (fun j hj => h j (List.mem_cons_of_mem _ hj))

/-! ## Splitting the text into items -/

theorem body_ne_nil {i : ColItem} (hi : i.WF) : i.body ≠ [] := by
  simp [ColItem.body, sel_ne_nil hi.2]

theorem body_chars {i : ColItem} (hi : i.WF) : ∀ c ∈ i.body, c ≠ 44 ∧ c ≠ 40 ∧ c ≠ 126 := by
  intro c hc
  simp only [ColItem.body, List.mem_append] at hc
  rcases hc with hc | hc
  · cases ho : i.outName with
    | none => simp [ho, namePart] at hc
    | some n =>
      simp only [ho, namePart, List.mem_append, List.mem_singleton] at hc
      rcases hc with hc | rfl
      · have := name_chars (hi.1 n ho) c hc
        exact ⟨this.1, this.2.2.2.1, this.2.2.2.2⟩
      · decide
  · have := sel_chars hi.2 c hc
    exact ⟨this.1, this.2.2.1, this.2.2.2⟩

/-- What an item adds. -/
def addItem (negate : Bool) (trans : Option Nat) (c : ColumnSet) (i : ColItem) : ColumnSet :=
  if i.tilde == negate then { c with pos := c.pos ++ [⟨i.body, trans⟩] }
  else { c with neg := c.neg ++ [⟨i.body, trans⟩] }

theorem addOne_item (c : ColumnSet) (i : ColItem) (hi : i.WF) (negate : Bool) (trans : Option Nat) :
    c.addOne i.text negate trans = addItem negate trans c i := by
  rw [item_text]
  cases ht : i.tilde with
  | true => cases negate <;> simp [ColumnSet.addOne, addItem, ht]
  | false =>
    cases hb : i.body with
    | nil => exact absurd hb (body_ne_nil hi)
    | cons ch rest =>
      have h126 : ch ≠ 126 := (body_chars hi ch (by rw [hb]; simp)).2.2
      simp only [Bool.false_eq_true, if_false, List.nil_append]
      unfold ColumnSet.addOne
      split
      · rename_i heq
        simp only [List.cons.injEq] at heq
        exact absurd heq.1 h126
      · cases negate <;> simp [addItem, ht, hb]

theorem item_chars {i : ColItem} (hi : i.WF) : ∀ c ∈ i.text, c ≠ 44 ∧ c ≠ 40 := by
  intro c hc
  rw [item_text, List.mem_append] at hc
  rcases hc with hc | hc
  · cases ht : i.tilde <;> simp [ht] at hc
    subst hc; decide
  · have := body_chars hi c hc
    exact ⟨this.1, this.2.1⟩

theorem item_ne_nil {i : ColItem} (hi : i.WF) : i.text ≠ [] := by
  rw [item_text]; simp [body_ne_nil hi]

theorem addLoop_items (negate : Bool) (trans : Option Nat) (is : List ColItem) (hne : is ≠ [])
    (h : ∀ i ∈ is, i.WF) (fuel : Nat) (hf : is.length ≤ fuel) (c : ColumnSet) :
    ColumnSet.addLoop negate trans fuel c (List.intercalate [44] (is.map ColItem.text)) =
      .ok (is.foldl (addItem negate trans) c) := by
  induction is generalizing fuel c with
  | nil => exact absurd rfl hne
  | cons i is ih =>
    have hi := h i (List.mem_cons_self ..)
    have hch := item_chars hi
    cases fuel with
    | zero => simp at hf
    | succ fuel =>
      have h44 : (44 : UInt8) ∉ i.text := fun hm => (hch _ hm).1 rfl
      by_cases hne : is = []
      · subst hne
        have hs := splitOnce_none 44 _ h44
        have := addOne_item c i hi negate trans
        simp only [List.map_cons, List.map_nil, List.intercalate_singleton, List.foldl_cons, List.foldl_nil]
        cases ht : i.text with
        | nil => exact absurd ht (item_ne_nil hi)
        | cons ch cs =>
          have h40 : ch ≠ 40 := (hch ch (by rw [ht]; simp)).2
          rw [ht] at hs this
          simp only [ColumnSet.addLoop, h40, if_false, hs, this]
      · rw [List.map_cons, intercalate_cons_ne _ _ (by simpa using hne), List.append_assoc]
        rw [List.singleton_append]
        have hs := splitOnce_some 44 _ (List.intercalate [44] (is.map ColItem.text)) h44
        have := addOne_item c i hi negate trans
        rw [List.foldl_cons, ← ih hne (fun j hj => h j (List.mem_cons_of_mem _ hj)) fuel (by simpa using hf) _]
        cases ht : i.text with
        | nil => exact absurd ht (item_ne_nil hi)
        | cons ch cs =>
          have h40 : ch ≠ 40 := (hch ch (by rw [ht]; simp)).2
          rw [ht, List.cons_append] at hs
          rw [ht] at this
          simp only [List.cons_append, ColumnSet.addLoop, h40, if_false, hs, this]

theorem items_length (is : List ColItem) (h : ∀ i ∈ is, i.WF) :
    is.length ≤ (List.intercalate [44] (is.map ColItem.text)).length := by
  induction is with
  | nil => simp
  | cons i is ih =>
    have hi := List.length_pos_iff.2 (item_ne_nil (h i (List.mem_cons_self ..)))
    by_cases hne : is = []
    · subst hne
      simp only [List.map_cons, List.map_nil, List.intercalate_singleton, List.length_cons, List.length_nil]
      omega
    · rw [List.map_cons, intercalate_cons_ne _ _ (by simpa using hne)]
      have := ih (fun j hj => h j (List.mem_cons_of_mem _ hj))
      simp only [List.length_append, List.length_cons, List.length_nil]
      omega

theorem add_items (transOk : Bytes → Bool) (c : ColumnSet) (negate : Bool) (is : List ColItem) (hne : is ≠ [])
    (h : ∀ i ∈ is, i.WF) :
    c.add transOk (List.intercalate [44] (is.map ColItem.text)) negate =
      .ok (is.foldl (addItem negate none) c) := by
  unfold ColumnSet.add findTrans
  rw [findTransLoop_none _ _ _ (by rw [ftRun_items is h]; simp)]
  have := items_length is h
  exact addLoop_items negate none is hne h _ (by omega) c

theorem add_items_trans (transOk : Bytes → Bool) (c : ColumnSet) (negate : Bool) (is : List ColItem) (hne : is ≠ [])
    (h : ∀ i ∈ is, i.WF) (l : UInt8) (tr : Bytes) (hl : Letter l) :
    c.add transOk (List.intercalate [44] (is.map ColItem.text) ++ 43 :: l :: tr) negate =
      if transOk (l :: tr) then
        .ok (is.foldl (addItem negate (some c.trans.length)) { c with trans := c.trans ++ [l :: tr] })
      else .err := by
  unfold ColumnSet.add findTrans
  rw [findTransLoop_some [] _ l tr false (ftRun_items is h) ((isAlpha_iff l).2 hl)]
  have := items_length is h
  simp only [List.reverse_nil, List.nil_append]
  by_cases ht : transOk (l :: tr) = true
  · rw [if_pos ht, if_pos ht]
    exact addLoop_items negate _ is hne h _ (by omega) _
  · rw [if_neg ht, if_neg ht]

theorem foldl_addItem (negate : Bool) (trans : Option Nat) (is : List ColItem) (c : ColumnSet) :
    is.foldl (addItem negate trans) c =
      { c with pos := c.pos ++ (is.filter fun i => i.tilde == negate).map (fun i => ⟨i.body, trans⟩), neg := c.neg ++ (is.filter fun i => i.tilde != negate).map (fun i => ⟨i.body, trans⟩) } := by
  induction is generalizing c with
  | nil => simp
  | cons i is ih =>
    rw [List.foldl_cons, ih]
    by_cases h : i.tilde == negate
    · simp [addItem, h, bne, List.filter_cons]
    · simp [addItem, h, bne, List.filter_cons]

end Cdx
