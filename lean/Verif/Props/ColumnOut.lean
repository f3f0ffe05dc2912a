import Verif.Lemmas.Column
import Verif.Props.TextLine

/-!
C20, C21: output headers and cutting.
-/

namespace Cdx

/-! ## C20: names of output columns -/

theorem decVal_snoc (a : Bytes) (c : UInt8) : decVal (a ++ [c]) = decVal a * 10 + (c.toNat - 48) := by
  induction a with
  | nil => simp [decVal]
  | cons x xs ih =>
    simp only [List.cons_append, decVal, ih, List.length_append, List.length_cons, List.length_nil, Nat.pow_succ,
      Nat.zero_add, Nat.add_mul]
    rw [Nat.mul_assoc]
    omega

theorem decRev_val (fuel n : Nat) (h : n < fuel) : decVal (decRev fuel n).reverse = n := by
  induction fuel generalizing n with
  | zero => omega
  | succ fuel ih =>
    have hd : (UInt8.ofNat (48 + n % 10)).toNat - 48 = n % 10 := by
      rw [UInt8.toNat_ofNat']
      omega
    simp only [decRev]
    by_cases h0 : n / 10 = 0
    · rw [if_pos h0, List.reverse_singleton, show [UInt8.ofNat (48 + n % 10)] = [] ++ [UInt8.ofNat (48 + n % 10)] from rfl,
        decVal_snoc, hd]
      have : decVal [] = 0 := rfl
      omega
    · rw [if_neg h0, List.reverse_cons, decVal_snoc, hd, ih _ (by omega)]
      omega

/-- Reading back the decimal text. -/
theorem decVal_decText (n : Nat) : decVal (decText n) = n := decRev_val (n + 1) n (by omega)

theorem decRev_digits (fuel n : Nat) : ∀ c ∈ decRev fuel n, Digit c := by
  induction fuel generalizing n with
  | zero => simp [decRev]
  | succ fuel ih =>
    intro c hc
    simp only [decRev, List.mem_cons] at hc
    rcases hc with rfl | hc
    · have h10 : n % 10 < 10 := Nat.mod_lt _ (by decide)
      generalize n % 10 = m at h10
      have : ∀ m : Fin 10, Digit (UInt8.ofNat (48 + m.val)) := by decide
      exact this ⟨m, h10⟩
    · by_cases h0 : n / 10 = 0
      · simp [h0] at hc
      · rw [if_neg h0] at hc
        exact ih _ c hc

theorem decText_digits (n : Nat) : ∀ c ∈ decText n, Digit c := by
  intro c hc
  exact decRev_digits (n + 1) n c (by simpa [decText] using hc)

theorem decText_ne_nil (n : Nat) : decText n ≠ [] := by
  simp [decText, decRev]

theorem decRev_last (fuel : Nat) : ∀ n, 0 < n → n < fuel → ∃ c, (decRev fuel n).getLast? = some c ∧ c ≠ 48 := by
  induction fuel with
  | zero => intro n _ h; omega
  | succ fuel ih =>
    intro n h0 hf
    rw [decRev]
    by_cases h : n / 10 = 0
    · refine ⟨UInt8.ofNat (48 + n % 10), by simp [h], ?_⟩
      intro e
      have := congrArg UInt8.toNat e
      rw [UInt8.toNat_ofNat'] at this
      have e2 : (48 : UInt8).toNat = 48 := rfl
      omega
    · obtain ⟨c, h1, h2⟩ := ih (n / 10) (by omega) (by omega)
      refine ⟨c, ?_, h2⟩
      rw [if_neg h]
      cases hd : decRev fuel (n / 10) with
      | nil => rw [hd] at h1; simp at h1
      | cons a as => rw [hd] at h1; simpa [List.getLast?_cons_cons] using h1

theorem decText_lead (n : Nat) (h : 0 < n) : (decText n).head? ≠ some 48 := by
  obtain ⟨c, h1, h2⟩ := decRev_last (n + 1) n h (by omega)
  rw [decText, List.head?_reverse, h1]
  simpa using h2

theorem decText_inj {m n : Nat} (h : decText m = decText n) : m = n := by
  rw [← decVal_decText m, h, decVal_decText]

theorem numericLoop_spec (cols : List Bytes) (name : Bytes) (left x : Nat) :
    (numericLoop cols name left x = cols ∧ ∀ k, x ≤ k → k < x + left → name ++ decText k ∈ cols) ∨
      ∃ k, x ≤ k ∧ k < x + left ∧ name ++ decText k ∉ cols ∧
        numericLoop cols name left x = cols ++ [name ++ decText k] := by
  induction left generalizing x with
  | zero => left; exact ⟨rfl, by intros; omega⟩
  | succ left ih =>
    by_cases h : name ++ decText x ∈ cols
    · have hc : cols.contains (name ++ decText x) = true := by simpa using h
      simp only [numericLoop, hc, if_true]
      rcases ih (x + 1) with ⟨h1, h2⟩ | ⟨k, h1, h2, h3, h4⟩
      · left
        refine ⟨h1, fun k hk1 hk2 => ?_⟩
        by_cases hx : k = x
        · subst hx; exact h
        · exact h2 k (by omega) (by omega)
      · right; exact ⟨k, by omega, by omega, h3, h4⟩
    · right
      have hc : ¬ cols.contains (name ++ decText x) = true := by simpa using h
      exact ⟨x, Nat.le_refl _, by omega, h, by simp only [numericLoop, hc]; rfl⟩

theorem push_cases (h h' : ColumnHeader) (name : Bytes) (hp : h.push name = .ok h') (hd : h.dups ≠ .allow) :
    h'.dups = h.dups ∧ ((∃ n, n ∉ h.cols ∧ h'.cols = h.cols ++ [n]) ∨
      (h.dups = .numeric ∧ h'.cols = h.cols ∧ name ∈ h.cols ∧
        ∀ k, 1 ≤ k → k < 10000 → name ++ decText k ∈ h.cols)) := by
  unfold ColumnHeader.push at hp
  split at hp
  · simp at hp
  · by_cases hc : h.contains name = true
    · rw [if_pos hc] at hp
      have hmem : name ∈ h.cols := by simpa [ColumnHeader.contains] using hc
      split at hp
      · split at hp
        · simp at hp
        · split at hp
          · simp at hp
          · rename_i r _ hr
            simp only [Res.ok.injEq] at hp
            subst hp
            exact ⟨rfl, Or.inl ⟨r.2, by simpa [ColumnHeader.contains] using hr, rfl⟩⟩
      · cases hdup : h.dups with
        | fail => simp [hdup] at hp
        | allow => exact absurd hdup hd
        | numeric =>
          simp only [hdup, Res.ok.injEq] at hp
          subst hp
          refine ⟨rfl, ?_⟩
          rcases numericLoop_spec h.cols name 9999 1 with ⟨h1, h2⟩ | ⟨k, _, _, h3, h4⟩
          · exact Or.inr ⟨rfl, h1, hmem, fun k hk1 hk2 => h2 k hk1 (by omega)⟩
          · exact Or.inl ⟨_, h3, h4⟩
    · rw [if_neg hc] at hp
      simp only [Res.ok.injEq] at hp
      subst hp
      exact ⟨rfl, Or.inl ⟨name, by simpa [ColumnHeader.contains] using hc, rfl⟩⟩

/-- However many names are pushed, the header never has two equal names, unless duplicates are explicitly
allowed. -/
theorem C20_unique (h h' : ColumnHeader) (names : List Bytes) (hd : h.dups ≠ .allow) (hu : h.cols.Nodup)
    (hp : h.pushAll names = .ok h') : h'.cols.Nodup := by
  induction names generalizing h with
  | nil =>
    simp only [ColumnHeader.pushAll, Res.ok.injEq] at hp
    subst hp; exact hu
  | cons n ns ih =>
    simp only [ColumnHeader.pushAll] at hp
    cases h1 : h.push n with
    | err => simp [h1] at hp
    | panic => simp [h1] at hp
    | ok h2 =>
      rw [h1, Res.bind_ok] at hp
      obtain ⟨hd2, hc⟩ := push_cases h h2 n h1 hd
      refine ih h2 (by rw [hd2]; exact hd) ?_ hp
      rcases hc with ⟨m, hm, he⟩ | ⟨_, he, _⟩
      · rw [he, List.nodup_append]
        refine ⟨hu, by simp, ?_⟩
        intro a ha b hb
        simp only [List.mem_singleton] at hb
        subst hb
        rintro rfl
        exact hm ha
      · rw [he]; exact hu

/-- The claim: under the renumbering policy names stay unique and no column is lost. -/
def C20_statement : Prop :=
  ∀ (names : List Bytes) (h' : ColumnHeader), ColumnHeader.pushAll ⟨[], .numeric, []⟩ names = .ok h' →
    h'.cols.Nodup ∧ h'.cols.length = names.length

theorem nodup_map_of_inj {α β : Type} (f : α → β) (l : List α) (hi : ∀ a b, f a = f b → a = b) (h : l.Nodup) :
    (l.map f).Nodup := by
  rw [List.Nodup, List.pairwise_map]
  exact h.imp (fun hne heq => hne (hi _ _ heq))

theorem numbered_nodup (name : Bytes) (n : Nat) :
    (name :: (List.range' 1 n).map fun k => name ++ decText k).Nodup := by
  rw [List.nodup_cons]
  constructor
  · intro hm
    simp only [List.mem_map] at hm
    obtain ⟨k, _, hk⟩ := hm
    have := congrArg List.length hk
    have h2 := List.length_pos_iff.2 (decText_ne_nil k)
    simp only [List.length_append] at this
    omega
  · refine nodup_map_of_inj _ _ ?_ List.nodup_range'
    intro a b hab
    exact decText_inj (List.append_cancel_left hab)

/-- No column is lost while there are at most 10000 columns. -/
theorem C20_partial (h h' : ColumnHeader) (names : List Bytes) (hd : h.dups ≠ .allow)
    (hl : h.cols.length + names.length ≤ 10000) (hp : h.pushAll names = .ok h') :
    h'.cols.length = h.cols.length + names.length := by
  induction names generalizing h with
  | nil =>
    simp only [ColumnHeader.pushAll, Res.ok.injEq] at hp
    subst hp; rfl
  | cons n ns ih =>
    simp only [ColumnHeader.pushAll] at hp
    simp only [List.length_cons] at hl ⊢
    cases h1 : h.push n with
    | err => simp [h1] at hp
    | panic => simp [h1] at hp
    | ok h2 =>
      rw [h1, Res.bind_ok] at hp
      obtain ⟨hd2, hc⟩ := push_cases h h2 n h1 hd
      have hlen : h2.cols.length = h.cols.length + 1 := by
        rcases hc with ⟨m, hm, he⟩ | ⟨_, he, hmem, hall⟩
        · rw [he]; simp
        · exfalso
          have := (numbered_nodup n 9999).length_le_of_subset (l₂ := h.cols) (by
            intro x hx
            simp only [List.mem_cons, List.mem_map, List.mem_range'_1] at hx
            rcases hx with rfl | ⟨k, hk, rfl⟩
            · exact hmem
            · exact hall k hk.1 (by omega))
          simp only [List.length_cons, List.length_map, List.length_range'] at this
          omega
      rw [ih h2 (by rw [hd2]; exact hd) (by omega) hp, hlen]
      omega

theorem numericLoop_full (cols : List Bytes) (name : Bytes) (left x : Nat)
    (h : ∀ k, x ≤ k → k < x + left → name ++ decText k ∈ cols) : numericLoop cols name left x = cols := by
  rcases numericLoop_spec cols name left x with ⟨h1, _⟩ | ⟨k, h1, h2, h3, _⟩
  · exact h1
  · exact absurd (h k h1 h2) h3

/-- A name and its 9999 numbered variants take all the room: one more column of that name is silently dropped. -/
theorem C20_lost (h : ColumnHeader) (name : Bytes) (hv : isValidColumnName name = true) (hd : h.dups = .numeric)
    (hr : h.rename = []) (hm : name ∈ h.cols) (hall : ∀ k, 1 ≤ k → k < 10000 → name ++ decText k ∈ h.cols) :
    h.push name = .ok h := by
  have hc : h.contains name = true := by simpa [ColumnHeader.contains] using hm
  unfold ColumnHeader.push
  simp only [hv, hc, hr, hd, List.findIdx?_nil, if_true, Bool.true_eq_false, if_false]
  rw [numericLoop_full _ _ _ _ (fun k h1 h2 => hall k h1 (by omega))]
  cases h; simp_all

theorem pushAll_append (h : ColumnHeader) (a b : List Bytes) :
    h.pushAll (a ++ b) = (h.pushAll a).bind fun h => h.pushAll b := by
  induction a generalizing h with
  | nil => rfl
  | cons n ns ih =>
    simp only [List.cons_append, ColumnHeader.pushAll]
    cases h.push n with
    | ok h2 => simp [ih]
    | err => rfl
    | panic => rfl

theorem pushAll_fresh (dups : DupColHandling) (ren : List (Bytes × Bytes)) (names cols : List Bytes)
    (hv : ∀ n ∈ names, isValidColumnName n = true) (hn : (cols ++ names).Nodup) :
    ColumnHeader.pushAll ⟨cols, dups, ren⟩ names = .ok ⟨cols ++ names, dups, ren⟩ := by
  induction names generalizing cols with
  | nil => simp [ColumnHeader.pushAll]
  | cons n ns ih =>
    have h1 := hv n (List.mem_cons_self ..)
    have h2 : n ∉ cols := by
      intro hm
      rw [List.nodup_append] at hn
      exact hn.2.2 n hm n (List.mem_cons_self ..) rfl
    have hp : ColumnHeader.push ⟨cols, dups, ren⟩ n = .ok ⟨cols ++ [n], dups, ren⟩ := by
      simp [ColumnHeader.push, h1, ColumnHeader.contains, h2]
    rw [ColumnHeader.pushAll, hp, Res.bind_ok, ih (cols ++ [n]) (fun m hm => hv m (List.mem_cons_of_mem _ hm))
      (by simpa using hn)]
    simp

/-- `a`, `a1` … `a9999`, `a`: the last column is lost. -/
theorem C20_refuted : ¬ C20_statement := by
  intro h
  have hv : ∀ n ∈ ([97] : Bytes) :: (List.range' 1 9999).map (fun k => [97] ++ decText k),
      isValidColumnName n = true := by
    intro n hn
    simp only [List.mem_cons, List.mem_map] at hn
    rcases hn with rfl | ⟨k, _, rfl⟩
    · decide
    · refine ((isValid_iff _).2 ⟨97, decText k, rfl, by decide, ?_⟩).2
      intro x hx
      exact Or.inr (Or.inl (decText_digits k x hx))
  have hn := numbered_nodup [97] 9999
  generalize hL : ([97] : Bytes) :: (List.range' 1 9999).map (fun k => [97] ++ decText k) = L at *
  have h1 : ColumnHeader.pushAll ⟨[], .numeric, []⟩ (L ++ [[97]]) = .ok ⟨L, .numeric, []⟩ := by
    rw [pushAll_append, pushAll_fresh _ _ L [] hv (by simpa using hn), List.nil_append, Res.bind_ok]
    simp only [ColumnHeader.pushAll]
    rw [C20_lost ⟨L, .numeric, []⟩ [97] (by decide) rfl rfl (by rw [← hL]; simp) (by
      intro k hk1 hk2
      rw [← hL]
      simp only [List.mem_cons, List.mem_map, List.mem_range'_1]
      exact Or.inr ⟨k, ⟨hk1, by omega⟩, rfl⟩)]
    rfl
  have := (h _ _ h1).2
  simp at this

example : ColumnHeader.pushAll ⟨[], .numeric, []⟩ [[97], [97, 49], [97], [97]] =
    .ok ⟨[[97], [97, 49], [97, 50], [97, 51]], .numeric, []⟩ := by decide

/-! ## C21: cutting columns -/

theorem flatMap_sep (d : UInt8) (a : Bytes) (l : List Bytes) :
    a ++ l.flatMap (fun x => d :: x) = List.intercalate [d] (a :: l) := by
  induction l generalizing a with
  | nil => simp
  | cons b l ih =>
    rw [List.flatMap_cons, intercalate_cons_cons, ← ih b]
    simp

/-- `write2`: the selected columns in the order of the selection, with the delimiter between them. -/
theorem C21_write2 (columns : List OutCol) (l : TextLine) (d : UInt8) (h : ∀ x ∈ columns, x.num < l.vec.length) :
    ColumnSet.write2 columns l d = List.intercalate [d] (columns.filterMap fun x => l.vec[x.num]?) ++ [NL] := by
  have he : columns.filterMap (fun x => l.vec[x.num]?) = columns.map fun x => l.get x.num := by
    induction columns with
    | nil => rfl
    | cons x xs ih =>
      have hx := h x (List.mem_cons_self ..)
      rw [List.filterMap_cons, List.getElem?_eq_getElem hx, List.map_cons,
        ih (fun y hy => h y (List.mem_cons_of_mem _ hy))]
      simp only [TextLine.get_eq_vec, List.getD_eq_getElem?_getD, List.getElem?_eq_getElem hx, Option.getD_some]
  rw [he]
  cases columns with
  | nil => rfl
  | cons x xs =>
    simp only [ColumnSet.write2, List.map_cons]
    rw [← flatMap_sep, List.flatMap_map]

theorem filterMap_range' (v pre : List Bytes) :
    (List.range' pre.length v.length).filterMap (fun x => (pre ++ v)[x]?) = v := by
  induction v generalizing pre with
  | nil => rfl
  | cons a v ih =>
    have h := ih (pre ++ [a])
    simp only [List.length_append, List.length_cons, List.length_nil, List.append_assoc, List.singleton_append] at h
    rw [List.length_cons, List.range'_succ, List.filterMap_cons]
    simp only [List.getElem?_append_right (Nat.le_refl _), Nat.sub_self, List.getElem?_cons_zero]
    rw [h]

theorem filterMap_range (v : List Bytes) : (List.range v.length).filterMap (fun x => v[x]?) = v := by
  have := filterMap_range' v []
  rw [List.range_eq_range']
  simpa using this

/-- Selecting all columns in order reproduces the line. -/
theorem C21_identity (d : UInt8) (hd : d ≠ NL) (body : Bytes)
    (columns : List OutCol) (hc : columns.map (·.num) = List.range (plainLine (body ++ [NL]) d).vec.length) :
    ColumnSet.write2 columns (plainLine (body ++ [NL]) d) d = body ++ [NL] := by
  rw [C21_write2 columns _ d (by
    intro x hx
    have : x.num ∈ columns.map (·.num) := List.mem_map_of_mem hx
    rw [hc] at this
    simpa using this)]
  have : columns.filterMap (fun x => (plainLine (body ++ [NL]) d).vec[x.num]?) =
      (plainLine (body ++ [NL]) d).vec := by
    have e : columns.filterMap (fun x => (plainLine (body ++ [NL]) d).vec[x.num]?) =
        (columns.map (·.num)).filterMap (fun x => (plainLine (body ++ [NL]) d).vec[x]?) := by
      rw [List.filterMap_map]; rfl
    rw [e, hc]
    exact filterMap_range _
  rw [this, C04_join_split d hd]

example : ∃ (columns : List OutCol) (body : Bytes),
    columns.map (·.num) = List.range (plainLine (body ++ [NL]) TAB).vec.length ∧ columns.length = 3 :=
  ⟨[⟨0, [], none⟩, ⟨1, [], none⟩, ⟨2, [], none⟩], [97, 9, 9, 98], by decide⟩

/-- `select`: the selected columns, or an error if one does not exist. -/
theorem C21_select {α : Type} (columns : List OutCol) (cols : List α) :
    ((∀ x ∈ columns, x.num < cols.length) →
      selectCols columns cols = .ok (columns.filterMap fun x => cols[x.num]?)) ∧
    ((∃ x ∈ columns, cols.length ≤ x.num) → selectCols columns cols = .err) := by
  induction columns with
  | nil => exact ⟨fun _ => rfl, by simp⟩
  | cons x xs ih =>
    by_cases hx : x.num < cols.length
    · have e := List.getElem?_eq_getElem hx
      constructor
      · intro h
        rw [selectCols, List.filterMap_cons]
        simp only [e]
        rw [ih.1 (fun y hy => h y (List.mem_cons_of_mem _ hy))]
        rfl
      · rintro ⟨y, hy, hl⟩
        simp only [List.mem_cons] at hy
        rcases hy with rfl | hy
        · omega
        · rw [selectCols]
          simp only [e]
          rw [ih.2 ⟨y, hy, hl⟩]
          rfl
    · have e := List.getElem?_eq_none (Nat.le_of_not_lt hx)
      constructor
      · intro h
        exact absurd (h x (List.mem_cons_self ..)) hx
      · intro _
        simp only [selectCols, e]

theorem writeRest_spec (columns : List OutCol) (cols : List Bytes) (delim : Bytes)
    (h : ∀ x ∈ columns, x.num < cols.length) :
    writeRest columns cols delim = .ok ((columns.filterMap fun x => cols[x.num]?).flatMap fun v => delim ++ v) := by
  induction columns with
  | nil => rfl
  | cons x xs ih =>
    have e := List.getElem?_eq_getElem (h x (List.mem_cons_self ..))
    simp only [writeRest, e, ih (fun y hy => h y (List.mem_cons_of_mem _ hy)), Res.bind_ok, List.filterMap_cons,
      List.flatMap_cons]

/-- `write`: any delimiter text; if a column does not exist there is no output: a panic if it is the first, an error otherwise. -/
theorem C21_write (columns : List OutCol) (cols : List Bytes) (delim : Bytes) :
    ((∀ x ∈ columns, x.num < cols.length) → ColumnSet.write columns cols delim =
      .ok (List.intercalate delim (columns.filterMap fun x => cols[x.num]?) ++ [NL])) ∧
    ((∃ x ∈ columns, cols.length ≤ x.num) → ColumnSet.write columns cols delim =
      if columns.head?.any (fun x => cols.length ≤ x.num) then .panic else .err) := by
  constructor
  · intro h
    cases columns with
    | nil => rfl
    | cons x xs =>
      have e := List.getElem?_eq_getElem (h x (List.mem_cons_self ..))
      simp only [ColumnSet.write, e, writeRest_spec xs cols delim (fun y hy => h y (List.mem_cons_of_mem _ hy)),
        Res.bind_ok, List.filterMap_cons, Res.ok.injEq]
      congr 1
      generalize xs.filterMap (fun x => cols[x.num]?) = l
      generalize cols[x.num]'(h x (List.mem_cons_self ..)) = a
      induction l generalizing a with
      | nil => simp
      | cons b l ih =>
        rw [List.flatMap_cons, intercalate_cons_cons, ← ih b]
        simp
  · rintro ⟨y, hy, hl⟩
    have rest : ∀ xs : List OutCol, y ∈ xs → writeRest xs cols delim = .err := by
      intro xs
      induction xs with
      | nil => simp
      | cons x xs ih =>
        intro hm
        rw [writeRest]
        cases hx : cols[x.num]? with
        | none => rfl
        | some v =>
          simp only [List.mem_cons] at hm
          rcases hm with rfl | hm
          · rw [List.getElem?_eq_none hl] at hx; simp at hx
          · simp only [ih hm]; rfl
    cases columns with
    | nil => simp at hy
    | cons x xs =>
      rw [ColumnSet.write]
      cases hx : cols[x.num]? with
      | none => rw [if_pos (by simpa using hx)]
      | some v =>
        have hlt : x.num < cols.length := (List.getElem?_eq_some_iff.1 hx).1
        rw [if_neg (by simpa using hlt)]
        simp only [List.mem_cons] at hy
        rcases hy with rfl | hy
        · rw [List.getElem?_eq_none hl] at hx; simp at hx
        · simp [rest xs hy]

/-- The value of a column after its translator. -/
theorem write3_foldl (tr : Nat → Bytes → Option Bytes) (wr : Bytes → Bytes) (d : UInt8) (l : TextLine)
    (vals : OutCol → Bytes) (iter : List OutCol) (h : ∀ x ∈ iter, fetch tr l x = some (vals x)) (a : Bytes) :
    iter.foldl (write3Step tr wr d l) (some a) =
      some (a ++ (iter.map fun x => wr (vals x)).flatMap fun v => d :: v) := by
  induction iter generalizing a with
  | nil => simp
  | cons x xs ih =>
    rw [List.foldl_cons]
    simp only [write3Step, h x (List.mem_cons_self ..)]
    rw [ih (fun y hy => h y (List.mem_cons_of_mem _ hy))]
    simp

/-- `write3`: each selected column goes through its translator, if it has one, and through the output quoting. -/
theorem C21_write3 (tr : Nat → Bytes → Option Bytes) (wr : Bytes → Bytes) (d : UInt8) (l : TextLine)
    (vals : OutCol → Bytes) (columns : List OutCol) (h : ∀ x ∈ columns, fetch tr l x = some (vals x)) :
    ColumnSet.write3 tr wr d columns l = some (List.intercalate [d] (columns.map fun x => wr (vals x))) := by
  cases columns with
  | nil => rfl
  | cons x xs =>
    simp only [ColumnSet.write3, h x (List.mem_cons_self ..)]
    rw [write3_foldl tr wr d l vals xs (fun y hy => h y (List.mem_cons_of_mem _ hy)), flatMap_sep, List.map_cons]

theorem intercalate_append (d : Bytes) (a b : List Bytes) (ha : a ≠ []) (hb : b ≠ []) :
    List.intercalate d (a ++ b) = List.intercalate d a ++ d ++ List.intercalate d b := by
  induction a with
  | nil => exact absurd rfl ha
  | cons x xs ih =>
    by_cases hx : xs = []
    · subst hx
      rw [List.singleton_append, intercalate_cons_ne _ _ hb]
      simp
    · rw [List.cons_append, intercalate_cons_ne _ _ (by simp [hx]), intercalate_cons_ne _ _ hx, ih hx]
      simp

theorem writerRest_spec (d : UInt8) (l : TextLine) (ws : List (TextLine → Option Bytes)) (vs : List (List Bytes))
    (h : ws.map (fun w => w l) = vs.map fun v => some (List.intercalate [d] v)) :
    writerRest d ws l = some (vs.flatMap fun v => d :: List.intercalate [d] v) := by
  induction ws generalizing vs with
  | nil =>
    cases vs with
    | nil => rfl
    | cons v vs => simp at h
  | cons w ws ih =>
    cases vs with
    | nil => simp at h
    | cons v vs =>
      simp only [List.map_cons, List.cons.injEq] at h
      simp only [writerRest, h.1, ih vs h.2]
      simp

/-- `Writer::write`, as `cut` uses it: if every writer writes at least one column, the row is the concatenation of
the columns of all writers, with the delimiter between any two of them. -/
theorem C21_writer (d : UInt8) (l : TextLine) (ws : List (TextLine → Option Bytes)) (vs : List (List Bytes))
    (h : ws.map (fun w => w l) = vs.map fun v => some (List.intercalate [d] v)) (hne : ∀ v ∈ vs, v ≠ []) :
    writerWrite d ws l = some (List.intercalate [d] vs.flatten ++ [NL]) := by
  cases ws with
  | nil =>
    cases vs with
    | nil => rfl
    | cons v vs => simp at h
  | cons w ws =>
    cases vs with
    | nil => simp at h
    | cons v vs =>
      simp only [List.map_cons, List.cons.injEq] at h
      simp only [writerWrite, h.1, writerRest_spec d l ws vs h.2, List.flatten_cons, Option.some.injEq]
      congr 1
      have hv := hne v (List.mem_cons_self ..)
      have hvs : ∀ u ∈ vs, u ≠ [] := fun u hu => hne u (List.mem_cons_of_mem _ hu)
      clear h hne
      induction vs generalizing v with
      | nil => simp
      | cons u vs ih =>
        have hu := hvs u (List.mem_cons_self ..)
        have := ih u hu (fun t ht => hvs t (List.mem_cons_of_mem _ ht))
        rw [List.flatten_cons, intercalate_append _ _ _ hv (by simp [hu]), ← this]
        simp

/-- A writer that selects no column still gets its delimiter, so the row has an additional empty column. -/
theorem C21_empty_writer (d : UInt8) (l : TextLine) (w : TextLine → Option Bytes) (v : List Bytes) (hv : v ≠ [])
    (hw : w l = some (List.intercalate [d] v)) (tr : Nat → Bytes → Option Bytes) (wr : Bytes → Bytes) :
    writerWrite d [w, ColumnSet.write3 tr wr d []] l = some (List.intercalate [d] (v ++ [[]]) ++ [NL]) := by
  simp only [writerWrite, hw, writerRest, ColumnSet.write3, Option.some.injEq]
  rw [intercalate_append _ _ _ hv (by simp)]
  simp

end Cdx
