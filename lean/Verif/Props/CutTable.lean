import Verif.Props.Cut

/-!
C131-C136: what `cut` does with tables, where it fails, and the other selections of columns.
-/

namespace Cdx

/-! ## C133: tables -/

/-- The usual mode with a delimiter. -/
def sepMode (d : UInt8) : TextMode := { TextMode.default with delim := d }

theorem open_fields (m : TextMode) (f hd rest : Bytes) (hh : readHeader m f = some (hd, rest)) :
    ((Reader.newWith 1 m).open_ f).isEmpty = false ∧ ((Reader.newWith 1 m).open_ f).header = hd ∧
      ((Reader.newWith 1 m).open_ f).hasHeader = !hd.isEmpty ∧ ((Reader.newWith 1 m).open_ f).mode = m := by
  unfold Reader.open_
  have hmm : (Reader.newWith 1 m).mode = m := rfl
  simp only [hmm, hh]
  cases hr : readLine m.col m.eol rest with
  | none => exact ⟨rfl, rfl, rfl, rfl⟩
  | some p => exact ⟨rfl, rfl, rfl, rfl⟩

theorem table_read (d : UInt8) (hd : SepByte d) (names : List Bytes) (hn : SepNames d names) (rows : List (List Bytes))
    (ht : SepTable d names.length rows) :
    readHeader (sepMode d) (sepHead d names ++ sepText d rows) = some (sepHead d names, sepText d rows) ∧
      namesOf (sepMode d) (sepHead d names ++ sepText d rows) = names ∧
      dataOf (sepMode d) (sepHead d names ++ sepText d rows) = (rows.map fun r => List.intercalate [d] r ++ [NL]) ∧
      ((Reader.newWith 1 (sepMode d)).open_ (sepHead d names ++ sepText d rows)).hasHeader = true := by
  have hcdx : isCdx (sepHead d names) = true := by rw [sepHead_eq d names hn.1]; simp [isCdx, cdxTag, List.isPrefixOf]
  have hcdx2 : isCdx (sepHead d names ++ sepText d rows) = true := by
    rw [sepHead_eq d names hn.1]; simp [isCdx, cdxTag, List.isPrefixOf]
  have hl : IsLine (sepHead d names) := ⟨_, rfl, sepHead_free d hd names hn⟩
  have hne : sepHead d names ++ sepText d rows ≠ [] := by simp [sepHead]
  have hh : readHeader (sepMode d) (sepHead d names ++ sepText d rows) = some (sepHead d names, sepText d rows) := by
    unfold readHeader
    simp only [hne, if_false, sepMode, TextMode.default, hcdx2, if_true]
    exact readLine_isLine _ _ hl
  obtain ⟨h1, h2, h3, h4⟩ := open_fields _ _ _ _ hh
  have hhas : ((Reader.newWith 1 (sepMode d)).open_ (sepHead d names ++ sepText d rows)).hasHeader = true := by
    rw [h3]
    simp [sepHead]
  refine ⟨hh, ?_, ?_, hhas⟩
  · unfold namesOf Reader.names
    simp only [h1, hhas, h2, h4, Bool.false_eq_true, if_false, if_true, headNames, hcdx]
    have e : ((TextLine.ofRaw (sepHead d names)).split .plain d).vec = ascii " CDX" :: names := by
      have := lineNames_row d hd.1 (ascii " CDX" :: names) (by simp) (by
        intro c hc
        rcases List.mem_cons.1 hc with rfl | hc
        · exact ⟨hd.tag, by decide +kernel⟩
        · exact (hn.2 c hc).2)
      exact this
    have e2 : (sepMode d).delim = d := rfl
    rw [e2, e]
    rfl
  · unfold dataOf
    simp only [hh]
    have e1 : (sepMode d).col = .plain := rfl
    have e2 : (sepMode d).eol = NL := rfl
    rw [e1, e2, sepText_lines]
    refine readLines_flatten _ fun l hl => ?_
    obtain ⟨r, hr, rfl⟩ := List.mem_map.1 hl
    exact sepRow_isLine hd.1 ht hr

theorem row_vec (d : UInt8) (hd : SepByte d) (r : List Bytes) (hne : r ≠ []) (h : ∀ c ∈ r, d ∉ c ∧ NL ∉ c) :
    (decoded (sepMode d) (List.intercalate [d] r ++ [NL])).vec = r := (C04_split_join d hd.1 r hne h).1

/-- The fields asked for, as they are, for a row of a table. -/
def Want.fieldsOf (names row : List Bytes) : Want → List Bytes
  | .fields is => ((pickedOf names is).getD []).map fun x => row.getD x.1 []
  | .group d _ is => [List.intercalate [d] (((pickedOf names is).getD []).map fun x => row.getD x.1 [])]
  | .expr _ _ => []
  | .comp _ ps => [ps.flatMap (Piece.value names row)]

/-- What is asked for can be written as it is: no expression, groups are joined with a byte that is neither the delimiter nor in a
value, and texts have no delimiter and no newline. -/
def Want.Plain (d : UInt8) (rows : List (List Bytes)) : Want → Prop
  | .fields _ => True
  | .group g _ _ => g ≠ d ∧ g ≠ NL ∧ ∀ r ∈ rows, ∀ c ∈ r, g ∉ c
  | .expr _ _ => False
  | .comp _ ps => ∀ s, Piece.text s ∈ ps → d ∉ s ∧ NL ∉ s

theorem write_free (d : UInt8) (v : Bytes) (h1 : d ∉ v) (h2 : NL ∉ v) : (sepMode d).write v = v := by
  have : (sepMode d).write v = blanked d v := group_write d v
  rw [this]
  unfold blanked
  conv => rhs; rw [← List.map_id v]
  apply List.map_congr_left
  intro c hc
  rw [if_neg]
  · rfl
  · rintro (rfl | rfl)
    · exact h1 hc
    · exact h2 hc

theorem blanked_free (d : UInt8) (v : Bytes) (h1 : d ∉ v) (h2 : NL ∉ v) : blanked d v = v := by
  rw [← group_write]; exact write_free d v h1 h2

theorem getD_free {d : UInt8} {r : List Bytes} (h : ∀ c ∈ r, d ∉ c ∧ NL ∉ c) (i : Nat) : d ∉ r.getD i [] ∧ NL ∉ r.getD i [] := by
  rw [List.getD_eq_getElem?_getD]
  cases hi : r[i]? with
  | none => simp
  | some c => exact h c (List.mem_of_getElem? hi)

theorem value_free {d : UInt8} {r names : List Bytes} (h : ∀ c ∈ r, d ∉ c ∧ NL ∉ c) (ps : List Piece)
    (hp : ∀ s, Piece.text s ∈ ps → d ∉ s ∧ NL ∉ s) : d ∉ ps.flatMap (Piece.value names r) ∧ NL ∉ ps.flatMap (Piece.value names r) := by
  have : ∀ p ∈ ps, d ∉ p.value names r ∧ NL ∉ p.value names r := by
    intro p hm
    cases p with
    | text s => exact hp s hm
    | num b n => exact getD_free h n
    | name b s => exact getD_free h _
  constructor
  · intro hm
    obtain ⟨p, hp, hx⟩ := List.mem_flatMap.1 hm
    exact (this p hp).1 hx
  · intro hm
    obtain ⟨p, hp, hx⟩ := List.mem_flatMap.1 hm
    exact (this p hp).2 hx

theorem cells_fields (env : CutEnv) (d : UInt8) (hd : SepByte d) (names : List Bytes) (rows : List (List Bytes)) (w : Want) (hw : w.Plain d rows)
    (r : List Bytes) (hr : r ∈ rows) (hne : r ≠ []) (hfree : ∀ c ∈ r, d ∉ c ∧ NL ∉ c) :
    w.cells env (sepMode d) names (decoded (sepMode d) (List.intercalate [d] r ++ [NL])) = w.fieldsOf names r ∧
      ∀ c ∈ w.fieldsOf names r, d ∉ c ∧ NL ∉ c := by
  have hv := row_vec d hd r hne hfree
  cases w with
  | fields is =>
    refine ⟨?_, ?_⟩
    · simp only [Want.cells, Want.fieldsOf, hv]
      exact List.map_congr_left fun x _ => write_free d _ (getD_free hfree _).1 (getD_free hfree _).2
    · intro c hc
      simp only [Want.fieldsOf, List.mem_map] at hc
      obtain ⟨x, _, rfl⟩ := hc
      exact getD_free hfree _
  | group g name is =>
    obtain ⟨h1, h2, h3⟩ := hw
    have hg : ∀ i, g ∉ r.getD i [] := by
      intro i
      rw [List.getD_eq_getElem?_getD]
      cases hi : r[i]? with
      | none => simp
      | some c => exact h3 r hr c (List.mem_of_getElem? hi)
    refine ⟨?_, ?_⟩
    · simp only [Want.cells, Want.fieldsOf, hv]
      congr 2
      exact List.map_congr_left fun x _ => blanked_free g _ (hg _) (getD_free hfree _).2
    · intro c hc
      simp only [Want.fieldsOf, List.mem_singleton] at hc
      subst hc
      constructor
      · intro hm
        rcases mem_intercalate hm with h | ⟨c, hc, hx⟩
        · exact h1 h.symm
        · obtain ⟨x, _, rfl⟩ := List.mem_map.1 hc
          exact (getD_free hfree _).1 hx
      · intro hm
        rcases mem_intercalate hm with h | ⟨c, hc, hx⟩
        · exact h2 h.symm
        · obtain ⟨x, _, rfl⟩ := List.mem_map.1 hc
          exact (getD_free hfree _).2 hx
  | expr name f => exact absurd hw (by simp [Want.Plain])
  | comp name ps =>
    have := value_free (names := names) hfree ps hw
    refine ⟨?_, ?_⟩
    · simp only [Want.cells, Want.fieldsOf, hv, write_free d _ this.1 this.2]
    · intro c hc
      simp only [Want.fieldsOf, List.mem_singleton] at hc
      subst hc
      exact this

theorem name_free {d : UInt8} (hd : SepByte d) (hu : d ≠ 95) {n : Bytes} (hn : IsName n) : n ≠ [] ∧ d ∉ n ∧ NL ∉ n := by
  obtain ⟨c, cs, rfl, h1, h2⟩ := hn
  have key : ∀ x, Letter x ∨ Digit x ∨ x = 95 → isAsciiAlnum x = true ∨ x = 95 := by
    intro x hx
    unfold isAsciiAlnum
    simp only [Bool.or_eq_true, Bool.and_eq_true, decide_eq_true_eq]
    rcases hx with (hx | hx) | hx | hx
    · exact Or.inl (Or.inl (Or.inr hx))
    · exact Or.inl (Or.inr hx)
    · exact Or.inl (Or.inl (Or.inl hx))
    · exact Or.inr hx
  have all : ∀ x ∈ c :: cs, isAsciiAlnum x = true ∨ x = 95 := by
    intro x hx
    rcases List.mem_cons.1 hx with rfl | hx
    · exact key x (Or.inl h1)
    · exact key x (h2 x hx)
  refine ⟨by simp, fun hm => ?_, fun hm => ?_⟩
  · rcases all d hm with h | h
    · rw [hd.2.1] at h; simp at h
    · exact hu h
  · rcases all NL hm with h | h <;> revert h <;> decide

theorem checkAll_same (nameOk : Bytes → Bool) (l : Bytes) (hl : FirstLineOk nameOk .matching l) (hc : isCdx l = true) (k : Nat) :
    (HeaderChecker.fromMode .matching).checkAll nameOk (List.replicate (k + 1) l) = some (true :: List.replicate k false) := by
  have hlater : ∀ k, HeaderChecker.checkAll nameOk ⟨.matching, l, true⟩ (List.replicate k l) = some (List.replicate k false) := by
    intro k
    induction k with
    | zero => rfl
    | succ k ih =>
      rw [List.replicate_succ, HeaderChecker.checkAll, check_later (c := ⟨.matching, l, true⟩) rfl hl]
      simp [hc, hl.1, ih, List.replicate_succ]
  rw [List.replicate_succ, HeaderChecker.checkAll, check_first hl]
  simp [hc, hlater]

/-- Tables with the same header, cut: the names and the fields asked for, with one header. -/
theorem C133_table_partial (env : CutEnv) (nameOk : Bytes → Bool) (d : UInt8) (hd : SepByte d) (hu : d ≠ 95) (names : List Bytes) (hne : names ≠ [])
    (hn : ∀ n ∈ names, IsName n) (ws : List Want) (hws : ws ≠ []) (hf : ∀ w ∈ ws, w.Fine env) (hs : ∀ w ∈ ws, w.Suits env names)
    (ho : (ws.flatMap (Want.outNames names)).Nodup) (hv : ∀ n ∈ ws.flatMap (Want.outNames names), IsName n ∧ nameOk n = true)
    (tables : List (List (List Bytes))) (htab : ∀ rows ∈ tables, SepTable d names.length rows) (hp : ∀ w ∈ ws, w.Plain d tables.flatten)
    (ht : tables ≠ []) :
    cutMain env nameOk (sepMode d) (sepMode d) .matching (ws.map Want.opt) (tables.map fun rows => sepHead d names ++ sepText d rows) =
      .ok (sepHead d (ws.flatMap (Want.outNames names)) ++ sepText d (tables.flatten.map fun r => ws.flatMap (Want.fieldsOf names r))) := by
  have hsn : SepNames d names := ⟨hne, fun n hm => name_free hd hu (hn n hm)⟩
  have hread := fun rows (hr : rows ∈ tables) => table_read d hd names hsn rows (htab rows hr)
  have hall : notEmpty (sepMode d) (tables.map fun rows => sepHead d names ++ sepText d rows) =
      tables.map fun rows => sepHead d names ++ sepText d rows := by
    unfold notEmpty
    rw [List.filter_eq_self]
    intro f hm
    obtain ⟨rows, hr, rfl⟩ := List.mem_map.1 hm
    rw [(hread rows hr).1]
    rfl
  have hfile : ∀ f ∈ notEmpty (sepMode d) (tables.map fun rows => sepHead d names ++ sepText d rows), namesOf (sepMode d) f = names := by
    intro f hm
    rw [hall] at hm
    obtain ⟨rows, hr, rfl⟩ := List.mem_map.1 hm
    exact (hread rows hr).2.1
  rw [C133_cut_partial env nameOk (sepMode d) (sepMode d) (by simp [sepMode, TextMode.default]) .matching ws hws hf _ (by
    intro f hm
    rw [hfile f hm]
    exact ⟨hn, hs, ho, fun n hm => (hv n hm).1⟩), hall]
  have hcells : ∀ w ∈ ws, w.outNames names ≠ [] := by
    intro w hw
    have := hs w hw
    cases w with
    | fields is =>
      obtain ⟨⟨v, hv, hne⟩, _⟩ := this
      simpa [Want.outNames, hv] using hne
    | group g name is => simp [Want.outNames]
    | expr name f => simp [Want.outNames]
    | comp name ps => simp [Want.outNames]
  have hon : ws.flatMap (Want.outNames names) ≠ [] := by
    intro e
    cases ws with
    | nil => exact hws rfl
    | cons w ws =>
      rw [List.flatMap_cons, List.append_eq_nil_iff] at e
      exact hcells w (by simp) e.1
  have hosn : SepNames d (ws.flatMap (Want.outNames names)) := ⟨hon, fun n hm => name_free hd hu (hv n hm).1⟩
  have hhead : ∀ rows ∈ tables, cutHead (sepMode d) (sepMode d) ws (sepHead d names ++ sepText d rows) =
      sepHead d (ws.flatMap (Want.outNames names)) := by
    intro rows hr
    obtain ⟨_, h2, _, h4⟩ := hread rows hr
    unfold cutHead
    rw [h2, h4, if_pos rfl, sepHead_eq d _ hon]
    simp [headText, sepMode, TextMode.default]
  obtain ⟨k, hk⟩ : ∃ k, tables.length = k + 1 := ⟨tables.length - 1, by have := List.length_pos_iff.2 ht; omega⟩
  have hmap : (tables.map fun rows => sepHead d names ++ sepText d rows).map (cutHead (sepMode d) (sepMode d) ws) =
      List.replicate (k + 1) (sepHead d (ws.flatMap (Want.outNames names))) := by
    rw [List.map_map, ← hk, List.eq_replicate_iff]
    refine ⟨by simp, ?_⟩
    intro b hb
    obtain ⟨rows, hr, rfl⟩ := List.mem_map.1 hb
    exact hhead rows hr
  have hcdx : isCdx (sepHead d (ws.flatMap (Want.outNames names))) = true := by
    rw [sepHead_eq d _ hon]; simp [isCdx, cdxTag, List.isPrefixOf]
  rw [hmap, checkAll_same nameOk _ (sepHead_ok nameOk d hd _ hosn fun n hm => (hv n hm).2) hcdx k]
  simp only [Res.ok.injEq]
  have hrows : ∀ rows ∈ tables, (dataOf (sepMode d) (sepHead d names ++ sepText d rows)).flatMap
      (cutRow env (sepMode d) (sepMode d) (namesOf (sepMode d) (sepHead d names ++ sepText d rows)) ws) =
      sepText d (rows.map fun r => ws.flatMap (Want.fieldsOf names r)) := by
    intro rows hr
    obtain ⟨_, h2, h3, _⟩ := hread rows hr
    rw [h2, h3, List.flatMap_map, sepText, List.flatMap_map]
    apply flatMap_same
    intro r hm
    obtain ⟨hl, hfree⟩ := htab rows hr r hm
    have hrne : r ≠ [] := by
      rintro rfl
      simp at hl
      exact hne (List.length_eq_zero_iff.1 hl.symm)
    unfold cutRow
    have e2 : (sepMode d).delim = d := rfl
    rw [e2]
    congr 2
    apply flatMap_same
    intro w hw
    exact (cells_fields env d hd names tables.flatten w (hp w hw) r (List.mem_flatten.2 ⟨rows, hr, hm⟩) hrne hfree).1
  cases tables with
  | nil => exact absurd rfl ht
  | cons rows0 tables =>
    have hk' : tables.length = k := by simpa using hk
    have htail : ∀ (ts : List (List (List Bytes))) (_ : ∀ rows ∈ ts, rows ∈ rows0 :: tables), 
        cutOutput env (sepMode d) (sepMode d) ws (ts.map fun rows => sepHead d names ++ sepText d rows) (List.replicate ts.length false) =
        sepText d (ts.flatten.map fun r => ws.flatMap (Want.fieldsOf names r)) := by
      intro ts
      induction ts with
      | nil => intro _; rfl
      | cons r ts ih =>
        intro hsub
        have ih := ih (fun x hx => hsub x (by simp [hx]))
        unfold cutOutput at ih ⊢
        rw [List.map_cons, List.length_cons, List.replicate_succ, List.zip_cons_cons, List.flatMap_cons, ih]
        simp only [Bool.false_eq_true, if_false, List.nil_append]
        rw [hrows r (hsub r (by simp))]
        simp [sepText]
    have := htail tables (fun x hx => by simp [hx])
    rw [hk'] at this
    unfold cutOutput at this ⊢
    rw [List.map_cons, List.zip_cons_cons, List.flatMap_cons, this]
    simp only [if_true]
    rw [hrows rows0 (by simp), hhead rows0 (by simp)]
    simp [sepText]


/-- Two tables as in the theorem. -/
def cutEnv0 : CutEnv := ⟨fun _ => true, fun _ v => some v, fun _ => .err, fun _ => false, fun _ _ => .err⟩

/-- The second column, the first with another name, the two in one, and a text made of both. -/
def cutWants : List Want :=
  [.fields [⟨false, none, .one (.num (ascii "2"))⟩, ⟨false, some (ascii "x"), .one (.name (ascii "a"))⟩],
    .group 44 (ascii "g") [⟨false, none, .span (some (.num (ascii "1"))) none⟩],
    .comp (ascii "c") [.num true 0, .text (ascii "^k"), .name false (ascii "b")]]

instance (p : Piece) : Decidable (p = .text []) := by
  cases p with
  | text s => exact decidable_of_iff (s = []) (by simp)
  | num b n => exact isFalse (by simp)
  | name b s => exact isFalse (by simp)

theorem name_one (c : UInt8) (h : isAlpha c = true) : IsName [c] := ⟨c, [], rfl, (isAlpha_iff c).1 h, by simp⟩

theorem cutWants_apart : Apart [.num true 0, .text (ascii "^k"), .name false (ascii "b")] :=
  ⟨by decide, by simp, name_one 98 (by decide), by simp [piecesText], trivial⟩

theorem num_one (c : UInt8) (h : isDigit c = true) : IsNumber [c] := by
  refine ⟨by simp, ?_, ?_, ?_⟩
  · intro x hx
    simp only [List.mem_singleton] at hx
    subst hx
    exact (isDigit_iff x).1 h
  · intro e
    simpa using e
  · have := c.toNat_lt
    simp only [decVal, List.length_nil, Nat.pow_zero]
    omega

example : cutMain cutEnv0 (fun n => n != []) (sepMode TAB) (sepMode TAB) .matching (cutWants.map Want.opt)
    [ascii " CDX\ta\tb\n1\t2\n", ascii " CDX\ta\tb\n3\t4\n5\t\n"] =
    .ok (ascii " CDX\tb\tx\tg\tc\n2\t1\t1,2\t1^k2\n4\t3\t3,4\t3^k4\n\t5\t5,\t5^k\n") := by
  have h := C133_table_partial cutEnv0 (fun n => n != []) TAB (by decide) (by decide) [ascii "a", ascii "b"] (by simp) (by
      intro n hn
      simp only [List.mem_cons, List.not_mem_nil, or_false] at hn
      rcases hn with rfl | rfl
      · exact name_one 97 (by decide)
      · exact name_one 98 (by decide)) cutWants (by simp [cutWants]) (by
      intro w hw
      simp only [cutWants, List.mem_cons, List.not_mem_nil, or_false] at hw
      rcases hw with rfl | rfl | rfl
      · refine ⟨by simp, ?_⟩
        intro i hi
        simp only [List.mem_cons, List.not_mem_nil, or_false] at hi
        rcases hi with rfl | rfl
        · exact ⟨by simp, by simp only [Sel.refs, List.mem_singleton, forall_eq]; exact num_one 50 (by decide)⟩
        · exact ⟨by simp only [Option.some.injEq, forall_eq']; exact name_one 120 (by decide), by
            simp only [Sel.refs, List.mem_singleton, forall_eq]; exact name_one 97 (by decide)⟩
      · refine ⟨by decide, by decide, by simp, ?_⟩
        intro i hi
        simp only [List.mem_singleton] at hi
        subst hi
        exact ⟨by simp, by simp only [Sel.refs, Option.toList, List.append_nil, List.mem_singleton, forall_eq]; exact num_one 49 (by decide)⟩
      · exact ⟨by decide, cutWants_apart⟩) (by
      intro w hw
      simp only [cutWants, List.mem_cons, List.not_mem_nil, or_false] at hw
      rcases hw with rfl | rfl | rfl
      · refine ⟨⟨[(1, []), (0, ascii "x")], by decide +kernel, by simp⟩, ?_⟩
        intro i hi
        simp only [List.mem_cons, List.not_mem_nil, or_false] at hi
        rcases hi with rfl | rfl
        · simp only [Sel.refs, List.mem_singleton, forall_eq]; exact (by decide : decVal [50] ≤ 2)
        · simp only [Sel.refs, List.mem_singleton, forall_eq]; exact trivial
      · refine ⟨⟨[(0, []), (1, [])], by decide +kernel⟩, ?_⟩
        intro i hi
        simp only [List.mem_singleton] at hi
        subst hi
        simp only [Sel.refs, Option.toList, List.append_nil, List.mem_singleton, forall_eq]; exact (by decide : decVal [49] ≤ 2)
      · simp only [Want.Suits]; decide) (by decide +kernel) (by
      intro n hn
      have : n ∈ [ascii "b", ascii "x", ascii "g", ascii "c"] := by
        have e : cutWants.flatMap (Want.outNames [ascii "a", ascii "b"]) = [ascii "b", ascii "x", ascii "g", ascii "c"] := by decide +kernel
        rwa [e] at hn
      simp only [List.mem_cons, List.not_mem_nil, or_false] at this
      rcases this with rfl | rfl | rfl | rfl
      · exact ⟨name_one 98 (by decide), by decide⟩
      · exact ⟨name_one 120 (by decide), by decide⟩
      · exact ⟨name_one 103 (by decide), by decide⟩
      · exact ⟨name_one 99 (by decide), by decide⟩)
    [[[ascii "1", ascii "2"]], [[ascii "3", ascii "4"], [ascii "5", []]]] (by
      intro rows hr
      simp only [List.mem_cons, List.not_mem_nil, or_false] at hr
      unfold SepTable
      rcases hr with rfl | rfl <;> decide) (by
      intro w hw
      simp only [cutWants, List.mem_cons, List.not_mem_nil, or_false] at hw
      rcases hw with rfl | rfl | rfl
      · trivial
      · simp only [Want.Plain]; decide
      · intro s hs
        simp only [List.mem_cons, Piece.text.injEq, reduceCtorEq, List.not_mem_nil, or_false, false_or] at hs
        subst hs
        decide) (by simp)
  exact h.trans (by decide +kernel)

/-- Whatever the mode of the output, `cut` writes the columns asked for. -/
def C133_statement : Prop := ∀ (env : CutEnv) (nameOk : Bytes → Bool) (m t : TextMode) (mode : HeaderMode) (ws : List Want),
  ws ≠ [] → (∀ w ∈ ws, w.Fine env) → ∀ files : List Bytes,
    (∀ f ∈ notEmpty m files, (∀ n ∈ namesOf m f, IsName n) ∧ (∀ w ∈ ws, w.Suits env (namesOf m f)) ∧
      (ws.flatMap (Want.outNames (namesOf m f))).Nodup ∧ ∀ n ∈ ws.flatMap (Want.outNames (namesOf m f)), IsName n) →
    cutMain env nameOk m t mode (ws.map Want.opt) files =
      match (HeaderChecker.fromMode mode).checkAll nameOk ((notEmpty m files).map (cutHead m t ws)) with
      | none => .err
      | some shown => .ok (cutOutput env m t ws (notEmpty m files) shown)

/-- The quote mode, with commas. -/
def quoteOut : TextMode := { TextMode.default with col := .quote, delim := 44 }

/-- In quote mode each part of a composite has its own quotes. -/
theorem C133_refuted : ¬ C133_statement := by
  intro h
  have h1 := h cutEnv0 (fun _ => true) TextMode.default quoteOut .matching [.comp (ascii "c") [.text (ascii ","), .num false 0]] (by simp) (by
    intro w hw
    simp only [List.mem_singleton] at hw
    subst hw
    exact ⟨by decide, by decide, by simp [piecesText], trivial⟩) [ascii "1,\t2\n"] (by
    intro f hf
    have e : notEmpty TextMode.default [ascii "1,\t2\n"] = [ascii "1,\t2\n"] := by decide +kernel
    rw [e, List.mem_singleton] at hf
    subst hf
    have en : namesOf TextMode.default (ascii "1,\t2\n") = [ascii "c1", ascii "c2"] := by decide +kernel
    rw [en]
    refine ⟨?_, ?_, by decide, ?_⟩
    · intro n hn
      simp only [List.mem_cons, List.not_mem_nil, or_false] at hn
      rcases hn with rfl | rfl
      · exact (isValid_iff _).1 (by decide +kernel)
      · exact (isValid_iff _).1 (by decide +kernel)
    · intro w hw
      simp only [List.mem_singleton] at hw
      subst hw
      simp [Want.Suits, Piece.used]
    · intro n hn
      simp only [List.flatMap_cons, List.flatMap_nil, Want.outNames, List.append_nil, List.mem_singleton] at hn
      subst hn
      exact name_one 99 (by decide))
  revert h1
  decide +kernel

/-! ## C130: numbers and texts -/

/-- Numbers fit a machine word and names are names; what follows a piece is free. -/
def Sound : List Piece → Prop
  | [] => True
  | .text _ :: ps => Sound ps
  | .num _ n :: ps => n + 1 < 2 ^ 64 ∧ Sound ps
  | .name _ s :: ps => IsName s ∧ Sound ps

/-- The value is that of the pieces, whatever follows a number and however the output is quoted. -/
def C130_statement : Prop := ∀ (env : CutEnv) (t : TextMode) (names : List Bytes) (name : Bytes) (ps : List Piece),
  58 ∉ name → Sound ps → (∀ s ∈ ps.flatMap Piece.used, s ∈ names) →
    ∃ s c, compSpec (name ++ 58 :: piecesText ps) = .ok s ∧ s.lookup env names = .ok c ∧ c.names names = [name] ∧
      ∀ line : TextLine, c.write env t line = some (t.write (ps.flatMap (Piece.value names line.vec)))

/-- In `x:^1k` the `k` is part of the number: it is column 1000, not column 1 and a `k`. -/
theorem C130_refuted : ¬ C130_statement := by
  intro h
  obtain ⟨s, c, h1, h2, _, h4⟩ := h cutEnv0 TextMode.default [ascii "a"] (ascii "x") [.num false 0, .text (ascii "k")] (by decide)
    ⟨by decide, trivial⟩ (by simp [Piece.used])
  have e : compSpec (ascii "x" ++ 58 :: piecesText [.num false 0, .text (ascii "k")]) = .ok (.comp (ascii "x") [([], ⟨[], 999⟩)] []) := by
    decide +kernel
  rw [e, Res.ok.injEq] at h1
  subst h1
  have e2 : CutSpec.lookup cutEnv0 [ascii "a"] (.comp (ascii "x") [([], ⟨[], 999⟩)] []) = .ok (.comp (ascii "x") [([], 999)] []) := rfl
  rw [e2, Res.ok.injEq] at h2
  subst h2
  have := h4 (TextLine.ofRaw (ascii "v\n"))
  revert this
  decide +kernel

example : compSpec (ascii "c" ++ 58 :: piecesText [.num true 0, .text (ascii "^k"), .name false (ascii "b")]) =
    .ok (.comp (ascii "c") [([], ⟨[], 0⟩), (ascii "^k", ⟨ascii "b", 0⟩)] []) ∧
    piecesText [.num true 0, .text (ascii "^k"), .name false (ascii "b")] = ascii "^{1}^^k^b" :=
  ⟨C130_parse (ascii "c") _ (by decide) cutWants_apart, by decide +kernel⟩

/-! ## C131: groups -/

/-- The values of a group can be taken apart again at its delimiter. -/
def C131_statement : Prop := ∀ (env : CutEnv) (t : TextMode) (names : List Bytes), (∀ n ∈ names, IsName n) →
  ∀ (g : UInt8) (name : Bytes) (is : List ColItem), (Want.group g name is).Fine env → (∀ i ∈ is, ∀ r ∈ i.sel.refs, r.Fair names) →
    ∀ v, pickedOf names is = some v → v ≠ [] →
    ∃ s c, groupSpec env (g :: name ++ 58 :: colListText is) = .ok s ∧ s.lookup env names = .ok c ∧
      ∀ line : TextLine, ∃ text, c.write env t line = some text ∧ sliceSplit g text = v.map fun x => line.vec.getD x.1 []

theorem groupSpec_spec (env : CutEnv) (g : UInt8) (name : Bytes) (is : List ColItem) (hf : (Want.group g name is).Fine env) :
    groupSpec env (g :: name ++ 58 :: colListText is) = .ok (Want.group g name is).spec := by
  obtain ⟨h1, h2, h3, h4⟩ := hf
  rw [List.cons_append, groupSpec]
  have : ¬ g ≥ 128 := by
    rw [ge_iff_le, UInt8.le_iff_toNat_le]
    rw [UInt8.lt_iff_toNat_lt] at h1
    omega
  simp only [this, if_false, splitOnce_some 58 name _ h2, add_set _ _ h3 h4, Res.bind_ok, Want.spec]

/-- What is written is the values with the delimiter and newlines as spaces; they can be taken apart again, unless the delimiter is a
space. Without the delimiter and newlines in them they are the values. -/
theorem C131_group_partial (env : CutEnv) (t : TextMode) (names : List Bytes) (hn : ∀ n ∈ names, IsName n)
    (g : UInt8) (name : Bytes) (is : List ColItem) (hf : (Want.group g name is).Fine env) (hfair : ∀ i ∈ is, ∀ r ∈ i.sel.refs, r.Fair names)
    (v : List (Nat × Bytes)) (hv : pickedOf names is = some v) (hne : v ≠ []) :
    ∃ s c, groupSpec env (g :: name ++ 58 :: colListText is) = .ok s ∧ s.lookup env names = .ok c ∧ c.names names = [name] ∧
      ∀ line : TextLine, ∃ text, c.write env t line = some text ∧ (g ≠ SP → sliceSplit g text = v.map fun x => blanked g (line.vec.getD x.1 [])) ∧
        ((∀ x ∈ v, g ∉ line.vec.getD x.1 [] ∧ NL ∉ line.vec.getD x.1 []) → sliceSplit g text = v.map fun x => line.vec.getD x.1 []) := by
  refine ⟨_, .group g name [] (v.map fun x => ⟨x.1, x.2, none⟩), groupSpec_spec env g name is hf, ?_, rfl, ?_⟩
  · rw [Want.spec, CutSpec.lookup, lookup_set env.colMatch names hn is hf.2.2.1 hf.2.2.2 hfair v hv, Res.bind_ok]
  · intro line
    refine ⟨List.intercalate [g] (v.map fun x => blanked g (line.vec.getD x.1 [])), ?_, ?_, ?_⟩
    · rw [CutCol.write, C21_write3 _ _ _ line (fun x => line.vec.getD x.num []) _ (by
        intro x hx
        simp only [List.mem_map] at hx
        obtain ⟨y, _, rfl⟩ := hx
        simp only [fetch, get_getD])]
      simp only [List.map_map, Function.comp_def, group_write]
    · intro hg
      refine sliceSplit_intercalate g _ (by simpa using hne) ?_
      intro c hc
      obtain ⟨x, _, rfl⟩ := List.mem_map.1 hc
      rw [← writePlain_blanked]
      exact not_mem_writePlain g NL SP g _ (Ne.symm hg) (Or.inl rfl)
    · intro hfree
      have e : (v.map fun x => blanked g (line.vec.getD x.1 [])) = v.map fun x => line.vec.getD x.1 [] :=
        List.map_congr_left fun x hx => blanked_free g _ (hfree x hx).1 (hfree x hx).2
      rw [e]
      refine sliceSplit_intercalate g _ (by simpa using hne) ?_
      intro c hc
      obtain ⟨x, hx, rfl⟩ := List.mem_map.1 hc
      exact (hfree x hx).1

/-- The first two columns, in one, with commas. -/
def commaGroup : List ColItem := [⟨false, none, .one (.name (ascii "a"))⟩, ⟨false, none, .one (.name (ascii "b"))⟩]

theorem commaGroup_fine : (Want.group 44 (ascii "g") commaGroup).Fine cutEnv0 := by
  refine ⟨by decide, by decide, by simp [commaGroup], ?_⟩
  intro i hi
  simp only [commaGroup, List.mem_cons, List.not_mem_nil, or_false] at hi
  rcases hi with rfl | rfl
  · exact ⟨by simp, by simp only [Sel.refs, List.mem_singleton, forall_eq]; exact name_one 97 (by decide)⟩
  · exact ⟨by simp, by simp only [Sel.refs, List.mem_singleton, forall_eq]; exact name_one 98 (by decide)⟩

theorem commaGroup_fair : ∀ i ∈ commaGroup, ∀ r ∈ i.sel.refs, r.Fair [ascii "a", ascii "b"] := by
  intro i hi
  simp only [commaGroup, List.mem_cons, List.not_mem_nil, or_false] at hi
  rcases hi with rfl | rfl <;> simp [Sel.refs, ColRef.Fair]

theorem names_ab : ∀ n ∈ [ascii "a", ascii "b"], IsName n := by
  intro n hn
  simp only [List.mem_cons, List.not_mem_nil, or_false] at hn
  rcases hn with rfl | rfl
  · exact name_one 97 (by decide)
  · exact name_one 98 (by decide)

/-- A comma in a value is lost. -/
theorem C131_refuted : ¬ C131_statement := by
  intro h
  obtain ⟨s, c, h1, h2, h3⟩ := h cutEnv0 TextMode.default _ names_ab 44 (ascii "g") commaGroup commaGroup_fine commaGroup_fair
    [(0, []), (1, [])] (by decide +kernel) (by simp)
  obtain ⟨s', c', g1, g2, _, g3⟩ := C131_group_partial cutEnv0 TextMode.default _ names_ab 44 (ascii "g") commaGroup commaGroup_fine commaGroup_fair
    [(0, []), (1, [])] (by decide +kernel) (by simp)
  rw [g1, Res.ok.injEq] at h1
  subst h1
  rw [g2, Res.ok.injEq] at h2
  subst h2
  obtain ⟨text, a1, a2⟩ := h3 (decoded (sepMode TAB) (ascii "1,2\t3\n"))
  obtain ⟨text', b1, b2, _⟩ := g3 (decoded (sepMode TAB) (ascii "1,2\t3\n"))
  rw [b1, Option.some.injEq] at a1
  subst a1
  rw [b2 (by decide)] at a2
  revert a2
  decide +kernel

example : ∃ s c, groupSpec cutEnv0 (ascii ",g:a,b") = .ok s ∧ s.lookup cutEnv0 [ascii "a", ascii "b"] = .ok c ∧
    ∃ text, c.write cutEnv0 TextMode.default (decoded (sepMode TAB) (ascii "1\t3\n")) = some text ∧ sliceSplit 44 text = [ascii "1", ascii "3"] := by
  obtain ⟨s, c, g1, g2, _, g3⟩ := C131_group_partial cutEnv0 TextMode.default _ names_ab 44 (ascii "g") commaGroup commaGroup_fine commaGroup_fair
    [(0, []), (1, [])] (by decide +kernel) (by simp)
  obtain ⟨text, h1, _, h2⟩ := g3 (decoded (sepMode TAB) (ascii "1\t3\n"))
  exact ⟨s, c, g1, g2, text, h1, (h2 (by decide +kernel)).trans (by decide +kernel)⟩

/-! ## C132: as many fields as names -/

/-- Every row has as many fields as the header has names, which has ` CDX` before them. -/
def C132_statement : Prop := ∀ (env : CutEnv) (nameOk : Bytes → Bool) (m t : TextMode) (mode : HeaderMode) (opts : List (Bytes × Bytes))
  (file out head : Bytes) (rows : List Bytes), t = TextMode.default → isCdx file = true → cutMain env nameOk m t mode opts [file] = .ok out →
    cutLines out = head :: rows → ∀ l ∈ rows, (sliceSplit t.delim l).length + 1 = (sliceSplit t.delim head).length

/-- A group with the delimiter of the output adds a field. -/
theorem C132_refuted : ¬ C132_statement := by
  intro h
  have := h cutEnv0 (fun _ => true) TextMode.default TextMode.default .matching [(ascii "group", ascii "\tg:a,b")] (ascii " CDX\ta\tb\n1\t2\n")
    (ascii " CDX\tg\n1\t2\n") (ascii " CDX\tg\n") [ascii "1\t2\n"] rfl (by decide +kernel) (by decide +kernel) (by decide +kernel) (ascii "1\t2\n") (by simp)
  revert this
  decide +kernel

/-- With no column left, as in `-f a -f ~a-b`, a row still has an empty field for them. -/
theorem C132_none_refuted : ¬ C132_statement := by
  intro h
  have := h cutEnv0 (fun _ => true) TextMode.default TextMode.default .matching [(ascii "fields", ascii "a"), (ascii "fields", ascii "~a-b")]
    (ascii " CDX\ta\tb\n1\t2\n") (ascii " CDX\ta\n1\t\n") (ascii " CDX\ta\n") [ascii "1\t\n"] rfl (by decide +kernel) (by decide +kernel) (by decide +kernel)
    (ascii "1\t\n") (by simp)
  revert this
  decide +kernel

/-- Values can not be confused with the delimiter. -/
def Unmixed (t : TextMode) : Prop := (t.col = .plain ∧ t.repl ≠ t.delim) ∨ (t.col = .backslash ∧ LetterEscaped t.delim)

/-- Groups have another delimiter than the output and no delimiter of the output in them, nor has the value of an expression. -/
def Want.Own (env : CutEnv) (t : TextMode) (names : List Bytes) (line : TextLine) : Want → Prop
  | .fields _ => True
  | .group g _ _ => g ≠ t.delim ∧ t.delim ≠ SP ∧ ∀ v ∈ line.vec, t.delim ∉ v
  | .expr _ f => ∀ v, env.eval f names = .ok v → t.delim ∉ v line
  | .comp _ _ => True

theorem unmixed_write {t : TextMode} (h : Unmixed t) (v : Bytes) : t.delim ∉ t.write v := by
  rcases h with ⟨h1, h2⟩ | ⟨h1, h2⟩
  · simp only [TextMode.write, writeCol, h1]
    exact not_mem_writePlain _ _ _ _ v h2 (Or.inl rfl)
  · simp only [TextMode.write, writeCol, h1]
    exact not_mem_writeBackslash' _ _ _ v (Or.inl rfl) h2

theorem cells_own (env : CutEnv) (t : TextMode) (ht : Unmixed t) (names : List Bytes) (line : TextLine) (w : Want) (hs : w.Suits env names)
    (ho : w.Own env t names line) : (w.cells env t names line).length = (w.outNames names).length ∧ ∀ c ∈ w.cells env t names line, t.delim ∉ c := by
  cases w with
  | fields is =>
    refine ⟨by simp [Want.cells, Want.outNames], ?_⟩
    intro c hc
    simp only [Want.cells, List.mem_map] at hc
    obtain ⟨x, _, rfl⟩ := hc
    exact unmixed_write ht _
  | group g name is =>
    refine ⟨rfl, ?_⟩
    intro c hc
    simp only [Want.cells, List.mem_singleton] at hc
    subst hc
    obtain ⟨h1, h2, h3⟩ := ho
    intro hm
    rcases mem_intercalate hm with h | ⟨c, hc, hx⟩
    · exact h1 h.symm
    · obtain ⟨x, _, rfl⟩ := List.mem_map.1 hc
      unfold blanked at hx
      obtain ⟨b, hb, e⟩ := List.mem_map.1 hx
      split at e
      · exact h2 e.symm
      · subst e
        rw [List.getD_eq_getElem?_getD] at hb
        cases hi : line.vec[x.1]? with
        | none => rw [hi] at hb; simp at hb
        | some c => rw [hi] at hb; exact h3 c (List.mem_of_getElem? hi) hb
  | expr name f =>
    obtain ⟨v, hv⟩ := hs
    simp only [Want.cells, hv, Want.outNames]
    exact ⟨rfl, fun c hc => by
      simp only [List.mem_singleton] at hc
      subst hc
      exact ho v hv⟩
  | comp name ps =>
    refine ⟨rfl, ?_⟩
    intro c hc
    simp only [Want.cells, List.mem_singleton] at hc
    subst hc
    exact unmixed_write ht _

/-- The columns found for what is asked for write, for every line, a row with as many fields as names. -/
theorem C132_width_partial (env : CutEnv) (t : TextMode) (ht : Unmixed t) (names : List Bytes) (hn : ∀ n ∈ names, IsName n) (ws : List Want)
    (hws : ws ≠ []) (hf : ∀ w ∈ ws, w.Fine env) (hs : ∀ w ∈ ws, w.Suits env names) (dups : DupColHandling) :
    ∃ specs cs, cutOptions env dups (ws.map Want.opt) = .ok (dups, specs) ∧ cutLookup env names specs = .ok cs ∧
      ∀ line : TextLine, (∀ w ∈ ws, w.Own env t names line) → ∃ text, writerWrite t.delim (cs.map fun c l => c.write env t l) line = some (text ++ [NL]) ∧
        (sliceSplit t.delim text).length = (cs.flatMap (·.names names)).length := by
  have hq : t.col ≠ .quote := by
    rcases ht with h | h <;> rw [h.1] <;> simp
  obtain ⟨cs, h1, h2, h3⟩ := want_lookups env t hq names hn ws hf hs
  refine ⟨ws.map Want.spec, cs, cutOptions_spec env dups ws hf, h1, ?_⟩
  intro line ho
  obtain ⟨a1, a2⟩ := h3 line
  refine ⟨List.intercalate [t.delim] (ws.flatMap (Want.cells env t names line)), ?_, ?_⟩
  · rw [C21_writer t.delim line _ (ws.map (Want.cells env t names line)) (by rw [← a1]; simp [Function.comp_def]) a2]
    simp [List.flatMap_def]
  · rw [sliceSplit_intercalate, h2]
    · have : ∀ ws' : List Want, (∀ w ∈ ws', w ∈ ws) → (ws'.flatMap (Want.cells env t names line)).length = (ws'.flatMap (Want.outNames names)).length := by
        intro ws'
        induction ws' with
        | nil => intro _; rfl
        | cons w ws' ih =>
          intro hsub
          rw [List.flatMap_cons, List.flatMap_cons, List.length_append, List.length_append, ih (fun x hx => hsub x (by simp [hx])),
            (cells_own env t ht names line w (hs w (hsub w (by simp))) (ho w (hsub w (by simp)))).1]
      exact this ws (fun _ h => h)
    · intro e
      cases ws with
      | nil => exact hws rfl
      | cons w ws =>
        rw [List.flatMap_cons, List.append_eq_nil_iff] at e
        exact a2 _ (by simp) e.1
    · intro c hc
      obtain ⟨w, hw, hm⟩ := List.mem_flatMap.1 hc
      exact (cells_own env t ht names line w (hs w hw) (ho w hw)).2 c hm

example : ∃ specs cs, cutOptions cutEnv0 .fail [(ascii "group", ascii ",g:a,b")] = .ok (.fail, specs) ∧
    cutLookup cutEnv0 [ascii "a", ascii "b"] specs = .ok cs ∧ ∃ text, writerWrite TAB (cs.map fun c l => c.write cutEnv0 TextMode.default l)
      (decoded TextMode.default (ascii "1\t3\n")) = some (text ++ [NL]) ∧
      (sliceSplit TAB text).length = (cs.flatMap (·.names [ascii "a", ascii "b"])).length := by
  obtain ⟨specs, cs, h1, h2, h3⟩ := C132_width_partial cutEnv0 TextMode.default (Or.inl ⟨rfl, by decide⟩) _ names_ab [.group 44 (ascii "g") commaGroup]
    (by simp) (by simpa using commaGroup_fine) (by
      simp only [List.mem_singleton, forall_eq]
      exact ⟨⟨[(0, []), (1, [])], by decide +kernel⟩, commaGroup_fair⟩) .fail
  obtain ⟨text, h4, h5⟩ := h3 (decoded TextMode.default (ascii "1\t3\n")) (by
    simp only [List.mem_singleton, forall_eq, Want.Own]
    decide +kernel)
  exact ⟨specs, cs, h1, h2, text, h4, h5⟩

end Cdx
