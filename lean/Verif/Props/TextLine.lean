import Verif.Lemmas.TextLine

/-!
Properties of splitting and writing columns: C04, C05, C06, C07, C08, C16, C17, C50.
-/

namespace Cdx

/-! ## C04: plain splitting inverts joining -/

/-- Plain-mode split of a raw line. -/
abbrev plainLine (raw : Bytes) (d : UInt8) : TextLine := (TextLine.ofRaw raw).split .plain d

theorem plainLine_vec (d : UInt8) (body : Bytes) (hd : d ≠ NL) :
    (plainLine (body ++ [NL]) d).vec = sliceSplit d body :=
  (splitPlain_spec d body hd).1

theorem TextLine.get_eq_vec (l : TextLine) (i : Nat) : l.get i = l.vec.getD i [] := by
  unfold TextLine.get TextLine.vec
  rw [List.getD_eq_getElem?_getD, List.getElem?_map]
  cases l.parts[i]? <;> rfl

/-- Joining delimiter- and newline-free columns and splitting gives the columns back. -/
theorem C04_split_join (d : UInt8) (hd : d ≠ NL) (cols : List Bytes) (hne : cols ≠ [])
    (hfree : ∀ c ∈ cols, d ∉ c ∧ NL ∉ c) :
    let l := plainLine (List.intercalate [d] cols ++ [NL]) d
    l.vec = cols ∧ l.len = cols.length ∧ ∀ i, l.get i = cols.getD i [] := by
  have hv : (plainLine (List.intercalate [d] cols ++ [NL]) d).vec = cols := by
    rw [plainLine_vec d _ hd]
    exact sliceSplit_intercalate d cols hne (fun c hc => (hfree c hc).1)
  refine ⟨hv, ?_, fun i => by rw [TextLine.get_eq_vec, hv]⟩
  have := congrArg List.length hv
  simpa [TextLine.vec, TextLine.len] using this

/-- Joining the columns of any newline-terminated line reproduces it. -/
theorem C04_join_split (d : UInt8) (hd : d ≠ NL) (body : Bytes) :
    List.intercalate [d] (plainLine (body ++ [NL]) d).vec ++ [NL] = body ++ [NL] := by
  rw [plainLine_vec d _ hd, intercalate_sliceSplit]

/-- The slices never leave the line, so column access does not panic, and columns contain no
delimiter. -/
theorem C04_slices_in_bounds (d : UInt8) (hd : d ≠ NL) (body : Bytes) :
    (∀ s ∈ (plainLine (body ++ [NL]) d).parts, s.Within (body ++ [NL])) ∧
      ∀ c ∈ (plainLine (body ++ [NL]) d).vec, d ∉ c := by
  refine ⟨(splitPlain_spec d body hd).2, ?_⟩
  rw [plainLine_vec d _ hd]
  exact not_mem_sliceSplit d body

example : ∃ (d : UInt8) (cols : List Bytes), d ≠ NL ∧ cols ≠ [] ∧ (∀ c ∈ cols, d ∉ c ∧ NL ∉ c) ∧
    cols.length = 3 := ⟨TAB, [[97], [], [98, 99]], by decide⟩

/-! ## C05: split and single-column extraction agree -/

theorem C05_get_col_agrees (d : UInt8) (hd : d ≠ NL) (body : Bytes) (hb : NL ∉ body) (n : Nat) :
    getCol (body ++ [NL]) n d = (plainLine (body ++ [NL]) d).get n := by
  rw [TextLine.get_eq_vec, plainLine_vec d _ hd, List.getD_eq_getElem?_getD]
  unfold getCol
  rw [sliceSplit_snoc d body NL (Ne.symm hd)]
  have hne := sliceSplit_ne_nil d body
  have hfree : ∀ c ∈ sliceSplit d body, NL ∉ c := by
    intro c hc hn
    apply hb
    rw [← intercalate_sliceSplit d body]
    clear hd hb
    generalize sliceSplit d body = L at *
    induction L with
    | nil => simp at hc
    | cons a t ih =>
      by_cases ht : t = []
      · subst ht
        simp only [List.mem_singleton] at hc
        subst hc
        simpa using hn
      · rw [intercalate_cons_ne _ _ ht]
        simp only [List.mem_cons] at hc
        simp only [List.mem_append]
        rcases hc with rfl | hc
        · exact Or.inl (Or.inl hn)
        · exact Or.inr (ih ht hc)
  generalize sliceSplit d body = L at *
  obtain ⟨init, last, rfl⟩ : ∃ init last, L = init ++ [last] :=
    ⟨L.dropLast, L.getLast hne, (List.dropLast_concat_getLast hne).symm⟩
  rw [List.dropLast_concat]
  have hlast : (init ++ [last]).getLastD [] = last := by simp [List.getLastD_eq_getLast?]
  rw [hlast]
  rcases Nat.lt_trichotomy n init.length with h | h | h
  · rw [List.getElem?_append_left h, List.getElem?_append_left h]
    have hmem : init[n] ∈ init ++ [last] := by simp
    have := hfree _ hmem
    rw [List.getElem?_eq_getElem h]
    simp only [Option.getD_some]
    split
    · rename_i h2
      exact absurd (List.mem_of_getLast? h2.2) this
    · rfl
  · subst h
    simp
  · rw [List.getElem?_eq_none (by simp; omega), List.getElem?_eq_none (by simp; omega)]
    rfl

example : ∃ (body : Bytes), NL ∉ body ∧ (plainLine (body ++ [NL]) TAB).get 1 = [98] :=
  ⟨[97, 9, 98], by decide⟩

/-! ## C06: backslash mode round trip -/

/-- The line that results from writing a row in backslash mode and splitting it again. -/
abbrev backslashTrip (d repl : UInt8) (cols : List Bytes) : TextLine :=
  (TextLine.ofRaw (writeRow .backslash d NL repl cols)).split .backslash d

theorem stripNL_writeRow (d repl : UInt8) (hd : d ≠ NL) (cols : List Bytes) :
    stripNL (writeRow .backslash d NL repl cols) =
      List.intercalate [d] (cols.map (writeBackslash d NL)) := by
  unfold writeRow
  have : writeCol .backslash d NL repl = writeBackslash d NL := by
    funext b; rfl
  rw [this]
  apply stripNL_snoc
  intro h
  rcases mem_intercalate h with h | ⟨c, hc, hx⟩
  · exact hd h.symm
  · simp only [List.mem_map] at hc
    obtain ⟨v, _, rfl⟩ := hc
    exact not_mem_writeBackslash d v hx

theorem C06_backslash_round_trip (d repl : UInt8) (hd : EscapableDelim d) (cols : List Bytes) :
    let l := backslashTrip d repl cols
    (∀ i, l.get i = cols.getD i []) ∧
      l.len = (if cols.getLastD [] = [] then cols.length - 1 else cols.length) ∧
      (∀ s ∈ l.parts, s.Within l.line) := by
  cases cols with
  | nil =>
    have h : (backslashTrip d repl []).parts = [] := by
      simp [backslashTrip, TextLine.split, TextLine.ofRaw, splitBackslash,
        stripNL_writeRow d repl hd.1]
    refine ⟨fun i => ?_, ?_, ?_⟩
    · unfold TextLine.get; rw [h]; simp
    · unfold TextLine.len; rw [h]; simp
    · rw [h]; simp
  | cons c cs =>
    obtain ⟨P, b', h1, h2, h3, h4, h5⟩ :=
      bsFold_row d hd c cs ⟨[], [], 0, 0, false⟩ rfl rfl (by simp)
    simp only [List.nil_append, List.drop_nil] at h1 h2 h3 h4 h5
    generalize hT : List.intercalate [d] (c :: cs) = T at *
    have hs : splitBackslash (writeRow .backslash d NL repl (c :: cs)) d =
        (T, if b' ≠ T.length then P ++ [⟨b', T.length⟩] else P) := by
      unfold splitBackslash
      rw [stripNL_writeRow d repl hd.1, h1]
    have hl : backslashTrip d repl (c :: cs) =
        ⟨T, if b' ≠ T.length then P ++ [⟨b', T.length⟩] else P,
          writeRow .backslash d NL repl (c :: cs)⟩ := by
      simp only [backslashTrip, TextLine.split, TextLine.ofRaw, hs]
    have hlastget : (⟨b', T.length⟩ : Slice).get T = T.drop b' := by
      unfold Slice.get
      exact List.take_of_length_le (by simp)
    have hlast : (c :: cs).getLastD [] = T.drop b' := by
      rw [← h5]; simp [List.getLastD_eq_getLast?]
    have hlen : (c :: cs).length = P.length + 1 := by simp [h3]
    rw [hl]
    by_cases hb : b' = T.length
    · subst hb
      simp only [ne_eq, not_true, if_false]
      have hnil : T.drop T.length = [] := by simp
      rw [hnil] at h5 hlast
      refine ⟨fun i => ?_, ?_, h4⟩
      · rw [TextLine.get_eq_vec]
        unfold TextLine.vec
        simp only
        rw [← h5]
        simp only [List.getD_eq_getElem?_getD]
        rcases Nat.lt_trichotomy i P.length with h | h | h
        · rw [List.getElem?_append_left (by simpa using h)]
        · subst h
          rw [List.getElem?_append_right (by simp)]
          simp
        · rw [List.getElem?_eq_none (by simp; omega), List.getElem?_eq_none (by simp; omega)]
      · simp only [hlast, if_true, TextLine.len, hlen]; omega
    · simp only [ne_eq, hb, not_false_iff, if_true]
      refine ⟨fun i => ?_, ?_, ?_⟩
      · rw [TextLine.get_eq_vec]
        unfold TextLine.vec
        simp only [List.map_append, List.map_cons, List.map_nil, hlastget, h5]
      · have : T.drop b' ≠ [] := by
          intro he
          have := congrArg List.length he
          simp at this; omega
        simp only [hlast, this, if_false, TextLine.len, hlen]
        simp
      · intro s hs
        simp only [List.mem_append, List.mem_singleton] at hs
        rcases hs with hs | rfl
        · exact h4 s hs
        · exact ⟨h2, Nat.le_refl _⟩

example : EscapableDelim TAB ∧ EscapableDelim 44 := by unfold EscapableDelim; decide

/-- A concrete non-trivial row: tab, backslash and newline inside values. -/
example : (backslashTrip TAB SP [[97, 9, 92], [], [10, 98]]).vec = [[97, 9, 92], [], [10, 98]] := by
  decide

/-- Why the delimiter is restricted: with delimiter `n` the value `"n"` comes back as a newline. -/
theorem C06_delim_n_not_escapable : (backslashTrip CH_n SP [[CH_n]]).get 0 = [NL] := by decide

/-! ## C07: a written row is one physical line -/

theorem count_intercalate (x d : UInt8) (cols : List Bytes) (f : Bytes → Bytes)
    (hf : ∀ v, x ∉ f v) :
    (List.intercalate [d] (cols.map f)).count x = if x = d then cols.length - 1 else 0 := by
  induction cols with
  | nil => simp [List.intercalate]
  | cons a t ih =>
    by_cases ht : t = []
    · subst ht
      simp only [List.map_cons, List.map_nil, intercalate_singleton]
      rw [List.count_eq_zero_of_not_mem (hf a)]
      simp
    · have ht' : t.map f ≠ [] := by simpa using ht
      rw [List.map_cons, intercalate_cons_ne _ _ ht', List.count_append, List.count_append, ih,
        List.count_eq_zero_of_not_mem (hf a)]
      have : 0 < t.length := List.length_pos_iff.2 ht
      by_cases hx : x = d
      · subst hx; simp; omega
      · simp [hx, Ne.symm hx]

/-- Terminators and delimiters that backslash mode turns into letters. -/
def LetterEscaped (c : UInt8) : Prop := c = TAB ∨ c = CR ∨ c = NL

theorem not_mem_writePlain (d e r x : UInt8) (v : Bytes) (hr : r ≠ x) (hx : x = d ∨ x = e) :
    x ∉ writePlain d e r v := by
  unfold writePlain
  simp only [List.mem_flatMap, not_exists, not_and]
  intro a _
  split
  · simpa using Ne.symm hr
  · rename_i h
    simp only [not_or] at h
    simp only [List.mem_singleton]
    rintro rfl
    rcases hx with hx | hx
    · exact h.1 hx
    · exact h.2 hx

theorem not_mem_writeBackslash' (d e x : UInt8) (v : Bytes) (hx : x = d ∨ x = e)
    (hl : LetterEscaped x) : x ∉ writeBackslash d e v := by
  unfold writeBackslash
  simp only [List.mem_flatMap, not_exists, not_and]
  intro a _
  split
  · simp only [List.mem_cons, List.not_mem_nil, or_false, not_or]
    refine ⟨by rcases hl with rfl | rfl | rfl <;> decide, ?_⟩
    unfold enslash
    split
    · rcases hl with rfl | rfl | rfl <;> decide
    · split
      · rcases hl with rfl | rfl | rfl <;> decide
      · split
        · rcases hl with rfl | rfl | rfl <;> decide
        · rename_i h1 h2 h3
          rintro rfl
          rcases hl with h | h | h
          · exact h3 h
          · exact h2 h
          · exact h1 h
  · rename_i h
    simp only [not_or] at h
    simp only [List.mem_singleton]
    rintro rfl
    rcases hx with hx | hx
    · exact h.1 hx
    · exact h.2.1 hx

/-- In plain mode (distinct delimiter, terminator, replacement) and in backslash mode (delimiter and
terminator among tab, CR, LF), a written row is one line with one delimiter fewer than columns. -/
theorem C07_row_is_one_line (mode : QuoteMode) (d eol repl : UInt8) (hde : d ≠ eol)
    (hm : (mode = .plain ∧ repl ≠ d ∧ repl ≠ eol) ∨
      (mode = .backslash ∧ LetterEscaped d ∧ LetterEscaped eol)) (cols : List Bytes) :
    (writeRow mode d eol repl cols).getLast? = some eol ∧
      (writeRow mode d eol repl cols).count eol = 1 ∧
      (writeRow mode d eol repl cols).count d = cols.length - 1 := by
  have hfd : ∀ v, d ∉ writeCol mode d eol repl v := by
    intro v
    rcases hm with ⟨rfl, h1, h2⟩ | ⟨rfl, h1, h2⟩
    · exact not_mem_writePlain _ _ _ _ _ h1 (Or.inl rfl)
    · exact not_mem_writeBackslash' _ _ _ _ (Or.inl rfl) h1
  have hfe : ∀ v, eol ∉ writeCol mode d eol repl v := by
    intro v
    rcases hm with ⟨rfl, h1, h2⟩ | ⟨rfl, h1, h2⟩
    · exact not_mem_writePlain _ _ _ _ _ h2 (Or.inr rfl)
    · exact not_mem_writeBackslash' _ _ _ _ (Or.inr rfl) h2
  unfold writeRow
  refine ⟨by simp, ?_, ?_⟩
  · rw [List.count_append, count_intercalate _ _ _ _ hfe]
    simp [Ne.symm hde]
  · rw [List.count_append, count_intercalate _ _ _ _ hfd]
    simp [Ne.symm hde]

example : ∃ mode d eol repl, d ≠ eol ∧ ((mode = QuoteMode.plain ∧ repl ≠ d ∧ repl ≠ eol) ∨
    (mode = .backslash ∧ LetterEscaped d ∧ LetterEscaped eol)) ∧ mode = .backslash :=
  ⟨.backslash, TAB, NL, SP, by decide, Or.inr ⟨rfl, Or.inl rfl, Or.inr (Or.inr rfl)⟩, rfl⟩

/-- In plain mode the columns come back too, with the offending bytes replaced. -/
theorem C07_plain_round_trip (d repl : UInt8) (hd : d ≠ NL) (hr : repl ≠ d) (hr2 : repl ≠ NL)
    (cols : List Bytes) (hne : cols ≠ []) :
    (plainLine (writeRow .plain d NL repl cols) d).vec = cols.map (writePlain d NL repl) := by
  have := (C04_split_join d hd (cols.map (writePlain d NL repl)) (by simpa using hne) (by
    intro c hc
    simp only [List.mem_map] at hc
    obtain ⟨v, _, rfl⟩ := hc
    exact ⟨not_mem_writePlain _ _ _ _ _ hr (Or.inl rfl),
      not_mem_writePlain _ _ _ _ _ hr2 (Or.inr rfl)⟩)).1
  exact this

/-! ## C08: quote mode round trip -/

abbrev quoteTrip (d repl : UInt8) (cols : List Bytes) : TextLine :=
  (TextLine.ofRaw (writeRow .quote d NL repl cols)).split .quote d

/-- Full statement of C08 (false for the code). -/
def C08_statement : Prop :=
  ∀ (d repl : UInt8), d ≠ NL → d ≠ QUOTE → ∀ cols : List Bytes, cols ≠ [] →
    ∀ i, (quoteTrip d repl cols).get i = cols.getD i []

/-- `a,b` is written as `a",b` and read back as the two columns `a` and `b`. -/
theorem C08_refuted : ¬ C08_statement := by
  intro h
  have := h 44 SP (by decide) (by decide) [[97, 44, 98]] (by decide) 0
  revert this
  decide

/-- Two adjacent quotes come back as three. -/
theorem C08_refuted_quotes : (quoteTrip 44 SP [[QUOTE, QUOTE]]).get 0 = [QUOTE, QUOTE, QUOTE] := by
  decide

/-- C08, the part that holds: values without the delimiter, without newline and without two adjacent
quote characters come back unchanged. Missing: values containing the delimiter, a newline or adjacent
quotes, for which the code is wrong (see `C08_refuted`, `C08_refuted_quotes`). -/
theorem C08_quote_round_trip_partial (d repl : UInt8) (hd : d ≠ NL) (hq : d ≠ QUOTE)
    (cols : List Bytes) (hv : ∀ c ∈ cols, d ∉ c ∧ NL ∉ c ∧ ¬ [QUOTE, QUOTE] <:+: c) :
    ∀ i, (quoteTrip d repl cols).get i = cols.getD i [] := by
  have hw : ∀ c ∈ cols, writeCol .quote d NL repl c = encQ c := by
    intro c hc
    exact writeQuotes_free d c (hv c hc).1 (hv c hc).2.1
  have hrow : writeRow .quote d NL repl cols = List.intercalate [d] (cols.map encQ) ++ [NL] := by
    unfold writeRow
    rw [List.map_congr_left hw]
  have hstrip : stripNL (writeRow .quote d NL repl cols) =
      List.intercalate [d] (cols.map encQ) := by
    rw [hrow]
    apply stripNL_snoc
    intro h
    rcases mem_intercalate h with h | ⟨c, hc, hx⟩
    · exact hd h.symm
    · simp only [List.mem_map] at hc
      obtain ⟨v, hv', rfl⟩ := hc
      exact not_mem_encQ v (hv v hv').2.1 hx
  cases cols with
  | nil =>
    intro i
    simp [quoteTrip, TextLine.split, TextLine.ofRaw, splitQuotes, hstrip, TextLine.get]
  | cons c cs =>
    obtain ⟨P, b', q, lq, h1, h2, h5⟩ := qFold_row d hq c cs ⟨[], [], 0, 0, false, false⟩ rfl rfl
      (by simp) (fun v hv' => ⟨(hv v hv').1, (hv v hv').2.2⟩)
    simp only [List.nil_append, List.drop_nil] at h1 h2 h5
    generalize hT : List.intercalate [d] (c :: cs) = T at *
    have hs : splitQuotes (writeRow .quote d NL repl (c :: cs)) d =
        (T, if b' ≠ T.length then P ++ [⟨b', T.length⟩] else P) := by
      unfold splitQuotes
      rw [hstrip, h1]
    have hl : quoteTrip d repl (c :: cs) =
        ⟨T, if b' ≠ T.length then P ++ [⟨b', T.length⟩] else P,
          writeRow .quote d NL repl (c :: cs)⟩ := by
      simp only [quoteTrip, TextLine.split, TextLine.ofRaw, hs]
    have hlastget : (⟨b', T.length⟩ : Slice).get T = T.drop b' := by
      unfold Slice.get
      exact List.take_of_length_le (by simp)
    intro i
    rw [hl, TextLine.get_eq_vec, ← h5]
    unfold TextLine.vec
    by_cases hb : b' = T.length
    · subst hb
      simp only [ne_eq, not_true, if_false, List.drop_length]
      simp only [List.getD_eq_getElem?_getD]
      rcases Nat.lt_trichotomy i P.length with h | h | h
      · rw [List.getElem?_append_left (by simpa using h)]
      · subst h
        rw [List.getElem?_append_right (by simp)]
        simp
      · rw [List.getElem?_eq_none (by simp; omega), List.getElem?_eq_none (by simp; omega)]
    · simp only [ne_eq, hb, not_false_iff, if_true, List.map_append, List.map_cons, List.map_nil,
        hlastget]

example : ∀ c ∈ ([[97, 34, 98], [], [34]] : List Bytes),
    (44 : UInt8) ∉ c ∧ NL ∉ c ∧ ¬ [QUOTE, QUOTE] <:+: c := by decide

/-! ## C16: literal escape decoding -/

/-- The character meant by a backslash followed by `c`. -/
def Spec.escaped (c : UInt8) : UInt8 :=
  if c = CH_n then NL else if c = CH_t then TAB else if c = CH_s then SP else c

theorem unescapeLoop_free (a rest : Bytes) (ha : BSLASH ∉ a) :
    unescapeLoop false (a ++ rest) = a ++ unescapeLoop false rest := by
  induction a with
  | nil => simp
  | cons x xs ih =>
    simp only [List.mem_cons, not_or] at ha
    simp [unescapeLoop, Ne.symm ha.1, ih ha.2]

/-- Decoding is determined by these three cases: text without backslash is unchanged; an escape decodes
to one character and decoding goes on behind it; a lone final backslash is kept. -/
theorem C16_unescape_cases (a : Bytes) (ha : BSLASH ∉ a) :
    unescapeVec a = a ∧
    (∀ c rest, unescapeVec (a ++ BSLASH :: c :: rest) = a ++ Spec.escaped c :: unescapeVec rest) ∧
    unescapeVec (a ++ [BSLASH]) = a ++ [BSLASH] := by
  unfold unescapeVec
  refine ⟨?_, fun c rest => ?_, ?_⟩
  · simpa [unescapeLoop] using unescapeLoop_free a [] ha
  · rw [unescapeLoop_free a _ ha]
    simp [unescapeLoop, Spec.escaped]
  · rw [unescapeLoop_free a _ ha]
    simp [unescapeLoop]

/-- Every byte string can be written in-line, without newline, tab or space. -/
theorem C16_every_text_has_an_encoding (v : Bytes) :
    ∃ e, unescapeVec e = v ∧ NL ∉ e ∧ TAB ∉ e ∧ SP ∉ e := by
  induction v with
  | nil => exact ⟨[], by simp [unescapeVec, unescapeLoop]⟩
  | cons x xs ih =>
    obtain ⟨e, he, h1, h2, h3⟩ := ih
    unfold unescapeVec at *
    by_cases hn : x = NL
    · exact ⟨BSLASH :: CH_n :: e, by simp +decide [unescapeLoop, he, hn], by simpa +decide using h1,
        by simpa +decide using h2, by simpa +decide using h3⟩
    · by_cases ht : x = TAB
      · exact ⟨BSLASH :: CH_t :: e, by simp +decide [unescapeLoop, he, ht], by simpa +decide using h1,
          by simpa +decide using h2, by simpa +decide using h3⟩
      · by_cases hs : x = SP
        · exact ⟨BSLASH :: CH_s :: e, by simp +decide [unescapeLoop, he, hs], by simpa +decide using h1,
            by simpa +decide using h2, by simpa +decide using h3⟩
        · by_cases hb : x = BSLASH
          · exact ⟨BSLASH :: BSLASH :: e, by simp +decide [unescapeLoop, he, hb], by simpa +decide using h1,
              by simpa +decide using h2, by simpa +decide using h3⟩
          · exact ⟨x :: e, by simp +decide [unescapeLoop, he, hb],
              by simp only [List.mem_cons, not_or]; exact ⟨Ne.symm hn, h1⟩,
              by simp only [List.mem_cons, not_or]; exact ⟨Ne.symm ht, h2⟩,
              by simp only [List.mem_cons, not_or]; exact ⟨Ne.symm hs, h3⟩⟩

example : unescapeVec [97, BSLASH, CH_n, 98, BSLASH, BSLASH] = [97, NL, 98, BSLASH] := by decide

/-! ## C17: trailing newline removal -/

theorem C17_chomp (x : Bytes) :
    ∃ suffix, x = chomp x ++ suffix ∧ (∀ c ∈ suffix, c = NL ∨ c = CR) ∧
      ∀ c, (chomp x).getLast? = some c → c ≠ NL ∧ c ≠ CR := by
  refine ⟨(x.reverse.takeWhile (fun c => c == NL || c == CR)).reverse, ?_, ?_, ?_⟩
  · unfold chomp
    rw [← List.reverse_append, List.takeWhile_append_dropWhile, List.reverse_reverse]
  · intro c hc
    rw [List.mem_reverse] at hc
    have := List.all_takeWhile (p := fun c => c == NL || c == CR) (l := x.reverse)
    rw [List.all_eq_true] at this
    simpa using this c hc
  · intro c hc
    unfold chomp at hc
    rw [List.getLast?_reverse] at hc
    have := List.head?_dropWhile_not (fun c => c == NL || c == CR) x.reverse
    rw [hc] at this
    simpa [not_or] using this

theorem C17_chomp_idempotent (x : Bytes) : chomp (chomp x) = chomp x := by
  obtain ⟨s, h1, h2, _⟩ := C17_chomp (chomp x)
  obtain ⟨_, _, _, h3⟩ := C17_chomp x
  cases hs : s.getLast? with
  | none =>
    have : s = [] := by simpa using hs
    subst this; simpa using h1.symm
  | some c =>
    have hl : (chomp x).getLast? = some c := by
      rw [h1, List.getLast?_append, hs]; rfl
    have := h3 c hl
    rcases h2 c (List.mem_of_getLast? hs) with h | h
    · exact absurd h this.1
    · exact absurd h this.2

example : chomp [97, CR, NL, 98, CR, NL, NL] = [97, CR, NL, 98] := by decide

/-! ## C50: copying a line -/

/-- Full statement of C50 (false for the code): after `assign`, the written text is that of the
source. -/
def C50_statement : Prop :=
  ∀ (mode : QuoteMode) (d : UInt8) (raw1 raw2 : Bytes),
    let dst := (TextLine.ofRaw raw1).split mode d
    let src := (TextLine.ofRaw raw2).split mode d
    (dst.assign src).text = src.text

/-- In backslash mode the destination keeps printing its old text. -/
theorem C50_refuted : ¬ C50_statement := by
  intro h
  have := h .backslash TAB [97, NL] [98, NL]
  revert this
  decide

/-- C50, the part that holds: columns and column count are copied in every mode, the written text in
plain mode. Missing: the written text in backslash and quote mode. -/
theorem C50_assign_partial (mode : QuoteMode) (d : UInt8) (raw1 raw2 : Bytes) :
    let dst := (TextLine.ofRaw raw1).split mode d
    let src := (TextLine.ofRaw raw2).split mode d
    (dst.assign src).vec = src.vec ∧ (dst.assign src).len = src.len ∧
      (∀ i, (dst.assign src).get i = src.get i) ∧
      (mode = .plain → (dst.assign src).text = src.text) := by
  refine ⟨rfl, rfl, fun i => rfl, ?_⟩
  rintro rfl
  rfl

end Cdx
