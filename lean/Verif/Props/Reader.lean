import Verif.Lemmas.Reader

/-!
Properties of reading lines and of the `Reader`: C09, C10, C11, C65.
-/

namespace Cdx

/-! ## C09: reading by lines loses nothing -/

/-- Specification: the file with its final terminator supplied, if it is non-empty and lacks it. -/
def withFinalEol (eol : UInt8) (file : Bytes) : Bytes :=
  if file = [] ∨ file.getLast? = some eol then file else file ++ [eol]

theorem withFinalEol_append (eol : UInt8) (a b : Bytes) (hb : b ≠ []) :
    withFinalEol eol (a ++ b) = a ++ withFinalEol eol b := by
  unfold withFinalEol
  have : (a ++ b).getLast? = b.getLast? := by
    simp [List.getLast?_append, List.getLast?_eq_some_getLast hb]
  simp only [this, List.append_eq_nil_iff, hb, and_false, false_or]
  split <;> simp

theorem C09_lossless (mode : QuoteMode) (eol : UInt8) (file : Bytes) :
    (readLines mode eol file).flatten = withFinalEol eol file := by
  refine readLines_induction mode eol (fun f => (readLines mode eol f).flatten = withFinalEol eol f)
    ?_ ?_ file
  · simp [readLines_nil, withFinalEol]
  · intro f l rest h ih
    obtain ⟨c, hl, hf, hs⟩ := readLine_some mode eol f l rest h
    rw [readLines_some mode eol f l rest h, List.flatten_cons, ih]
    by_cases hr : rest = []
    · subst hr
      simp only [List.append_nil] at hf
      simp [withFinalEol, hl, ensureEof, hf, hs.ne]
    · have hc : c.getLast? = some eol := by
        by_cases h : c.getLast? = some eol
        · exact h
        · exact absurd (hs.last h) hr
      rw [hf, withFinalEol_append eol c rest hr, hl, ensureEof, if_pos hc]

theorem C09_each_line (mode : QuoteMode) (eol : UInt8) (file : Bytes) :
    ∀ l ∈ readLines mode eol file,
      ∃ body, l = body ++ [eol] ∧ (mode ≠ .quote → eol ∉ body) := by
  refine readLines_induction mode eol (fun f => ∀ l ∈ readLines mode eol f,
      ∃ body, l = body ++ [eol] ∧ (mode ≠ .quote → eol ∉ body)) ?_ ?_ file
  · simp [readLines_nil]
  · intro f l rest h ih l' hl'
    obtain ⟨c, hl, hf, hs⟩ := readLine_some mode eol f l rest h
    rw [readLines_some mode eol f l rest h] at hl'
    rcases List.mem_cons.1 hl' with rfl | hm
    · have hp : mode ≠ .quote → eol ∉ c.dropLast := fun hm => hs.plain (by cases mode <;> simp_all)
      by_cases hc : c.getLast? = some eol
      · refine ⟨c.dropLast, ?_, hp⟩
        have h1 := List.dropLast_concat_getLast hs.ne
        rw [List.getLast?_eq_some_getLast hs.ne, Option.some.injEq] at hc
        rw [hc] at h1
        rw [hl, ensureEof, List.getLast?_eq_some_getLast hs.ne, hc, if_pos rfl, h1]
      · refine ⟨c, by rw [hl, ensureEof, if_neg hc], fun hm hmem => ?_⟩
        have h1 := List.dropLast_concat_getLast hs.ne
        rw [← h1] at hmem
        rcases List.mem_append.1 hmem with h2 | h2
        · exact hp hm h2
        · rw [List.getLast?_eq_some_getLast hs.ne] at hc
          exact hc (congrArg some (List.mem_singleton.1 h2).symm)
    · exact ih l' hm

/-- In quote mode every line but the last has an even number of quotes, and every terminator inside a
line has an odd number of quotes before it, that is, lines are cut at the first terminator outside
quotes. -/
theorem C09_quote_even (eol : UInt8) (file : Bytes) :
    (∀ l ∈ (readLines .quote eol file).dropLast, l.count QUOTE % 2 = 0) ∧
      ∀ l ∈ readLines .quote eol file, ∀ p s, l = p ++ eol :: s → s ≠ [] →
        (p ++ [eol]).count QUOTE % 2 = 1 ∨ s = [eol] := by
  refine readLines_induction .quote eol (fun file =>
    (∀ l ∈ (readLines .quote eol file).dropLast, l.count QUOTE % 2 = 0) ∧
      ∀ l ∈ readLines .quote eol file, ∀ p s, l = p ++ eol :: s → s ≠ [] →
        (p ++ [eol]).count QUOTE % 2 = 1 ∨ s = [eol]) ?_ ?_ file
  · simp [readLines_nil]
  · intro f l rest h ⟨ih1, ih2⟩
    obtain ⟨c, hl, hf, hs⟩ := readLine_some .quote eol f l rest h
    rw [readLines_some .quote eol f l rest h]
    constructor
    · intro l' hl'
      by_cases hr : rest = []
      · subst hr; simp [readLines_nil] at hl'
      · have hne : readLines .quote eol rest ≠ [] := fun h => hr ((readLines_eq_nil _ _ _).1 h)
        rw [List.dropLast_cons_of_ne_nil hne] at hl'
        rcases List.mem_cons.1 hl' with rfl | hm
        · have hc : c.getLast? = some eol := by
            by_cases h : c.getLast? = some eol
            · exact h
            · exact absurd (hs.last h) hr
          have := hs.even rfl hr
          rw [hl, ensureEof, if_pos hc]
          simp only [oddQ, beq_eq_false_iff_ne] at this
          omega
        · exact ih1 l' hm
    · intro l' hl' p s he hsn
      rcases List.mem_cons.1 hl' with rfl | hm
      · rw [hl] at he
        unfold ensureEof at he
        split at he
        · left
          have := hs.minimal rfl p s he hsn
          simpa [oddQ] using this
        · by_cases hs1 : s = [eol]
          · exact Or.inr hs1
          · left
            rcases List.eq_nil_or_concat s with rfl | ⟨t, y, rfl⟩
            · exact absurd rfl hsn
            · have he' : c ++ [eol] = (p ++ eol :: t) ++ [y] := by simpa using he
              obtain ⟨h1, h2⟩ := List.append_inj' he' rfl
              have ht : t ≠ [] := by
                rintro rfl
                simp only [List.cons.injEq, and_true] at h2
                exact hs1 (by simp [h2])
              have := hs.minimal rfl p t h1 ht
              simpa [oddQ] using this
      · exact ih2 l' hm p s he hsn

example : readLines .quote NL [97, QUOTE, NL, QUOTE, NL, 98] = [[97, QUOTE, NL, QUOTE, NL], [98, NL]] := by
  decide
example : readLines .plain NL [97, NL, NL, 98] = [[97, NL], [NL], [98, NL]] := by decide

/-! ## C10: the lookback window -/

/-- The decoded line for raw text. -/
abbrev decoded (m : TextMode) (raw : Bytes) : TextLine := (TextLine.ofRaw raw).split m.col m.delim

theorem split_setLine (m : TextMode) (t : TextLine) (l : Bytes) (h : m.col = .plain → t.orig = []) :
    ({ t with line := l } : TextLine).split m.col m.delim = decoded m l := by
  cases hm : m.col <;> simp [decoded, TextLine.split, TextLine.ofRaw, hm]
  exact h hm

/-- What holds of the reader after `n` reads, `D` being the data lines of the file. -/
structure RInv (m : TextMode) (L : Nat) (D : List Bytes) (n : Nat) (r : Reader) : Prop where
  mode : r.mode = m
  dosplit : r.doSplit = true
  len : r.lines.length = L
  curr : r.curr = n % L
  file : readLines m.col m.eol r.file = D.drop (n + 1)
  orig : m.col = .plain → ∀ t ∈ r.lines, t.orig = []
  win : ∀ i, i ≤ n → n < i + L → (hi : i < D.length) → r.lines[i % L]? = some (decoded m D[i])
  fresh : ∀ i, n < i → i < L → r.lines[i]? = some ⟨[], [], []⟩
  doneIff : r.isDone = decide (D.length ≤ n)

theorem modify_getElem?_ne {α : Type} (l : List α) (i j : Nat) (f : α → α) (h : i ≠ j) :
    (l.modify i f)[j]? = l[j]? := by
  rw [List.getElem?_modify]; simp [h]

theorem getline_inv {m : TextMode} {L : Nat} {D : List Bytes} {n : Nat} {r : Reader} (hL : 0 < L)
    (h : RInv m L D n r) (hn : n < D.length) : RInv m L D (n + 1) r.getline := by
  obtain ⟨hmode, hsp, hlen, hcurr, hfile, horig, hwin, hfresh, hdone⟩ := h
  have hc : (if r.curr + 1 ≥ r.lines.length then 0 else r.curr + 1) = (n + 1) % L := by
    rw [hlen, hcurr]
    have hlt := Nat.mod_lt n hL
    have hd := Nat.div_add_mod n L
    by_cases h : n % L + 1 ≥ L
    · have h' : n % L + 1 = L := by omega
      have e : n + 1 = L * (n / L) + (n % L + 1) := by omega
      have e' : (n + 1) % L = 0 := by
        rw [e, Nat.mul_add_mod, h', Nat.mod_self]
      rw [if_pos h, e']
    · have e : n + 1 = L * (n / L) + (n % L + 1) := by omega
      have e' : (n + 1) % L = n % L + 1 := by
        rw [e, Nat.mul_add_mod, Nat.mod_eq_of_lt (by omega)]
      rw [if_neg h, e']
  have hlt := Nat.mod_lt (n + 1) hL
  have hneq : ∀ i, i ≤ n → n + 1 < i + L → (n + 1) % L ≠ i % L := by
    intro i h1 h2 he
    have := Nat.sub_mod_eq_zero_of_mod_eq he
    rw [Nat.mod_eq_of_lt (by omega)] at this
    omega
  have hfr : ∀ i, n + 1 < i → i < L → (n + 1) % L ≠ i := by
    intro i h1 h2
    rw [Nat.mod_eq_of_lt (by omega)]; omega
  unfold Reader.getline
  simp only [hc, hmode, hsp]
  cases hr : readLine m.col m.eol r.file with
  | none =>
    have hfe := (readLine_none_iff _ _ _).1 hr
    rw [hfe, readLines_nil] at hfile
    have hD : D.length ≤ n + 1 := by
      have := congrArg List.length hfile
      simp at this; omega
    refine ⟨rfl, rfl, by simp [hlen], rfl, ?_, ?_, ?_, ?_, by simp [hD]⟩
    · simp only [hfe, readLines_nil]
      exact (List.drop_eq_nil_of_le (by omega)).symm
    · intro hp t ht
      rw [List.mem_iff_getElem?] at ht
      obtain ⟨j, hj⟩ := ht
      rw [List.getElem?_modify] at hj
      split at hj
      · cases hl : r.lines[j]? with
        | none => simp [hl] at hj
        | some u =>
          simp only [hl, Option.map_eq_map, Option.map_some, Option.some.injEq] at hj
          rw [← hj]
          exact horig hp u (List.mem_of_getElem? hl)
      · exact horig hp t (List.mem_of_getElem? (by simpa using hj))
    · intro i h1 h2 h3
      rw [modify_getElem?_ne _ _ _ _ (hneq i (by omega) (by omega))]
      exact hwin i (by omega) (by omega) h3
    · intro i h1 h2
      rw [modify_getElem?_ne _ _ _ _ (hfr i h1 h2)]
      exact hfresh i (by omega) h2
  | some p =>
    obtain ⟨l, rest⟩ := p
    rw [readLines_some _ _ _ _ _ hr] at hfile
    have hD : n + 1 < D.length := by
      have := congrArg List.length hfile
      simp at this; omega
    have hl : D[n + 1] = l ∧ readLines m.col m.eol rest = D.drop (n + 1 + 1) := by
      rw [List.drop_eq_getElem_cons hD] at hfile
      simp only [List.cons.injEq] at hfile
      exact ⟨hfile.1.symm, hfile.2⟩
    refine ⟨rfl, rfl, by simp [hlen], rfl, hl.2, ?_, ?_, ?_, ?_⟩
    · intro hp t ht
      rw [List.mem_iff_getElem?] at ht
      obtain ⟨j, hj⟩ := ht
      rw [List.getElem?_modify] at hj
      split at hj
      · cases hl : r.lines[j]? with
        | none => simp [hl] at hj
        | some u =>
          simp only [hl, Option.map_eq_map, Option.map_some, Option.some.injEq, if_true] at hj
          rw [← hj]
          simpa [TextLine.split, hp] using horig hp u (List.mem_of_getElem? hl)
      · exact horig hp t (List.mem_of_getElem? (by simpa using hj))
    · intro i h1 h2 h3
      by_cases hi : i = n + 1
      · subst hi
        rw [List.getElem?_modify]
        simp only [if_true, Option.map_eq_map]
        have : (n + 1) % L < r.lines.length := by omega
        rw [List.getElem?_eq_getElem this]
        simp only [Option.map_some, Option.some.injEq]
        rw [split_setLine m _ _ (fun hp => horig hp _ (List.getElem_mem this)), hl.1]
      · rw [modify_getElem?_ne _ _ _ _ (hneq i (by omega) (by omega))]
        exact hwin i (by omega) (by omega) h3
    · intro i h1 h2
      rw [modify_getElem?_ne _ _ _ _ (hfr i h1 h2)]
      exact hfresh i (by omega) h2
    · simp only [hdone]
      simp only [decide_eq_decide]
      omega

theorem open_inv (m : TextMode) (lookback : Nat) (file h rest : Bytes)
    (hh : readHeader m file = some (h, rest)) (hne : readLines m.col m.eol rest ≠ []) :
    RInv m (lookback + 1) (readLines m.col m.eol rest) 0 ((Reader.newWith lookback m).open_ file) := by
  unfold Reader.open_
  have hm : (Reader.newWith lookback m).mode = m := rfl
  simp only [hm, hh]
  cases hr : readLine m.col m.eol rest with
  | none =>
    exact absurd ((readLines_eq_nil _ _ _).2 ((readLine_none_iff _ _ _).1 hr)) hne
  | some p =>
    obtain ⟨l, rest'⟩ := p
    have hD := readLines_some _ _ _ _ _ hr
    have hl : (Reader.newWith lookback m).lines = ⟨[], [], []⟩ :: List.replicate lookback ⟨[], [], []⟩ := by
      simp [Reader.newWith, List.replicate_succ]
    have hsp : (({ line := [], parts := [], orig := [] } : TextLine)) = TextLine.ofRaw [] := rfl
    simp only [hl, List.modify_zero_cons]
    refine ⟨rfl, rfl, by simp, by simp [Reader.newWith], by simp [hD], ?_, ?_, ?_, ?_⟩
    · intro hp t ht
      rcases List.mem_cons.1 ht with rfl | ht
      · simp [TextLine.split, hp]
      · rw [(List.mem_replicate.1 ht).2]
    · intro i h1 h2 h3
      have : i = 0 := by omega
      subst this
      simp only [hD, List.getElem_cons_zero, Nat.zero_mod, List.getElem?_cons_zero]
      exact congrArg some (split_setLine m ⟨[], [], []⟩ l (fun _ => rfl))
    · intro i h1 h2
      obtain ⟨j, rfl⟩ : ∃ j, i = j + 1 := ⟨i - 1, by omega⟩
      simp only [List.getElem?_cons_succ]
      rw [List.getElem?_replicate, if_pos (by omega)]
    · have : 0 < (readLines m.col m.eol rest).length := List.length_pos_iff.2 hne
      simp; omega

theorem getlines_inv {m : TextMode} {L : Nat} {D : List Bytes} {r : Reader} (hL : 0 < L)
    (h : RInv m L D 0 r) (n : Nat) (hn : n ≤ D.length) : RInv m L D n (r.getlines n) := by
  induction n with
  | zero => exact h
  | succ n ih => exact getline_inv hL (ih (by omega)) (by omega)

theorem RInv.prev {m : TextMode} {L : Nat} {D : List Bytes} {n : Nat} {r : Reader}
    (h : RInv m L D n r) {k : Nat} (hk : k < L) :
    (k ≤ n → (hi : n - k < D.length) → r.prevLine k = some (decoded m D[n - k])) ∧
      (n < k → r.prevLine k = some ⟨[], [], []⟩) := by
  have hlt := Nat.mod_lt n (show 0 < L by omega)
  have hd := Nat.div_add_mod n L
  constructor
  · intro hkn hi
    have := h.win (n - k) (by omega) (by omega) hi
    rw [← this]
    unfold Reader.prevLine
    rw [h.curr, h.len]
    by_cases h1 : k ≤ n % L
    · rw [if_pos h1]
      have e : n - k = L * (n / L) + (n % L - k) := by omega
      rw [e, Nat.mul_add_mod, Nat.mod_eq_of_lt (show n % L - k < L by omega)]
    · rw [if_neg h1, if_pos (by omega)]
      have hq : 0 < n / L := by
        rcases Nat.eq_zero_or_pos (n / L) with h0 | h0
        · rw [h0] at hd; omega
        · exact h0
      have e : n - k = L * (n / L - 1) + (n % L + L - k) := by
        have : L * (n / L) = L * (n / L - 1) + L := by
          conv => lhs; rw [show n / L = (n / L - 1) + 1 by omega]
          rw [Nat.mul_add]; simp
        omega
      rw [e, Nat.mul_add_mod, Nat.mod_eq_of_lt (show n % L + L - k < L by omega)]
  · intro hnk
    have e : n % L = n := Nat.mod_eq_of_lt (by omega)
    unfold Reader.prevLine
    rw [h.curr, h.len, e, if_neg (by omega), if_pos (by omega)]
    exact h.fresh _ (by omega) (by omega)

/-- After `n` reads of a file with data lines `D` (so the reader is on line `n`, or at end of file if
`n = D.length`), looking back `k` within the window gives line `n - k`, and before the start of the file
an empty line. -/
theorem C10_lookback (m : TextMode) (lookback : Nat) (file h rest : Bytes)
    (hh : readHeader m file = some (h, rest)) (n k : Nat)
    (hn : n ≤ (readLines m.col m.eol rest).length) (hk : k ≤ lookback) :
    let D := readLines m.col m.eol rest
    let r := ((Reader.newWith lookback m).open_ file).getlines n
    (k ≤ n → (hi : n - k < D.length) → r.prevLine k = some (decoded m D[n - k])) ∧
      (D ≠ [] → n < k → r.prevLine k = some ⟨[], [], []⟩) ∧
      (D ≠ [] → r.isDone = decide (n = D.length)) := by
  intro D r
  by_cases hne : D = []
  · simp [hne]
  · have hi := getlines_inv (Nat.succ_pos lookback) (open_inv m lookback file h rest hh hne) n hn
    refine ⟨(hi.prev (by omega)).1, fun _ => (hi.prev (by omega)).2, fun _ => ?_⟩
    have := hi.doneIff
    show r.isDone = _
    rw [this]
    have hDn : n ≤ D.length := hn
    show decide (D.length ≤ n) = decide (n = D.length)
    rw [decide_eq_decide]
    omega

/-- The same for a reader made by `new_open_with`. -/
theorem C10_lookback_new_open (m : TextMode) (lookback : Nat) (file h rest : Bytes)
    (hh : readHeader m file = some (h, rest)) (n k : Nat)
    (hn : n ≤ (readLines m.col m.eol rest).length) (hk : k ≤ lookback) (hkn : k ≤ n) :
    let D := readLines m.col m.eol rest
    (hi : n - k < D.length) →
      ((Reader.newOpenWith file lookback m).getlines n).prevLine k = some (decoded m D[n - k]) := by
  intro D hi
  have hne : D ≠ [] := by intro h; rw [h] at hi; simp at hi
  have h0 := open_inv m lookback file h rest hh hne
  have h1 : RInv m (lookback + 1) D 0 (Reader.newOpenWith file lookback m) :=
    ⟨h0.mode, h0.dosplit, h0.len, h0.curr, h0.file, h0.orig, h0.win, h0.fresh, h0.doneIff⟩
  exact ((getlines_inv (Nat.succ_pos lookback) h1 n hn).prev (by omega)).1 hkn hi

example : readHeader TextMode.default ([32, 67, 68, 88, 9, 97, NL] ++ [49, NL, 50, NL]) =
    some ([32, 67, 68, 88, 9, 97, NL], [49, NL, 50, NL]) := by decide

/-! ## C11: locations -/

/-- Full statement: on the `n`-th line after the first, the reported line number is `n + 1`, and the
reported byte offset is where the rest of the (terminated) file starts with that line, for a reader
opened either way. -/
def C11_statement : Prop :=
  ∀ (m : TextMode) (lookback : Nat) (file h rest : Bytes), readHeader m file = some (h, rest) →
    file.getLast? = some m.eol → ∀ n < (readLines m.col m.eol rest).length,
    ∀ r ∈ [(Reader.newWith lookback m).open_ file, Reader.newOpenWith file lookback m],
      (r.getlines n).locLine = n + 1 ∧
      file.drop (r.getlines n).locBytes = ((readLines m.col m.eol rest).drop n).flatten

/-- `open` leaves the line number at 0. -/
theorem C11_refuted : ¬ C11_statement := by
  intro h
  have := (h TextMode.default 1 [97, NL] [] [97, NL] (by decide) (by decide) 0 (by decide)
    ((Reader.newWith 1 TextMode.default).open_ [97, NL]) (by simp)).1
  exact absurd this (by decide)

/-- Also with `new_open_with`, the byte offset counts decoded bytes in backslash mode. -/
theorem C11_refuted_backslash : ∃ (m : TextMode) (file rest : Bytes),
    readHeader m file = some ([], rest) ∧ m.col = .backslash ∧
    file.drop ((Reader.newOpenWith file 1 m).getlines 1).locBytes ≠
      ((readLines m.col m.eol rest).drop 1).flatten :=
  ⟨{ TextMode.default with col := .backslash }, [97, BSLASH, CH_t, NL, 98, NL], _, rfl, rfl, by decide⟩

/-- With header mode Skip the skipped header is not counted. -/
theorem C11_refuted_skip : ∃ (m : TextMode) (file rest : Bytes),
    readHeader m file = some ([], rest) ∧ m.head = .skip ∧ m.col = .plain ∧
    file.drop ((Reader.newOpenWith file 1 m).getlines 0).locBytes ≠
      ((readLines m.col m.eol rest).drop 0).flatten :=
  ⟨{ TextMode.default with head := .skip }, [32, 67, 68, 88, 9, 97, NL, 98, NL], _, rfl, rfl, rfl,
    by decide⟩

theorem readHeader_split (m : TextMode) (hs : m.head ≠ .skip) (file h rest : Bytes)
    (hh : readHeader m file = some (h, rest)) (hr : rest ≠ []) : file = h ++ rest := by
  unfold readHeader at hh
  have key : readLine m.col m.eol file = some (h, rest) → file = h ++ rest := by
    intro h1
    obtain ⟨c, hl, hf, hsp⟩ := readLine_some _ _ _ _ _ h1
    have : c.getLast? = some m.eol := by
      by_cases h : c.getLast? = some m.eol
      · exact h
      · exact absurd (hsp.last h) hr
    rw [hl, ensureEof, if_pos this, hf]
  by_cases h0 : file = []
  · simp [h0] at hh
  · simp only [h0, if_false] at hh
    cases hm : m.head <;> simp only [hm] at hh
    · exact key hh
    · simp only [Option.some.injEq, Prod.mk.injEq] at hh; simp [← hh.1, hh.2]
    · split at hh
      · exact key hh
      · simp only [Option.some.injEq, Prod.mk.injEq] at hh; simp [← hh.1, hh.2]
    · exact absurd hm hs
    · exact key hh

theorem getline_loc (r : Reader) : r.getline.locLine = r.locLine + 1 ∧
    r.getline.locBytes = r.locBytes + r.currLine.line.length := by
  unfold Reader.getline
  simp only
  split <;> exact ⟨rfl, rfl⟩

theorem newOpen_loc (m : TextMode) (lookback : Nat) (file h rest : Bytes)
    (hh : readHeader m file = some (h, rest)) (hne : readLines m.col m.eol rest ≠ []) :
    (Reader.newOpenWith file lookback m).locBytes = h.length ∧
      (Reader.newOpenWith file lookback m).locLine = 1 := by
  refine ⟨?_, rfl⟩
  unfold Reader.newOpenWith Reader.open_
  have hm : (Reader.newWith lookback m).mode = m := rfl
  simp only [hm, hh]
  cases hr : readLine m.col m.eol rest with
  | none =>
    exact absurd ((readLines_eq_nil _ _ _).2 ((readLine_none_iff _ _ _).1 hr)) hne
  | some p => cases h <;> simp

/-- In plain mode, and unless the header is skipped, a reader opened with `new_open_with` reports exact
locations. Missing from the full statement: `open`, backslash and quote mode, header mode Skip, for all
of which it is false. -/
theorem C11_location_partial (m : TextMode) (hs : m.head ≠ .skip) (hp : m.col = .plain)
    (lookback : Nat) (file h rest : Bytes) (hh : readHeader m file = some (h, rest))
    (hend : file.getLast? = some m.eol) (n : Nat) (hn : n < (readLines m.col m.eol rest).length) :
    let r := (Reader.newOpenWith file lookback m).getlines n
    r.locLine = n + 1 ∧ file.drop r.locBytes = ((readLines m.col m.eol rest).drop n).flatten := by
  intro r
  let D := readLines m.col m.eol rest
  replace hn : n < D.length := hn
  have hne : D ≠ [] := by
    intro h; have : D.length = 0 := by rw [h]; rfl
    omega
  have hr0 : rest ≠ [] := fun h => hne ((readLines_eq_nil _ _ _).2 h)
  have h0 := open_inv m lookback file h rest hh hne
  have h1 : RInv m (lookback + 1) D 0 (Reader.newOpenWith file lookback m) :=
    ⟨h0.mode, h0.dosplit, h0.len, h0.curr, h0.file, h0.orig, h0.win, h0.fresh, h0.doneIff⟩
  have hfile := readHeader_split m hs file h rest hh hr0
  have hflat : D.flatten = rest := by
    rw [C09_lossless]
    have : rest.getLast? = some m.eol := by
      rw [hfile] at hend
      simpa [List.getLast?_append, List.getLast?_eq_some_getLast hr0] using hend
    simp [withFinalEol, this]
  have key : ∀ n ≤ D.length, ((Reader.newOpenWith file lookback m).getlines n).locLine = n + 1 ∧
      ((Reader.newOpenWith file lookback m).getlines n).locBytes =
        h.length + ((D.take n).flatten).length := by
    intro n
    induction n with
    | zero =>
      intro _
      have := newOpen_loc m lookback file h rest hh hne
      simpa [Reader.getlines] using ⟨this.2, this.1⟩
    | succ n ih =>
      intro hn
      have ih := ih (by omega)
      have hi := getlines_inv (Nat.succ_pos lookback) h1 n (by omega)
      have hl := getline_loc ((Reader.newOpenWith file lookback m).getlines n)
      have hc : ((Reader.newOpenWith file lookback m).getlines n).currLine.line = D[n] := by
        have := hi.win n (Nat.le_refl n) (by omega) (by omega)
        unfold Reader.currLine
        rw [hi.curr, List.getD_eq_getElem?_getD, this]
        simp [decoded, TextLine.split, TextLine.ofRaw, hp]
      rw [hc] at hl
      simp only [Reader.getlines]
      refine ⟨by rw [hl.1, ih.1], ?_⟩
      rw [hl.2, ih.2, List.take_succ_eq_append_getElem (by omega : n < D.length)]
      rw [List.flatten_append, List.length_append, Nat.add_assoc]
      simp only [List.flatten_cons, List.flatten_nil, List.append_nil]
  have := key n (by omega)
  refine ⟨this.1, ?_⟩
  show List.drop ((Reader.newOpenWith file lookback m).getlines n).locBytes file = (D.drop n).flatten
  rw [this.2]
  have hD : D.flatten = (D.take n).flatten ++ (D.drop n).flatten := by
    rw [← List.flatten_append, List.take_append_drop]
  rw [hfile, ← hflat, hD, ← List.append_assoc, List.drop_append_of_le_length (by simp)]
  rw [List.drop_eq_nil_of_le (by simp)]
  simp

example : (Reader.newOpenWith [32, 67, 68, 88, 9, 97, NL, 49, NL, 50, NL] 1 TextMode.default).locBytes = 7 := by
  decide

/-! ## C65: lines pass through unchanged -/

/-- The bytes produced by the loop `while !done { write_curr; getline }` (as in `cgrep`, `head` and
others), for at most `fuel` lines. -/
def passThrough : Nat → Reader → Bytes
  | 0, _ => []
  | fuel + 1, r => if r.isDone then [] else r.writeCurr ++ passThrough fuel r.getline

/-- Full statement: writing every line as it is read reproduces the data part of the file, in every
quoting mode. -/
def C65_statement : Prop :=
  ∀ (m : TextMode) (file h rest : Bytes), readHeader m file = some (h, rest) →
    passThrough (file.length + 1) ((Reader.newWith 1 m).open_ file) = withFinalEol m.eol rest

/-- In backslash mode the decoded text is written, without a newline. -/
theorem C65_refuted : ¬ C65_statement := by
  intro h
  have := h { TextMode.default with col := .backslash } [97, BSLASH, CH_n, NL, 98, NL] [] _ rfl
  exact absurd this (by decide)

theorem passThrough_inv {m : TextMode} {L : Nat} {D : List Bytes} {n : Nat} {r : Reader} (hL : 0 < L)
    (hp : m.col = .plain) (h : RInv m L D n r) (hn : n ≤ D.length) (fuel : Nat)
    (hf : D.length - n < fuel) : passThrough fuel r = (D.drop n).flatten := by
  induction fuel generalizing n r with
  | zero => omega
  | succ fuel ih =>
    unfold passThrough
    rw [h.doneIff]
    by_cases h1 : D.length ≤ n
    · simp [h1, List.drop_eq_nil_of_le h1]
    · simp only [h1, decide_false, Bool.false_eq_true, if_false]
      rw [ih (getline_inv hL h (by omega)) (by omega) (by omega)]
      have hi := h.win n (Nat.le_refl n) (by omega) (by omega)
      have : r.writeCurr = D[n] := by
        unfold Reader.writeCurr Reader.currLine
        rw [h.curr, List.getD_eq_getElem?_getD, hi]
        simp [decoded, TextLine.split, TextLine.ofRaw, hp]
      rw [this, List.drop_eq_getElem_cons (by omega : n < D.length), List.flatten_cons]

theorem readLines_length_le (mode : QuoteMode) (eol : UInt8) (f : Bytes) :
    (readLines mode eol f).length ≤ f.length := by
  refine readLines_induction mode eol (fun f => (readLines mode eol f).length ≤ f.length) ?_ ?_ f
  · simp [readLines_nil]
  · intro f l rest h ih
    have := readLine_shorter _ _ _ _ _ h
    rw [readLines_some _ _ _ _ _ h]
    simp; omega

/-- Pass-through holds in plain mode. Missing: the quoting modes, where it is false. -/
theorem C65_pass_through_partial (m : TextMode) (hp : m.col = .plain) (lookback : Nat)
    (file h rest : Bytes) (hh : readHeader m file = some (h, rest)) (fuel : Nat)
    (hf : rest.length < fuel) :
    passThrough fuel ((Reader.newWith lookback m).open_ file) = withFinalEol m.eol rest := by
  rw [← C09_lossless m.col m.eol rest]
  by_cases hne : readLines m.col m.eol rest = []
  · have h0 := (readLines_eq_nil _ _ _).1 hne
    subst h0
    have hd : ((Reader.newWith lookback m).open_ file).isDone = true := by
      unfold Reader.open_
      have hm : (Reader.newWith lookback m).mode = m := rfl
      have hr : readLine m.col m.eol [] = none := (readLine_none_iff _ _ _).2 rfl
      simp only [hm, hh, hr]
    cases fuel <;> simp [passThrough, hd, readLines_nil]
  · have := passThrough_inv (Nat.succ_pos lookback) hp (open_inv m lookback file h rest hh hne)
      (Nat.zero_le _) fuel (by have := readLines_length_le m.col m.eol rest; omega)
    simpa using this

end Cdx
