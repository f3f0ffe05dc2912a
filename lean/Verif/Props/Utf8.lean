import Verif.Lemmas.Utf8
import Verif.Props.AggMerge
import Verif.Model.Join

/-!
# Headers and names are strings

C177: a header is a string. C178: the columns of a header. C179: made-up headers. C180: names at the front of a text. C181: names in
headers.
-/

namespace Cdx

theorem fromUtf8_ok {b : Bytes} (h : IsStr b) : fromUtf8 b = .ok b := by
  unfold fromUtf8
  rw [if_pos ((isSome_iff b).2 h)]

theorem fromUtf8_err {b : Bytes} (h : ¬ IsStr b) : fromUtf8 b = .err := by
  unfold fromUtf8
  rw [if_neg fun k => h ((isSome_iff b).1 k)]

/-! ## C177 -/

/-- The line of a file that is its header: the first line, if the mode says so or if it starts with ` CDX` and the mode looks. -/
def headerTaken (m : TextMode) (file : Bytes) : Option Bytes :=
  match m.head with
  | .yes | .cdx => (readLine m.col m.eol file).map (·.1)
  | .no => none
  | .maybe | .skip => if isCdx file then (readLine m.col m.eol file).map (·.1) else none

theorem isCdx_nil : isCdx [] = false := by decide

theorem readLine_nil (c : QuoteMode) (e : UInt8) : readLine c e [] = none := by
  unfold readLine
  rfl

theorem readString_bad {m : TextMode} {file l : Bytes} (h : (readLine m.col m.eol file).map (·.1) = some l) (hl : ¬ IsStr l) :
    readString m file = .err := by
  unfold readString
  cases hr : readLine m.col m.eol file with
  | none => rw [hr] at h; simp at h
  | some p =>
    rw [hr] at h
    simp only [Option.map_some, Option.some.injEq] at h
    simp only [h, fromUtf8_err hl, Res.bind_err]

theorem readString_good {m : TextMode} {file : Bytes} (h : ∀ l, (readLine m.col m.eol file).map (·.1) = some l → IsStr l) :
    readString m file = .ok (readLine m.col m.eol file) := by
  unfold readString
  cases hr : readLine m.col m.eol file with
  | none => rfl
  | some p =>
    rw [hr] at h
    simp only [fromUtf8_ok (h p.1 rfl), Res.bind_ok]

/-- A header that is no string is an error, in every mode that reads one; otherwise the check changes nothing. -/
theorem C177_header (m : TextMode) (file : Bytes) :
    (∀ l, headerTaken m file = some l → ¬ IsStr l → readHeaderStr m file = .err) ∧
    ((∀ l, headerTaken m file = some l → IsStr l) → readHeaderStr m file = .ok (readHeader m file)) := by
  obtain ⟨head, col, delim, eol, repl⟩ := m
  by_cases hf : file = []
  · subst hf
    constructor
    · intro l h _
      cases head <;> simp [headerTaken, readLine_nil, isCdx_nil] at h
    · intro _
      rfl
  unfold readHeaderStr readHeader
  rw [if_neg hf, if_neg hf]
  cases head with
  | yes => exact ⟨fun l h hl => readString_bad h hl, fun h => readString_good h⟩
  | cdx => exact ⟨fun l h hl => readString_bad h hl, fun h => readString_good h⟩
  | no => exact ⟨fun l h _ => by simp [headerTaken] at h, fun _ => rfl⟩
  | maybe =>
    simp only [headerTaken]
    by_cases hc : isCdx file = true
    · simp only [hc, if_true]
      exact ⟨fun l h hl => readString_bad h hl, fun h => readString_good h⟩
    · simp only [hc, Bool.false_eq_true, if_false]
      exact ⟨fun l h _ => by simp at h, fun _ => trivial⟩
  | skip =>
    simp only [headerTaken]
    by_cases hc : isCdx file = true
    · simp only [hc, if_true]
      constructor
      · intro l h hl
        rw [readString_bad h hl]
        rfl
      · intro h
        rw [readString_good h]
        simp only [Res.bind_ok]
        split <;> rfl
    · simp only [hc, Bool.false_eq_true, if_false, Res.bind_ok]
      refine ⟨fun l h _ => by simp at h, fun _ => ?_⟩
      split <;> rfl

theorem skip_nil {rest h r : Bytes} (hr : (if rest = [] then none else some (([] : Bytes), rest)) = some (h, r)) : h = [] := by
  split at hr
  · simp at hr
  · injection hr with hr
    injection hr with hr _
    exact hr.symm

/-- Every header that is read is a string, and reading it never panics. -/
theorem C177_string (m : TextMode) (file : Bytes) :
    readHeaderStr m file ≠ .panic ∧ ∀ h r, readHeaderStr m file = .ok (some (h, r)) → IsStr h := by
  obtain ⟨h1, h2⟩ := C177_header m file
  cases ht : headerTaken m file with
  | none =>
    rw [h2 (by intro l hl; rw [ht] at hl; simp at hl)]
    refine ⟨by simp, ?_⟩
    intro h r hr
    injection hr with hr
    suffices h = [] by rw [this]; exact isStr_nil
    unfold readHeader at hr
    unfold headerTaken at ht
    split at hr
    · simp at hr
    · split at hr
      · rename_i e; rw [e] at ht; simp only [Option.map_eq_none_iff] at ht; rw [ht] at hr; simp at hr
      · rename_i e; rw [e] at ht; simp only [Option.map_eq_none_iff] at ht; rw [ht] at hr; simp at hr
      · injection hr with hr; injection hr with hr _; exact hr.symm
      · rename_i e
        rw [e] at ht
        split at hr
        · rename_i hc
          simp only [hc, if_true, Option.map_eq_none_iff] at ht
          rw [ht] at hr
          simp at hr
        · injection hr with hr; injection hr with hr _; exact hr.symm
      · exact skip_nil hr
  | some l =>
    by_cases hl : IsStr l
    · rw [h2 (by intro l' hl'; rw [ht] at hl'; injection hl' with e; rw [← e]; exact hl)]
      refine ⟨by simp, ?_⟩
      intro h r hr
      injection hr with hr
      unfold readHeader at hr
      unfold headerTaken at ht
      split at hr
      · simp at hr
      · split at hr
        · rename_i e; rw [e] at ht; simp only at ht; rw [hr] at ht; simp at ht; rw [ht]; exact hl
        · rename_i e; rw [e] at ht; simp only at ht; rw [hr] at ht; simp at ht; rw [ht]; exact hl
        · injection hr with hr; injection hr with hr _; rw [← hr]; exact isStr_nil
        · rename_i e
          rw [e] at ht
          split at hr
          · rename_i hc
            simp only [hc, if_true] at ht
            rw [hr] at ht
            simp at ht
            rw [ht]
            exact hl
          · injection hr with hr; injection hr with hr _; rw [← hr]; exact isStr_nil
        · rw [skip_nil hr]; exact isStr_nil
    · rw [h1 l ht hl]
      exact ⟨by simp, by intro h r hr; simp at hr⟩

example : readHeaderStr .default (ascii " CDX\ta\nx\n") = .ok (some (ascii " CDX\ta\n", ascii "x\n")) ∧
    readHeaderStr .default (ascii " CDX\t" ++ [255, 10]) = .err ∧
    readHeaderStr { TextMode.default with head := .skip } (ascii " CDX\t" ++ [195, 10]) = .err ∧
    readHeaderStr .default ([255, 10]) = .ok (some ([], [255, 10])) := by decide

/-! ## C178 -/

/-- The place is the start of the text or after a delimiter. -/
def startOk (line : Bytes) (d : UInt8) (b : Nat) : Prop := b = 0 ∨ ∃ i, b = i + 1 ∧ line[i]? = some d

/-- The place is before a delimiter or newline or at the end of the text. -/
def endOk (line : Bytes) (d : UInt8) (e : Nat) : Prop := line[e]? = some d ∨ line[e]? = some NL ∨ e = line.length

theorem splitPlainLoop_places (d : UInt8) (line : Bytes) : ∀ (l : Bytes) (b e : Nat) (ps : List Slice), line.drop e = l → e ≤ line.length →
    startOk line d b → (∀ s ∈ ps, startOk line d s.beg ∧ endOk line d s.fin) →
    (∀ s ∈ (splitPlainLoop d l b e ps).1, startOk line d s.beg ∧ endOk line d s.fin) ∧
      startOk line d (splitPlainLoop d l b e ps).2.1 ∧ (splitPlainLoop d l b e ps).2.2 = line.length := by
  intro l
  induction l with
  | nil =>
    intro b e ps hl he hb hp
    have : line.length ≤ e := by
      have := congrArg List.length hl
      simp at this
      omega
    exact ⟨hp, hb, by simp [splitPlainLoop]; omega⟩
  | cons x xs ih =>
    intro b e ps hl he hb hp
    have hx : line[e]? = some x := by
      have := congrArg (fun t => t[0]?) hl
      simpa using this
    have hlt : e < line.length := by
      rcases Nat.lt_or_ge e line.length with h | h
      · exact h
      · rw [List.getElem?_eq_none h] at hx; simp at hx
    have htl : line.drop (e + 1) = xs := by
      rw [← List.drop_drop, hl]
      rfl
    unfold splitPlainLoop
    by_cases hd : x = d
    · rw [if_pos hd]
      rw [hd] at hx
      refine ih _ _ _ htl hlt (Or.inr ⟨e, rfl, hx⟩) ?_
      intro s hs
      rcases List.mem_append.1 hs with h | h
      · exact hp s h
      · rw [List.mem_singleton.1 h]
        exact ⟨hb, Or.inl hx⟩
    · rw [if_neg hd]
      exact ih _ _ _ htl hlt hb hp

/-- The parts of a line begin at its start or after a delimiter, and end before one, before a newline or at the end. -/
theorem splitPlain_places (d : UInt8) (line : Bytes) : ∀ s ∈ splitPlain line d, startOk line d s.beg ∧ endOk line d s.fin := by
  obtain ⟨h1, h2, h3⟩ := splitPlainLoop_places d line line 0 0 [] rfl (Nat.zero_le _) (Or.inl rfl) (by simp)
  unfold splitPlain
  cases hr : splitPlainLoop d line 0 0 [] with
  | mk ps q =>
    obtain ⟨b, e⟩ := q
    rw [hr] at h1 h2 h3
    simp only at h1 h2 h3 ⊢
    intro s hs
    split at hs
    · split at hs
      · rename_i hn
        rcases List.mem_append.1 hs with h | h
        · exact h1 s h
        · rw [List.mem_singleton.1 h]
          exact ⟨h2, Or.inr (Or.inl hn)⟩
      · rcases List.mem_append.1 hs with h | h
        · exact h1 s h
        · rw [List.mem_singleton.1 h]
          exact ⟨h2, Or.inr (Or.inr h3)⟩
    · exact h1 s hs

/-- A one-byte character does not cut another one, before or after it. -/
theorem ascii_place {line : Bytes} (h : IsStr line) {i : Nat} {x : UInt8} (hx : line[i]? = some x) (ha : x < 128) :
    cutsChar line i = false ∧ cutsChar line (i + 1) = false := by
  have hi : i < line.length := by
    rcases Nat.lt_or_ge i line.length with h | h
    · exact h
    · rw [List.getElem?_eq_none h] at hx; simp at hx
  have hs : line = line.take i ++ x :: line.drop (i + 1) := by
    rw [List.getElem?_eq_getElem hi] at hx
    injection hx with hx
    rw [← hx, ← List.drop_eq_getElem_cons hi, List.take_append_drop]
  rw [hs] at h
  have h2 := (isStr_ascii_at h ha).2
  constructor
  · unfold cutsChar
    rw [hx]
    have := (u8_ascii x).1 ha
    show isCont x = false
    cases hc : isCont x with
    | false => rfl
    | true => rw [isCont_iff] at hc; omega
  · have := isStr_start h2
    rw [cutsChar_drop] at this
    exact this

theorem strSlice_ok {line : Bytes} (hl : IsStr line) {d : UInt8} (hd : d < 128) {s : Slice} (hw : s.Within line)
    (hs : startOk line d s.beg) (he : endOk line d s.fin) : strSlice line s.beg s.fin = .ok (s.get line) ∧ IsStr (s.get line) := by
  have c1 : cutsChar line s.beg = false := by
    rcases hs with h | ⟨i, h1, h2⟩
    · rw [h]
      exact isStr_start hl
    · rw [h1]
      exact (ascii_place hl h2 hd).2
  have c2 : cutsChar line s.fin = false := by
    rcases he with h | h | h
    · exact (ascii_place hl h hd).1
    · exact (ascii_place hl h (by decide)).1
    · rw [h]
      unfold cutsChar
      rw [List.getElem?_eq_none (Nat.le_refl _)]
      rfl
  obtain ⟨w1, w2⟩ := hw
  have hg : (line.take s.fin).drop s.beg = s.get line := by
    unfold Slice.get
    rw [List.drop_take]
  constructor
  · unfold strSlice
    rw [c1, c2, hg]
    simp
    omega
  · have h1 := (isStr_cut hl w2 c2).1
    rw [← hg]
    refine (isStr_cut h1 (by simp; omega) ?_).2
    unfold cutsChar at c1 ⊢
    rw [List.getElem?_take]
    split
    · exact c1
    · rfl

theorem strVecLoop_ok {line : Bytes} {parts : List Slice} : ∀ {is : List Nat}, (∀ i ∈ is, i < parts.length) →
    (∀ s ∈ parts, strSlice line s.beg s.fin = .ok (s.get line)) →
    strVecLoop line parts is = .ok (is.map fun i => (parts.getD i ⟨0, 0⟩).get line)
  | [], _, _ => rfl
  | i :: is, hi, hp => by
    have h0 := hi i (by simp)
    unfold strVecLoop strGet
    rw [List.getElem?_eq_getElem h0]
    simp only
    rw [hp _ (List.getElem_mem _), Res.bind_ok, strVecLoop_ok (fun j hj => hi j (by simp [hj])) hp, Res.bind_ok, List.map_cons]
    simp [h0]

theorem range_map_getD {α β : Type} (f : α → β) (l : List α) (x : α) : (List.range l.length).map (fun i => f (l.getD i x)) = l.map f := by
  apply List.ext_getElem
  · simp
  · intro i h1 h2
    simp at h1
    simp [h1]

theorem strVec_ok {line : Bytes} {parts : List Slice} (h : ∀ s ∈ parts, strSlice line s.beg s.fin = .ok (s.get line)) :
    strVec line parts = .ok (parts.map (·.get line)) := by
  unfold strVec
  rw [strVecLoop_ok (fun i hi => List.mem_range.1 hi) h, range_map_getD (fun s : Slice => s.get line)]

theorem splitHead_sub (d : UInt8) (line : Bytes) : ∀ s ∈ splitHead d line, s ∈ splitPlain line d := by
  intro s hs
  unfold splitHead at hs
  split at hs
  · exact List.mem_of_mem_drop hs
  · exact hs

/-- The columns of a header can be had for every delimiter. -/
def C178_statement : Prop := ∀ (line : Bytes) (d : UInt8), IsStr line → ∃ cols, strVec line (splitHead d line) = .ok cols

/-- The delimiter `Ã` of `--text-in yÃ` is the byte C3, which is the first byte of `é`. -/
theorem C178_refuted : ¬ C178_statement := by
  intro h
  obtain ⟨cols, hc⟩ := h [195, 169, 10] 195 ⟨[233, 10], by decide, by decide⟩
  rw [show strVec [195, 169, 10] (splitHead 195 [195, 169, 10]) = .panic by decide] at hc
  simp at hc

/-- With a one-byte delimiter, every column of a header can be had, whatever the header, and is a string. -/
theorem C178_columns_partial (line : Bytes) (d : UInt8) (hl : IsStr line) (hd : d < 128) :
    ∃ cols, strVec line (splitHead d line) = .ok cols ∧ ∀ c ∈ cols, IsStr c := by
  have hp : ∀ s ∈ splitHead d line, strSlice line s.beg s.fin = .ok (s.get line) ∧ IsStr (s.get line) := by
    intro s hs
    have hs := splitHead_sub d line s hs
    obtain ⟨h1, h2⟩ := splitPlain_places d line s hs
    exact strSlice_ok hl hd ((splitPlain_tidy line d).2 s hs) h1 h2
  refine ⟨_, strVec_ok fun s hs => (hp s hs).1, ?_⟩
  intro c hc
  obtain ⟨s, hs, rfl⟩ := List.mem_map.1 hc
  exact (hp s hs).2

theorem isStr_intercalate {d : UInt8} (hd : d < 128) : ∀ {cols : List Bytes}, (∀ c ∈ cols, IsStr c) → IsStr (List.intercalate [d] cols)
  | [], _ => isStr_nil
  | [a], h => by simpa using h a (by simp)
  | a :: b :: t, h => by
    rw [List.intercalate_cons_cons]
    exact isStr_append (isStr_append (h a (by simp)) (isStr_ascii (by simpa using hd)))
      (isStr_intercalate hd fun c hc => h c (by simp only [List.mem_cons] at hc ⊢; exact Or.inr hc))

/-- A column that the header does not have is the empty string. -/
theorem C178_outside (line : Bytes) (parts : List Slice) (i : Nat) (h : parts.length ≤ i) (hl : IsStr line) :
    strGet line parts i = .ok [] := by
  unfold strGet
  rw [List.getElem?_eq_none h]
  have : cutsChar line 0 = false := by
    cases line with
    | nil => rfl
    | cons x xs => exact isStr_start hl
  simp [strSlice, this]

example : IsStr (ascii "a") ∧ ([] : List Slice).length ≤ 3 := ⟨isStr_ascii (by decide +kernel), by simp⟩

/-- The columns of a header are the strings it was made of, with and without ` CDX` in front. -/
theorem C178_names_partial (cols : List Bytes) (d : UInt8) (hd : d < 128) (hn : d ≠ NL) (h0 : cols ≠ [])
    (hc : ∀ c ∈ cols, IsStr c ∧ d ∉ c) :
    (isCdx (List.intercalate [d] cols ++ [NL]) = false →
      strVec (List.intercalate [d] cols ++ [NL]) (splitHead d (List.intercalate [d] cols ++ [NL])) = .ok cols) ∧
    (d ∉ cdxTag → strVec (List.intercalate [d] (cdxTag :: cols) ++ [NL]) (splitHead d (List.intercalate [d] (cdxTag :: cols) ++ [NL])) = .ok cols) := by
  have key : ∀ cs : List Bytes, cs ≠ [] → (∀ c ∈ cs, IsStr c ∧ d ∉ c) → ∀ P : List Slice, (∀ s ∈ P, s ∈ splitPlain (List.intercalate [d] cs ++ [NL]) d) →
      strVec (List.intercalate [d] cs ++ [NL]) P = .ok (P.map (·.get (List.intercalate [d] cs ++ [NL]))) := by
    intro cs h0 hc P hP
    have hl : IsStr (List.intercalate [d] cs ++ [NL]) :=
      isStr_append (isStr_intercalate hd fun c h => (hc c h).1) (isStr_ascii (by decide))
    refine strVec_ok fun s hs => ?_
    obtain ⟨h1, h2⟩ := splitPlain_places d _ s (hP s hs)
    exact (strSlice_ok hl hd ((splitPlain_spec d _ hn).2 s (hP s hs)) h1 h2).1
  constructor
  · intro hx
    rw [key cols h0 hc _ (splitHead_sub d _)]
    unfold splitHead
    rw [hx]
    simp only [Bool.false_eq_true, if_false]
    rw [(splitPlain_spec d _ hn).1, sliceSplit_intercalate d cols h0 fun c h => (hc c h).2]
  · intro ht
    have hc' : ∀ c ∈ cdxTag :: cols, IsStr c ∧ d ∉ c := by
      intro c h
      rcases List.mem_cons.1 h with rfl | h
      · exact ⟨isStr_ascii (by decide), ht⟩
      · exact hc c h
    have hx : isCdx (List.intercalate [d] (cdxTag :: cols) ++ [NL]) = true := by
      cases cols with
      | nil => exact absurd rfl h0
      | cons c cs =>
        rw [List.intercalate_cons_cons]
        unfold isCdx
        simp only [List.append_assoc, List.isPrefixOf_iff_prefix]
        exact List.prefix_append _ _
    rw [key (cdxTag :: cols) (by simp) hc' _ (splitHead_sub d _)]
    unfold splitHead
    rw [hx]
    simp only [if_true]
    rw [List.map_drop, (splitPlain_spec d _ hn).1, sliceSplit_intercalate d (cdxTag :: cols) (by simp) fun c h => (hc' c h).2]
    rfl

example : IsStr [195, 169] ∧ (9 : UInt8) ∉ ([195, 169] : Bytes) ∧
    strVec (List.intercalate [9] [[195, 169], [97]] ++ [NL]) (splitHead 9 (List.intercalate [9] [[195, 169], [97]] ++ [NL])) = .ok [[195, 169], [97]] :=
  ⟨⟨[233], by decide, by decide⟩, by decide, by decide⟩

/-! ## C179 -/

/-- A header can be made up for every delimiter. -/
def C179_statement : Prop := ∀ (n : Nat) (d : UInt8), ∃ line, fakeLine n d = .ok line

theorem isStr_one (d : UInt8) : IsStr [d] ↔ d < 128 := by
  constructor
  · intro h
    have h1 := (isSome_iff [d]).2 h
    rw [decodeUtf8_cons] at h1
    rw [u8_ascii]
    refine Decidable.byContradiction fun hn => ?_
    unfold utf8Next at h1
    rw [if_neg hn] at h1
    split at h1
    · simp at h1
    · split at h1
      · simp at h1
      · split at h1
        · simp at h1
        · split at h1 <;> simp at h1
  · intro h
    exact isStr_ascii (by simpa using h)

theorem fakeLoop_ok {d : UInt8} (hd : d < 128) : ∀ (is : List Nat) (l : Bytes), fakeLoop d is l = .ok (l ++ is.flatMap fun i => d :: 99 :: decText i)
  | [], l => by simp [fakeLoop]
  | i :: is, l => by
    unfold fakeLoop
    rw [fromUtf8_ok ((isStr_one d).2 hd)]
    simp only
    rw [fakeLoop_ok hd is]
    simp

/-- A delimiter above 127 panics, unless there is no column. -/
theorem C179_high (n : Nat) (d : UInt8) (h : ¬ d < 128) : fakeLine (n + 1) d = .panic := by
  unfold fakeLine
  rw [List.range'_succ]
  unfold fakeLoop
  rw [fromUtf8_err fun k => h ((isStr_one d).1 k)]
  rfl

/-- The delimiter `é`, which is the byte E9. -/
theorem C179_refuted : ¬ C179_statement := by
  intro h
  obtain ⟨l, hl⟩ := h 1 233
  rw [C179_high 0 233 (by decide)] at hl
  simp at hl

theorem decText_ascii (n : Nat) : ∀ x ∈ decText n, x < 128 := by
  intro x hx
  have := decText_digits n x hx
  rw [u8_ascii]
  have h2 : x.toNat ≤ 57 := UInt8.le_iff_toNat_le.1 this.2
  omega

/-- With a one-byte delimiter the header made up for `n` columns is the string ` CDX` and then `c1`, `c2`, … each after a delimiter. -/
theorem C179_text_partial (n : Nat) (d : UInt8) (hd : d < 128) :
    fakeLine n d = .ok (ascii " CDX" ++ ((List.range n).flatMap fun i => d :: 99 :: decText (i + 1)) ++ [NL]) ∧
    ∀ l, fakeLine n d = .ok l → IsStr l := by
  have e : fakeLine n d = .ok (ascii " CDX" ++ ((List.range n).flatMap fun i => d :: 99 :: decText (i + 1)) ++ [NL]) := by
    unfold fakeLine
    rw [fakeLoop_ok hd, Res.bind_ok, List.range'_eq_map_range, List.flatMap_map]
    congr 3
    refine congrArg (fun f => List.flatMap f (List.range n)) ?_
    funext i
    rw [Nat.add_comm]
  refine ⟨e, ?_⟩
  intro l hl
  rw [e] at hl
  injection hl with hl
  rw [← hl]
  refine isStr_ascii ?_
  intro x hx
  simp only [List.mem_append, List.mem_flatMap, List.mem_cons, List.not_mem_nil, or_false] at hx
  rcases hx with (h | ⟨i, -, h | h | h⟩) | h
  · revert x
    decide
  · rw [h]; exact hd
  · rw [h]; decide
  · exact decText_ascii _ x h
  · rw [h]; decide

example : fakeLine 2 9 = .ok (ascii " CDX\tc1\tc2\n") := by decide

/-! ## C180 -/

/-- A name: a letter, then letters, digits and underscores. -/
def IsColName (k : CharClass) (w : List Nat) : Prop := ∃ c t, w = c :: t ∧ k.alpha c = true ∧ ∀ x ∈ t, k.alnum x = true ∨ x = 95

theorem colNameRest_split (k : CharClass) : ∀ cs : List Nat, ∃ w, cs = w ++ colNameRest k cs ∧ (∀ x ∈ w, k.alnum x = true ∨ x = 95) ∧
    ∀ w' r', cs = w' ++ r' → (∀ x ∈ w', k.alnum x = true ∨ x = 95) → w'.length ≤ w.length
  | [] => ⟨[], rfl, by simp, by
      intro w' r' h _
      rw [(List.append_eq_nil_iff.1 h.symm).1]
      exact Nat.le_refl _⟩
  | c :: cs => by
    unfold colNameRest
    by_cases hc : (k.alnum c || c == 95) = true
    · rw [if_pos hc]
      obtain ⟨w, h1, h2, h3⟩ := colNameRest_split k cs
      have hc' : k.alnum c = true ∨ c = 95 := by simpa using hc
      refine ⟨c :: w, by rw [List.cons_append, ← h1], ?_, ?_⟩
      · intro x hx
        rcases List.mem_cons.1 hx with rfl | hx
        · exact hc'
        · exact h2 x hx
      · intro w' r' h hw
        cases w' with
        | nil => simp
        | cons y w' =>
          rw [List.cons_append] at h
          injection h with _ h
          simp only [List.length_cons]
          have := h3 w' r' h fun x hx => hw x (by simp [hx])
          omega
    · rw [if_neg hc]
      refine ⟨[], rfl, by simp, ?_⟩
      intro w' r' h hw
      cases w' with
      | nil => simp
      | cons y w' =>
        rw [List.cons_append] at h
        injection h with h _
        have := hw y (by simp)
        rw [← h] at this
        exact absurd (by simpa using this) hc

/-- The name at the front of a string is the longest front part that is a name, counted in bytes, so that cutting there gives strings. -/
theorem C180_longest (k : CharClass) (cs : List Nat) : ∃ w r, cs = w ++ r ∧ (w = [] ∨ IsColName k w) ∧
    (∀ w' r', cs = w' ++ r' → IsColName k w' → w'.length ≤ w.length) ∧ colNameLen k cs = (encChars w).length ∧
    (encChars cs).take (colNameLen k cs) = encChars w ∧ (encChars cs).drop (colNameLen k cs) = encChars r := by
  suffices h : ∃ w r, cs = w ++ r ∧ (w = [] ∨ IsColName k w) ∧ (∀ w' r', cs = w' ++ r' → IsColName k w' → w'.length ≤ w.length) ∧
      colNameLen k cs = (encChars w).length by
    obtain ⟨w, r, h1, h2, h3, h4⟩ := h
    refine ⟨w, r, h1, h2, h3, h4, ?_, ?_⟩
    · rw [h4, h1, encChars_append, List.take_left' rfl]
    · rw [h4, h1, encChars_append, List.drop_left' rfl]
  cases cs with
  | nil =>
    refine ⟨[], [], rfl, Or.inl rfl, ?_, rfl⟩
    intro w' r' h _
    rw [(List.append_eq_nil_iff.1 h.symm).1]
    exact Nat.le_refl _
  | cons c cs =>
    by_cases hc : k.alpha c = false
    · refine ⟨[], c :: cs, rfl, Or.inl rfl, ?_, ?_⟩
      · intro w' r' h hw
        obtain ⟨x, t, rfl, hx, -⟩ := hw
        rw [List.cons_append] at h
        injection h with h _
        rw [← h, hc] at hx
        simp at hx
      · simp only [colNameLen]
        rw [if_pos hc]
        rfl
    · obtain ⟨w, h1, h2, h3⟩ := colNameRest_split k cs
      have hc' : k.alpha c = true := by simpa using hc
      refine ⟨c :: w, colNameRest k cs, by rw [List.cons_append, ← h1], Or.inr ⟨c, w, rfl, hc', h2⟩, ?_, ?_⟩
      · intro w' r' h hw
        obtain ⟨x, t, rfl, -, ht⟩ := hw
        rw [List.cons_append] at h
        injection h with _ h
        have := h3 t r' h ht
        simp only [List.length_cons]
        omega
      · simp only [colNameLen]
        rw [if_neg hc]
        have : (encChars (c :: cs)).length = (encChars (c :: w)).length + (encChars (colNameRest k cs)).length := by
          rw [← List.length_append, ← encChars_append, List.cons_append, ← h1]
        omega

/-- Classes of characters that are the usual ones on ASCII (as those of std are). -/
def CharClass.Usual (k : CharClass) : Prop := ∀ c : UInt8, c < 128 → k.alpha c.toNat = isAlpha c ∧ k.alnum c.toNat = (isAlpha c || isDigit c)

/-- On ASCII texts `get_col_name` is the function on bytes used in the rest of the model. -/
theorem C180_ascii (k : CharClass) (hk : k.Usual) (b : Bytes) (h : ∀ x ∈ b, x < 128) : colNameLen k (b.map UInt8.toNat) = getColName b := by
  have enc : ∀ l : Bytes, (∀ x ∈ l, x < 128) → encChars (l.map UInt8.toNat) = l := by
    intro l hl
    induction l with
    | nil => rfl
    | cons x l ih =>
      have hx := (u8_ascii x).1 (hl x (by simp))
      rw [List.map_cons, encChars_cons, ih fun y hy => hl y (by simp [hy])]
      unfold encChar
      rw [if_pos (by omega), UInt8.ofNat_toNat]
      rfl
  have hrest : ∀ l : Bytes, (∀ x ∈ l, x < 128) → colNameRest k (l.map UInt8.toNat) = (l.dropWhile isNameChar).map UInt8.toNat := by
    intro l hl
    induction l with
    | nil => rfl
    | cons x l ih =>
      obtain ⟨-, h2⟩ := hk x (hl x (by simp))
      have h95 : (x.toNat == 95) = (x == 95) := by
        rw [Bool.eq_iff_iff]
        simp only [beq_iff_eq]
        rw [← UInt8.toNat_inj]
        rfl
      rw [List.map_cons]
      unfold colNameRest
      rw [h2, h95]
      have hn : (isAlpha x || isDigit x || x == 95) = isNameChar x := rfl
      rw [hn]
      cases hx : isNameChar x with
      | true => rw [if_pos rfl, ih fun y hy => hl y (by simp [hy]), List.dropWhile_cons_of_pos hx]
      | false =>
        rw [if_neg (by simp), List.dropWhile_cons_of_neg (by simp [hx]), List.map_cons]
  cases b with
  | nil => rfl
  | cons c cs =>
    obtain ⟨h1, -⟩ := hk c (h c (by simp))
    have hcs : ∀ x ∈ cs, x < 128 := fun x hx => h x (by simp [hx])
    rw [List.map_cons]
    simp only [colNameLen, getColName]
    rw [h1]
    by_cases hc : isAlpha c = false
    · rw [if_pos hc, if_pos hc]
    · rw [if_neg hc, if_neg hc, ← List.map_cons, enc _ h, hrest cs hcs,
        enc _ fun x hx => hcs x ((List.dropWhile_sublist isNameChar).subset hx)]
      have : cs.length = (cs.takeWhile isNameChar).length + (cs.dropWhile isNameChar).length := by
        rw [← List.length_append, List.takeWhile_append_dropWhile]
      rw [List.length_cons]
      omega

/-! ## C181 -/

/-- The classes of ASCII alone, for examples. -/
def asciiClass : CharClass :=
  ⟨fun c => (65 ≤ c && c ≤ 90) || (97 ≤ c && c ≤ 122), fun c => (65 ≤ c && c ≤ 90) || (97 ≤ c && c ≤ 122) || (48 ≤ c && c ≤ 57)⟩

/-- A header accepts exactly the names that the reader of column names takes as a whole. -/
theorem C181_agree (k : CharClass) (hk : ∀ c, k.alpha c = true → k.alnum c = true) (cs : List Nat) :
    nameOkChars k cs = true ↔ cs ≠ [] ∧ colNameLen k cs = (encChars cs).length := by
  have hok : nameOkChars k cs = true ↔ IsColName k cs := by
    cases cs with
    | nil => simp [nameOkChars, IsColName]
    | cons c t =>
      simp only [nameOkChars, Bool.and_eq_true, List.all_cons, List.all_eq_true, Bool.or_eq_true, beq_iff_eq]
      constructor
      · rintro ⟨h1, -, h3⟩
        exact ⟨c, t, rfl, h1, h3⟩
      · rintro ⟨c', t', e, h1, h2⟩
        injection e with e1 e2
        subst e1 e2
        exact ⟨h1, Or.inl (hk _ h1), h2⟩
  rw [hok]
  obtain ⟨w, r, h1, h2, h3, h4, h5, h6⟩ := C180_longest k cs
  constructor
  · intro hn
    have := h3 cs [] (by simp) hn
    have hw : r = [] := by
      rw [h1, List.length_append] at this
      exact List.eq_nil_of_length_eq_zero (by omega)
    subst hw
    rw [List.append_nil] at h1
    subst h1
    refine ⟨?_, h4⟩
    obtain ⟨c, t, e, -⟩ := hn
    rw [e]
    simp
  · rintro ⟨h0, hl⟩
    rw [hl, List.drop_length] at h6
    have hr : r = [] := by
      cases r with
      | nil => rfl
      | cons x r =>
        rw [encChars_cons] at h6
        have := (List.append_eq_nil_iff.1 h6.symm).1
        exact absurd this (encChar_ne x)
    subst hr
    rw [List.append_nil] at h1
    subst h1
    rcases h2 with h | h
    · exact absurd h h0
    · exact h

theorem splitChars_ne (d : Nat) (cs : List Nat) : splitChars d cs ≠ [] := by
  cases cs with
  | nil => simp [splitChars]
  | cons c cs =>
    unfold splitChars
    split
    · simp
    · split <;> simp

theorem sliceSplit_free_append (d : UInt8) (a rest : Bytes) (ha : d ∉ a) (w : Bytes) (ws : List Bytes) (h : sliceSplit d rest = w :: ws) :
    sliceSplit d (a ++ rest) = (a ++ w) :: ws := by
  obtain ⟨hd, tl, h1, h2⟩ := sliceSplit_append_free d a rest ha
  rw [h] at h1
  injection h1 with e1 e2
  rw [h2, e1, e2]

/-- A one-byte character is in no other one. -/
theorem encChar_free {c : Nat} (hc : isScalar c) {d : UInt8} (hd : d < 128) (hne : c ≠ d.toNat) : d ∉ encChar c := by
  intro hm
  have hd' := (u8_ascii d).1 hd
  unfold isScalar at hc
  by_cases h1 : c < 0x80
  · unfold encChar at hm
    rw [if_pos h1, List.mem_singleton] at hm
    rw [hm, toNat_ofNat (by omega)] at hne
    exact hne rfl
  · have key : ∀ n, 128 ≤ n → n < 256 → d = UInt8.ofNat n → False := by
      intro n h2 h3 e
      rw [e, toNat_ofNat h3] at hd'
      omega
    unfold encChar at hm
    rw [if_neg h1] at hm
    split at hm
    · simp only [List.mem_cons, List.not_mem_nil, or_false] at hm
      rcases hm with h | h
      all_goals exact key _ (by omega) (by omega) h
    · split at hm
      · simp only [List.mem_cons, List.not_mem_nil, or_false] at hm
        rcases hm with h | h | h
        all_goals exact key _ (by omega) (by omega) h
      · simp only [List.mem_cons, List.not_mem_nil, or_false] at hm
        rcases hm with h | h | h | h
        all_goals exact key _ (by omega) (by omega) h

/-- Splitting a string at a one-byte character is the same on bytes and on characters. -/
theorem splitChars_bytes {d : UInt8} (hd : d < 128) : ∀ {cs : List Nat}, (∀ c ∈ cs, isScalar c) →
    sliceSplit d (encChars cs) = (splitChars d.toNat cs).map encChars
  | [], _ => rfl
  | c :: cs, h => by
    have ih := splitChars_bytes hd (cs := cs) fun x hx => h x (by simp [hx])
    have hd' := (u8_ascii d).1 hd
    rw [encChars_cons]
    unfold splitChars
    by_cases hc : c = d.toNat
    · rw [if_pos hc]
      have : encChar c = [d] := by
        unfold encChar
        rw [if_pos (by omega), hc, UInt8.ofNat_toNat]
      rw [this]
      simp only [List.cons_append, List.nil_append, sliceSplit, if_true, List.map_cons, ih]
      rfl
    · rw [if_neg hc]
      have hf := encChar_free (h c (by simp)) hd hc
      cases hs : splitChars d.toNat cs with
      | nil => exact absurd hs (splitChars_ne _ _)
      | cons w ws =>
        rw [hs, List.map_cons] at ih
        rw [sliceSplit_free_append d _ _ hf _ _ ih]
        simp only [List.map_cons, encChars_cons]

theorem splitChars_sub (d : Nat) : ∀ (cs : List Nat), ∀ w ∈ splitChars d cs, ∀ c ∈ w, c ∈ cs
  | [], w, hw, c, hc => by
    simp [splitChars] at hw
    rw [hw] at hc
    exact hc
  | x :: cs, w, hw, c, hc => by
    unfold splitChars at hw
    split at hw
    · rcases List.mem_cons.1 hw with rfl | hw
      · simp at hc
      · exact List.mem_cons_of_mem _ (splitChars_sub d cs w hw c hc)
    · split at hw
      · rw [List.mem_singleton.1 hw] at hc
        rw [List.mem_singleton.1 hc]
        exact List.mem_cons_self
      · rename_i v vs hv
        rcases List.mem_cons.1 hw with rfl | hw
        · rcases List.mem_cons.1 hc with rfl | hc
          · exact List.mem_cons_self
          · exact List.mem_cons_of_mem _ (splitChars_sub d cs v (by rw [hv]; simp) c hc)
        · exact List.mem_cons_of_mem _ (splitChars_sub d cs w (by rw [hv]; simp [hw]) c hc)

theorem isStr_of_pieces {d : UInt8} (hd : d < 128) {b : Bytes} (h : ∀ w ∈ sliceSplit d b, IsStr w) : IsStr b := by
  have := isStr_intercalate hd h
  rwa [intercalate_sliceSplit] at this

/-- The check of a header on characters is the one on bytes used in the rest of the model, where each name is decoded by itself. -/
theorem C181_refines (k : CharClass) (mode : HeaderMode) (data : Bytes) : isValidCdxStr k mode data = isValidCdx (nameOkBytes k) mode data := by
  unfold isValidCdxStr isValidCdx
  by_cases h1 : mode = .ignore
  · rw [if_pos h1, if_pos h1]
  rw [if_neg h1, if_neg h1]
  by_cases h2 : isCdx data = false
  · rw [if_pos h2, if_pos h2]
  rw [if_neg h2, if_neg h2]
  by_cases h3 : mode = .strip ∨ mode = .none
  · rw [if_pos h3, if_pos h3]
  rw [if_neg h3, if_neg h3]
  simp only
  generalize (if data.getLast? = some NL then data.dropLast else data) = D
  by_cases h4 : D.length < 6
  · rw [if_pos h4, if_pos h4]
  rw [if_neg h4, if_neg h4]
  by_cases h5 : D.getD 4 0 = NL ∨ isAsciiAlnum (D.getD 4 0) = true ∨ D.getD 4 0 > 127
  · rw [if_pos h5, if_pos h5]
  rw [if_neg h5, if_neg h5]
  have hd : D.getD 4 0 < 128 := by
    rw [u8_ascii]
    have : ¬ D.getD 4 0 > 127 := fun h => h5 (Or.inr (Or.inr h))
    have h6 : ¬ (127 : UInt8).toNat < (D.getD 4 0).toNat := fun h => this (UInt8.lt_iff_toNat_lt.2 h)
    have e : (127 : UInt8).toNat = 127 := rfl
    omega
  generalize D.getD 4 0 = d at hd
  by_cases hs : IsStr (D.drop 5)
  · rw [fromUtf8_ok hs]
    simp only
    obtain ⟨cs, hcs, e⟩ := hs
    rw [← e, lossyChars_enc hcs, splitChars_bytes hd hcs, List.all_map]
    have : (splitChars d.toNat cs).all (nameOkChars k) = (splitChars d.toNat cs).all (nameOkBytes k ∘ encChars) := by
      rw [Bool.eq_iff_iff, List.all_eq_true, List.all_eq_true]
      refine forall_congr' fun w => forall_congr' fun hw => ?_
      have hw' : ∀ c ∈ w, isScalar c := fun c hc => hcs c (splitChars_sub _ _ w hw c hc)
      show _ ↔ nameOkBytes k (encChars w) = true
      unfold nameOkBytes
      rw [(isSome_iff _).2 ⟨w, hw', rfl⟩, lossyChars_enc hw', Bool.true_and]
    rw [this]
  · rw [fromUtf8_err hs]
    simp only
    rw [if_neg]
    intro hall
    refine hs (isStr_of_pieces hd ?_)
    intro w hw
    have := List.all_eq_true.1 hall w hw
    unfold nameOkBytes at this
    rw [Bool.and_eq_true] at this
    exact (isSome_iff w).1 this.1

example : nameOkChars asciiClass [97, 95, 49] = true ∧ nameOkChars asciiClass [95] = false ∧
    isValidCdxStr asciiClass .matching (ascii " CDX\tab\tc_1\n") = some true ∧
    isValidCdxStr asciiClass .matching (ascii " CDX\ta" ++ [255, 10]) = none := by decide

example : asciiClass.Usual ∧ (∀ c, asciiClass.alpha c = true → asciiClass.alnum c = true) ∧ colNameLen asciiClass [97, 95, 233] = 2 := by
  refine ⟨?_, ?_, by decide⟩
  · unfold CharClass.Usual
    exact byte_forall (by decide +kernel)
  · intro c h
    simp only [asciiClass] at h ⊢
    simp [h]

end Cdx
