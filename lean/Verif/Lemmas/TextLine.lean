import Verif.Model.TextLine

namespace Cdx

/-! ### Slices -/

theorem Slice.get_append_left (s : Slice) (a b : Bytes) (h : s.fin ≤ a.length) :
    s.get (a ++ b) = s.get a := by
  unfold Slice.get
  rcases Nat.le_total s.beg s.fin with h1 | h1
  · rw [List.drop_append_of_le_length (by omega), List.take_append_of_le_length]
    simp; omega
  · have : s.fin - s.beg = 0 := by omega
    simp [this]

theorem Slice.get_mid (b : Nat) (pre l : Bytes) (hb : b ≤ pre.length) :
    (⟨b, pre.length⟩ : Slice).get (pre ++ l) = pre.drop b := by
  rw [Slice.get_append_left _ _ _ (by simp)]
  unfold Slice.get
  exact List.take_of_length_le (by simp)

/-! ### Splitting on a delimiter -/

theorem sliceSplit_ne_nil (d : UInt8) (l : Bytes) : sliceSplit d l ≠ [] := by
  cases l with
  | nil => simp [sliceSplit]
  | cons x xs =>
    unfold sliceSplit
    split
    · simp
    · split <;> simp

theorem sliceSplit_cons_ne {d x : UInt8} (xs : Bytes) (h : x ≠ d) :
    ∃ hd tl, sliceSplit d xs = hd :: tl ∧ sliceSplit d (x :: xs) = (x :: hd) :: tl := by
  cases hs : sliceSplit d xs with
  | nil => exact absurd hs (sliceSplit_ne_nil d xs)
  | cons a b => exact ⟨a, b, rfl, by simp [sliceSplit, h, hs]⟩

theorem intercalate_cons_cons (d : Bytes) (a b : Bytes) (t : List Bytes) :
    List.intercalate d (a :: b :: t) = a ++ d ++ List.intercalate d (b :: t) := by
  simp [List.intercalate, List.intersperse]

theorem intercalate_singleton (d : Bytes) (a : Bytes) : List.intercalate d [a] = a := by
  simp [List.intercalate, List.intersperse]

theorem intercalate_cons_ne (d a : Bytes) {t : List Bytes} (h : t ≠ []) :
    List.intercalate d (a :: t) = a ++ d ++ List.intercalate d t := by
  cases t with
  | nil => exact absurd rfl h
  | cons b t => exact intercalate_cons_cons d a b t

theorem intercalate_cons_head (d : Bytes) (x : UInt8) (a : Bytes) (t : List Bytes) :
    List.intercalate d ((x :: a) :: t) = x :: List.intercalate d (a :: t) := by
  cases t with
  | nil => simp
  | cons b t => simp

theorem intercalate_sliceSplit (d : UInt8) (l : Bytes) :
    List.intercalate [d] (sliceSplit d l) = l := by
  induction l with
  | nil => simp [sliceSplit]
  | cons x xs ih =>
    by_cases h : x = d
    · subst h
      simp only [sliceSplit, if_true]
      rw [intercalate_cons_ne _ _ (sliceSplit_ne_nil x xs), ih]
      simp
    · obtain ⟨hd, tl, h1, h2⟩ := sliceSplit_cons_ne xs h
      rw [h2, intercalate_cons_head, ← h1, ih]

theorem sliceSplit_append_free (d : UInt8) (a rest : Bytes) (ha : d ∉ a) :
    ∃ hd tl, sliceSplit d rest = hd :: tl ∧ sliceSplit d (a ++ rest) = (a ++ hd) :: tl := by
  induction a with
  | nil =>
    cases hs : sliceSplit d rest with
    | nil => exact absurd hs (sliceSplit_ne_nil d rest)
    | cons h t => exact ⟨h, t, rfl, by simp [hs]⟩
  | cons x xs ih =>
    simp only [List.mem_cons, not_or] at ha
    obtain ⟨hd, tl, h1, h2⟩ := ih ha.2
    obtain ⟨hd', tl', h3, h4⟩ := sliceSplit_cons_ne (xs ++ rest) (Ne.symm ha.1)
    rw [h2] at h3
    obtain ⟨rfl, rfl⟩ := List.cons.inj h3
    exact ⟨hd, tl, h1, by simpa using h4⟩

theorem sliceSplit_free (d : UInt8) (a : Bytes) (ha : d ∉ a) : sliceSplit d a = [a] := by
  obtain ⟨hd, tl, h1, h2⟩ := sliceSplit_append_free d a [] ha
  simp only [sliceSplit, List.cons.injEq] at h1
  obtain ⟨rfl, rfl⟩ := h1
  simpa using h2

theorem sliceSplit_intercalate (d : UInt8) (cols : List Bytes) (hne : cols ≠ [])
    (h : ∀ c ∈ cols, d ∉ c) : sliceSplit d (List.intercalate [d] cols) = cols := by
  induction cols with
  | nil => exact absurd rfl hne
  | cons a t ih =>
    have ha : d ∉ a := h a (by simp)
    by_cases ht : t = []
    · subst ht
      rw [intercalate_singleton, sliceSplit_free d a ha]
    · rw [intercalate_cons_ne _ _ ht, List.append_assoc]
      obtain ⟨hd, tl, h1, h2⟩ :=
        sliceSplit_append_free d a ([d] ++ List.intercalate [d] t) ha
      have ih' := ih ht (fun c hc => h c (by simp [hc]))
      rw [h2]
      simp only [List.cons_append, List.nil_append, sliceSplit, if_true, List.cons.injEq] at h1
      obtain ⟨rfl, rfl⟩ := h1
      simp [ih']

theorem not_mem_sliceSplit (d : UInt8) (l : Bytes) : ∀ c ∈ sliceSplit d l, d ∉ c := by
  induction l with
  | nil => simp [sliceSplit]
  | cons x xs ih =>
    by_cases h : x = d
    · subst h
      intro c hc
      simp only [sliceSplit, if_true, List.mem_cons] at hc
      rcases hc with rfl | hc
      · simp
      · exact ih c hc
    · obtain ⟨hd, tl, h1, h2⟩ := sliceSplit_cons_ne xs h
      rw [h2]
      rw [h1] at ih
      intro c hc
      simp only [List.mem_cons] at hc
      rcases hc with rfl | hc
      · simp only [List.mem_cons, not_or]
        exact ⟨fun he => h he.symm, ih hd (by simp)⟩
      · exact ih c (by simp [hc])

theorem sliceSplit_snoc (d : UInt8) (l : Bytes) (x : UInt8) (h : x ≠ d) :
    sliceSplit d (l ++ [x]) =
      (sliceSplit d l).dropLast ++ [(sliceSplit d l).getLastD [] ++ [x]] := by
  induction l with
  | nil => simp [sliceSplit, h]
  | cons y ys ih =>
    by_cases hy : y = d
    · subst hy
      simp only [List.cons_append, sliceSplit, if_true, ih]
      cases hs : sliceSplit y ys with
      | nil => exact absurd hs (sliceSplit_ne_nil y ys)
      | cons a b => simp
    · obtain ⟨hd, tl, h1, h2⟩ := sliceSplit_cons_ne ys hy
      obtain ⟨hd', tl', h3, h4⟩ := sliceSplit_cons_ne (ys ++ [x]) hy
      rw [List.cons_append, h4, h2]
      rw [ih, h1] at h3
      cases tl with
      | nil =>
        simp at h3
        obtain ⟨rfl, rfl⟩ := h3
        simp
      | cons b c =>
        simp at h3
        obtain ⟨rfl, rfl⟩ := h3
        simp

/-! ### `split_plain` -/

theorem splitPlainLoop_append (d : UInt8) (a b : Bytes) (bg e : Nat) (ps : List Slice) :
    splitPlainLoop d (a ++ b) bg e ps =
      splitPlainLoop d b (splitPlainLoop d a bg e ps).2.1 (splitPlainLoop d a bg e ps).2.2
        (splitPlainLoop d a bg e ps).1 := by
  induction a generalizing bg e ps with
  | nil => simp [splitPlainLoop]
  | cons x xs ih =>
    simp only [List.cons_append, splitPlainLoop]
    split <;> exact ih ..

theorem splitPlainLoop_spec (d : UInt8) (l pre : Bytes) (bg : Nat) (ps : List Slice)
    (hb : bg ≤ pre.length) :
    ∃ P b', splitPlainLoop d l bg pre.length ps = (ps ++ P, b', (pre ++ l).length) ∧
      b' ≤ (pre ++ l).length ∧ (∀ s ∈ P, s.Within (pre ++ l)) ∧
      ∃ hd tl, sliceSplit d l = hd :: tl ∧
        P.map (·.get (pre ++ l)) ++ [(⟨b', (pre ++ l).length⟩ : Slice).get (pre ++ l)] =
          (pre.drop bg ++ hd) :: tl := by
  induction l generalizing pre bg ps with
  | nil =>
    refine ⟨[], bg, by simp [splitPlainLoop], by simpa using hb, by simp, [], [],
      by simp [sliceSplit], ?_⟩
    simp only [Slice.get, List.append_nil, List.map_nil, List.nil_append]
    rw [List.take_of_length_le (by simp)]
  | cons x xs ih =>
    have hpre : pre ++ x :: xs = (pre ++ [x]) ++ xs := by simp
    have hlen : (pre ++ [x]).length = pre.length + 1 := by simp
    by_cases hx : x = d
    · subst hx
      obtain ⟨P, b', h1, h2, hw, hd, tl, h3, h4⟩ :=
        ih (pre ++ [x]) (pre.length + 1) (ps ++ [⟨bg, pre.length⟩]) (by simp)
      rw [hlen] at h1
      refine ⟨⟨bg, pre.length⟩ :: P, b', ?_, by rw [hpre]; exact h2, ?_, [],
        sliceSplit x xs, by simp [sliceSplit], ?_⟩
      · simp only [splitPlainLoop, if_true, h1, hpre]
        simp
      · intro s hs
        simp only [List.mem_cons] at hs
        rcases hs with rfl | hs
        · refine ⟨hb, ?_⟩
          simp
        · rw [hpre]; exact hw s hs
      · rw [hpre, List.map_cons, List.cons_append, h4]
        congr 1
        · rw [List.append_assoc, Slice.get_mid _ _ _ hb]; simp
        · rw [h3]
          have : (pre ++ [x]).drop (pre.length + 1) = [] := by
            apply List.drop_eq_nil_of_le; simp
          simp [this]
    · obtain ⟨P, b', h1, h2, hw, hd, tl, h3, h4⟩ :=
        ih (pre ++ [x]) bg ps (by simp; omega)
      rw [hlen] at h1
      obtain ⟨hd', tl', h5, h6⟩ := sliceSplit_cons_ne xs hx
      rw [h3] at h5
      obtain ⟨rfl, rfl⟩ := List.cons.inj h5
      refine ⟨P, b', ?_, by rw [hpre]; exact h2, by rw [hpre]; exact hw, x :: hd, tl, h6, ?_⟩
      · simp only [splitPlainLoop, hx, if_false, h1, hpre]
      · rw [hpre, h4]
        rw [List.drop_append_of_le_length hb]
        simp

/-- Main fact on `split_plain`: on a line ending in a newline, the columns are the
delimiter-separated pieces of the text before it. -/
theorem splitPlain_spec (d : UInt8) (body : Bytes) (hd : d ≠ NL) :
    (splitPlain (body ++ [NL]) d).map (·.get (body ++ [NL])) = sliceSplit d body ∧
      ∀ s ∈ splitPlain (body ++ [NL]) d, s.Within (body ++ [NL]) := by
  obtain ⟨P, b', h1, h2, hw, hdd, tl, h3, h4⟩ := splitPlainLoop_spec d body [] 0 [] (by simp)
  simp only [List.nil_append, List.length_nil, List.drop_nil] at h1 h2 h4 hw
  have hloop : splitPlainLoop d (body ++ [NL]) 0 0 [] = (P, b', body.length + 1) := by
    rw [splitPlainLoop_append, h1]
    simp [splitPlainLoop, Ne.symm hd]
  have hsp : splitPlain (body ++ [NL]) d = P ++ [⟨b', body.length⟩] := by
    unfold splitPlain
    rw [hloop]
    have : b' ≠ body.length + 1 := by omega
    simp [this]
  have hw' : ∀ s ∈ P ++ [(⟨b', body.length⟩ : Slice)], s.fin ≤ body.length ∧ s.beg ≤ s.fin := by
    intro s hs
    simp only [List.mem_append, List.mem_singleton] at hs
    rcases hs with hs | rfl
    · exact ⟨(hw s hs).2, (hw s hs).1⟩
    · exact ⟨Nat.le_refl _, h2⟩
  rw [hsp]
  refine ⟨?_, fun s hs => ⟨(hw' s hs).2, ?_⟩⟩
  · rw [h3, ← h4]
    have : ∀ s ∈ P ++ [(⟨b', body.length⟩ : Slice)],
        s.get (body ++ [NL]) = s.get body :=
      fun s hs => Slice.get_append_left s _ _ (hw' s hs).1
    rw [List.map_congr_left this]
    simp
  · have := (hw' s hs).1
    simp; omega

/-! ### Backslash mode -/

theorem unslash_enslash (c : UInt8) (h : c ≠ CH_n ∧ c ≠ CH_r ∧ c ≠ CH_t) :
    unslash (enslash c) = c := by
  unfold unslash enslash
  by_cases h1 : c = NL
  · subst h1; simp
  · by_cases h2 : c = CR
    · subst h2; decide
    · by_cases h3 : c = TAB
      · subst h3; decide
      · simp [h1, h2, h3, h]

theorem writeBackslash_nil (d e : UInt8) : writeBackslash d e [] = [] := rfl

theorem writeBackslash_cons (d e x : UInt8) (xs : Bytes) :
    writeBackslash d e (x :: xs) =
      (if x = d ∨ x = e ∨ x = BSLASH then [BSLASH, enslash x] else [x]) ++
        writeBackslash d e xs := by
  simp [writeBackslash]

/-- A delimiter that backslash mode can escape. -/
def EscapableDelim (d : UInt8) : Prop :=
  d ≠ NL ∧ d ≠ BSLASH ∧ d ≠ CH_n ∧ d ≠ CH_r ∧ d ≠ CH_t

theorem bsFold_value (d : UInt8) (hd : EscapableDelim d) (v : Bytes) (s : BsState)
    (hs : s.slash = false) :
    (writeBackslash d NL v).foldl (bsStep d) s =
      { s with tmp := s.tmp ++ v, fin := s.fin + v.length } := by
  induction v generalizing s with
  | nil => simp [writeBackslash_nil]
  | cons x xs ih =>
    rw [writeBackslash_cons, List.foldl_append]
    by_cases hx : x = d ∨ x = NL ∨ x = BSLASH
    · simp only [hx, if_true, List.foldl_cons, List.foldl_nil]
      have h1 : bsStep d s BSLASH = { s with slash := true } := by simp [bsStep, hs]
      have hu : unslash (enslash x) = x := by
        apply unslash_enslash
        rcases hx with rfl | rfl | rfl
        · exact ⟨hd.2.2.1, hd.2.2.2.1, hd.2.2.2.2⟩
        · decide
        · decide
      have h2 : bsStep d { s with slash := true } (enslash x) =
          { s with tmp := s.tmp ++ [x], fin := s.fin + 1, slash := false } := by
        simp [bsStep, hu]
      rw [h1, h2, ih _ rfl]
      simp [hs, Nat.add_comm, Nat.add_left_comm]
    · simp only [hx, if_false, List.foldl_cons, List.foldl_nil]
      simp only [not_or] at hx
      have h1 : bsStep d s x = { s with tmp := s.tmp ++ [x], fin := s.fin + 1 } := by
        simp [bsStep, hs, hx]
      rw [h1, ih _ (by simp [hs])]
      simp [Nat.add_comm, Nat.add_left_comm]

theorem bsFold_delim (d : UInt8) (hd : EscapableDelim d) (s : BsState) (hs : s.slash = false) :
    bsStep d s d =
      { tmp := s.tmp ++ [d], parts := s.parts ++ [⟨s.beg, s.fin⟩],
        beg := s.fin + 1, fin := s.fin + 1, slash := false } := by
  simp [bsStep, hs, hd.2.1]

theorem bsFold_row (d : UInt8) (hd : EscapableDelim d) (c : Bytes) (cs : List Bytes) (s : BsState)
    (hs : s.slash = false) (hf : s.fin = s.tmp.length) (hb : s.beg ≤ s.fin) :
    ∃ P b', (List.intercalate [d] ((c :: cs).map (writeBackslash d NL))).foldl (bsStep d) s =
        { tmp := s.tmp ++ List.intercalate [d] (c :: cs), parts := s.parts ++ P, beg := b',
          fin := (s.tmp ++ List.intercalate [d] (c :: cs)).length, slash := false } ∧
      b' ≤ (s.tmp ++ List.intercalate [d] (c :: cs)).length ∧
      P.length = cs.length ∧
      (∀ q ∈ P, q.Within (s.tmp ++ List.intercalate [d] (c :: cs))) ∧
      P.map (·.get (s.tmp ++ List.intercalate [d] (c :: cs))) ++
        [(s.tmp ++ List.intercalate [d] (c :: cs)).drop b'] = (s.tmp.drop s.beg ++ c) :: cs := by
  induction cs generalizing c s with
  | nil =>
    refine ⟨[], s.beg, ?_, ?_, by simp, by simp, ?_⟩
    · simp only [List.map_cons, List.map_nil, intercalate_singleton]
      rw [bsFold_value d hd c s hs]
      simp [hs, hf]
    · simp; omega
    · simp only [intercalate_singleton, List.map_nil, List.nil_append]
      rw [List.drop_append_of_le_length (by omega)]
  | cons c2 cs ih =>
    have hm : List.intercalate [d] ((c :: c2 :: cs).map (writeBackslash d NL)) =
        writeBackslash d NL c ++ ([d] ++
          List.intercalate [d] ((c2 :: cs).map (writeBackslash d NL))) := by
      simp
    rw [hm, List.foldl_append, bsFold_value d hd c s hs, List.foldl_append]
    simp only [List.foldl_cons, List.foldl_nil]
    rw [bsFold_delim d hd _ (by simp [hs])]
    simp only
    obtain ⟨P, b', h1, h2, h3, h4, h5⟩ := ih c2
      { tmp := s.tmp ++ c ++ [d], parts := s.parts ++ [⟨s.beg, s.fin + c.length⟩],
        beg := s.fin + c.length + 1, fin := s.fin + c.length + 1, slash := false }
      rfl (by simp [hf]; omega) (by simp)
    simp only at h1 h2 h3 h4 h5
    have ht : s.tmp ++ List.intercalate [d] (c :: c2 :: cs) =
        s.tmp ++ c ++ [d] ++ List.intercalate [d] (c2 :: cs) := by
      rw [intercalate_cons_cons]; simp
    rw [ht]
    refine ⟨⟨s.beg, s.fin + c.length⟩ :: P, b', ?_, h2, by simp [h3], ?_, ?_⟩
    · rw [h1]; simp
    · intro q hq
      simp only [List.mem_cons] at hq
      rcases hq with rfl | hq
      · refine ⟨by simp; omega, ?_⟩
        simp [hf]
      · exact h4 q hq
    · rw [List.map_cons, List.cons_append, h5]
      congr 1
      · have := Slice.get_mid s.beg (s.tmp ++ c) ([d] ++ List.intercalate [d] (c2 :: cs))
          (by simp; omega)
        rw [List.length_append, ← hf] at this
        rw [List.append_assoc (s.tmp ++ c), this, List.drop_append_of_le_length (by omega)]
      · congr 1
        have : (s.tmp ++ c ++ [d]).drop (s.fin + c.length + 1) = [] := by
          apply List.drop_eq_nil_of_le; simp [hf]; omega
        rw [this]; simp

theorem mem_intercalate {d x : UInt8} {l : List Bytes} (h : x ∈ List.intercalate [d] l) :
    x = d ∨ ∃ c ∈ l, x ∈ c := by
  induction l with
  | nil => simp [List.intercalate] at h
  | cons a t ih =>
    by_cases ht : t = []
    · subst ht
      rw [intercalate_singleton] at h
      exact Or.inr ⟨a, by simp, h⟩
    · rw [intercalate_cons_ne _ _ ht] at h
      simp only [List.append_assoc, List.mem_append, List.mem_singleton] at h
      rcases h with h | h | h
      · exact Or.inr ⟨a, by simp, h⟩
      · exact Or.inl h
      · rcases ih h with h | ⟨c, hc, hx⟩
        · exact Or.inl h
        · exact Or.inr ⟨c, by simp [hc], hx⟩

theorem enslash_ne_self_of (c : UInt8) (h : c = NL ∨ c = CR ∨ c = TAB) :
    enslash c = CH_n ∨ enslash c = CH_r ∨ enslash c = CH_t := by
  rcases h with rfl | rfl | rfl <;> decide

theorem not_mem_writeBackslash (d v : _) : NL ∉ writeBackslash d NL v := by
  induction v with
  | nil => simp [writeBackslash_nil]
  | cons x xs ih =>
    rw [writeBackslash_cons]
    simp only [List.mem_append, not_or]
    refine ⟨?_, ih⟩
    split
    · simp only [List.mem_cons, List.not_mem_nil, or_false, not_or]
      refine ⟨by decide, ?_⟩
      unfold enslash
      split
      · decide
      · split
        · decide
        · split
          · decide
          · rename_i h _ _; exact fun he => h he.symm
    · rename_i h
      simp only [not_or] at h
      simp only [List.mem_singleton]
      exact fun he => h.2.1 he.symm

theorem stripNL_snoc (l : Bytes) (h : NL ∉ l) : stripNL (l ++ [NL]) = l := by
  unfold stripNL
  rw [List.reverse_append]
  simp only [List.reverse_cons, List.reverse_nil, List.nil_append, List.singleton_append,
    List.dropWhile_cons, beq_self_eq_true, if_true]
  have : l.reverse.dropWhile (· == NL) = l.reverse := by
    cases hr : l.reverse with
    | nil => rfl
    | cons a t =>
      have : a ∈ l := by rw [← List.mem_reverse, hr]; simp
      have hne : (a == NL) = false := by
        rw [beq_eq_false_iff_ne]; intro he; exact h (he ▸ this)
      simp [hne]
  rw [this, List.reverse_reverse]

/-! ### Quote mode -/

/-- Doubling of quote characters. -/
def encQ (v : Bytes) : Bytes := v.flatMap fun c => if c = QUOTE then [QUOTE, QUOTE] else [c]

theorem encQ_cons (x : UInt8) (xs : Bytes) :
    encQ (x :: xs) = (if x = QUOTE then [QUOTE, QUOTE] else [x]) ++ encQ xs := by
  simp [encQ]

theorem writeQuotes_free (d : UInt8) (v : Bytes) (hd : d ∉ v) (hn : NL ∉ v) :
    writeQuotes d NL v = encQ v := by
  unfold writeQuotes
  induction v with
  | nil => rfl
  | cons x xs ih =>
    simp only [List.mem_cons, not_or] at hd hn
    rw [encQ_cons]
    by_cases hx : x = QUOTE
    · simp [writeQuotesLoop, hx, ih hd.2 hn.2]
    · simp [writeQuotesLoop, hx, Ne.symm hd.1, Ne.symm hn.1, ih hd.2 hn.2]

theorem not_mem_encQ (v : Bytes) (hn : NL ∉ v) : NL ∉ encQ v := by
  unfold encQ
  simp only [List.mem_flatMap, not_exists, not_and]
  intro c hc
  split
  · decide
  · simp only [List.mem_singleton]
    rintro rfl; exact hn hc

theorem qFold_value (d : UInt8) (v : Bytes) (s : QState)
    (hd : d ∉ v) (hadj : ¬ [QUOTE, QUOTE] <:+: v)
    (hs : s.inQuote = true → s.lastQuote = true ∧ v.head? ≠ some QUOTE) :
    ∃ q lq, (encQ v).foldl (qStep d) s =
      { s with tmp := s.tmp ++ v, fin := s.fin + v.length, inQuote := q, lastQuote := lq } ∧
      (q = true → lq = true) := by
  induction v generalizing s with
  | nil => exact ⟨s.inQuote, s.lastQuote, by simp [encQ], fun h => (hs h).1⟩
  | cons x xs ih =>
    simp only [List.mem_cons, not_or] at hd
    have hadj' : ¬ [QUOTE, QUOTE] <:+: xs := fun h => hadj (List.infix_cons h)
    rw [encQ_cons, List.foldl_append]
    by_cases hx : x = QUOTE
    · subst hx
      have hin : s.inQuote = false := by
        cases h : s.inQuote with
        | false => rfl
        | true => exact absurd rfl (hs h).2
      have h2 : [QUOTE, QUOTE].foldl (qStep d) s =
          { s with tmp := s.tmp ++ [QUOTE], fin := s.fin + 1, inQuote := true,
                   lastQuote := true } := by
        simp [qStep, hin]
      simp only [if_true, h2]
      obtain ⟨q, lq, h3, h4⟩ := ih
        { s with tmp := s.tmp ++ [QUOTE], fin := s.fin + 1, inQuote := true, lastQuote := true }
        hd.2 hadj' (by
        intro _
        refine ⟨rfl, ?_⟩
        intro hh
        cases xs with
        | nil => simp at hh
        | cons y ys =>
          simp only [List.head?_cons, Option.some.injEq] at hh
          subst hh
          exact hadj ⟨[], ys, rfl⟩)
      refine ⟨q, lq, ?_, h4⟩
      rw [h3]
      simp [Nat.add_comm, Nat.add_left_comm]
    · have h2 : [x].foldl (qStep d) s =
          { s with tmp := s.tmp ++ [x], fin := s.fin + 1, inQuote := false } := by
        cases hin : s.inQuote with
        | false => simp [qStep, hin, hx, qPush, Ne.symm hd.1]
        | true => simp [qStep, hin, hx, qPush, Ne.symm hd.1, (hs hin).1]
      simp only [hx, if_false, h2]
      obtain ⟨q, lq, h3, h4⟩ := ih
        { s with tmp := s.tmp ++ [x], fin := s.fin + 1, inQuote := false } hd.2 hadj' (by simp)
      refine ⟨q, lq, ?_, h4⟩
      rw [h3]
      simp [Nat.add_comm, Nat.add_left_comm]

theorem qFold_row (d : UInt8) (hq : d ≠ QUOTE) (c : Bytes) (cs : List Bytes) (s : QState)
    (hs : s.inQuote = false) (hf : s.fin = s.tmp.length) (hb : s.beg ≤ s.fin)
    (hv : ∀ v ∈ c :: cs, d ∉ v ∧ ¬ [QUOTE, QUOTE] <:+: v) :
    ∃ P b' q lq, (List.intercalate [d] ((c :: cs).map encQ)).foldl (qStep d) s =
        { tmp := s.tmp ++ List.intercalate [d] (c :: cs), parts := s.parts ++ P, beg := b',
          fin := (s.tmp ++ List.intercalate [d] (c :: cs)).length, inQuote := q,
          lastQuote := lq } ∧
      b' ≤ (s.tmp ++ List.intercalate [d] (c :: cs)).length ∧
      P.map (·.get (s.tmp ++ List.intercalate [d] (c :: cs))) ++
        [(s.tmp ++ List.intercalate [d] (c :: cs)).drop b'] = (s.tmp.drop s.beg ++ c) :: cs := by
  have hc := hv c (by simp)
  obtain ⟨q, lq, h1, h2⟩ := qFold_value d c s hc.1 hc.2 (by simp [hs])
  induction cs generalizing c s q lq with
  | nil =>
    refine ⟨[], s.beg, q, lq, ?_, ?_, ?_⟩
    · simp only [List.map_cons, List.map_nil, intercalate_singleton]
      rw [h1]
      simp [hf]
    · simp; omega
    · simp only [intercalate_singleton, List.map_nil, List.nil_append]
      rw [List.drop_append_of_le_length (by omega)]
  | cons c2 cs ih =>
    have hm : List.intercalate [d] ((c :: c2 :: cs).map encQ) =
        encQ c ++ ([d] ++ List.intercalate [d] ((c2 :: cs).map encQ)) := by
      simp
    rw [hm, List.foldl_append, h1, List.foldl_append]
    simp only [List.foldl_cons, List.foldl_nil]
    have hstep : qStep d
        { s with tmp := s.tmp ++ c, fin := s.fin + c.length, inQuote := q, lastQuote := lq } d =
        { tmp := s.tmp ++ c ++ [d],
          parts := s.parts ++ [⟨s.beg, s.fin + c.length⟩], beg := s.fin + c.length + 1,
          fin := s.fin + c.length + 1, inQuote := false, lastQuote := lq } := by
      cases hqq : q with
      | false => simp [qStep, qPush, hq]
      | true => simp [qStep, qPush, hq, h2 hqq]
    rw [hstep]
    have hc2 := hv c2 (by simp)
    obtain ⟨q2, lq2, h12, h22⟩ := qFold_value d c2
      { tmp := s.tmp ++ c ++ [d],
          parts := s.parts ++ [⟨s.beg, s.fin + c.length⟩], beg := s.fin + c.length + 1,
          fin := s.fin + c.length + 1, inQuote := false, lastQuote := lq } hc2.1 hc2.2 (by simp)
    obtain ⟨P, b', q3, lq3, h6, h7, h5⟩ := ih c2 _ rfl (by simp [hf]; omega) (by simp)
      (fun v hv' => hv v (by simp only [List.mem_cons] at hv' ⊢; exact Or.inr hv')) hc2 q2 lq2
      h12 h22
    simp only at h6 h7 h5
    have ht : s.tmp ++ List.intercalate [d] (c :: c2 :: cs) =
        s.tmp ++ c ++ [d] ++ List.intercalate [d] (c2 :: cs) := by
      rw [intercalate_cons_cons]; simp
    rw [ht]
    refine ⟨⟨s.beg, s.fin + c.length⟩ :: P, b', q3, lq3, ?_, h7, ?_⟩
    · rw [h6]; simp
    · rw [List.map_cons, List.cons_append, h5]
      congr 1
      · have := Slice.get_mid s.beg (s.tmp ++ c) ([d] ++ List.intercalate [d] (c2 :: cs))
          (by simp; omega)
        rw [List.length_append, ← hf] at this
        rw [List.append_assoc (s.tmp ++ c), this, List.drop_append_of_le_length (by omega)]
      · congr 1
        have : (s.tmp ++ c ++ [d]).drop (s.fin + c.length + 1) = [] := by
          apply List.drop_eq_nil_of_le; simp [hf]; omega
        rw [this]; simp

end Cdx
