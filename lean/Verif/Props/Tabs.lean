import Verif.Props.Transpose

/-!
Properties of fitting a table to the screen: C33 and C70.
-/

namespace Cdx

/-! ## C33: column widths -/

theorem maxPosLoop_spec : ∀ (l : List Nat) (i p m : Nat),
    (maxPosLoop l i p m = p ∧ ∀ x ∈ l, x ≤ m) ∨
    (∃ k x, maxPosLoop l i p m = i + k ∧ l[k]? = some x ∧ m < x ∧ (∀ y ∈ l, y ≤ x) ∧ ∀ j y, j < k → l[j]? = some y → y < x)
  | [], _, _, _ => Or.inl ⟨rfl, by simp⟩
  | x :: xs, i, p, m => by
    rw [maxPosLoop]
    by_cases h : x > m
    · rw [if_pos h]
      right
      rcases maxPosLoop_spec xs (i + 1) i x with ⟨e, hx⟩ | ⟨k, y, e, h1, h2, h3, h4⟩
      · exact ⟨0, x, by rw [e]; omega, rfl, h, by simpa using hx, by omega⟩
      · refine ⟨k + 1, y, by rw [e]; omega, h1, by omega, ?_, ?_⟩
        · intro z hz
          rcases List.mem_cons.1 hz with rfl | hz
          · omega
          · exact h3 z hz
        · intro j z hj hz
          cases j with
          | zero => simp at hz; omega
          | succ j => exact h4 j z (by omega) hz
    · rw [if_neg h]
      rcases maxPosLoop_spec xs (i + 1) p m with ⟨e, hx⟩ | ⟨k, y, e, h1, h2, h3, h4⟩
      · exact Or.inl ⟨e, by
          intro z hz
          rcases List.mem_cons.1 hz with rfl | hz
          · omega
          · exact hx z hz⟩
      · right
        refine ⟨k + 1, y, by rw [e]; omega, h1, h2, ?_, ?_⟩
        · intro z hz
          rcases List.mem_cons.1 hz with rfl | hz
          · omega
          · exact h3 z hz
        · intro j z hj hz
          cases j with
          | zero => simp at hz; omega
          | succ j => exact h4 j z (by omega) hz

theorem sum_set (l : List Nat) (k x y : Nat) (h : l[k]? = some x) : (l.set k y).sum + x = l.sum + y := by
  induction l generalizing k with
  | nil => simp at h
  | cons a l ih =>
    cases k with
    | zero => simp at h; subst h; simp; omega
    | succ k => have := ih k (by simpa using h); simp; omega

theorem sum_pos_exists (l : List Nat) (h : 0 < l.sum) : ∃ x ∈ l, 0 < x := by
  induction l with
  | nil => simp at h
  | cons a l ih =>
    by_cases ha : 0 < a
    · exact ⟨a, by simp, ha⟩
    · obtain ⟨x, hx, h'⟩ := ih (by simp at h; omega)
      exact ⟨x, by simp [hx], h'⟩

/-- One step takes 1 from the first of the widest columns. -/
theorem decMax_spec (sizes : List Nat) (h : 0 < sizes.sum) :
    ∃ k x, decMax sizes = .ok (sizes.set k x) ∧ sizes[k]? = some (x + 1) ∧ (∀ y ∈ sizes, y ≤ x + 1) ∧
      ∀ j y, j < k → sizes[j]? = some y → y < x + 1 := by
  rcases maxPosLoop_spec sizes 0 0 0 with ⟨_, hx⟩ | ⟨k, x, e, h1, h2, h3, h4⟩
  · obtain ⟨y, hy, h'⟩ := sum_pos_exists sizes h
    have := hx y hy
    omega
  · obtain ⟨x, rfl⟩ : ∃ x', x = x' + 1 := ⟨x - 1, by omega⟩
    refine ⟨k, x, ?_, h1, h3, h4⟩
    rw [decMax, e, Nat.zero_add, decAt, h1]

/-- What fitting means: `out` against `sizes`. -/
structure Fitted (sizes out : List Nat) : Prop where
  /-- as many columns -/
  length : out.length = sizes.length
  /-- no column becomes wider -/
  le : ∀ i a b : Nat, sizes[i]? = some a → out[i]? = some b → b ≤ a
  /-- a column that became narrower is, but for 1, as wide as any other -/
  level : ∀ i j a b c : Nat, sizes[i]? = some a → out[i]? = some b → b < a → out[j]? = some c → c ≤ b + 1
  /-- leftovers are taken from the left: a column left of one that became narrower is no wider -/
  order : ∀ i j a b c : Nat, i < j → sizes[j]? = some a → out[j]? = some b → b < a → out[i]? = some c → c ≤ b

theorem Fitted.refl (sizes : List Nat) : Fitted sizes sizes := by
  refine ⟨rfl, ?_, ?_, ?_⟩
  · intro i a b h1 h2; rw [h1] at h2; simp at h2; omega
  · intro i j a b c h1 h2; rw [h1] at h2; simp at h2; omega
  · intro i j a b c _ h1 h2; rw [h1] at h2; simp at h2; omega

theorem Fitted.step {sizes cur : List Nat} (h : Fitted sizes cur) {k x : Nat} (hk : cur[k]? = some (x + 1))
    (hmax : ∀ y ∈ cur, y ≤ x + 1) (hfirst : ∀ j y, j < k → cur[j]? = some y → y < x + 1) : Fitted sizes (cur.set k x) := by
  have hlt : k < cur.length := (List.getElem?_eq_some_iff.1 hk).1
  have hset : ∀ i b, (cur.set k x)[i]? = some b → (i = k ∧ b = x) ∨ (i ≠ k ∧ cur[i]? = some b) := by
    intro i b hb
    by_cases e : i = k
    · subst e
      rw [List.getElem?_set_self hlt] at hb
      simp at hb
      exact Or.inl ⟨rfl, hb.symm⟩
    · rw [List.getElem?_set_ne (Ne.symm e)] at hb
      exact Or.inr ⟨e, hb⟩
  refine ⟨by simp [h.length], ?_, ?_, ?_⟩
  · intro i a b ha hb
    rcases hset i b hb with ⟨rfl, rfl⟩ | ⟨_, hb⟩
    · have := h.le i a _ ha hk; omega
    · exact h.le i a b ha hb
  · intro i j a b c ha hb hlt hc
    have hc' : c ≤ x + 1 := by
      rcases hset j c hc with ⟨_, rfl⟩ | ⟨_, hc⟩
      · omega
      · exact hmax c (List.mem_of_getElem? hc)
    rcases hset i b hb with ⟨rfl, rfl⟩ | ⟨_, hb⟩
    · exact hc'
    · have h1 := h.level i k a b (x + 1) ha hb hlt hk
      rcases hset j c hc with ⟨_, rfl⟩ | ⟨_, hc⟩
      · omega
      · exact h.level i j a b c ha hb hlt hc
  · intro i j a b c hij ha hb hba hc
    rcases hset i c hc with ⟨rfl, rfl⟩ | ⟨hi, hc2⟩
    · rcases hset j b hb with ⟨rfl, _⟩ | ⟨_, hb⟩
      · omega
      · have := h.order i j a b _ hij ha hb hba hk; omega
    · rcases hset j b hb with ⟨rfl, rfl⟩ | ⟨_, hb⟩
      · have := hfirst i c hij hc2; omega
      · exact h.order i j a b c hij ha hb hba hc2

theorem fitLoop_spec (target : Nat) (sizes : List Nat) : ∀ (fuel : Nat) (cur : List Nat), Fitted sizes cur →
    cur.sum ≤ fuel + target → ∃ out, fitLoop target fuel cur = .ok out ∧ Fitted sizes out ∧ out.sum = min cur.sum target
  | 0, cur, h, hf => ⟨cur, rfl, h, by omega⟩
  | fuel + 1, cur, h, hf => by
    rw [fitLoop]
    by_cases hgt : cur.sum > target
    · rw [if_pos hgt]
      obtain ⟨k, x, e, h1, h2, h3⟩ := decMax_spec cur (by omega)
      have hs := sum_set cur k (x + 1) x h1
      obtain ⟨out, e', h', hsum⟩ := fitLoop_spec target sizes fuel (cur.set k x) (h.step h1 h2 h3) (by omega)
      refine ⟨out, by rw [e]; exact e', h', by omega⟩
    · rw [if_neg hgt]
      exact ⟨cur, rfl, h, by omega⟩

/-- C33: on a screen at least as wide as there are columns, fitting never panics, gives up exactly the width that is
missing, and takes it from the widest columns. -/
theorem C33_fit (width : Nat) (sizes : List Nat) (h : sizes.length ≤ width) :
    ∃ out, fitSizes width sizes = .ok out ∧ Fitted sizes out ∧ out.sum = min sizes.sum (width - sizes.length) := by
  obtain ⟨out, e, h1, h2⟩ := fitLoop_spec (width - sizes.length) sizes sizes.sum sizes (Fitted.refl sizes) (by omega)
  exact ⟨out, by rw [fitSizes, if_neg (by omega)]; exact e, h1, h2⟩

theorem exists_lt_of_sum : ∀ (l l' : List Nat), l.length = l'.length → l.sum ≤ l'.sum → l ≠ l' →
    ∃ i a a' : Nat, l[i]? = some a ∧ l'[i]? = some a' ∧ a < a'
  | [], [], _, _, h => absurd rfl h
  | [], _ :: _, h, _, _ => by simp at h
  | _ :: _, [], h, _, _ => by simp at h
  | x :: l, y :: l', hl, hs, hne => by
    by_cases hxy : x < y
    · exact ⟨0, x, y, rfl, rfl, hxy⟩
    · simp only [List.length_cons, Nat.add_right_cancel_iff, List.sum_cons] at hl hs
      have hne' : l ≠ l' := by
        rintro rfl
        exact hne (by rw [show x = y by omega])
      obtain ⟨i, a, a', h1, h2, h3⟩ := exists_lt_of_sum l l' hl (by omega) hne'
      exact ⟨i + 1, a, a', h1, h2, h3⟩

/-- C33: the requirements leave no choice, any widths that meet them are the ones computed. -/
theorem C33_unique (sizes out out' : List Nat) (h : Fitted sizes out) (h' : Fitted sizes out') (hs : out.sum = out'.sum) :
    out = out' := by
  have hl : out.length = out'.length := h.length.trans h'.length.symm
  refine Classical.byContradiction fun hne => ?_
  obtain ⟨i, a, a', hi, hi', hlt⟩ := exists_lt_of_sum out out' hl (Nat.le_of_eq hs) hne
  obtain ⟨j, b', b, hj', hj, hlt'⟩ := exists_lt_of_sum out' out hl.symm (Nat.le_of_eq hs.symm) (Ne.symm hne)
  have hil : i < sizes.length := h.length ▸ (List.getElem?_eq_some_iff.1 hi).1
  have hjl : j < sizes.length := h.length ▸ (List.getElem?_eq_some_iff.1 hj).1
  have hsi := List.getElem?_eq_getElem hil
  have hsj := List.getElem?_eq_getElem hjl
  have l1 := h'.le i _ _ hsi hi'
  have l2 := h.le j _ _ hsj hj
  have l3 := h.level i j _ _ _ hsi hi (by omega) hj
  have l4 := h'.level j i _ _ _ hsj hj' (by omega) hi'
  rcases Nat.lt_trichotomy i j with hij | hij | hij
  · have := h'.order i j _ _ _ hij hsj hj' (by omega) hi'
    omega
  · subst hij
    rw [hi] at hj
    simp at hj
    omega
  · have := h.order j i _ _ _ hij hsi hi (by omega) hj
    omega

/-- C33: a screen narrower than the number of columns panics. -/
theorem C33_narrow (width : Nat) (sizes : List Nat) (h : width < sizes.length) : fitSizes width sizes = .panic := by
  rw [fitSizes, if_pos h]

example : fitSizes 20 [10, 3, 12] = .ok [7, 3, 7] := by decide +kernel
example : fitSizes 19 [10, 3, 10] = .ok [6, 3, 7] := by decide +kernel

/-! ## C70: the table on the screen -/

/-- What the two crates promise: what is cut off fits, is a beginning of the text, and is all of it if that fits. -/
structure GlyphsOk (g : Glyphs) : Prop where
  prefix_ : ∀ s n, (g.trunc s n).1 <+: s
  width : ∀ s n, (g.trunc s n).2 = g.width (g.trunc s n).1
  fits : ∀ s n, (g.trunc s n).2 ≤ n
  whole : ∀ s n, g.width s ≤ n → (g.trunc s n).1 = s

/-- ASCII text: one position per byte. -/
def asciiGlyphs : Glyphs := ⟨List.length, fun s n => (s.take n, (s.take n).length)⟩

theorem asciiGlyphs_ok : GlyphsOk asciiGlyphs :=
  ⟨fun s n => List.take_prefix n s, fun _ _ => rfl, fun s n => by simp [asciiGlyphs]; omega,
    fun s n h => List.take_of_length_le h⟩

/-- A field on the screen: a beginning of it (all of it if it fits) between spaces, filling the column. -/
def IsCell (g : Glyphs) (center : Bool) (size : Nat) (field cell : Bytes) : Prop :=
  ∃ l t r, cell = List.replicate l SP ++ t ++ List.replicate r SP ∧ t <+: field ∧ l + g.width t + r = size ∧
    (g.width field ≤ size → t = field) ∧ (if center then l ≤ r ∧ r ≤ l + 1 else l = 0)

/-- A line on the screen: its fields as cells, one space apart. -/
def IsRow (g : Glyphs) (center : Bool) (sizes : List Nat) (fields : List Bytes) (row : Bytes) : Prop :=
  ∃ cells : List Bytes, row = List.intercalate [SP] cells ∧ cells.length = fields.length ∧
    ∀ (i size : Nat) (field cell : Bytes), sizes[i]? = some size → fields[i]? = some field → cells[i]? = some cell →
      IsCell g center size field cell

theorem showCell_spec {g : Glyphs} (hg : GlyphsOk g) (center : Bool) (size : Nat) (y : Bytes) :
    ∃ cell, showCell g center size y = .ok cell ∧ IsCell g center size y cell := by
  have h1 := hg.fits y size
  have h2 := hg.width y size
  have h3 := hg.prefix_ y size
  have h4 := hg.whole y size
  simp only [showCell]
  rw [if_neg (by omega)]
  refine ⟨_, rfl, ?_⟩
  cases center with
  | true =>
    refine ⟨(size - (g.trunc y size).2) / 2, (g.trunc y size).1,
      size - (g.trunc y size).2 - (size - (g.trunc y size).2) / 2, rfl, h3, ?_, h4, ?_⟩
    · omega
    · simp only [if_true]; omega
  | false =>
    exact ⟨0, (g.trunc y size).1, size - (g.trunc y size).2, by simp, h3, by omega, h4, by simp⟩

theorem showRow_spec {g : Glyphs} (hg : GlyphsOk g) (center : Bool) : ∀ (fields : List Bytes) (sizes : List Nat) (sp : Bool),
    fields.length ≤ sizes.length →
    ∃ cells : List Bytes, showRow g center sp sizes fields = .ok (if sp then cells.flatMap (SP :: ·) else List.intercalate [SP] cells) ∧
      cells.length = fields.length ∧
      ∀ (i size : Nat) (field cell : Bytes), sizes[i]? = some size → fields[i]? = some field → cells[i]? = some cell →
        IsCell g center size field cell
  | [], sizes, sp, _ => ⟨[], by cases sizes <;> cases sp <;> simp [showRow], rfl, by simp⟩
  | _ :: _, [], _, h => by simp at h
  | y :: ys, s :: ss, sp, h => by
    obtain ⟨c, e1, h1⟩ := showCell_spec hg center s y
    obtain ⟨cs, e2, h2, h3⟩ := showRow_spec hg center ys ss true (by simpa using h)
    refine ⟨c :: cs, ?_, by simp [h2], ?_⟩
    · rw [showRow, e1]
      show (showRow g center true ss ys).bind _ = _
      rw [e2]
      cases sp
      · simp [intercalate_flatMap]
      · simp
    · intro i size field cell a b d
      cases i with
      | zero => simp at a b d; subst a; subst b; subst d; exact h1
      | succ i => exact h3 i size field cell (by simpa using a) (by simpa using b) (by simpa using d)

theorem showRows_spec {g : Glyphs} (hg : GlyphsOk g) (sizes : List Nat) : ∀ (lines : List (List Bytes)) (center : Bool),
    (∀ l ∈ lines, l.length ≤ sizes.length) →
    ∃ rows : List Bytes, showRows g sizes center lines = .ok rows ∧ rows.length = lines.length ∧
      ∀ (i : Nat) (fields : List Bytes) (row : Bytes), lines[i]? = some fields → rows[i]? = some row →
        IsRow g (center && decide (i = 0)) sizes fields row
  | [], _, _ => ⟨[], rfl, rfl, by simp⟩
  | x :: xs, center, h => by
    obtain ⟨cells, e1, h1, h1'⟩ := showRow_spec hg center x sizes false (h x (by simp))
    obtain ⟨rs, e2, h2, h3⟩ := showRows_spec hg sizes xs false (fun l hl => h l (by simp [hl]))
    refine ⟨List.intercalate [SP] cells :: rs, ?_, by simp [h2], ?_⟩
    · rw [showRows, e1]
      show (showRows g sizes false xs).bind _ = _
      rw [e2]
      simp
    · intro i fields row a b
      cases i with
      | zero =>
        simp at a b
        subst a; subst b
        simp only [decide_true, Bool.and_true]
        exact ⟨cells, rfl, h1, h1'⟩
      | succ i =>
        have := h3 i fields row (by simpa using a) (by simpa using b)
        simpa using this

/-- The widths needed: for every column the widest field. -/
def NeededFor (g : Glyphs) (k : Nat) (lines : List (List Bytes)) (need : List Nat) : Prop :=
  need.length = k ∧ (∀ l ∈ lines, ∀ (i : Nat) (c : Bytes) (s : Nat), l[i]? = some c → need[i]? = some s → g.width c ≤ s) ∧
    ∀ (i s : Nat), need[i]? = some s → s = 0 ∨ ∃ l ∈ lines, ∃ c, l[i]? = some c ∧ s = g.width c

theorem widenFor_spec (g : Glyphs) : ∀ (l : List Bytes) (sizes : List Nat), l.length ≤ sizes.length →
    ∃ out, widenFor g sizes l = .ok out ∧ out.length = sizes.length ∧
      ∀ (i s : Nat), sizes[i]? = some s → ∃ s', out[i]? = some s' ∧ s ≤ s' ∧
        ((s' = s ∧ ∀ c, l[i]? = some c → g.width c ≤ s') ∨ ∃ c, l[i]? = some c ∧ s' = g.width c)
  | [], sizes, _ => ⟨sizes, by cases sizes <;> rfl, rfl, fun i s h => ⟨s, h, Nat.le_refl _, Or.inl ⟨rfl, by simp⟩⟩⟩
  | _ :: _, [], h => by simp at h
  | c :: cs, s :: ss, h => by
    obtain ⟨out, e, h1, h2⟩ := widenFor_spec g cs ss (by simpa using h)
    refine ⟨(if s < g.width c then g.width c else s) :: out, by rw [widenFor, e]; rfl, by simp [h1], ?_⟩
    intro i t ht
    cases i with
    | zero =>
      simp at ht
      subst ht
      refine ⟨_, rfl, ?_, ?_⟩
      · split <;> omega
      · split
        · exact Or.inr ⟨c, rfl, rfl⟩
        · refine Or.inl ⟨rfl, fun d hd => ?_⟩
          simp at hd; subst hd; omega
    | succ i => exact h2 i t (by simpa using ht)

theorem neededSizes_spec (g : Glyphs) : ∀ (lines : List (List Bytes)) (sizes : List Nat),
    (∀ l ∈ lines, l.length ≤ sizes.length) →
    ∃ out, neededSizes g sizes lines = .ok out ∧ out.length = sizes.length ∧
      ∀ (i s : Nat), sizes[i]? = some s → ∃ s', out[i]? = some s' ∧ s ≤ s' ∧
        (∀ l ∈ lines, ∀ c, l[i]? = some c → g.width c ≤ s') ∧
        (s' = s ∨ ∃ l ∈ lines, ∃ c, l[i]? = some c ∧ s' = g.width c)
  | [], sizes, _ => ⟨sizes, rfl, rfl, fun i s h => ⟨s, h, Nat.le_refl _, by simp, Or.inl rfl⟩⟩
  | l :: ls, sizes, h => by
    obtain ⟨s1, e1, l1, h1⟩ := widenFor_spec g l sizes (h l (by simp))
    obtain ⟨s2, e2, l2, h2⟩ := neededSizes_spec g ls s1 (fun x hx => by rw [l1]; exact h x (by simp [hx]))
    refine ⟨s2, by rw [neededSizes, e1]; exact e2, l2.trans l1, ?_⟩
    intro i s hs
    obtain ⟨a, a1, a2, a3⟩ := h1 i s hs
    obtain ⟨b, b1, b2, b3, b4⟩ := h2 i a a1
    refine ⟨b, b1, by omega, ?_, ?_⟩
    · intro x hx c hc
      rcases List.mem_cons.1 hx with rfl | hx
      · rcases a3 with ⟨_, a3⟩ | ⟨d, hd, a3⟩
        · have := a3 c hc; omega
        · rw [hc] at hd; simp at hd; subst hd; omega
      · exact b3 x hx c hc
    · rcases b4 with rfl | ⟨x, hx, c, hc, e⟩
      · rcases a3 with ⟨a3, _⟩ | ⟨d, hd, a3⟩
        · exact Or.inl a3
        · exact Or.inr ⟨l, by simp, d, hd, a3⟩
      · exact Or.inr ⟨x, by simp [hx], c, hc, e⟩

theorem neededFor (g : Glyphs) (k : Nat) (lines : List (List Bytes)) (h : ∀ l ∈ lines, l.length ≤ k) :
    ∃ need, neededSizes g (List.replicate k 0) lines = .ok need ∧ NeededFor g k lines need := by
  obtain ⟨out, e, h1, h2⟩ := neededSizes_spec g lines (List.replicate k 0) (by simpa using h)
  refine ⟨out, e, by simpa using h1, ?_, ?_⟩
  · intro l hl i c s hc hs
    have hi : i < k := by have := (List.getElem?_eq_some_iff.1 hc).1; have := h l hl; omega
    obtain ⟨s', a, _, b, _⟩ := h2 i 0 (by simp [hi])
    rw [hs] at a; simp at a; subst a
    exact b l hl c hc
  · intro i s hs
    have hi : i < k := by
      have := (List.getElem?_eq_some_iff.1 hs).1
      rw [h1] at this; simpa using this
    obtain ⟨s', a, _, _, b⟩ := h2 i 0 (by simp [hi])
    rw [hs] at a; simp at a; subst a
    exact b

/-- C70: a file whose lines have no more columns than its header (or first line) and no more columns than the screen is
wide is shown without panic: every line shown is the row of its fields, cut to widths that are `Fitted` to what the lines
need, the header centered, and the width returned is that of a full row and one more, at most that of the screen. -/
theorem C70_show (g : Glyphs) (hg : GlyphsOk g) (width height : Nat) (content : Bytes) (hne : content ≠ [])
    (hcols : ∀ l ∈ shownLines (openReader content) height, l.length ≤ (openReader content).names.length)
    (hw : (openReader content).names.length ≤ width) :
    ∃ rows total need sizes, show2 g width height content = .ok (rows, total) ∧
      NeededFor g (openReader content).names.length (shownLines (openReader content) height) need ∧
      Fitted need sizes ∧ sizes.sum = min need.sum (width - sizes.length) ∧
      total = sizes.sum + sizes.length ∧ total ≤ width ∧
      rows.length = (shownLines (openReader content) height).length ∧
      ∀ (i : Nat) (fields : List Bytes) (row : Bytes), (shownLines (openReader content) height)[i]? = some fields →
        rows[i]? = some row → IsRow g ((openReader content).hasHeader && decide (i = 0)) sizes fields row := by
  obtain ⟨need, e1, h1⟩ := neededFor g _ _ hcols
  obtain ⟨sizes, e2, h2, h3⟩ := C33_fit width need (by rw [h1.1]; exact hw)
  have hl : sizes.length = (openReader content).names.length := h2.length.trans h1.1
  obtain ⟨rows, e3, h4, h5⟩ := showRows_spec hg sizes _ (openReader content).hasHeader (fun l hl' => by
    rw [hl]; exact hcols l hl')
  refine ⟨rows, sizes.sum + sizes.length, need, sizes, ?_, h1, h2, by rw [h3, h2.length], rfl, ?_, h4, h5⟩
  · rw [show2, if_neg hne]
    show (neededSizes g _ _).bind _ = _
    rw [e1]
    show (fitSizes width need).bind _ = _
    rw [e2]
    show (showRows g sizes _ _).bind _ = _
    rw [e3]
    rfl
  · rw [h3, hl, h1.1]; omega

/-- C70: the lines shown are the first ones that fit the height, the header counting as one of them. -/
theorem C70_lines (k height : Nat) (rows : List (List Bytes)) (hk : 0 < k) (h : Table k rows) :
    (rows ≠ [] → isCdx (tableText rows) = false → shownLines (openReader (tableText rows)) height = rows.take height) ∧
    ∀ names : List Bytes, names.length = k → (∀ c ∈ names, TAB ∉ c ∧ NL ∉ c) →
      shownLines (openReader (tableText ((cdxTag :: names) :: rows))) height = names :: rows.take (height - 1) := by
  have hmap : ∀ n, ((rows.map fun r => List.intercalate [TAB] r ++ [NL]).take n).map (fun l => (mergeLine l).vec)
      = rows.take n := by
    intro n
    rw [← List.map_take, List.map_map]
    conv => rhs; rw [← List.map_id (rows.take n)]
    refine List.map_congr_left fun r hr => ?_
    have hr := h r (List.mem_of_mem_take hr)
    exact mergeLine_row (by intro e; rw [e] at hr; simp at hr; omega) hr.2
  constructor
  · intro hne hc
    obtain ⟨h1, _, h3⟩ := openReader_table hk hne h hc
    simp only [shownLines, h1, h3, Bool.false_eq_true, if_false, List.length_nil, Nat.sub_zero, List.nil_append]
    exact hmap height
  · intro names _ hnames
    have e : tableText ((cdxTag :: names) :: rows) = List.intercalate [TAB] (cdxTag :: names) ++ NL :: tableText rows := by
      simp [tableText]
    rw [e, openReader_names names (tableText rows) hnames, readLines_table h]
    simp only [shownLines, if_true, List.length_singleton, List.singleton_append]
    rw [hmap]

/-- C70: when the table fits as it is, every field is shown in full. -/
theorem C70_whole (g : Glyphs) (k : Nat) (lines : List (List Bytes)) (need sizes : List Nat) (width : Nat)
    (hn : NeededFor g k lines need) (hf : Fitted need sizes) (hs : sizes.sum = min need.sum (width - sizes.length))
    (hfit : need.sum + k ≤ width) (center : Bool) (fields : List Bytes) (hmem : fields ∈ lines) (row : Bytes)
    (hrow : IsRow g center sizes fields row) (hk : fields.length ≤ k) :
    ∃ cells : List Bytes, row = List.intercalate [SP] cells ∧ cells.length = fields.length ∧
      ∀ (i : Nat) (field cell : Bytes), fields[i]? = some field → cells[i]? = some cell →
        ∃ l r, cell = List.replicate l SP ++ field ++ List.replicate r SP := by
  have hl : sizes.length = k := hf.length.trans hn.1
  have heq : sizes = need := by
    refine C33_unique need sizes need hf (Fitted.refl need) ?_
    rw [hs, hl]; omega
  subst heq
  obtain ⟨cells, e, h1, h2⟩ := hrow
  refine ⟨cells, e, h1, fun i field cell hfi hc => ?_⟩
  have hi : i < sizes.length := by
    have := (List.getElem?_eq_some_iff.1 hfi).1; omega
  obtain ⟨l, t, r, ec, _, _, hw, _⟩ := h2 i _ field cell (List.getElem?_eq_getElem hi) hfi hc
  have := hn.2.1 fields hmem i field _ hfi (List.getElem?_eq_getElem hi)
  rw [hw this] at ec
  exact ⟨l, r, ec⟩

/-- C70 without the condition on the columns of each line does not hold: a line with more columns than the header
panics. -/
theorem C70_ragged (g : Glyphs) : show2 g 80 24 [32, 67, 68, 88, 9, 97, 10, 49, 9, 50, 10] = .panic := by
  have e : openReader [32, 67, 68, 88, 9, 97, 10, 49, 9, 50, 10]
      = ⟨[32, 67, 68, 88, 9, 97, 10], true, [[97]], [[49, 9, 50, 10]]⟩ := by decide +kernel
  have e2 : (mergeLine [49, 9, 50, 10]).vec = [[49], [50]] := by decide +kernel
  rw [show2, if_neg (by simp), e]
  simp [shownLines, e2, neededSizes, widenFor]

/-- A header and two lines on a screen of 10 positions. -/
example : show2 asciiGlyphs 10 24 [32, 67, 68, 88, 9, 97, 9, 98, 10, 49, 50, 51, 9, 120, 121, 122, 120, 121, 122, 10, 52, 9, 10]
    = .ok ([[32, 97, 32, 32, 32, 32, 98, 32, 32], [49, 50, 51, 32, 120, 121, 122, 120, 121], [52, 32, 32, 32, 32, 32, 32, 32, 32]], 10) := by
  decide +kernel

end Cdx
