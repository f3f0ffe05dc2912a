import Verif.Model.Tabs
import Verif.Props.Join
import Verif.Props.ColumnOut

/-!
Properties of transposing: C34.
-/

namespace Cdx

/-! ## Tables -/

/-- A table as text: fields separated by tabs, one line per row. -/
def tableText (rows : List (List Bytes)) : Bytes := rows.flatMap fun r => List.intercalate [TAB] r ++ [NL]

/-- A table of `k` columns whose fields can be written as they are. -/
def Table (k : Nat) (rows : List (List Bytes)) : Prop :=
  ∀ r ∈ rows, r.length = k ∧ ∀ c ∈ r, TAB ∉ c ∧ NL ∉ c

/-- The transposed table of a table of `k` columns: row `i` has the `i`-th field of every row. -/
def transposed (k : Nat) (rows : List (List Bytes)) : List (List Bytes) :=
  (List.range k).map fun i => rows.map fun r => r.getD i []

theorem Table.transposed {k : Nat} {rows : List (List Bytes)} (h : Table k rows) :
    Table rows.length (Cdx.transposed k rows) := by
  intro r hr
  simp only [Cdx.transposed, List.mem_map, List.mem_range] at hr
  obtain ⟨i, hi, rfl⟩ := hr
  refine ⟨by simp, fun c hc => ?_⟩
  obtain ⟨r, hr, rfl⟩ := List.mem_map.1 hc
  have h1 := h r hr
  rw [List.getD_eq_getElem?_getD, List.getElem?_eq_getElem (by omega)]
  exact h1.2 _ (List.getElem_mem _)

/-- The transposed table of the transposed table is the table. -/
theorem transposed_twice {k : Nat} {rows : List (List Bytes)} (h : Table k rows) :
    transposed rows.length (transposed k rows) = rows := by
  apply List.ext_getElem (by simp [transposed])
  intro i h1 h2
  have hk : rows[i].length = k := (h _ (List.getElem_mem h2)).1
  simp only [transposed, List.getElem_map, List.getElem_range, List.map_map]
  apply List.ext_getElem (by simp [hk])
  intro j h3 h4
  simp [h2, h4]

/-! ## Reading tables -/

theorem intercalate_flatMap (d : UInt8) (t : Bytes) (o : List Bytes) :
    List.intercalate [d] (t :: o) = t ++ o.flatMap (d :: ·) := by
  induction o generalizing t with
  | nil => simp [intercalate_singleton]
  | cons a o ih => rw [intercalate_cons_cons, ih]; simp

theorem rowText_isLine {k : Nat} {rows : List (List Bytes)} (h : Table k rows) {r : List Bytes} (hr : r ∈ rows) :
    IsLine (List.intercalate [TAB] r ++ [NL]) := by
  refine ⟨_, rfl, fun hm => ?_⟩
  rcases mem_intercalate hm with h1 | ⟨c, hc, hx⟩
  · exact absurd h1 (by decide)
  · exact ((h r hr).2 c hc).2 hx

theorem readLines_table {k : Nat} {rows : List (List Bytes)} (h : Table k rows) :
    readLines .plain NL (tableText rows) = rows.map fun r => List.intercalate [TAB] r ++ [NL] := by
  rw [tableText, List.flatMap_def]
  refine readLines_flatten _ fun l hl => ?_
  obtain ⟨r, hr, rfl⟩ := List.mem_map.1 hl
  exact rowText_isLine h hr

theorem mergeLine_row {r : List Bytes} (hne : r ≠ []) (h : ∀ c ∈ r, TAB ∉ c ∧ NL ∉ c) :
    (mergeLine (List.intercalate [TAB] r ++ [NL])).vec = r := by
  have := plainLine_vec TAB (List.intercalate [TAB] r) (by decide)
  rw [sliceSplit_intercalate TAB r hne fun c hc => (h c hc).1] at this
  exact this

theorem mergeLine_row_get {r : List Bytes} (hne : r ≠ []) (h : ∀ c ∈ r, TAB ∉ c ∧ NL ∉ c) (i : Nat) :
    (mergeLine (List.intercalate [TAB] r ++ [NL])).get i = r.getD i [] := by
  rw [TextLine.get_eq_vec, mergeLine_row hne h]

theorem fakeHeader_names (n : Nat) (hn : 0 < n) : (headNames (fakeHeader n)).length = n := by
  have hfree : ∀ c ∈ (List.range n).map (fun i => (99 : UInt8) :: decText (i + 1)), TAB ∉ c := by
    intro c hc
    obtain ⟨i, _, rfl⟩ := List.mem_map.1 hc
    intro hm
    rcases List.mem_cons.1 hm with hm | hm
    · exact absurd hm (by decide)
    · exact absurd (decText_digits _ _ hm) (by decide)
  have hv := plainLine_vec TAB (List.intercalate [TAB] ((List.range n).map fun i => (99 : UInt8) :: decText (i + 1)))
    (by decide)
  rw [sliceSplit_intercalate TAB _ (by simp; omega) hfree] at hv
  unfold headNames fakeHeader
  have hc : isCdx (List.intercalate [TAB] ((List.range n).map fun i => (99 : UInt8) :: decText (i + 1)) ++ [NL]) = false := by
    obtain ⟨m, rfl⟩ : ∃ m, n = m + 1 := ⟨n - 1, by omega⟩
    rw [List.range_succ_eq_map, List.map_cons, intercalate_cons_head]
    simp [isCdx, cdxTag, List.isPrefixOf]
  rw [hc]
  show (if false = true then _ else ((TextLine.ofRaw _).split .plain TAB).vec).length = n
  rw [if_neg (by decide), show ((TextLine.ofRaw _).split .plain TAB).vec = _ from hv]
  simp

/-- Opening a table without header. -/
theorem openReader_table {k : Nat} {rows : List (List Bytes)} (hk : 0 < k) (hne : rows ≠ []) (h : Table k rows)
    (hc : isCdx (tableText rows) = false) :
    (openReader (tableText rows)).hasHeader = false ∧ (openReader (tableText rows)).names.length = k ∧
      (openReader (tableText rows)).lines = rows.map fun r => List.intercalate [TAB] r ++ [NL] := by
  cases rows with
  | nil => exact absurd rfl hne
  | cons r rs =>
    have hlines := readLines_table h
    have hr := h r (by simp)
    have hne' : r ≠ [] := by intro e; rw [e] at hr; simp at hr; omega
    have hnil : tableText (r :: rs) ≠ [] := by simp [tableText]
    have hlen : (mergeLine (List.intercalate [TAB] r ++ [NL])).len = k := by
      have := congrArg List.length (mergeLine_row hne' hr.2)
      simpa [TextLine.vec, TextLine.len, hr.1] using this
    have e : openReader (tableText (r :: rs)) = ⟨fakeHeader k, false, headNames (fakeHeader k),
        (r :: rs).map fun r => List.intercalate [TAB] r ++ [NL]⟩ := by
      simp only [openReader, readHeader, hnil, if_false, TextMode.default, hc, ne_eq, not_true_eq_false, hlines,
        List.map_cons, hlen, Bool.false_eq_true]
    rw [e]
    exact ⟨rfl, fakeHeader_names k hk, rfl⟩

/-! ## C34: transposition -/

theorem flatMap_range_congr (f g : Nat → Bytes) (n : Nat) (h : ∀ i, i < n → f i = g i) :
    (List.range n).flatMap f = (List.range n).flatMap g := by
  rw [List.flatMap_def, List.flatMap_def]
  exact congrArg _ (List.map_congr_left fun i hi => h i (List.mem_range.1 hi))

theorem transposeData_get {f : Opened} {rows : List (List Bytes)} {k : Nat} (h : Table k rows) (hk : 0 < k) (hne : rows ≠ [])
    (hl : f.lines = rows.map fun r => List.intercalate [TAB] r ++ [NL]) (n i : Nat) :
    (transposeData f n).map (·.get i) = (rows.take n).map fun r => r.getD i [] := by
  have hl' : f.lines ≠ [] := by rw [hl]; simpa using hne
  simp only [transposeData, hl', if_false]
  rw [hl, ← List.map_take, ← List.map_take, List.map_map, List.map_map]
  refine List.map_congr_left fun r hr => ?_
  have hr := h r (List.mem_of_mem_take hr)
  exact mergeLine_row_get (by intro e; rw [e] at hr; simp at hr; omega) hr.2 i

/-- C34, without header: row `i` of the output has the `i`-th field of every line in order, of the first `n` lines. -/
theorem C34_plain (k n : Nat) (rows : List (List Bytes)) (hk : 0 < k) (hne : rows ≠ []) (hn : 0 < n) (h : Table k rows)
    (hc : isCdx (tableText rows) = false) (head : Bool) :
    transposeFile head n (tableText rows)
      = (if head then cdxTag ++ [TAB] else []) ++ tableText (transposed k (rows.take n)) := by
  obtain ⟨h1, h2, h3⟩ := openReader_table hk hne h hc
  have hnil : tableText rows ≠ [] := by
    cases rows with
    | nil => exact absurd rfl hne
    | cons r rs => simp [tableText]
  simp only [transposeFile, hnil, if_false]
  congr 1
  rw [h2]
  conv => rhs; rw [tableText, transposed, List.flatMap_map]
  refine flatMap_range_congr _ _ _ fun i hi => ?_
  simp only [transposeRow, transposeData_get h hk hne h3 n i, h1, Bool.false_eq_true, if_false]
  cases rows with
  | nil => exact absurd rfl hne
  | cons r rs =>
    obtain ⟨m, rfl⟩ : ∃ m, n = m + 1 := ⟨n - 1, by omega⟩
    simp only [List.take_succ_cons, List.map_cons, List.headD_cons, List.tail_cons]
    rw [intercalate_flatMap]

/-- C34, with header: row `i` of the output is the `i`-th column name, then the `i`-th field of every line in order. -/
theorem C34_header (n : Nat) (names : List Bytes) (rows : List (List Bytes)) (hk : names ≠ []) (hne : rows ≠ [])
    (hnames : ∀ c ∈ names, TAB ∉ c ∧ NL ∉ c) (h : Table names.length rows) (head : Bool) :
    transposeFile head n (tableText ((cdxTag :: names) :: rows))
      = (if head then cdxTag ++ [TAB] else []) ++ tableText (transposed names.length (names :: rows.take n)) := by
  have e : tableText ((cdxTag :: names) :: rows) = List.intercalate [TAB] (cdxTag :: names) ++ NL :: tableText rows := by
    simp [tableText]
  have ho := openReader_names names (tableText rows) hnames
  rw [readLines_table h] at ho
  have hk' : 0 < names.length := List.length_pos_iff.2 hk
  have hnil : List.intercalate [TAB] (cdxTag :: names) ++ NL :: tableText rows ≠ [] := by simp
  rw [e]
  simp only [transposeFile, hnil, if_false, ho]
  congr 1
  rw [tableText, transposed, List.flatMap_map]
  refine flatMap_range_congr _ _ _ fun i hi => ?_
  simp only [transposeRow, if_true]
  rw [transposeData_get h hk' hne rfl n i, ← intercalate_flatMap, List.map_cons]

/-- C34, with header: transposing twice with `--head` gives the file back. -/
def C34_statement : Prop := ∀ (names : List Bytes) (rows : List (List Bytes)), names ≠ [] →
  (∀ c ∈ names, TAB ∉ c ∧ NL ∉ c) → Table names.length rows → ∀ n, rows.length ≤ n → names.length ≤ n →
  transposeFile true n (transposeFile true n (tableText ((cdxTag :: names) :: rows)))
    = tableText ((cdxTag :: names) :: rows)

/-- A file with a header only gets a line of empty fields: transposing " CDX\ta" twice gives " CDX\ta", a line with an
empty field. -/
theorem C34_refuted : ¬C34_statement := by
  intro h
  have := h [[97]] [] (by simp) (by decide) (by simp [Table]) 1 (by simp) (by simp)
  revert this
  decide +kernel

theorem tag_table (rows : List (List Bytes)) (r : List Bytes) (hr : r ≠ []) :
    cdxTag ++ [TAB] ++ tableText (r :: rows) = tableText ((cdxTag :: r) :: rows) := by
  simp [tableText, intercalate_cons_ne [TAB] cdxTag hr]

theorem transposed_ne {k : Nat} {rows : List (List Bytes)} (hk : 0 < k) : transposed k rows ≠ [] := by
  intro e
  have := congrArg List.length e
  simp [transposed] at this
  omega

/-- C34 with header, at least one row and two columns: transposing twice with `--head` gives the file back. Missing: a
file with a header only (then a line of empty fields appears, `C34_refuted`) and a file of one column, whose transposed
file is such a file. -/
theorem C34_twice_partial (names : List Bytes) (rows : List (List Bytes)) (hnames : ∀ c ∈ names, TAB ∉ c ∧ NL ∉ c)
    (h : Table names.length rows) (hrows : rows ≠ []) (hcols : 2 ≤ names.length) (n : Nat) (hn : rows.length ≤ n)
    (hn2 : names.length ≤ n) :
    transposeFile true n (transposeFile true n (tableText ((cdxTag :: names) :: rows)))
      = tableText ((cdxTag :: names) :: rows) := by
  have hne : names ≠ [] := by intro e; rw [e] at hcols; simp at hcols
  have hall : Table names.length (names :: rows) := by
    intro r hr
    rcases List.mem_cons.1 hr with rfl | hr
    · exact ⟨rfl, hnames⟩
    · exact h r hr
  rw [C34_header n names rows hne hrows hnames h true, List.take_of_length_le hn]
  have ht := hall.transposed
  have htwice := transposed_twice hall
  have hlen : (transposed names.length (names :: rows)).length = names.length := by simp [transposed]
  generalize transposed names.length (names :: rows) = T at ht htwice hlen
  cases T with
  | nil => simp at hlen; omega
  | cons t ts =>
    have htl := ht t (by simp)
    have htne : t ≠ [] := by intro e; rw [e] at htl; simp at htl
    have hts : ts ≠ [] := by intro e; rw [e] at hlen; simp at hlen; omega
    simp only [if_true]
    have hT : Table t.length ts := fun r hr => by
      have := ht r (by simp [hr]); rw [this.1, htl.1]; exact ⟨rfl, this.2⟩
    rw [tag_table ts t htne, C34_header n t ts htne hts htl.2 hT true,
      List.take_of_length_le (by simp at hlen; omega), htl.1, htwice]
    simp only [if_true]
    exact tag_table rows names hne

theorem isPrefix_field {p a rest : Bytes} (hp : ∀ c ∈ p, c ≠ TAB ∧ c ≠ NL) (ha : rest.head? = some TAB ∨ rest.head? = some NL)
    (h : p.isPrefixOf (a ++ rest) = true) : p.isPrefixOf a = true := by
  induction p generalizing a with
  | nil => simp
  | cons x p ih =>
    cases a with
    | nil =>
      cases rest with
      | nil => simp at ha
      | cons y rest =>
        simp only [List.nil_append, List.isPrefixOf_cons_cons, Bool.and_eq_true, beq_iff_eq] at h
        have := hp x (by simp)
        simp only [List.head?_cons, Option.some.injEq] at ha
        rw [h.1] at this
        rcases ha with ha | ha
        · exact absurd ha this.1
        · exact absurd ha this.2
    | cons y a =>
      simp only [List.cons_append, List.isPrefixOf_cons_cons, Bool.and_eq_true] at h ⊢
      exact ⟨h.1, ih (fun c hc => hp c (by simp [hc])) h.2⟩

/-- Whether a table starts with the tag depends on its first field only. -/
theorem isCdx_table (c : Bytes) (r : List Bytes) (rows : List (List Bytes)) :
    isCdx (tableText ((c :: r) :: rows)) = cdxTag.isPrefixOf c := by
  have e : ∃ rest, tableText ((c :: r) :: rows) = c ++ rest ∧ (rest.head? = some TAB ∨ rest.head? = some NL) := by
    cases r with
    | nil => exact ⟨NL :: tableText rows, by simp [tableText, intercalate_singleton], by simp⟩
    | cons a r =>
      exact ⟨TAB :: (List.intercalate [TAB] (a :: r) ++ NL :: tableText rows), by simp [tableText, intercalate_cons_cons],
        by simp⟩
  obtain ⟨rest, e, hr⟩ := e
  rw [e, isCdx]
  apply Bool.eq_iff_iff.2
  constructor
  · exact isPrefix_field (by decide) hr
  · intro h
    rw [List.isPrefixOf_iff_prefix] at h ⊢
    exact h.trans (List.prefix_append _ _)

/-- C34 without header, any table of at least one row and column that does not start with the tag: transposing twice
gives the file back. -/
theorem C34_twice_plain (k : Nat) (rows : List (List Bytes)) (hk : 0 < k) (hne : rows ≠ []) (h : Table k rows)
    (hc : isCdx (tableText rows) = false) (n : Nat) (hn : rows.length ≤ n) (hn2 : k ≤ n) :
    transposeFile false n (transposeFile false n (tableText rows)) = tableText rows := by
  have hm : 0 < rows.length := List.length_pos_iff.2 hne
  rw [C34_plain k n rows hk hne (by omega) h hc false, List.take_of_length_le hn]
  simp only [Bool.false_eq_true, if_false, List.nil_append]
  have hc' : isCdx (tableText (transposed k rows)) = false := by
    obtain ⟨k', rfl⟩ : ∃ k', k = k' + 1 := ⟨k - 1, by omega⟩
    cases rows with
    | nil => exact absurd rfl hne
    | cons r rs =>
      have hr := h r (by simp)
      cases r with
      | nil => simp at hr
      | cons c r =>
        rw [isCdx_table] at hc
        rw [transposed, List.range_succ_eq_map, List.map_cons, List.map_cons, isCdx_table]
        simpa using hc
  rw [C34_plain rows.length n _ hm (transposed_ne hk) (by omega) h.transposed hc' false]
  simp only [Bool.false_eq_true, if_false, List.nil_append]
  rw [List.take_of_length_le (by simp [transposed]; omega), transposed_twice h]

/-- A table of two columns and two rows with a header, and one of three columns without. -/
example : transposeFile true 9 (tableText [[cdxTag, [97], [98]], [[49], [50]], [[51], [52]]])
    = tableText [[cdxTag, [97], [49], [51]], [[98], [50], [52]]] := by decide +kernel
example : Table 3 [[[97], [], [98]], [[99], [100], [101]]] ∧
    isCdx (tableText [[[97], [], [98]], [[99], [100], [101]]]) = false := by
  constructor
  · intro r hr
    simp only [List.mem_cons, List.not_mem_nil, or_false] at hr
    rcases hr with rfl | rfl <;> decide
  · decide +kernel
example : transposeFile false 9 (tableText [[[97], [], [98]], [[99], [100], [101]]])
    = tableText [[[97], [99]], [[], [100]], [[98], [101]]] := by decide +kernel

end Cdx
