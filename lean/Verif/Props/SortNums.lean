import Verif.Props.Linked

/-!
C226: sorting by columns of whole numbers and by formulas.
-/

namespace Cdx

/-- `-` or nothing and digits, of size at most `2^53`; the number `-0` is left out, which is not the same as `0` (C23). -/
def IntCell (v : Bytes) (n : Int) : Prop :=
  ∃ (neg : Bool) (ds : Bytes), v = (if neg then [45] else []) ++ ds ∧ (∀ c ∈ ds, isDigit c = true) ∧
    n = (if neg then -(decVal ds : Int) else decVal ds) ∧ decVal ds ≤ 2 ^ 53 ∧ (neg = true → decVal ds ≠ 0)

/-- What rows are sorted by: a column, or a formula. -/
inductive SortAsk
  | col (k : TabKey)
  | formula (f : WholeFormula) (reverse : Bool)

/-- Kinds of keys that compare numbers. -/
def CompKind.isNum : CompKind → Bool
  | .numeric => true
  | .float => true
  | _ => false

/-- How two cells compare, given the numbers that cells stand for. -/
def numCellCmp (num : Bytes → Int) (k : CompKind) (a b : Bytes) : Ordering :=
  if k.isNum then compare (num a) (num b) else cellCmp k a b

/-- The order of rows by one key. -/
def SortAsk.cmp (names : List Bytes) (num : Bytes → Int) (val : WholeFormula → List Bytes → Int) : SortAsk → List Bytes → List Bytes → Ordering
  | .col k, a, b => if k.reverse then numCellCmp num k.kind (cellOf names b k.col) (cellOf names a k.col)
      else numCellCmp num k.kind (cellOf names a k.col) (cellOf names b k.col)
  | .formula f r, a, b => if r then compare (val f b) (val f a) else compare (val f a) (val f b)

/-- The order of rows: the first key that tells them apart. -/
def askCmp (names : List Bytes) (num : Bytes → Int) (val : WholeFormula → List Bytes → Int) : List SortAsk → List Bytes → List Bytes → Ordering
  | k :: ks, a, b => (k.cmp names num val a b).then (askCmp names num val ks a b)
  | [], _, _ => .eq

/-- The texts of a key. -/
def SortAsk.Text (names : List Bytes) : SortAsk → Bytes → Prop
  | .col k, spec => k.Text names spec
  | .formula f r, spec => ∃ cols method, spec = cols ++ 44 :: (method ++ 44 :: f.text) ∧ 44 ∉ cols ∧ 44 ∉ method ∧
      lower (nameOf method) = ascii "expr" ∧ r = (confOf method).reverse

/-! ## Rows and lines -/

/-- The line of a row. -/
abbrev askLine (r : List Bytes) : Bytes := List.intercalate [TAB] r ++ [NL]

theorem table_sorts (toF64 : Bytes → F64) (nameOk : Bytes → Bool) (pick : Nat → List (Nat × Bytes) → Nat) (rd : Nat → Nat → Nat) (cap : Nat)
    (unique : Bool) (cs : List LineComp) (names : List Bytes) (tables : List (List (List Bytes))) (rcmp : List Bytes → List Bytes → Ordering)
    (hp : TotalPreorder rcmp)
    (hag : ItemsAgree toF64 cs (fun l r => rcmp (lineNames l TAB) (lineNames r TAB)) fun l => ∃ r ∈ tables.flatten, l = askLine r)
    (hn : SepNames TAB names) (hok : ∀ n ∈ names, nameOk n = true) (htn : tables ≠ [])
    (ht : SepTable TAB names.length tables.flatten) (hcap : 8 < cap) (hfit : (sepText TAB tables.flatten).length < cap) :
    ∃ out, sortCmd toF64 nameOk pick rd cap unique cs (tables.map fun rows => sepHead TAB names ++ sepText TAB rows) =
        .ok (sepHead TAB names ++ sepText TAB out) ∧
      (unique = false → StableSort rcmp tables.flatten out) ∧ (unique = true → UniqueSort rcmp tables.flatten out) := by
  have hpos : 0 < names.length := List.length_pos_iff.2 hn.1
  have hrows : ∀ rows ∈ tables, SepTable TAB names.length rows := fun rows hr r hrr => ht r (List.mem_flatten.2 ⟨rows, hr, hrr⟩)
  have hback : ∀ r ∈ tables.flatten, lineNames (askLine r) TAB = r := fun r hr =>
      lineNames_row TAB (by decide) r (by
        have := (ht r hr).1
        rintro rfl
        simp at this
        omega) (ht r hr).2
  generalize hfiles : (tables.map fun rows => sepHead TAB names ++ sepText TAB rows) = files
  have hall : allLines files = tables.flatten.map askLine := by
    rw [← hfiles, allLines, List.map_map, List.map_flatten]
    congr 1
    apply List.map_congr_left
    intro rows hr
    simp only [Function.comp, table_open names hn rows (hrows rows hr)]
  have hhead : sortHeader files = sepHead TAB names := by
    rw [← hfiles]
    cases tables with
    | nil => exact absurd rfl htn
    | cons rows ts =>
      simp only [List.map_cons, sortHeader, table_open names hn rows (hrows rows (by simp))]
      rw [if_neg (by simp [sepHead])]
  have hfit' : (allLines files).flatten.length < cap := by rw [hall, ← sepText_lines]; exact hfit
  have hck : (HeaderChecker.fromMode .matching).checkAll nameOk ((files.filter (· ≠ [])).map fun f => (readUntil NL f).1) ≠ none := by
    have e : ((files.filter (· ≠ [])).map fun f => (readUntil NL f).1) = List.replicate tables.length (sepHead TAB names) := by
      rw [List.filter_eq_self.2 (by
        intro f hf
        rw [← hfiles] at hf
        obtain ⟨rows, _, rfl⟩ := List.mem_map.1 hf
        simp [sepHead]), ← hfiles, List.map_map, ← List.map_const']
      apply List.map_congr_left
      intro rows _
      simp only [Function.comp, table_first names hn]
    have hcdx : isCdx (sepHead TAB names) = true := by rw [sepHead_eq TAB names hn.1]; simp [isCdx, cdxTag, List.isPrefixOf]
    rw [e]
    cases tables with
    | nil => exact absurd rfl htn
    | cons rows ts =>
      rw [List.length_cons, checkAll_same nameOk _ (sepHead_ok nameOk TAB (by decide) names hn hok) hcdx]
      simp
  have hc := hp.comap fun l => lineNames l TAB
  have hL : ∀ l ∈ (files.map dataLines).flatten, ∃ r ∈ tables.flatten, l = askLine r := by
    intro l hl
    rw [← allLines_eq, hall] at hl
    obtain ⟨r, hr, rfl⟩ := List.mem_map.1 hl
    exact ⟨r, hr, rfl⟩
  obtain ⟨st, hst⟩ := addFiles_ok hc hag nameOk sortLookup (fun _ => rfl) unique cap hcap rd 0
    (Sorter.new cs) [] [] [] (new_inv _ unique cap cs) files (by simpa using hL) hck
    (by simpa [allLines_eq] using hfit')
  have hout : sortCmd toF64 nameOk pick rd cap unique cs files = .ok (st.finalize toF64 pick unique) := by simp [sortCmd, sortFiles, hst]
  obtain ⟨blocks, B, h1, h2, h3, _⟩ := sortFiles_spec hc hag nameOk sortLookup
      (fun l cs' h => (Res.ok.inj h).symm) pick unique cap hcap rd files hL _ hout
  have hb := h2 hfit'
  have hB : B = tables.flatten.map askLine := by
    rw [← hall, allLines_eq, h1, hb]
    rfl
  have h3 := h3 hb
  rw [hhead, hB] at h3
  have hag' : ∀ a ∈ tables.flatten, ∀ b ∈ tables.flatten, (fun l r => rcmp (lineNames l TAB) (lineNames r TAB)) (askLine a) (askLine b) = rcmp a b := by
    intro a ha b hb
    simp only [hback a ha, hback b hb]
  cases unique with
  | true =>
    obtain ⟨rows, r1, r2⟩ := (sortBlock_unique hc (tables.flatten.map askLine)).back hc hp askLine (fun l => lineNames l TAB) _ hag' hback
    refine ⟨rows, ?_, by simp, fun _ => r2⟩
    rw [hout, h3, r1, ← sepText_lines]
  | false =>
    obtain ⟨rows, r1, r2⟩ := (sortBlock_stable hc (tables.flatten.map askLine)).back hc hp askLine _ hag'
    refine ⟨rows, ?_, fun _ => r2, by simp⟩
    rw [hout, h3, r1, ← sepText_lines]

/-! ## Numbers -/

theorem groupedVal_digits {ds : Bytes} (h : ∀ c ∈ ds, isDigit c = true) : groupedVal ds = decVal ds := by
  unfold groupedVal
  rw [List.filter_eq_self.2]
  intro c hc
  have := h c hc
  simp only [ne_eq, decide_not, Bool.not_eq_eq_eq_not, Bool.not_true, decide_eq_false_iff_not]
  rintro rfl
  exact absurd this (by decide)

theorem intCell_cmp {v w : Bytes} {m n : Int} (hv : IntCell v m) (hw : IntCell w n) : numCmpSigned v w = compare m n := by
  obtain ⟨b1, d1, rfl, h1, e1, -, z1⟩ := hv
  obtain ⟨b2, d2, rfl, h2, e2, -, z2⟩ := hw
  have wf : ∀ ds : Bytes, (∀ c ∈ ds, isDigit c = true) → DigitsCommas ds := by
    intro ds h c hc
    have := h c hc
    simp only [isDigit, Bool.and_eq_true, decide_eq_true_eq] at this
    exact .inl this
  have := C23_integers_partial ⟨[], b1, d1⟩ ⟨[], b2, d2⟩ ⟨by simp [Blanks], wf d1 h1⟩ ⟨by simp [Blanks], wf d2 h2⟩ (by
    simp only [IntText.value, groupedVal_digits h1, groupedVal_digits h2]
    rintro ⟨a1, a2, a3⟩
    cases b1 <;> cases b2 <;> simp_all)
  simp only [IntText.value, IntText.text, groupedVal_digits h1, groupedVal_digits h2, List.nil_append] at this
  rw [this, e1, e2]

theorem intCell_double {v : Bytes} {n : Int} (h : IntCell v n) (exp10 : Int → F64) :
    (lossyF64 exp10 v).Is n ∧ (n = 0 → lossyF64 exp10 v = F64.ofNat 0) := by
  obtain ⟨b, ds, rfl, h1, e1, e2, e3⟩ := h
  let p : NumParts := ⟨if b then [45] else [], ds, none, none, none⟩
  have hw : p.Whole := by
    refine ⟨⟨?_, h1, by simp [p, NumParts.fs], by simp [p], by simp [p]⟩, by simp [p, NumParts.fs], by simp [p, expInt], by simp [p, sufNat],
      by simpa [p, expInt, sufNat] using e2⟩
    cases b
    · exact .inl rfl
    · exact .inr (.inr rfl)
  have ht : p.text = (if b then [45] else []) ++ ds := by simp [p, NumParts.text, fracText, expText, sufText]
  obtain ⟨l1, l2, l3⟩ := hw.lossy exp10
  have hval : p.value = (n : Rat) := by
    rw [e1]
    cases b
    · simp [p, NumParts.value, NumParts.fs, expVal, sufVal, Rat.intCast_natCast]
      grind
    · simp [p, NumParts.value, NumParts.fs, expVal, sufVal, Rat.intCast_neg, Rat.intCast_natCast]
      grind
  have hi : p.int = n := by rw [hval] at l2; exact Rat.intCast_inj.1 l2
  rw [hi, ht] at l1
  refine ⟨l1, ?_⟩
  intro hn
  rw [hn] at l1
  refine is_zero_pos l1 ?_
  have hb : b = false := by
    cases b with
    | false => rfl
    | true =>
      have := e3 rfl
      simp only [if_true] at e1
      omega
  have hr := read_whole exp10 p hw.wf (by intro c s d hx; simp [p] at hx)
  have this : lossyF64 exp10 ((if b then [45] else []) ++ ds) = p.double exp10 := by
    rw [← ht]
    unfold lossyF64 parseF64
    rw [hr]
    rfl
  have e : p.double exp10 = (F64.ofNat 1).mul (hornerF (F64.ofNat 0) ds) := by
    simp [NumParts.double, p, hb, sufF, expF, expInt, timesTenPow, NumParts.mant, NumParts.fs, fracF]
  have hnn := nn_horner ds _ (nn_ofNat 0)
  rw [this, e, one_mul_nn hnn]
  exact hnn.isNeg

/-! ## Keys -/

/-- The comparator of a key. -/
def SortAsk.at (names : List Bytes) (ev : WholeFormula → Bytes → F64) : SortAsk → LineComp
  | .col k => ⟨.col k.kind (fun _ => names.idxOf k.col), k.reverse, TAB⟩
  | .formula f r => ⟨.expr (fun _ => ev f), r, TAB⟩

/-- What is asked of the cells and of the formulas: numeric columns hold whole numbers, and formulas have whole values. -/
def SortAsk.Fits (names : List Bytes) (num : Bytes → Int) (val : WholeFormula → List Bytes → Int) (rows : List (List Bytes)) : SortAsk → Prop
  | .col k => k.col ∈ names ∧ (k.kind.isNum = true → ∀ r ∈ rows, IntCell (cellOf names r k.col) (num (cellOf names r k.col)))
  | .formula f _ => f.Ok ∧ 91 ∉ f.text ∧ (∀ x ∈ treeNames f.tree, x ∈ names) ∧ ∀ r ∈ rows, f.RowGives names r (val f r)

/-- What is asked of the first key: a text may not be compared in reverse, unless by length or not at all, nor hold a NUL (C25); a formula may
not be 0, as `-0` comes before `0` there. -/
def SortAsk.First (names : List Bytes) (val : WholeFormula → List Bytes → Int) (rows : List (List Bytes)) : SortAsk → Prop
  | .col k => k.kind.isNum = true ∨ (k.kind = .length ∨ k.kind = .equal ∨ k.reverse = false) ∧ ∀ r ∈ rows, ∀ c ∈ r, 0 ∉ c
  | .formula f _ => ∀ r ∈ rows, val f r ≠ 0

theorem preorder_swap {α : Type} {cmp : α → α → Ordering} (h : TotalPreorder cmp) : TotalPreorder fun a b => cmp b a :=
  ⟨h.refl, fun a b => h.swap b a, fun a b c h1 h2 => h.trans c b a h2 h1⟩

theorem numCellCmp_preorder (num : Bytes → Int) (k : CompKind) : TotalPreorder (numCellCmp num k) := by
  by_cases hk : k.isNum = true
  · have : numCellCmp num k = fun a b => compare (num a) (num b) := by
      funext a b
      simp [numCellCmp, hk]
    rw [this]
    exact preorder_int.comap num
  · have : numCellCmp num k = fun a b => cellCmp k a b := by
      funext a b
      simp [numCellCmp, hk]
    rw [this]
    exact cellCmp_preorder k false

theorem ask_preorder (names : List Bytes) (num : Bytes → Int) (val : WholeFormula → List Bytes → Int) (k : SortAsk) :
    TotalPreorder (k.cmp names num val) := by
  cases k with
  | col k =>
    have h := (numCellCmp_preorder num k.kind).comap fun r : List Bytes => cellOf names r k.col
    cases hr : k.reverse with
    | false =>
      have e : SortAsk.cmp names num val (.col k) = fun a b => numCellCmp num k.kind (cellOf names a k.col) (cellOf names b k.col) := by
        funext a b
        simp [SortAsk.cmp, hr]
      rw [e]
      exact h
    | true =>
      have e : SortAsk.cmp names num val (.col k) = fun a b => numCellCmp num k.kind (cellOf names b k.col) (cellOf names a k.col) := by
        funext a b
        simp [SortAsk.cmp, hr]
      rw [e]
      exact preorder_swap h
  | formula f r =>
    have h := preorder_int.comap fun x : List Bytes => val f x
    cases r with
    | false => exact h
    | true => exact preorder_swap h

theorem askCmp_preorder (names : List Bytes) (num : Bytes → Int) (val : WholeFormula → List Bytes → Int) (ks : List SortAsk) :
    TotalPreorder (askCmp names num val ks) := by
  induction ks with
  | nil => exact ⟨fun _ => rfl, fun _ _ => rfl, fun _ _ _ h _ => h⟩
  | cons k ks ih => exact (ask_preorder names num val k).then ih

/-- The value that a formula has for a line. -/
def EvIs (ev : WholeFormula → Bytes → F64) (val : WholeFormula → List Bytes → Int) (rows : List (List Bytes)) (asks : List SortAsk) : Prop :=
  ∀ f r, SortAsk.formula f r ∈ asks → ∀ row ∈ rows, (ev f (askLine row)).Is (val f row)

theorem ask_lines (exp10 : Int → F64) {names : List Bytes} {num : Bytes → Int} {val : WholeFormula → List Bytes → Int} {ev : WholeFormula → Bytes → F64}
    {rows : List (List Bytes)} (hne : names ≠ []) (ht : SepTable TAB names.length rows) {k : SortAsk} (hf : k.Fits names num val rows)
    (hev : EvIs ev val rows [k]) {a b : List Bytes} (ha : a ∈ rows) (hb : b ∈ rows) :
    (k.at names ev).compLines (lossyF64 exp10) 0 0 (askLine a) (askLine b) = k.cmp names num val a b := by
  have hnil : ∀ r ∈ rows, r ≠ [] := by
    intro r hr e
    have := (ht r hr).1
    rw [e] at this
    exact hne (List.length_eq_zero_iff.1 this.symm)
  cases k with
  | col k =>
    obtain ⟨h1, h2⟩ := hf
    have e : compK (lossyF64 exp10) k.kind (cellOf names a k.col) (cellOf names b k.col) =
        numCellCmp num k.kind (cellOf names a k.col) (cellOf names b k.col) := by
      unfold numCellCmp
      by_cases hk : k.kind.isNum = true
      · rw [if_pos hk]
        have ia := h2 hk a ha
        have ib := h2 hk b hb
        cases hkk : k.kind <;> simp only [hkk, CompKind.isNum, Bool.false_eq_true] at hk
        · exact intCell_cmp ia ib
        · exact is_fcmp (intCell_double ia exp10).1 (intCell_double ib exp10).1
      · rw [if_neg hk]
        exact compK_cell _ _ (by intro h; rw [h] at hk; exact hk rfl) (by intro h; rw [h] at hk; exact hk rfl) _ _
    simp only [LineComp.compLines, SortAsk.at, LineComp.inner, getCol_row TAB (by decide) a (hnil a ha) (ht a ha).2,
      getCol_row TAB (by decide) b (hnil b hb) (ht b hb).2]
    change rev k.reverse (compK (lossyF64 exp10) k.kind (cellOf names a k.col) (cellOf names b k.col)) = _
    rw [e]
    cases hr : k.reverse with
    | false => simp [rev, SortAsk.cmp, hr]
    | true => simp [rev, SortAsk.cmp, hr, (numCellCmp_preorder num k.kind).swap (cellOf names a k.col) (cellOf names b k.col)]
  | formula f r =>
    have e : fcmp (ev f (askLine a)) (ev f (askLine b)) = compare (val f a) (val f b) :=
      is_fcmp (hev f r (by simp) a ha) (hev f r (by simp) b hb)
    simp only [LineComp.compLines, SortAsk.at, LineComp.inner, e]
    cases r with
    | false => rfl
    | true => simp [rev, SortAsk.cmp, preorder_int.swap (val f a) (val f b)]

theorem asks_lines (exp10 : Int → F64) {names : List Bytes} {num : Bytes → Int} {val : WholeFormula → List Bytes → Int} {ev : WholeFormula → Bytes → F64}
    {rows : List (List Bytes)} (hne : names ≠ []) (ht : SepTable TAB names.length rows) {a b : List Bytes} (ha : a ∈ rows) (hb : b ∈ rows) :
    ∀ {ks : List SortAsk}, (∀ k ∈ ks, k.Fits names num val rows) → EvIs ev val rows ks →
      compLinesList (lossyF64 exp10) (ks.map (·.at names ev)) 0 0 (askLine a) (askLine b) = askCmp names num val ks a b := by
  intro ks
  induction ks with
  | nil => intros; rfl
  | cons k ks ih =>
    intro hf hev
    have h1 := ask_lines exp10 hne ht (hf k (by simp)) (fun f r hm => hev f r (by simp only [List.mem_singleton] at hm; simp [hm])) ha hb
    have h2 := ih (fun k hk => hf k (by simp [hk])) fun f r hm => hev f r (by simp [hm])
    simp only [List.map_cons, compLinesList, h1, h2, askCmp]
    cases k.cmp names num val a b <;> rfl

/-! ## The first key -/

theorem is_both_zero {x y : F64} {m n : Int} (hx : x.Is m) (hy : y.Is n) (h : m ≠ 0 ∨ x = y ∨ n ≠ 0) :
    ¬ (x.scaled = 0 ∧ y.scaled = 0) ∨ x = y := by
  have hp : (2 ^ 1074 : Int) ≠ 0 := by exact_mod_cast Nat.ne_of_gt pow1074_pos
  rcases h with h | h | h
  · left
    rintro ⟨h1, -⟩
    rw [hx.2.2] at h1
    rcases Int.mul_eq_zero.1 h1 with h1 | h1
    · exact h h1
    · exact hp h1
  · exact .inr h
  · left
    rintro ⟨-, h1⟩
    rw [hy.2.2] at h1
    rcases Int.mul_eq_zero.1 h1 with h1 | h1
    · exact h h1
    · exact hp h1

theorem ask_first (exp10 : Int → F64) {names : List Bytes} {num : Bytes → Int} {val : WholeFormula → List Bytes → Int} {ev : WholeFormula → Bytes → F64}
    {rows : List (List Bytes)} (hne : names ≠ []) (ht : SepTable TAB names.length rows) {k : SortAsk} (hf : k.Fits names num val rows)
    (h1 : k.First names val rows) (hev : EvIs ev val rows [k]) (base : Bytes) (l r : Item) (hb : 8 < base.length) (cl : l.complete = false)
    (cr : r.complete = false) (hl : ∃ x ∈ rows, l.get base = askLine x) (hr : ∃ x ∈ rows, r.get base = askLine x) :
    (k.at names ev).compItems (lossyF64 exp10) base ((k.at names ev).fillCacheLine (lossyF64 exp10) l base)
        ((k.at names ev).fillCacheLine (lossyF64 exp10) r base) = (k.at names ev).compLines (lossyF64 exp10) 0 0 (l.get base) (r.get base) ∧
      (k.at names ev).equalItems (lossyF64 exp10) base ((k.at names ev).fillCacheLine (lossyF64 exp10) l base)
        ((k.at names ev).fillCacheLine (lossyF64 exp10) r base) = (k.at names ev).equalLines (lossyF64 exp10) 0 0 (l.get base) (r.get base) := by
  have hnil : ∀ r ∈ rows, r ≠ [] := by
    intro r hr e
    have := (ht r hr).1
    rw [e] at this
    exact hne (List.length_eq_zero_iff.1 this.symm)
  obtain ⟨a, ha, ea⟩ := hl
  obtain ⟨b, hb', eb⟩ := hr
  cases k with
  | formula f rv =>
    have ia := hev f rv (by simp) a ha
    have ib := hev f rv (by simp) b hb'
    rw [← ea] at ia
    rw [← eb] at ib
    have hz := is_both_zero ia ib (.inl (h1 a ha))
    exact ⟨C25_float_partial _ (.expr fun _ => ev f) rv TAB base l r (.inr ⟨_, rfl⟩) ia.1 ib.1 hz,
      C25_equal_float_partial _ (.expr fun _ => ev f) rv TAB base l r (.inr ⟨_, rfl⟩) ia.1 ib.1 hz⟩
  | col k =>
    obtain ⟨f1, f2⟩ := hf
    have cola : itemCol base (names.idxOf k.col) TAB l = cellOf names a k.col := by
      unfold itemCol
      rw [ea]
      exact getCol_row TAB (by decide) a (hnil a ha) (ht a ha).2 _
    have colb : itemCol base (names.idxOf k.col) TAB r = cellOf names b k.col := by
      unfold itemCol
      rw [eb]
      exact getCol_row TAB (by decide) b (hnil b hb') (ht b hb').2 _
    by_cases hk : k.kind.isNum = true
    · have ia := f2 hk a ha
      have ib := f2 hk b hb'
      obtain ⟨da, za⟩ := intCell_double ia exp10
      obtain ⟨db, zb⟩ := intCell_double ib exp10
      have hz := is_both_zero da db (by
        by_cases h : num (cellOf names a k.col) = 0
        · by_cases h' : num (cellOf names b k.col) = 0
          · right; left
            rw [za h, zb h']
          · exact .inr (.inr h')
        · exact .inl h)
      cases hkk : k.kind <;> simp only [hkk, CompKind.isNum, Bool.false_eq_true] at hk
      · have key := C26_key_order_partial _ _ da.1 db.1 hz
        have hin := intCell_cmp ia ib
        rw [is_fcmp da db, ← hin] at key
        have e : SortAsk.at names ev (.col k) = ⟨.col .numeric (fun _ => names.idxOf k.col), k.reverse, TAB⟩ := by simp [SortAsk.at, hkk]
        rw [e]
        refine ⟨?_, C25_equal_column_partial _ _ _ _ _ base l r (by simp) cl (by simp) (by simp)⟩
        rw [compItems_shape, fillCacheLine_get, fillCacheLine_get]
        simp only [LineComp.compLines, LineComp.inner, LineComp.fillCacheLine, fillCache, compK, cl, Bool.false_and]
        change rev k.reverse ((compare (ulpToUlong (lossyF64 exp10 (itemCol base (names.idxOf k.col) TAB l))).toNat
          (ulpToUlong (lossyF64 exp10 (itemCol base (names.idxOf k.col) TAB r))).toNat).then
            (rev k.reverse (numCmpSigned (itemCol base (names.idxOf k.col) TAB l) (itemCol base (names.idxOf k.col) TAB r)))) =
          rev k.reverse (numCmpSigned (itemCol base (names.idxOf k.col) TAB l) (itemCol base (names.idxOf k.col) TAB r))
        rw [cola, colb, key]
        cases numCmpSigned (cellOf names a k.col) (cellOf names b k.col) <;> cases k.reverse <;> rfl
      · have e : SortAsk.at names ev (.col k) = ⟨.col .float (fun _ => names.idxOf k.col), k.reverse, TAB⟩ := by simp [SortAsk.at, hkk]
        rw [e]
        have ha' : itemFloat (lossyF64 exp10) (.col .float fun _ => names.idxOf k.col) base TAB l = lossyF64 exp10 (cellOf names a k.col) := by
          simp only [itemFloat, cola]
        have hb' : itemFloat (lossyF64 exp10) (.col .float fun _ => names.idxOf k.col) base TAB r = lossyF64 exp10 (cellOf names b k.col) := by
          simp only [itemFloat, colb]
        exact ⟨C25_float_partial _ _ _ TAB base l r (.inl ⟨_, rfl⟩) (by rw [ha']; exact da.1) (by rw [hb']; exact db.1) (by rw [ha', hb']; exact hz),
          C25_equal_float_partial _ _ _ TAB base l r (.inl ⟨_, rfl⟩) (by rw [ha']; exact da.1) (by rw [hb']; exact db.1) (by rw [ha', hb']; exact hz)⟩
    · rcases h1 with h1 | ⟨h1, h0⟩
      · exact absurd h1 hk
      · have hg := goodKeys_at names [.col k.kind ⟨[], names.idxOf k.col⟩ k.reverse] (by
          intro q hq
          rw [List.mem_singleton.1 hq]
          exact ⟨by intro h; rw [h] at hk; exact hk rfl, by intro h; rw [h] at hk; exact hk rfl, .inl rfl⟩) (by
          intro q qs hq
          rw [List.cons.injEq] at hq
          rw [← hq.1]
          exact h1)
        have hi := goodKeys_items (lossyF64 exp10) _ hg
        have clean : ∀ x ∈ rows, CleanLine (askLine x) := by
          intro x hx
          refine ⟨⟨_, rfl, ?_⟩, ?_⟩
          · intro h
            rcases mem_intercalate h with h | ⟨c, hc, h⟩
            · exact absurd h (by decide)
            · exact ((ht x hx).2 c hc).2 h
          · intro h
            rcases List.mem_append.1 h with h | h
            · rcases mem_intercalate h with h | ⟨c, hc, h⟩
              · exact absurd h (by decide)
              · exact h0 x hx c hc h
            · exact absurd (List.mem_singleton.1 h) (by decide)
        have c1 : CleanLine (l.get base) := by rw [ea]; exact clean a ha
        have c2 : CleanLine (r.get base) := by rw [eb]; exact clean b hb'
        have g1 := hi.comp base l r hb cl cr c1 c2
        have g2 := hi.equal base l r hb cl cr c1 c2
        unfold lineCmp at g1 g2
        rw [← Bool.eq_iff_iff.2 ((C27_equal_agrees _ _ 0 0 (l.get base) (r.get base)).trans beq_iff_eq.symm)] at g2
        have e : Key.at names (.col k.kind ⟨[], names.idxOf k.col⟩ k.reverse) = SortAsk.at names ev (.col k) := rfl
        simp only [List.map_cons, List.map_nil, e, compItemsList, fillCacheList, lineCmp, compLinesList, equalItemsList, equalLinesList] at g1 g2
        constructor
        · revert g1
          split <;> split <;> simp_all
        · revert g2
          cases LineComp.equalItems _ _ _ _ _ <;> cases LineComp.equalLines _ _ _ _ _ _ <;> simp

theorem asks_agree (exp10 : Int → F64) {names : List Bytes} {num : Bytes → Int} {val : WholeFormula → List Bytes → Int} {ev : WholeFormula → Bytes → F64}
    {rows : List (List Bytes)} (hne : names ≠ []) (ht : SepTable TAB names.length rows) {ks : List SortAsk} (hf : ∀ k ∈ ks, k.Fits names num val rows)
    (h1 : ∀ k ∈ ks.head?, k.First names val rows) (hev : EvIs ev val rows ks) :
    ItemsAgree (lossyF64 exp10) (ks.map (·.at names ev)) (fun l r => askCmp names num val ks (lineNames l TAB) (lineNames r TAB))
      fun l => ∃ r ∈ rows, l = askLine r := by
  have hnil : ∀ r ∈ rows, r ≠ [] := by
    intro r hr e
    have := (ht r hr).1
    rw [e] at this
    exact hne (List.length_eq_zero_iff.1 this.symm)
  have hback : ∀ r ∈ rows, lineNames (askLine r) TAB = r := fun r hr => lineNames_row TAB (by decide) r (hnil r hr) (ht r hr).2
  have hlines : ∀ l r : Bytes, (∃ x ∈ rows, l = askLine x) → (∃ x ∈ rows, r = askLine x) →
      compLinesList (lossyF64 exp10) (ks.map (·.at names ev)) 0 0 l r = askCmp names num val ks (lineNames l TAB) (lineNames r TAB) := by
    rintro l r ⟨a, ha, rfl⟩ ⟨b, hb, rfl⟩
    rw [hback a ha, hback b hb, asks_lines exp10 hne ht ha hb hf hev]
  cases ks with
  | nil => exact ⟨fun _ _ _ _ _ _ _ _ => rfl, fun _ _ _ _ _ _ _ _ => rfl⟩
  | cons k ks =>
    have key := ask_first exp10 hne ht (hf k (by simp)) (h1 k (by simp)) fun f r hm => hev f r (by simp only [List.mem_singleton] at hm; simp [hm])
    refine ⟨fun base l r hb cl cr hl hr => ?_, fun base l r hb cl cr hl hr => ?_⟩
    · rw [← hlines _ _ hl hr]
      exact C25_list _ _ _ base l r (key base l r hb cl cr hl hr).1
    · rw [← hlines _ _ hl hr]
      rw [← Bool.eq_iff_iff.2 ((C27_equal_agrees _ _ 0 0 (l.get base) (r.get base)).trans beq_iff_eq.symm)]
      exact equalItemsList_list _ _ _ base l r (key base l r hb cl cr hl hr).2

/-! ## The options -/

/-- Options that ask for sorting by these keys. -/
structure AsksSort (names : List Bytes) (asks : List SortAsk) (os : List SortOpt) : Prop where
  some : asks ≠ []
  keys : (sortSpecs os).length = asks.length ∧ ∀ x ∈ asks.zip (sortSpecs os), x.1.Text names x.2
  noMerge : SortOpt.merge ∉ os
  noCheck : ∀ x ∈ os, x.isCheck = false

/-- The column is there. -/
def SortAsk.There (names : List Bytes) : SortAsk → Prop
  | .col k => k.col ∈ names
  | .formula _ _ => True

theorem asks_made {names : List Bytes} (hn : ∀ n ∈ names, IsName n) (hl : names.length < 2 ^ 64) (os : List SortOpt) :
    ∀ (asks : List SortAsk), (∀ k ∈ asks, k.There names) → (sortSpecs os).length = asks.length →
      (∀ x ∈ asks.zip (sortSpecs os), x.1.Text names x.2) → (∀ x ∈ os, x.isCheck = false) → SortOpt.merge ∉ os →
      ∀ x : FormulaOpts, ∃ y ms, x.addAll os = .ok y ∧ y.keys = x.keys ++ ms ∧ y.rest.unique = (x.rest.unique || decide (SortOpt.unique ∈ os)) ∧
        y.rest.merge = x.rest.merge ∧ y.rest.check = x.rest.check ∧
        ∀ eval ev, (∀ f r, SortAsk.formula f r ∈ asks → eval f.text names = .ok (ev f)) →
          resolveKeys eval names ms = .ok (asks.map (·.at names ev)) := by
  induction os with
  | nil =>
    intro asks _ h _ _ _ x
    have : asks = [] := List.length_eq_zero_iff.1 h.symm
    subst this
    exact ⟨x, [], rfl, by simp, by simp, rfl, rfl, fun _ _ _ => rfl⟩
  | cons o os ih =>
    intro asks hs hlen ht hc hm x
    have ho := hc o (by simp)
    replace hc : ∀ y ∈ os, y.isCheck = false := fun y hy => hc y (List.mem_cons_of_mem o hy)
    have hm' : SortOpt.merge ∉ os := fun h => hm (List.mem_cons_of_mem o h)
    cases o with
    | check => cases ho
    | checkN v => cases ho
    | merge => exact absurd (by simp) hm
    | key spec =>
      cases asks with
      | nil => simp [sortSpecs] at hlen
      | cons k asks =>
        have hk := hs k (by simp)
        have htx : k.Text names spec := ht (k, spec) (by simp [sortSpecs])
        have hmade : ∃ m, makeLineComp (fun _ => true) spec = .ok m ∧ ∀ eval ev, (∀ f r, k = SortAsk.formula f r → eval f.text names = .ok (ev f)) →
            m.resolve eval names = .ok (k.at names ev) := by
          cases k with
          | col k =>
            obtain ⟨c, m, conf, h1, h2, h3, -⟩ := tabKey_made hn hl hk htx
            refine ⟨_, h1 _, fun eval ev _ => ?_⟩
            have : lookupFile [c] 0 names = c.lookup names := rfl
            simp only [LineCompMade.resolve, this, h3, Res.bind_ok, h2, SortAsk.at]
          | formula f r =>
            obtain ⟨cols, method, e, t1, t2, t3, t4⟩ := htx
            refine ⟨_, by rw [e]; exact C110_expr _ _ _ _ t1 t2 t3 rfl, fun eval ev h => ?_⟩
            simp only [LineCompMade.resolve, h f r rfl, Res.bind_ok, SortAsk.at, t4]
        obtain ⟨m, m1, m2⟩ := hmade
        obtain ⟨y, ms, g1, g2, g3, g4, g5, g6⟩ := ih asks (fun k hk => hs k (by simp [hk])) (by simpa [sortSpecs] using hlen)
          (fun x hx => ht x (by simp only [sortSpecs, List.filterMap_cons, List.zip_cons_cons]; exact List.mem_cons_of_mem _ hx)) hc hm'
          { x with keys := x.keys ++ [m] }
        refine ⟨y, m :: ms, by simp only [FormulaOpts.addAll, FormulaOpts.add, m1, Res.bind_ok, g1], by simp [g2], by simp [g3], g4, g5, ?_⟩
        intro eval ev h
        simp only [resolveKeys, m2 eval ev fun f r e => h f r (by simp [e]), Res.bind_ok, g6 eval ev fun f r e => h f r (by simp [e]), List.map_cons]
    | unique =>
      obtain ⟨y, ms, g1, g2, g3, g4, g5, g6⟩ := ih asks hs hlen ht hc hm' { x with rest := { x.rest with unique := true } }
      exact ⟨y, ms, by simp only [FormulaOpts.addAll, FormulaOpts.add, SortOpts.add, Res.bind_ok, g1], g2, by simp [g3], g4, g5, g6⟩
    | altSort =>
      obtain ⟨y, ms, g1, g2, g3, g4, g5, g6⟩ := ih asks hs hlen ht hc hm' { x with rest := { x.rest with conf := { x.rest.conf with altSort := true } } }
      exact ⟨y, ms, by simp only [FormulaOpts.addAll, FormulaOpts.add, SortOpts.add, Res.bind_ok, g1], g2, by simp [g3], g4, g5, g6⟩
    | altMerge =>
      obtain ⟨y, ms, g1, g2, g3, g4, g5, g6⟩ := ih asks hs hlen ht hc hm' { x with rest := { x.rest with conf := { x.rest.conf with altMerge := true } } }
      exact ⟨y, ms, by simp only [FormulaOpts.addAll, FormulaOpts.add, SortOpts.add, Res.bind_ok, g1], g2, by simp [g3], g4, g5, g6⟩

theorem asks_plain {names : List Bytes} (hn : ∀ n ∈ names, IsName n) (hl : names.length < 2 ^ 64) (os : List SortOpt) :
    ∀ (asks : List SortAsk), (∀ k ∈ asks, k.There names) → (sortSpecs os).length = asks.length →
      (∀ x ∈ asks.zip (sortSpecs os), x.1.Text names x.2) →
      ∀ x y : SortOpts, x.addAll os = .ok y → ∃ qs, y.keys = x.keys ++ qs ∧ qs.length = asks.length ∧
        ∀ ev, lookupKeys names qs = .ok (asks.map (·.at names ev)) := by
  induction os with
  | nil =>
    intro asks _ h _ x y e
    have : asks = [] := List.length_eq_zero_iff.1 h.symm
    subst this
    simp only [SortOpts.addAll, Res.ok.injEq] at e
    exact ⟨[], by simp [e], rfl, fun _ => rfl⟩
  | cons o os ih =>
    intro asks hs hlen ht x y e
    simp only [SortOpts.addAll] at e
    obtain ⟨x', e1, e2⟩ := Res.bind_eq_ok e
    cases o with
    | key spec =>
      cases asks with
      | nil => simp [sortSpecs] at hlen
      | cons k asks =>
        have hk := hs k (by simp)
        have htx : k.Text names spec := ht (k, spec) (by simp [sortSpecs])
        cases k with
        | formula f r =>
          obtain ⟨cols, method, es, t1, t2, t3, t4⟩ := htx
          rw [SortOpts.add, keyOfSpec, es, C110_expr _ _ _ _ t1 t2 t3 rfl] at e1
          cases e1
        | col k =>
          obtain ⟨c, m, conf, h1, h2, h3, -⟩ := tabKey_made hn hl hk htx
          rw [SortOpts.add, keyOfSpec, h1] at e1
          simp only [Res.bind_ok, Res.ok.injEq] at e1
          obtain ⟨qs, g1, g2, g3⟩ := ih asks (fun k hk => hs k (by simp [hk])) (by simpa [sortSpecs] using hlen)
            (fun x hx => ht x (by simp only [sortSpecs, List.filterMap_cons, List.zip_cons_cons]; exact List.mem_cons_of_mem _ hx)) x' y e2
          refine ⟨.col k.kind c k.reverse :: qs, ?_, by simp [g2], fun ev => ?_⟩
          · rw [g1, ← e1]
            simp [h2]
          · simp only [lookupKeys, Key.lookup, h3, Res.bind_ok, g3 ev, List.map_cons, SortAsk.at]
    | checkN v =>
      obtain ⟨n, _, e1⟩ := Res.bind_eq_ok e1
      simp only [Res.ok.injEq] at e1
      obtain ⟨qs, g1, g2, g3⟩ := ih asks hs hlen ht x' y e2
      exact ⟨qs, by rw [g1, ← e1], g2, g3⟩
    | _ =>
      simp only [SortOpts.add, Res.ok.injEq] at e1
      obtain ⟨qs, g1, g2, g3⟩ := ih asks hs hlen ht x' y e2
      exact ⟨qs, by rw [g1, ← e1], g2, g3⟩

theorem number_sort (eval : Bytes → List Bytes → Res (Bytes → F64)) (exp10 : Int → F64) (nameOk : Bytes → Bool) (pick : Nat → List (Nat × Bytes) → Nat)
    (rd : Nat → Nat → Nat) (cap : Nat) (m : TextMode) {os : List SortOpt} {names : List Bytes} {tables : List (List (List Bytes))}
    {asks : List SortAsk} {num : Bytes → Int} {val : WholeFormula → List Bytes → Int} {ev : WholeFormula → Bytes → F64} (h : AsksSort names asks os)
    (hfit : ∀ k ∈ asks, k.Fits names num val tables.flatten) (h1 : ∀ k ∈ asks.head?, k.First names val tables.flatten)
    (hev : EvIs ev val tables.flatten asks) (heval : ∀ f r, SortAsk.formula f r ∈ asks → eval f.text names = .ok (ev f))
    (ht : GoodTable names tables.flatten) (hok : ∀ n ∈ names, nameOk n = true) (htn : tables ≠ [])
    (hcap : 8 < cap) (hlen : (sepText TAB tables.flatten).length < cap) :
    ∃ out, sortMainF eval (lossyF64 exp10) nameOk pick rd cap m os (tables.map fun rows => sepHead TAB names ++ sepText TAB rows) =
        .ok (sepHead TAB names ++ sepText TAB out) ∧
      (SortOpt.unique ∉ os → StableSort (askCmp names num val asks) tables.flatten out) ∧
      (SortOpt.unique ∈ os → UniqueSort (askCmp names num val asks) tables.flatten out) := by
  obtain ⟨t1, t2, t3, t4, t5⟩ := ht
  have hn : SepNames TAB names := ⟨t1, fun n hn => name_free (d := TAB) (by decide) (by decide) (t2 n hn)⟩
  have there : ∀ k ∈ asks, k.There names := by
    intro k hk
    have := hfit k hk
    cases k with
    | col k => exact this.1
    | formula f r => trivial
  have hag := asks_agree exp10 t1 t5 hfit h1 hev
  have key : ∀ unique, ∃ out, sortCmd (lossyF64 exp10) nameOk pick rd cap unique (asks.map (·.at names ev))
        (tables.map fun rows => sepHead TAB names ++ sepText TAB rows) = .ok (sepHead TAB names ++ sepText TAB out) ∧ _ :=
    fun unique => table_sorts (lossyF64 exp10) nameOk pick rd cap unique _ names tables _ (askCmp_preorder names num val asks) hag hn hok htn t5 hcap hlen
  obtain ⟨out, o1, o2, o3⟩ := key (decide (SortOpt.unique ∈ os))
  refine ⟨out, ?_, fun h => o2 (by simpa using h), fun h => o3 (by simpa using h)⟩
  have first : ∀ f ∈ tables.map (fun rows => sepHead TAB names ++ sepText TAB rows), makeHeader (readUntil NL f).1 = .ok names := by
    intro f hf
    obtain ⟨rows, _, rfl⟩ := List.mem_map.1 hf
    simp only [table_first names hn, makeHeader_sep names hn]
  cases ho : SortOpts.addAll {} os with
  | ok o =>
    rw [sortMainF_plain ho]
    obtain ⟨a1, a2, a3, a4, _⟩ := C139_options os o ho
    obtain ⟨qs, q1, q2, q3⟩ := asks_plain t2 t4 os asks there h.keys.1 h.keys.2 {} o ho
    have e1 : o.merge = false := by rw [a3]; simpa using h.noMerge
    have e2 : o.check = false := by rw [a4, List.any_eq_false]; intro x hx; simp [h.noCheck x hx]
    have e3 : o.sortKeys = qs := by
      rw [SortOpts.sortKeys, q1]
      cases qs with
      | nil => exact absurd (List.length_eq_zero_iff.1 q2.symm) h.some
      | cons q qs => rfl
    simp only [sortMain, ho, Res.run, Run.bind, SortOpts.run, e1, e2, Bool.false_and, Bool.false_eq_true, if_false, e3]
    rw [sortFiles_lookup _ nameOk _ pick rd cap o.unique _ (asks.map (·.at names ev)), a2, o1]
    intro f hf _ _
    simp only [first f hf, Res.bind_ok, q3 ev]
  | _ =>
    obtain ⟨y, ms, g1, g2, g3, g4, g5, g6⟩ := asks_made t2 t4 os asks there h.keys.1 h.keys.2 h.noCheck h.noMerge {}
    simp only [List.nil_append, Bool.false_or] at g2 g3
    simp only [sortMainF, ho, g1, Res.run, Run.bind, FormulaOpts.run, g4, g5, Bool.or_self, Bool.false_eq_true, if_false, g2, g3]
    rw [sortFiles_lookup _ nameOk _ pick rd cap _ _ (asks.map (·.at names ev)), o1]
    intro f hf _ _
    simp only [first f hf, Res.bind_ok, g6 eval ev heval]

/-! ## C226 -/

/-- What is asked of a first key that is a column. -/
def SortAsk.FirstText (names : List Bytes) (rows : List (List Bytes)) : SortAsk → Prop
  | .col k => SortAsk.First names (fun _ _ => 0) rows (.col k)
  | .formula _ _ => True

/-- Full statement: whatever the values of a formula are, rows are sorted by them. -/
def C226_statement : Prop :=
  ∀ (o : Outside) (s : Sys) (c : Cmd) (toks : List Tok) (m : TextMode) (t : Option TextMode) (os : List SortOpt) (files names : List Bytes)
    (tables : List (List (List Bytes))) (asks : List SortAsk) (num : Bytes → Int) (val : WholeFormula → List Bytes → Int), c ∈ mainList → c.name = "sort" →
    Says (o.world s) c toks m t (os.map SortOpt.said) files → Tables (o.world s) s files names tables → AsksSort names asks os →
    (∀ k ∈ asks, k.Fits names num val tables.flatten) → (∀ k ∈ asks.head?, k.FirstText names tables.flatten) →
    GoodTable names tables.flatten → (∀ n ∈ names, nameOkBytes o.classes n = true) → tables.flatten ≠ [] →
    8 < o.cap → (sepText TAB tables.flatten).length < o.cap →
    ∃ out, o.run "sort" toks s = .ok { s with stdout := s.stdout ++ (sepHead TAB names ++ sepText TAB out) } ∧
      (SortOpt.unique ∉ os → StableSort (askCmp names num val asks) tables.flatten out) ∧
      (SortOpt.unique ∈ os → UniqueSort (askCmp names num val asks) tables.flatten out)

/-- C226, as far as it holds: `sort` by columns of whole numbers and by formulas orders the rows by these numbers, stably; with `--unique` the first
row of each value remains. What is missing: fractions, numbers beyond `2^53`, and a first key that is 0. -/
theorem C226_partial (o : Outside) (s : Sys) (c : Cmd) (hc : c ∈ mainList) (hn : c.name = "sort") (toks : List Tok) (m : TextMode)
    (t : Option TextMode) (os : List SortOpt) (files names : List Bytes) (tables : List (List (List Bytes))) (asks : List SortAsk)
    (num : Bytes → Int) (val : WholeFormula → List Bytes → Int)
    (h : Says (o.world s) c toks m t (os.map SortOpt.said) files) (hr : Tables (o.world s) s files names tables) (hf : AsksSort names asks os)
    (hfit : ∀ k ∈ asks, k.Fits names num val tables.flatten) (h1 : ∀ k ∈ asks.head?, k.First names val tables.flatten)
    (ht : GoodTable names tables.flatten) (hok : ∀ n ∈ names, nameOkBytes o.classes n = true) (hrows : tables.flatten ≠ [])
    (hcap : 8 < o.cap) (hlen : (sepText TAB tables.flatten).length < o.cap) :
    ∃ out, o.run "sort" toks s = .ok { s with stdout := s.stdout ++ (sepHead TAB names ++ sepText TAB out) } ∧
      (SortOpt.unique ∉ os → StableSort (askCmp names num val asks) tables.flatten out) ∧
      (SortOpt.unique ∈ os → UniqueSort (askCmp names num val asks) tables.flatten out) := by
  obtain ⟨r1, r2⟩ := hr.read
  have hne := ht.1
  have hrne : ∀ r ∈ tables.flatten, r ≠ [] := by
    intro r hm e
    have := (ht.2.2.2.2 r hm).1
    rw [e] at this
    exact hne (List.length_eq_zero_iff.1 this.symm)
  have hform : ∀ f rv, SortAsk.formula f rv ∈ asks → ∃ x, (ExprSt.new f.text).lookup (o.expr s) names = .ok x ∧
      ∀ r ∈ tables.flatten, ∃ v, x.evalLine (o.expr s) (askLine r) TAB = .ok v ∧ v.Is (val f r) := by
    intro f rv hm
    obtain ⟨f1, f2, f3, f4⟩ := hfit _ hm
    have hone : ∀ r ∈ tables.flatten, ∃ v, ((ExprSt.new f.text).lookup (o.expr s) names).bind (·.evalLine (o.expr s) (askLine r) TAB) = .ok v ∧
        v.Is (val f r) := by
      intro r hr
      obtain ⟨⟨v, hv, _, hi⟩, _⟩ := row_value o s names f f1 f2 f3 TAB (by decide) r (hrne r hr) (ht.2.2.2.2 r hr).2 _ (f4 r hr)
      exact ⟨v, hv, hi⟩
    obtain ⟨r0, hr0⟩ := List.exists_mem_of_ne_nil _ hrows
    obtain ⟨v0, hv0, _⟩ := hone r0 hr0
    obtain ⟨x, hx, _⟩ := Res.bind_eq_ok hv0
    refine ⟨x, hx, fun r hr => ?_⟩
    obtain ⟨v, hv, hi⟩ := hone r hr
    rw [hx, Res.bind_ok] at hv
    exact ⟨v, hv, hi⟩
  let ev : WholeFormula → Bytes → F64 := fun f => match o.keyValue s f.text names with
    | .ok g => g
    | _ => fun _ => F64.ofNat 0
  obtain ⟨out, g1, g2⟩ := number_sort (o.keyValue s) o.exp10 (nameOkBytes o.classes) o.pick o.rd o.cap m (ev := ev) hf hfit h1 (by
      intro f rv hm r hr
      obtain ⟨x, hx, hv⟩ := hform f rv hm
      obtain ⟨v, hv, hi⟩ := hv r hr
      simp only [ev, Outside.keyValue, hx, Res.bind_ok, hv]
      exact hi) (by
      intro f rv hm
      obtain ⟨x, hx, _⟩ := hform f rv hm
      simp only [ev, Outside.keyValue, hx, Res.bind_ok]) ht hok (by rintro rfl; exact hrows rfl) hcap hlen
  refine ⟨out, ?_, g2⟩
  unfold Outside.run
  rw [← hn]
  refine run_writes (o.world s) hc (by rw [hn]; decide) (by rw [hn]; decide) h s r1 ?_
  rw [hn]
  unfold World.output
  simp only [if_false, if_true, String.reduceEq, opts_said, Res.run, Run.bind, zip_snd r2]
  exact g1

/-- `a*b`. -/
def product : WholeFormula :=
  ⟨.bin .times (.var (ascii "a")) (.var (ascii "b")), [.var (ascii "a"), .binary .times, .var (ascii "b")]⟩

theorem product_ok : product.Ok := by
  refine ⟨?_, ?_, by simp [product, NoClash, clash]⟩
  · have := writes_infixOf (product.tree.mapNum F64.ofNat) 1 (by decide) (by decide)
    rwa [show infixOf 1 (product.tree.mapNum F64.ofNat) = product.toks by
      simp only [product, Tree.mapNum, infixOf, leftLevel, wrapIf]; simp] at this
  · intro tok ht
    simp only [product, List.mem_cons, List.not_mem_nil, or_false] at ht
    rcases ht with rfl | rfl | rfl
    · exact ⟨97, [], rfl, by decide, by decide⟩
    · trivial
    · exact ⟨98, [], rfl, by decide, by decide⟩

theorem product_names {x : Bytes} (hx : x ∈ treeNames product.tree) : x = ascii "a" ∨ x = ascii "b" := by
  have e : treeNames product.tree = [ascii "a", ascii "b"] := by
    simp only [product, treeNames]
    decide +kernel
  rw [e] at hx
  simpa using hx

theorem wholeCell_digits (neg : Bool) (ds : Bytes) (hd : ∀ c ∈ ds, isDigit c = true) (h : decVal ds ≤ 2 ^ 53) (n : Int)
    (hn : (⟨if neg then [45] else [], ds, none, none, none⟩ : NumParts).int = n) : WholeCell ((if neg then [45] else []) ++ ds) n := by
  refine ⟨⟨if neg then [45] else [], ds, none, none, none⟩, ⟨⟨?_, hd, by simp [NumParts.fs], by simp, by simp⟩, by simp [NumParts.fs], by simp [expInt],
    by simp [sufNat], by simpa [expInt, sufNat] using h⟩, by simp [NumParts.text, fracText, expText, sufText], hn.symm⟩
  cases neg
  · exact .inl rfl
  · exact .inr (.inr rfl)

/-- Two tables of numbers. -/
def sys7 : Sys :=
  { files := fun n => if n = ascii "z" then some (ascii " CDX\ta\tb\n0\t1\n0\t-1\n")
      else if n = ascii "t" then some (ascii " CDX\ta\tb\n3\t5\n10\t2\n-9\t1\n5\t3\n") else none
    stdin := [], stdout := ascii ">", stderr := [] }

theorem goodTable_ab {rows : List (List Bytes)} (h : SepTable TAB 2 rows) : GoodTable [ascii "a", ascii "b"] rows :=
  ⟨by simp, goodTable_example.2.1, by decide, by decide, h⟩

/-- `cdx sort --key ,expr,a*b z`: the row with the value `-0` comes before the row with the value 0 that was before it. -/
theorem C226_refuted : ¬ C226_statement := by
  intro h
  obtain ⟨out, h1, h2, -⟩ := h outside0 sys7 (cmd0 "sort") [.opt "key" (ascii ",expr,a*b"), .pos "input_files" (ascii "z")] .default none
    [.key (ascii ",expr,a*b")] [ascii "z"] [ascii "a", ascii "b"] [[[ascii "0", ascii "1"], [ascii "0", ascii "-1"]]] [.formula product false]
    (fun _ => 0) (fun _ _ => 0) (cmd0_mem (by decide +kernel)) (by decide +kernel)
    (says_plain (by decide +kernel) (by decide +kernel) (by decide +kernel) (by decide +kernel) (by decide +kernel))
    (by unfold Tables; decide +kernel)
    ⟨by simp, ⟨rfl, by
      intro x hx
      have : x = (.formula product false, ascii ",expr,a*b") := by simpa [sortSpecs] using hx
      subst this
      exact ⟨[], ascii "expr", by decide +kernel, by simp, by decide, by decide +kernel, by decide +kernel⟩⟩, by decide, by decide⟩
    (by
      intro k hk
      rw [List.mem_singleton.1 hk]
      refine ⟨product_ok, by decide +kernel, fun x hx => ?_, ?_⟩
      · rcases product_names hx with rfl | rfl <;> decide
      · intro r hr
        simp only [List.flatten_cons, List.flatten_nil, List.append_nil, List.mem_cons, List.not_mem_nil, or_false] at hr
        rcases hr with rfl | rfl
        · refine ⟨fun x => if x = ascii "a" then 0 else 1, ?_, by unfold WholeFormula.Gives; decide +kernel⟩
          intro x hx
          rcases product_names hx with rfl | rfl
          · exact wholeCell_digits false (ascii "0") (by decide) (by decide) _ (by decide +kernel)
          · exact wholeCell_digits false (ascii "1") (by decide) (by decide) _ (by decide +kernel)
        · refine ⟨fun x => if x = ascii "a" then 0 else -1, ?_, by unfold WholeFormula.Gives; decide +kernel⟩
          intro x hx
          rcases product_names hx with rfl | rfl
          · exact wholeCell_digits false (ascii "0") (by decide) (by decide) _ (by decide +kernel)
          · exact wholeCell_digits true (ascii "1") (by decide) (by decide) _ (by decide +kernel))
    (by
      intro k hk
      simp only [List.head?_cons, Option.mem_some_iff] at hk
      rw [← hk]
      trivial)
    (goodTable_ab (by decide +kernel)) (by decide +kernel) (by simp) (by decide) (by decide +kernel)
  have h2 := h2 (by decide)
  have e := h2.unique (askCmp_preorder _ _ _ _) (stableSort_stable (askCmp_preorder _ _ _ _) _)
  rw [e] at h1
  have h3 := congrArg written h1
  revert h3
  decide +kernel

/-- `cdx sort --key ,expr,a*b --key a,num.rev t`: by the product, and then the greater number first. -/
example : outside0.run "sort" [.opt "key" (ascii ",expr,a*b"), .opt "key" (ascii "a,num.rev"), .pos "input_files" (ascii "t")] sys7 =
    .ok { sys7 with stdout := ascii "> CDX\ta\tb\n-9\t1\n5\t3\n3\t5\n10\t2\n" } := by
  obtain ⟨out, h1, h2, -⟩ := C226_partial outside0 sys7 (cmd0 "sort") (cmd0_mem (by decide +kernel)) (by decide +kernel)
    [.opt "key" (ascii ",expr,a*b"), .opt "key" (ascii "a,num.rev"), .pos "input_files" (ascii "t")] .default none
    [.key (ascii ",expr,a*b"), .key (ascii "a,num.rev")] [ascii "t"] [ascii "a", ascii "b"]
    [[[ascii "3", ascii "5"], [ascii "10", ascii "2"], [ascii "-9", ascii "1"], [ascii "5", ascii "3"]]]
    [.formula product false, .col ⟨ascii "a", .numeric, true⟩]
    (fun c => if c = ascii "3" then 3 else if c = ascii "10" then 10 else if c = ascii "-9" then -9 else 5)
    (fun _ r => if r = [ascii "10", ascii "2"] then 20 else if r = [ascii "-9", ascii "1"] then -9 else 15)
    (says_plain (by decide +kernel) (by decide +kernel) (by decide +kernel) (by decide +kernel) (by decide +kernel))
    (by unfold Tables; decide +kernel)
    ⟨by simp, ⟨rfl, by
      intro x hx
      have : x = (.formula product false, ascii ",expr,a*b") ∨ x = (.col ⟨ascii "a", .numeric, true⟩, ascii "a,num.rev") := by simpa [sortSpecs] using hx
      rcases this with rfl | rfl
      · exact ⟨[], ascii "expr", by decide +kernel, by simp, by decide, by decide +kernel, by decide +kernel⟩
      · exact ⟨ascii "a", .inl rfl, .inr ⟨ascii "num.rev", by decide +kernel, by decide, by unfold AliasOk; decide +kernel,
          by unfold MethodOf; decide +kernel, by decide +kernel⟩⟩⟩, by decide, by decide⟩
    (by
      intro k hk
      simp only [List.mem_cons, List.not_mem_nil, or_false] at hk
      rcases hk with rfl | rfl
      · refine ⟨product_ok, by decide +kernel, fun x hx => ?_, ?_⟩
        · rcases product_names hx with rfl | rfl <;> decide
        · intro r hr
          simp only [List.flatten_cons, List.flatten_nil, List.append_nil, List.mem_cons, List.not_mem_nil, or_false] at hr
          rcases hr with rfl | rfl | rfl | rfl
          · refine ⟨fun x => if x = ascii "a" then 3 else 5, ?_, by unfold WholeFormula.Gives; decide +kernel⟩
            intro x hx
            rcases product_names hx with rfl | rfl
            · exact wholeCell_digits false (ascii "3") (by decide) (by decide) _ (by decide +kernel)
            · exact wholeCell_digits false (ascii "5") (by decide) (by decide) _ (by decide +kernel)
          · refine ⟨fun x => if x = ascii "a" then 10 else 2, ?_, by unfold WholeFormula.Gives; decide +kernel⟩
            intro x hx
            rcases product_names hx with rfl | rfl
            · exact wholeCell_digits false (ascii "10") (by decide) (by decide) _ (by decide +kernel)
            · exact wholeCell_digits false (ascii "2") (by decide) (by decide) _ (by decide +kernel)
          · refine ⟨fun x => if x = ascii "a" then -9 else 1, ?_, by unfold WholeFormula.Gives; decide +kernel⟩
            intro x hx
            rcases product_names hx with rfl | rfl
            · exact wholeCell_digits true (ascii "9") (by decide) (by decide) _ (by decide +kernel)
            · exact wholeCell_digits false (ascii "1") (by decide) (by decide) _ (by decide +kernel)
          · refine ⟨fun x => if x = ascii "a" then 5 else 3, ?_, by unfold WholeFormula.Gives; decide +kernel⟩
            intro x hx
            rcases product_names hx with rfl | rfl
            · exact wholeCell_digits false (ascii "5") (by decide) (by decide) _ (by decide +kernel)
            · exact wholeCell_digits false (ascii "3") (by decide) (by decide) _ (by decide +kernel)
      · refine ⟨by decide, fun _ r hr => ?_⟩
        simp only [List.flatten_cons, List.flatten_nil, List.append_nil, List.mem_cons, List.not_mem_nil, or_false] at hr
        rcases hr with rfl | rfl | rfl | rfl
        · exact ⟨false, ascii "3", by decide +kernel, by decide, by decide +kernel, by decide, by simp⟩
        · exact ⟨false, ascii "10", by decide +kernel, by decide, by decide +kernel, by decide, by simp⟩
        · exact ⟨true, ascii "9", by decide +kernel, by decide, by decide +kernel, by decide, by decide⟩
        · exact ⟨false, ascii "5", by decide +kernel, by decide, by decide +kernel, by decide, by simp⟩)
    (by
      intro k hk
      simp only [List.head?_cons, Option.mem_some_iff] at hk
      rw [← hk]
      intro r hr
      dsimp only
      split
      · decide
      · split <;> decide)
    (goodTable_ab (by decide +kernel)) (by decide +kernel) (by simp) (by decide) (by decide +kernel)
  have e := (h2 (by decide)).unique (askCmp_preorder _ _ _ _) (stableSort_stable (askCmp_preorder _ _ _ _) _)
  rw [h1, e]
  congr 2

/-- `cdx sort --key a,num t`: the numbers are in order, `-9` first and `10` last. -/
example : ∃ out, outside0.run "sort" [.opt "key" (ascii "a,num"), .pos "input_files" (ascii "t")] sys7 =
      .ok { sys7 with stdout := sys7.stdout ++ (sepHead TAB [ascii "a", ascii "b"] ++ sepText TAB out) } ∧
    out = [[ascii "-9", ascii "1"], [ascii "3", ascii "5"], [ascii "5", ascii "3"], [ascii "10", ascii "2"]] := by
  obtain ⟨out, h1, h2, -⟩ := C226_partial outside0 sys7 (cmd0 "sort") (cmd0_mem (by decide +kernel)) (by decide +kernel)
    [.opt "key" (ascii "a,num"), .pos "input_files" (ascii "t")] .default none
    [.key (ascii "a,num")] [ascii "t"] [ascii "a", ascii "b"]
    [[[ascii "3", ascii "5"], [ascii "10", ascii "2"], [ascii "-9", ascii "1"], [ascii "5", ascii "3"]]]
    [.col ⟨ascii "a", .numeric, false⟩]
    (fun c => if c = ascii "3" then 3 else if c = ascii "10" then 10 else if c = ascii "-9" then -9 else 5)
    (fun _ _ => 0)
    (says_plain (by decide +kernel) (by decide +kernel) (by decide +kernel) (by decide +kernel) (by decide +kernel))
    (by unfold Tables; decide +kernel)
    ⟨by simp, ⟨rfl, by
      intro x hx
      have : x = (.col ⟨ascii "a", .numeric, false⟩, ascii "a,num") := by simpa [sortSpecs] using hx
      subst this
      exact ⟨ascii "a", .inl rfl, .inr ⟨ascii "num", by decide +kernel, by decide, by unfold AliasOk; decide +kernel,
          by unfold MethodOf; decide +kernel, by decide +kernel⟩⟩⟩, by decide, by decide⟩
    (by
      intro k hk
      simp only [List.mem_cons, List.not_mem_nil, or_false] at hk
      subst hk
      refine ⟨by decide, fun _ r hr => ?_⟩
      simp only [List.flatten_cons, List.flatten_nil, List.append_nil, List.mem_cons, List.not_mem_nil, or_false] at hr
      rcases hr with rfl | rfl | rfl | rfl
      · exact ⟨false, ascii "3", by decide +kernel, by decide, by decide +kernel, by decide, by simp⟩
      · exact ⟨false, ascii "10", by decide +kernel, by decide, by decide +kernel, by decide, by simp⟩
      · exact ⟨true, ascii "9", by decide +kernel, by decide, by decide +kernel, by decide, by decide⟩
      · exact ⟨false, ascii "5", by decide +kernel, by decide, by decide +kernel, by decide, by simp⟩)
    (by
      intro k hk
      simp only [List.head?_cons, Option.mem_some_iff] at hk
      rw [← hk]
      exact .inl rfl)
    (goodTable_ab (by decide +kernel)) (by decide +kernel) (by simp) (by decide) (by decide +kernel)
  refine ⟨out, h1, ?_⟩
  rw [(h2 (by decide)).unique (askCmp_preorder _ _ _ _) (stableSort_stable (askCmp_preorder _ _ _ _) _)]
  decide +kernel

end Cdx
