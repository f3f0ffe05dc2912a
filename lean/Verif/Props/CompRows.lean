import Verif.Props.SortNums
import Verif.Props.LinkedGrep
import Verif.Props.ExprBracket

/-!
Patterns that compare a column with other columns of the same row (C227): `COL,comp,OPCOLS,METHOD`.
-/

namespace Cdx

/-- A comparison of a column with others of the row. -/
structure RowComp where
  col : Bytes
  op : CompareOp
  item : ColItem
  kind : CompKind

/-- How operators are written. -/
def opTexts : List (Bytes × CompareOp) :=
  [(ascii "<", .lt), (ascii "<=", .le), (ascii ">", .gt), (ascii ">=", .ge), (ascii "==", .eq), (ascii "!=", .ne),
    (ascii "lt", .lt), (ascii "le", .le), (ascii "gt", .gt), (ascii "ge", .ge), (ascii "eq", .eq), (ascii "ne", .ne)]

/-- When the outcome of a comparison is what the operator asks for. -/
def opHolds : CompareOp → Ordering → Bool
  | .lt, .lt => true
  | .le, .lt => true
  | .le, .eq => true
  | .gt, .gt => true
  | .ge, .gt => true
  | .ge, .eq => true
  | .eq, .eq => true
  | .ne, .lt => true
  | .ne, .gt => true
  | _, _ => false

/-- The columns compared with. -/
def RowComp.cols (names : List Bytes) (c : RowComp) : Option (List Nat) :=
  (selectSpec names (if c.item.tilde then [] else [c.item]) (if c.item.tilde then [c.item] else [])).map fun v => v.map (·.1)

/-- The value of the column stands in the relation to one of the others, given the numbers that cells stand for. -/
def RowComp.passes (names : List Bytes) (num : Bytes → Int) (c : RowComp) (r : List Bytes) : Bool :=
  ((c.cols names).getD []).any fun n => opHolds c.op (numCellCmp num c.kind (cellOf names r c.col) (r.getD n []))

/-- The end of the pattern: nothing, or a method. -/
def CompRest (kind : CompKind) (rest : Bytes) : Prop :=
  rest = [] ∧ kind = .plain ∨ ∃ method, rest = 44 :: method ∧ 44 ∉ method ∧ AliasOk (nameOf method) ∧ MethodOf (nameOf method) (.kind kind)

/-- The text of the pattern. After the second comma there must be three bytes or more. -/
def RowComp.Text (names : List Bytes) (c : RowComp) (spec : Bytes) : Prop :=
  ∃ ref opt rest, RefOf names ref c.col ∧ (lower opt, c.op) ∈ opTexts ∧ CompRest c.kind rest ∧
    3 ≤ (opt ++ c.item.text ++ rest).length ∧ spec = ref ++ 44 :: ascii "comp" ++ 44 :: (opt ++ c.item.text ++ rest)

theorem letter_plain {c : UInt8} (h : Letter c) : c < 128 ∧ c ≠ 61 ∧ c ≠ 91 := by
  have : ∀ c : UInt8, Letter c → c < 128 ∧ c ≠ 61 ∧ c ≠ 91 := byte_forall (by decide +kernel)
  exact this c h

theorem digit_plain {c : UInt8} (h : Digit c) : c < 128 ∧ c ≠ 61 ∧ c ≠ 91 := by
  have : ∀ c : UInt8, Digit c → c < 128 ∧ c ≠ 61 ∧ c ≠ 91 := byte_forall (by decide +kernel)
  exact this c h

theorem name_plain {s : Bytes} (h : IsName s) : ∀ c ∈ s, c < 128 ∧ c ≠ 61 ∧ c ≠ 91 := by
  obtain ⟨a, as, rfl, ha, h⟩ := h
  intro c hc
  rcases List.mem_cons.1 hc with rfl | hc
  · exact letter_plain ha
  · rcases h c hc with h | h | rfl
    · exact letter_plain h
    · exact digit_plain h
    · decide

theorem ref_plain {r : ColRef} (h : r.WF) : ∀ c ∈ r.text, c < 128 ∧ c ≠ 61 ∧ c ≠ 91 := by
  cases r with
  | num ds => exact fun c hc => digit_plain (h.2.1 c hc)
  | fromEnd ds =>
    intro c hc
    rcases List.mem_cons.1 hc with rfl | hc
    · decide
    · exact digit_plain (h.2.1 c hc)
  | name s => exact name_plain h

theorem opt_plain {o : Option ColRef} (h : ∀ r ∈ o.toList, r.WF) : ∀ c ∈ (o.map ColRef.text).getD [], c < 128 ∧ c ≠ 61 ∧ c ≠ 91 := by
  cases o with
  | none => simp
  | some r => exact ref_plain (h r (by simp))

theorem item_plain {i : ColItem} (hi : i.WF) : ∀ c ∈ i.text, c < 128 ∧ c ≠ 61 ∧ c ≠ 91 := by
  obtain ⟨h1, h2⟩ := hi
  intro c hc
  simp only [ColItem.text, ColItem.body, List.mem_append] at hc
  rcases hc with hc | hc | hc
  · cases ht : i.tilde <;> simp only [ht, if_true, if_false, Bool.false_eq_true, List.mem_singleton, List.not_mem_nil] at hc
    subst hc
    decide
  · cases ho : i.outName with
    | none => simp [ho, namePart] at hc
    | some n =>
      simp only [ho, namePart, List.mem_append, List.mem_singleton] at hc
      rcases hc with hc | rfl
      · exact name_plain (h1 n ho) c hc
      · decide
  · cases hs : i.sel with
    | one r =>
      rw [hs] at hc h2
      exact ref_plain (h2 r (by simp [Sel.refs])) c hc
    | span lo hi =>
      rw [hs] at hc h2
      simp only [Sel.text, List.mem_append, List.mem_cons] at hc
      rcases hc with hc | rfl | hc
      · exact opt_plain (fun r hr => h2 r (by simp only [Sel.refs, List.mem_append]; exact .inl hr)) c hc
      · decide
      · exact opt_plain (fun r hr => h2 r (by simp only [Sel.refs, List.mem_append]; exact .inr hr)) c hc

theorem parse_lower {a b : Bytes} (h : lower a = lower b) : CompareOp.parse a = CompareOp.parse b := by
  unfold CompareOp.parse eqIgnoreCase
  rw [h]

theorem one_then : ∀ c : UInt8, c ≠ 61 → CompareOp.parse [60, c] = .err ∧ CompareOp.parse [62, c] = .err := by
  exact byte_forall (P := fun c => c ≠ 61 → CompareOp.parse [60, c] = .err ∧ CompareOp.parse [62, c] = .err) (by decide +kernel)

theorem lower_symbol : ∀ c : UInt8, (lower [c] = [60] → c = 60) ∧ (lower [c] = [62] → c = 62) := by
  exact byte_forall (P := fun c => (lower [c] = [60] → c = 60) ∧ (lower [c] = [62] → c = 62)) (by decide +kernel)

theorem not_cont {c : UInt8} (h : c < 128) : isCont c = false := by
  have : ∀ c : UInt8, c < 128 → isCont c = false := byte_forall (by decide +kernel)
  exact this c h

/-- The operator is taken from the front of the pattern. -/
theorem compOp_text {opt g : Bytes} {op : CompareOp} (h : (lower opt, op) ∈ opTexts) (hl : 3 ≤ (opt ++ g).length) (hg : g.head? ≠ some 61)
    (hp : ∀ c ∈ g.take 2, c < 128) : compOp (opt ++ g) = .ok (op, g) := by
  have hlen := lower_length opt
  have two : opt.length = 2 → CompareOp.parse opt = .ok op → compOp (opt ++ g) = .ok (op, g) := by
    intro h2 h3
    unfold compOp
    rw [if_neg (by omega)]
    have hc : cutsChar (opt ++ g) 2 = false := by
      unfold cutsChar
      rw [List.getElem?_append_right (by omega), h2]
      cases g with
      | nil => rfl
      | cons c g => simpa using not_cont (hp c (by simp))
    rw [hc, if_neg (by simp), List.take_append_of_le_length (by omega), List.take_of_length_le (by omega), h3]
    simp only
    rw [show (2 : Nat) = opt.length from h2.symm, List.drop_left]
  have one : ∀ a : UInt8, opt = [a] → (∀ c : UInt8, c ≠ 61 → CompareOp.parse [a, c] = .err) → CompareOp.parse [a] = .ok op →
      compOp (opt ++ g) = .ok (op, g) := by
    intro a h2 h3 h4
    subst h2
    match g, hl, hg, hp with
    | [], hl, _, _ => simp at hl
    | [c], hl, _, _ => simp at hl
    | c :: e :: g, hl, hg, hp =>
      unfold compOp
      rw [if_neg (by omega)]
      have hc : cutsChar ([a] ++ c :: e :: g) 2 = false := by
        unfold cutsChar
        simpa using not_cont (hp e (by simp))
      have hc1 : cutsChar ([a] ++ c :: e :: g) 1 = false := by
        unfold cutsChar
        simpa using not_cont (hp c (by simp))
      rw [hc, if_neg (by simp), hc1]
      simp only [List.cons_append, List.nil_append, List.take_succ_cons, List.take_zero, h3 c (by simpa using hg), h4, Bool.false_eq_true, if_false,
        List.drop_succ_cons, List.drop_zero]
  simp only [opTexts, List.mem_cons, Prod.mk.injEq, List.not_mem_nil, or_false] at h
  have single : ∀ a : UInt8, lower opt = [a] → ∃ b, opt = [b] ∧ lower [b] = [a] := by
    intro a e
    rw [e] at hlen
    match opt, hlen with
    | [b], _ => exact ⟨b, rfl, e⟩
  rcases h with ⟨e, rfl⟩ | ⟨e, rfl⟩ | ⟨e, rfl⟩ | ⟨e, rfl⟩ | ⟨e, rfl⟩ | ⟨e, rfl⟩ | ⟨e, rfl⟩ | ⟨e, rfl⟩ | ⟨e, rfl⟩ | ⟨e, rfl⟩ | ⟨e, rfl⟩ | ⟨e, rfl⟩
  · obtain ⟨b, e1, e2⟩ := single 60 (by rw [e]; decide +kernel)
    have := (lower_symbol b).1 e2
    subst this
    exact one 60 e1 (fun c hc => (one_then c hc).1) (by decide +kernel)
  · exact two (by rw [← hlen, e]; decide +kernel) (by rw [parse_lower (b := ascii "<=") (by rw [e]; decide +kernel)]; decide +kernel)
  · obtain ⟨b, e1, e2⟩ := single 62 (by rw [e]; decide +kernel)
    have := (lower_symbol b).2 e2
    subst this
    exact one 62 e1 (fun c hc => (one_then c hc).2) (by decide +kernel)
  · exact two (by rw [← hlen, e]; decide +kernel) (by rw [parse_lower (b := ascii ">=") (by rw [e]; decide +kernel)]; decide +kernel)
  · exact two (by rw [← hlen, e]; decide +kernel) (by rw [parse_lower (b := ascii "==") (by rw [e]; decide +kernel)]; decide +kernel)
  · exact two (by rw [← hlen, e]; decide +kernel) (by rw [parse_lower (b := ascii "!=") (by rw [e]; decide +kernel)]; decide +kernel)
  · exact two (by rw [← hlen, e]; decide +kernel) (by rw [parse_lower (b := ascii "lt") (by rw [e]; decide +kernel)]; decide +kernel)
  · exact two (by rw [← hlen, e]; decide +kernel) (by rw [parse_lower (b := ascii "le") (by rw [e]; decide +kernel)]; decide +kernel)
  · exact two (by rw [← hlen, e]; decide +kernel) (by rw [parse_lower (b := ascii "gt") (by rw [e]; decide +kernel)]; decide +kernel)
  · exact two (by rw [← hlen, e]; decide +kernel) (by rw [parse_lower (b := ascii "ge") (by rw [e]; decide +kernel)]; decide +kernel)
  · exact two (by rw [← hlen, e]; decide +kernel) (by rw [parse_lower (b := ascii "eq") (by rw [e]; decide +kernel)]; decide +kernel)
  · exact two (by rw [← hlen, e]; decide +kernel) (by rw [parse_lower (b := ascii "ne") (by rw [e]; decide +kernel)]; decide +kernel)

theorem rest_kind {kind : CompKind} {rest : Bytes} (h : CompRest kind rest) : compOf (rest.drop 1) = .ok kind := by
  rcases h with ⟨rfl, rfl⟩ | ⟨m, rfl, h1, h2, h3⟩
  · decide +kernel
  · unfold compOf makeComp
    rw [List.drop_succ_cons, List.drop_zero, splitOnce_none 44 m h1]
    simp only
    rw [(C110_method_partial m [] h2 _).2 h3]
    rfl

theorem group_text (env : MEnv) {i : ColItem} (hi : i.WF) {rest : Bytes} (h : rest = [] ∨ ∃ m, rest = 44 :: m) :
    colGroup env (i.text ++ rest) = (ColumnSet.fromSpec env i.text).bind fun c => .ok (c, rest.drop 1) := by
  have hf : ∃ a t, i.text = a :: t ∧ a ≠ 44 ∧ a ≠ 91 := by
    cases ht : i.text with
    | nil => exact absurd ht (item_ne_nil hi)
    | cons a t =>
      have ha : a ∈ i.text := by simp [ht]
      exact ⟨a, t, rfl, (item_chars hi a ha).1, (item_plain hi a ha).2.2⟩
  obtain ⟨a, t, e, h1, h2⟩ := hf
  have hc : 44 ∉ i.text := fun hm => (item_chars hi 44 hm).1 rfl
  unfold colGroup
  split
  · rename_i heq
    simp [e] at heq
  · rename_i heq
    rw [e] at heq
    simp only [List.cons_append, List.cons.injEq] at heq
    exact absurd heq.1 h1
  · rename_i heq
    rw [e] at heq
    simp only [List.cons_append, List.cons.injEq] at heq
    exact absurd heq.1 h2
  · rcases h with rfl | ⟨m, rfl⟩
    · rw [List.append_nil, splitOnce_none 44 _ hc]
      rfl
    · rw [splitOnce_some 44 _ _ hc]
      rfl

theorem detLoop_some (l : List Bool) (no : Nat) : detLoop .some l 0 no = l.any id := by
  induction l generalizing no with
  | nil => rfl
  | cons b l ih =>
    cases b with
    | true => simp [detLoop, Determiner.matchMid, Tri.yesIf]
    | false => simp [detLoop, Determiner.matchMid, Tri.yesIf, ih]

theorem opHolds_ord (op : CompareOp) (o : Ordering) : op.ordOk o = opHolds op o := by
  cases op <;> cases o <;> rfl

theorem compK_num (exp10 : Int → F64) {num : Bytes → Int} {k : CompKind} {x y : Bytes} (h : k.isNum = true → IntCell x (num x) ∧ IntCell y (num y)) :
    compK (lossyF64 exp10) k x y = numCellCmp num k x y := by
  unfold numCellCmp
  by_cases hk : k.isNum = true
  · rw [if_pos hk]
    obtain ⟨ia, ib⟩ := h hk
    cases k <;> simp only [CompKind.isNum, Bool.false_eq_true] at hk
    · exact intCell_cmp ia ib
    · exact is_fcmp (intCell_double ia exp10).1 (intCell_double ib exp10).1
  · rw [if_neg hk]
    exact compK_cell _ _ (by intro h; rw [h] at hk; exact hk rfl) (by intro h; rw [h] at hk; exact hk rfl) _ _

/-- What is asked of the columns and of the cells: there are such columns, and if numbers are compared, the cells are whole numbers. -/
structure RowComp.Fits (names : List Bytes) (num : Bytes → Int) (rows : List (List Bytes)) (c : RowComp) : Prop where
  here : c.col ∈ names
  wf : c.item.WF
  fair : ∀ r ∈ c.item.sel.refs, r.Fair names
  some : c.cols names ≠ none
  nums : c.kind.isNum = true → ∀ r ∈ rows, ∀ v ∈ r, IntCell v (num v)

theorem comp_columns (env : MEnv) {names : List Bytes} (hn : ∀ n ∈ names, IsName n) {num : Bytes → Int} {rows : List (List Bytes)} {c : RowComp}
    (h : c.Fits names num rows) (mk : Bytes → Res (Bytes → Bool)) :
    ∃ cs cols, ColumnSet.fromSpec env c.item.text = .ok cs ∧ cs.lookup mk names = .ok cols ∧ c.cols names = some (cols.map (·.num)) := by
  have h0 := C18_partial env.transOk mk names hn [(false, [c.item])] (by
    intro x hx
    rw [List.mem_singleton] at hx
    subst hx
    exact ⟨by simp, fun i hi => by rw [List.mem_singleton] at hi; exact hi ▸ h.wf⟩) (by
    intro r hr
    simp only [allRefs, List.flatMap_cons, List.flatMap_nil, List.append_nil] at hr
    exact h.fair r hr)
  have e1 : chosenOf [(false, [c.item])] = if c.item.tilde then [] else [c.item] := by
    cases ht : c.item.tilde <;> simp [chosenOf, ht]
  have e2 : rejectedOf [(false, [c.item])] = if c.item.tilde then [c.item] else [] := by
    cases ht : c.item.tilde <;> simp [rejectedOf, ht]
  rw [e1, e2] at h0
  have hs := h.some
  unfold RowComp.cols at hs ⊢
  cases hsel : selectSpec names (if c.item.tilde then [] else [c.item]) (if c.item.tilde then [c.item] else []) with
  | none => rw [hsel] at hs; exact absurd rfl hs
  | some v =>
    rw [hsel] at h0
    simp only at h0
    unfold selectCode at h0
    obtain ⟨cs, a1, a2⟩ := Res.bind_eq_ok h0
    simp only [addCalls, List.map_cons, List.map_nil, List.intercalate_singleton] at a1
    obtain ⟨cs', a3, a4⟩ := Res.bind_eq_ok a1
    injection a4 with a4
    subst a4
    exact ⟨cs', _, a3, a2, by simp [Function.comp_def]⟩

theorem resolve_lt {names : List Bytes} {r : ColRef} {n : Nat} (h : r.resolve names = some n) : n < names.length := by
  cases r with
  | num ds =>
    simp only [ColRef.resolve] at h
    split at h
    · simp only [Option.some.injEq] at h
      omega
    · cases h
  | fromEnd ds =>
    simp only [ColRef.resolve] at h
    split at h
    · simp only [Option.some.injEq] at h
      omega
    · cases h
  | name s => exact (List.findIdx?_eq_some_iff_getElem.1 h).1

theorem denote_lt {names : List Bytes} {s : Sel} {v : List Nat} (h : s.denote names = some v) : ∀ n ∈ v, n < names.length := by
  cases s with
  | one r =>
    simp only [Sel.denote, Option.map_eq_some_iff] at h
    obtain ⟨n, h1, rfl⟩ := h
    intro m hm
    rw [List.mem_singleton] at hm
    exact hm ▸ resolve_lt h1
  | span lo hi =>
    simp only [Sel.denote] at h
    split at h
    · rename_i a b h1 h2
      split at h
      · injection h with h
        subst h
        intro n hn
        have hb : b < names.length := by
          cases hi with
          | some r => exact resolve_lt h2
          | none =>
            simp only [hiEnd] at h2
            split at h2
            · cases h2
            · rename_i hne
              injection h2 with h2
              have := List.length_pos_iff.2 hne
              omega
        have := List.mem_range'.1 hn
        omega
      · cases h
    · cases h

theorem cols_lt {names : List Bytes} {c : RowComp} : ∀ n ∈ (c.cols names).getD [], n < names.length := by
  intro n hn
  unfold RowComp.cols selectSpec at hn
  cases ht : c.item.tilde with
  | true =>
    simp only [ht, if_true, denoteAll] at hn
    cases hd : c.item.sel.denote names with
    | none => simp [hd] at hn
    | some v =>
      simp only [hd, Option.map_some, Option.getD_some, List.mem_map, List.mem_filter] at hn
      obtain ⟨x, ⟨h1, -⟩, rfl⟩ := hn
      obtain ⟨m, h2, rfl⟩ := h1
      exact List.mem_range.1 h2
  | false =>
    simp only [ht, if_false, Bool.false_eq_true, denoteAll] at hn
    cases hd : c.item.sel.denote names with
    | none => simp [hd] at hn
    | some v =>
      simp only [hd, Option.map_some, Option.getD_some, List.mem_map, List.mem_filter] at hn
      obtain ⟨x, ⟨h1, -⟩, rfl⟩ := hn
      simp only [List.cons_ne_nil, if_false, List.append_nil, List.mem_map] at h1
      obtain ⟨m, h2, rfl⟩ := h1
      exact denote_lt hd m h2

theorem any_same {α : Type} {l : List α} {p q : α → Bool} (h : ∀ a ∈ l, p a = q a) : l.any p = l.any q := by
  induction l with
  | nil => rfl
  | cons a l ih => rw [List.any_cons, List.any_cons, h a (by simp), ih fun b hb => h b (by simp [hb])]

/-- The pattern makes a test that rows pass as they should. -/
theorem comp_made (o : Outside) (s : Sys) (d : UInt8) (hd : SepByte d) {names : List Bytes} (hne : names ≠ []) (hn : ∀ n ∈ names, IsName n)
    (hl : names.length < 2 ^ 64) {num : Bytes → Int} {rows : List (List Bytes)} (htab : SepTable d names.length rows) {c : RowComp}
    (hf : c.Fits names num rows) {spec : Bytes} (h : c.Text names spec) :
    ∃ lm lt, makeLine (o.matchers s) spec = .ok lm ∧ lm.lookup (o.matchers s) names = .ok lt ∧
      ∀ r ∈ rows, lt.ok (o.matchers s) (decoded (sepMode d) (rowLine d r)) = .ok (c.passes names num r) := by
  obtain ⟨ref, opt, rest, h1, h2, h3, h4, rfl⟩ := h
  obtain ⟨r1, _, r3, k, r4, r5⟩ := newFrom_ref hn hl hf.here h1
  obtain ⟨cs, cols, c1, c2, c3⟩ := comp_columns (o.matchers s) hn hf (nameTest (o.matchers s))
  have hfirst : ∃ a t, ref = a :: t ∧ a ≠ 91 := by
    cases ref with
    | nil => exact absurd rfl r3
    | cons a t =>
      refine ⟨a, t, rfl, ?_⟩
      rintro rfl
      simp [NamedCol.newFrom, NamedCol.parse, isDigit, isAlpha, Res.bind] at r4
  have hrest : rest = [] ∨ ∃ m, rest = 44 :: m := by
    rcases h3 with ⟨e, -⟩ | ⟨m, e, -⟩
    · exact .inl e
    · exact .inr ⟨m, e⟩
  have hcmp : ascii "comp" = [99, 111, 109, 112] := by decide +kernel
  have hmake : makeLine (o.matchers s) (ref ++ 44 :: ascii "comp" ++ 44 :: (opt ++ c.item.text ++ rest)) = .ok (.comp k c.op cs c.kind) := by
    have e : makeLine (o.matchers s) (ref ++ 44 :: ascii "comp" ++ 44 :: (opt ++ c.item.text ++ rest)) =
        makeLine3 (o.matchers s) ref (ascii "comp") (opt ++ c.item.text ++ rest) := by
      obtain ⟨a, t, e1, e2⟩ := hfirst
      have es : splitOnce 44 (ref ++ 44 :: ascii "comp" ++ 44 :: (opt ++ c.item.text ++ rest)) =
          some (ref, ascii "comp" ++ 44 :: (opt ++ c.item.text ++ rest)) := by
        rw [List.append_assoc]
        exact splitOnce_some 44 ref _ r1
      have es2 : splitOnce 44 (ascii "comp" ++ 44 :: (opt ++ c.item.text ++ rest)) = some (ascii "comp", opt ++ c.item.text ++ rest) :=
        splitOnce_some 44 _ _ (by decide +kernel)
      unfold makeLine
      split
      · rename_i q heq
        rw [e1] at heq
        simp only [List.cons_append, List.cons.injEq] at heq
        exact absurd heq.1 e2
      · rw [es]
        simp only
        rw [es2]
    have hhead : (c.item.text ++ rest).head? ≠ some 61 := by
      cases ht : c.item.text with
      | nil => exact absurd ht (item_ne_nil hf.wf)
      | cons a t =>
        have := (item_plain hf.wf a (by simp [ht])).2.1
        simpa using this
    have htake : ∀ x ∈ (c.item.text ++ rest).take 2, x < 128 := by
      intro x hx
      cases ht : c.item.text with
      | nil => exact absurd ht (item_ne_nil hf.wf)
      | cons a t =>
        have hp := fun b hb => (item_plain hf.wf b hb).1
        rw [ht] at hx hp
        cases t with
        | cons b t =>
          simp only [List.cons_append, List.take_succ_cons, List.take_zero, List.mem_cons, List.not_mem_nil, or_false] at hx
          exact hp x (by rcases hx with rfl | rfl <;> simp)
        | nil =>
          rcases hrest with rfl | ⟨m, rfl⟩
          · simp at hx
            exact hp x (by simp [hx])
          · simp at hx
            rcases hx with rfl | rfl
            · exact hp x (by simp)
            · decide
    rw [e]
    unfold makeLine3
    rw [if_neg (by decide +kernel), if_pos rfl]
    unfold mkComp
    rw [r4, Res.bind_ok, List.append_assoc, compOp_text h2 (by rw [← List.append_assoc]; exact h4) hhead htake, Res.bind_ok]
    simp only
    rw [group_text (o.matchers s) hf.wf hrest, c1, Res.bind_ok, Res.bind_ok]
    simp only
    rw [show (o.matchers s).comp (rest.drop 1) = .ok c.kind from rest_kind h3, Res.bind_ok]
  refine ⟨_, .comp (names.idxOf c.col) c.op (cols.map (·.num)) c.kind, hmake, ?_, fun r hr => ?_⟩
  · simp only [LineMatcher.lookup, r5, Res.bind_ok, c2]
  · obtain ⟨g1, g2⟩ := htab r hr
    have hrne : r ≠ [] := by
      rintro rfl
      simp at g1
      exact hne (List.length_eq_zero_iff.1 g1.symm)
    unfold LineTest.ok
    simp only
    rw [detLoop_some]
    unfold RowComp.passes
    rw [c3, Option.getD_some, List.any_map]
    have hlt := cols_lt (names := names) (c := c)
    rw [c3, Option.getD_some] at hlt
    have hin : ∀ j, j < names.length → c.kind.isNum = true → IntCell (r.getD j []) (num (r.getD j [])) := by
      intro j hj hk
      rw [← g1] at hj
      rw [List.getD_eq_getElem?_getD, List.getElem?_eq_getElem hj, Option.getD_some]
      exact hf.nums hk r hr _ (List.getElem_mem hj)
    congr 1
    refine any_same fun n hm => ?_
    simp only [Function.comp_apply, id_eq, get_getD]
    rw [rowLine, row_vec d hd r hrne g2, opHolds_ord]
    congr 1
    exact compK_num o.exp10 fun hk => ⟨hin _ (List.idxOf_lt_length_iff.2 hf.here) hk, hin _ (hlt n hm) hk⟩

/-- C227, what holds: from the words of the command line and the texts of the files, `cgrep` with patterns that compare columns writes the rows
of which they hold. -/
theorem C227_partial (o : Outside) (s : Sys) (c : Cmd) (hc : c ∈ mainList) (hn : c.name = "cgrep") (toks : List Tok) (d : UInt8)
    (names files : List Bytes) (cs : List RowComp) (opts : List (Bytes × Bytes)) (tables : List (Bytes × List (List Bytes)))
    (num : Bytes → Int)
    (h : Says (o.world s) c toks (sepMode d) none opts files) (hfl : files = tables.map (·.1))
    (hr : files.map (getReader o.s3 o.gunzip s) = tables.map fun t => some (sepHead d names ++ sepText d t.2))
    (hd : SepByte d) (hu : d ≠ 95) (hne : names ≠ []) (hnd : names.Nodup) (hv : ∀ n ∈ names, IsName n ∧ nameOkBytes o.classes n = true)
    (hl : names.length < 2 ^ 64) (hknown : ∀ o ∈ opts, o.1 ∈ [ascii "pattern", ascii "or", ascii "invert"])
    (hlen : (valuesOf "pattern" opts).length = cs.length) (htext : ∀ x ∈ cs.zip (valuesOf "pattern" opts), x.1.Text names x.2)
    (hfit : ∀ x ∈ cs, x.Fits names num (tables.map (·.2)).flatten) (ht : tables ≠ [])
    (htab : ∀ t ∈ tables, t.1.getLast? ≠ some 47 ∧ SepTable d names.length t.2) :
    o.run "cgrep" toks s = .ok { s with stdout := s.stdout ++ (sepHead d names ++ sepText d ((tables.map (·.2)).flatten.filter fun r =>
        (if valuesOf "or" opts ≠ [] then cs.any fun x => x.passes names num r else cs.all fun x => x.passes names num r) ^^
          decide (valuesOf "invert" opts ≠ []))) } := by
  unfold Outside.run
  rw [← hn]
  refine run_writes (o.world s) hc (by rw [hn]; decide) (by rw [hn]; decide) h s
    (texts := tables.map fun t => sepHead d names ++ sepText d t.2) (by rw [List.map_map]; exact hr) ?_
  rw [hn]
  unfold World.output
  simp only [if_false, if_true, String.reduceEq]
  have hz : files.zip (tables.map fun t => sepHead d names ++ sepText d t.2) = tables.map fun t => (t.1, sepHead d names ++ sepText d t.2) := by
    rw [hfl, List.zip_map', ]
  rw [hz]
  have hout : (Settings.mk (sepMode d) none).out = sepMode d := rfl
  rw [hout]
  show (grepMain (o.matchers s) (nameOkBytes o.classes) (sepMode d) (sepMode d) .matching opts _).run = _
  have hall : SepTable d names.length (tables.map (·.2)).flatten := by
    intro r hr
    obtain ⟨l, hl, hr⟩ := List.mem_flatten.1 hr
    obtain ⟨t, htm, rfl⟩ := List.mem_map.1 hl
    exact (htab t htm).2 r hr
  rw [grep_chooses (o.matchers s) (nameOkBytes o.classes) d hd hu names
    ((cs.zip (valuesOf "pattern" opts)).map fun x => (x.2, fun r => x.1.passes names num r)) opts tables hne hnd hv hknown ?_ ?_ ht htab]
  · show Run.ok _ = _
    congr 6
    funext r
    rw [List.any_map, List.all_map]
    have e : cs = (cs.zip (valuesOf "pattern" opts)).map (·.1) := by
      rw [List.map_fst_zip]
      omega
    conv => rhs; rw [e, List.any_map, List.all_map]
    rfl
  · rw [List.map_map]
    show _ = List.map Prod.snd _
    rw [List.map_snd_zip]
    omega
  · intro t hm
    obtain ⟨x, hx, rfl⟩ := List.mem_map.1 hm
    obtain ⟨lm, lt, h1, h2, h3⟩ := comp_made o s d hd hne (fun n hn => (hv n hn).1) hl hall (hfit _ (List.of_mem_zip hx).1) (htext x hx)
    exact ⟨lm, lt, h1, h2, fun tb hb r hr => h3 r (List.mem_flatten.2 ⟨tb.2, List.mem_map_of_mem hb, hr⟩)⟩

/-- The text of the pattern as the comment in the source has it: an operator that is a word is followed by a dot, and columns may be in brackets. -/
def RowComp.DocText (names : List Bytes) (c : RowComp) (spec : Bytes) : Prop :=
  c.Text names spec ∨ ∃ ref opt rest, RefOf names ref c.col ∧ (lower opt, c.op) ∈ opTexts ∧ CompRest c.kind rest ∧
    (opt.length = 2 ∧ 97 ≤ (lower opt).headD 0 ∧ spec = ref ++ 44 :: ascii "comp" ++ 44 :: (opt ++ 46 :: c.item.text ++ rest) ∨
      spec = ref ++ 44 :: ascii "comp" ++ 44 :: (opt ++ 91 :: c.item.text ++ 93 :: rest))

/-- C227: the patterns of the comment in the source make tests that rows pass as they should. -/
def C227_statement : Prop :=
  ∀ (o : Outside) (s : Sys) (d : UInt8) (names : List Bytes) (num : Bytes → Int) (rows : List (List Bytes)) (c : RowComp) (spec : Bytes),
    SepByte d → names ≠ [] → (∀ n ∈ names, IsName n) → names.length < 2 ^ 64 → SepTable d names.length rows → c.Fits names num rows →
      c.DocText names spec → ∃ lm lt, makeLine (o.matchers s) spec = .ok lm ∧ lm.lookup (o.matchers s) names = .ok lt ∧
        ∀ r ∈ rows, lt.ok (o.matchers s) (decoded (sepMode d) (rowLine d r)) = .ok (c.passes names num r)

/-- `a` less than `b`, by bytes. -/
def lessB : RowComp := ⟨ascii "a", .lt, ⟨false, none, .one (.name (ascii "b"))⟩, .plain⟩

theorem ab_isName : ∀ n ∈ [ascii "a", ascii "b"], IsName n := by
  intro n hn
  simp only [List.mem_cons, List.not_mem_nil, or_false] at hn
  rcases hn with rfl | rfl
  · exact ⟨97, [], by decide +kernel, by decide, by simp⟩
  · exact ⟨98, [], by decide +kernel, by decide, by simp⟩

theorem lessB_wf (k : CompKind) : ({ lessB with kind := k } : RowComp).item.WF := by
  refine ⟨by simp [lessB], ?_⟩
  simp only [lessB, Sel.refs, List.mem_singleton, forall_eq]
  exact ab_isName _ (by simp)

theorem lessB_fits (num : Bytes → Int) (rows : List (List Bytes)) : lessB.Fits [ascii "a", ascii "b"] num rows :=
  ⟨by decide, lessB_wf .plain, by simp [lessB, Sel.refs, ColRef.Fair], by decide +kernel, by simp [lessB, CompKind.isNum]⟩

/-- `a,comp,<[b]` panics. -/
theorem C227_refuted : ¬ C227_statement := by
  intro h
  obtain ⟨lm, lt, h1, -⟩ := h outside0 sys6 TAB [ascii "a", ascii "b"] (fun _ => 0) [] lessB (ascii "a,comp,<[b]") (by decide) (by simp) ab_isName (by simp)
    (by simp [SepTable]) (lessB_fits _ _)
    (.inr ⟨ascii "a", ascii "<", [], .inl rfl, by decide +kernel, .inl ⟨rfl, rfl⟩, .inr (by decide +kernel)⟩)
  have e : makeLine (outside0.matchers sys6) (ascii "a,comp,<[b]") = .panic := by rfl
  rw [e] at h1
  cases h1

/-- With a method after the brackets it does not panic, but no column is found. -/
theorem C227_refuted_method : ∃ lm, makeLine (outside0.matchers sys6) (ascii "a,comp,<[b],num") = .ok lm ∧
    lm.lookup (outside0.matchers sys6) [ascii "a", ascii "b"] = .err := by
  have e : makeLine (outside0.matchers sys6) (ascii "a,comp,<[b],num") =
      .ok (.comp ⟨ascii "a", 0⟩ .lt ⟨[⟨ascii "b]", none⟩], [], [], []⟩ .numeric) := by rfl
  exact ⟨_, e, by rfl⟩

/-- `a,comp,LT.b,plain` looks for a column named `.b`. -/
theorem C227_refuted_dot : ∃ lm, makeLine (outside0.matchers sys6) (ascii "a,comp,LT.b,plain") = .ok lm ∧
    lm.lookup (outside0.matchers sys6) [ascii "a", ascii "b"] = .err := by
  have e : makeLine (outside0.matchers sys6) (ascii "a,comp,LT.b,plain") =
      .ok (.comp ⟨ascii "a", 0⟩ .lt ⟨[⟨ascii ".b", none⟩], [], [], []⟩ .plain) := by rfl
  exact ⟨_, e, by rfl⟩

/-- `a,comp,<b`, with columns of one letter and without a method, is too short. -/
theorem C227_short : makeLine (outside0.matchers sys6) (ascii "a,comp,<b") = .err := by rfl

/-- `cdx cgrep --pattern a,comp,ltb,num --invert t`: the rows where `a` is not less than `b`. -/
example : outside0.run "cgrep" [.opt "pattern" (ascii "a,comp,ltb,num"), .flag "invert", .pos "input_files" (ascii "t")] sys7 =
    .ok { sys7 with stdout := ascii "> CDX\ta\tb\n10\t2\n5\t3\n" } := by
  have h := C227_partial outside0 sys7 (cmd0 "cgrep") (cmd0_mem (by decide +kernel)) (by decide +kernel)
    [.opt "pattern" (ascii "a,comp,ltb,num"), .flag "invert", .pos "input_files" (ascii "t")] TAB [ascii "a", ascii "b"] [ascii "t"]
    [{ lessB with kind := .numeric }] [(ascii "pattern", ascii "a,comp,ltb,num"), (ascii "invert", [])]
    [(ascii "t", [[ascii "3", ascii "5"], [ascii "10", ascii "2"], [ascii "-9", ascii "1"], [ascii "5", ascii "3"]])]
    (fun c => if c = ascii "3" then 3 else if c = ascii "10" then 10 else if c = ascii "-9" then -9 else if c = ascii "5" then 5
      else if c = ascii "2" then 2 else 1)
    (says_plain (by decide +kernel) (by decide +kernel) (by decide +kernel) (by decide +kernel) (by decide +kernel))
    rfl (by decide +kernel) (by decide) (by decide) (by simp) (by decide) (by
      intro n hn
      refine ⟨ab_isName n hn, ?_⟩
      simp only [List.mem_cons, List.not_mem_nil, or_false] at hn
      rcases hn with rfl | rfl <;> decide +kernel) (by decide) (by decide +kernel) (by decide +kernel)
    (by
      intro x hx
      have : x = ({ lessB with kind := .numeric }, ascii "a,comp,ltb,num") := by
        rw [show valuesOf "pattern" [(ascii "pattern", ascii "a,comp,ltb,num"), (ascii "invert", [])] = [ascii "a,comp,ltb,num"] by decide +kernel] at hx
        simpa using hx
      subst this
      exact ⟨ascii "a", ascii "lt", 44 :: ascii "num", .inl rfl, by decide +kernel, .inr ⟨ascii "num", rfl, by decide, by unfold AliasOk; decide +kernel,
        by unfold MethodOf; decide +kernel⟩, by decide +kernel, by decide +kernel⟩)
    (by
      intro x hx
      rw [List.mem_singleton] at hx
      subst hx
      refine ⟨by decide, lessB_wf _, by simp [lessB, Sel.refs, ColRef.Fair], by decide +kernel, ?_⟩
      intro _ r hr v hv
      have hcells : v = ascii "3" ∨ v = ascii "5" ∨ v = ascii "10" ∨ v = ascii "2" ∨ v = ascii "-9" ∨ v = ascii "1" := by
        simp only [List.map_cons, List.map_nil, List.flatten_cons, List.flatten_nil, List.append_nil, List.mem_cons, List.not_mem_nil, or_false] at hr
        rcases hr with rfl | rfl | rfl | rfl <;> simp only [List.mem_cons, List.not_mem_nil, or_false] at hv <;> rcases hv with rfl | rfl <;> simp
      rcases hcells with rfl | rfl | rfl | rfl | rfl | rfl
      · exact ⟨false, ascii "3", by decide +kernel, by decide, by decide +kernel, by decide, by simp⟩
      · exact ⟨false, ascii "5", by decide +kernel, by decide, by decide +kernel, by decide, by simp⟩
      · exact ⟨false, ascii "10", by decide +kernel, by decide, by decide +kernel, by decide, by simp⟩
      · exact ⟨false, ascii "2", by decide +kernel, by decide, by decide +kernel, by decide, by simp⟩
      · exact ⟨true, ascii "9", by decide +kernel, by decide, by decide +kernel, by decide, by decide⟩
      · exact ⟨false, ascii "1", by decide +kernel, by decide, by decide +kernel, by decide, by simp⟩)
    (by simp) (by decide +kernel)
  rw [h]
  congr 2

end Cdx
