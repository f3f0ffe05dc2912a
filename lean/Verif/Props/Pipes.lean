import Verif.Props.JoinMain
import Verif.Props.UniqMain
import Verif.Props.VerifyMain

/-!
C207: sorting two tables and joining them.
-/

namespace Cdx

/-! ## Keys of one table -/

/-- One key of a table: a column, how its values are compared, and whether the order is reversed. -/
structure TabKey where
  col : Bytes
  kind : CompKind
  reverse : Bool

/-- The texts of a key: a name or a number, and a method after a comma; without a method it is `plain`. -/
def TabKey.Text (k : TabKey) (names : List Bytes) (spec : Bytes) : Prop :=
  ∃ r, RefOf names r k.col ∧
    (spec = r ∧ k.kind = .plain ∧ k.reverse = false ∨
      ∃ method, spec = r ++ 44 :: method ∧ 44 ∉ method ∧ AliasOk (nameOf method) ∧ MethodOf (nameOf method) (.kind k.kind) ∧
        k.reverse = (confOf method).reverse)

/-- The column is in the table, and the method is an order. -/
def TabKey.Suits (k : TabKey) (names : List Bytes) : Prop := k.col ∈ names ∧ k.kind ≠ .numeric ∧ k.kind ≠ .float

/-- The order of rows: the first key that tells them apart. -/
def tabCmp (names : List Bytes) : List TabKey → List Bytes → List Bytes → Ordering
  | k :: ks, a, b => (if k.reverse then cellCmp k.kind (cellOf names b k.col) (cellOf names a k.col)
      else cellCmp k.kind (cellOf names a k.col) (cellOf names b k.col)).then (tabCmp names ks a b)
  | [], _, _ => .eq

/-- The texts of the keys of a sort. -/
def sortSpecs (os : List SortOpt) : List Bytes := os.filterMap fun
  | .key s => some s
  | _ => none

/-- Options that ask for sorting by these keys; the first may not be reversed unless it compares lengths or nothing (C25). -/
structure SortFits (names : List Bytes) (ks : List TabKey) (os : List SortOpt) : Prop where
  suits : ∀ k ∈ ks, k.Suits names
  some : ks ≠ []
  keys : (sortSpecs os).length = ks.length ∧ ∀ x ∈ ks.zip (sortSpecs os), x.1.Text names x.2
  noMerge : SortOpt.merge ∉ os
  noCheck : ∀ x ∈ os, x.isCheck = false
  first : ∀ k ∈ ks.head?, k.kind = .length ∨ k.kind = .equal ∨ k.reverse = false

/-- The text begins with a digit. -/
def DigitFirst (s : Bytes) : Prop := ∃ d t, s = d :: t ∧ Digit d

theorem newFrom_digit {names : List Bytes} (hn : ∀ n ∈ names, IsName n) (hl : names.length < 2 ^ 64) {r c : Bytes} (hc : c ∈ names)
    (h : RefOf names r c) (hd : DigitFirst r) : NamedCol.newFrom r = .ok ⟨[], names.idxOf c⟩ := by
  have hi : names.idxOf c < names.length := List.idxOf_lt_length_iff.2 hc
  rcases h with rfl | rfl
  · obtain ⟨c, t, h1, h2, -⟩ := hn r hc
    obtain ⟨d, t', h3, h4⟩ := hd
    rw [h1, List.cons.injEq] at h3
    rw [h3.1] at h2
    have a1 := (isDigit_iff d).2 h4
    have a2 := (isAlpha_iff d).2 h2
    unfold isDigit at a1
    unfold isAlpha at a2
    simp only [Bool.or_eq_true, Bool.and_eq_true, decide_eq_true_eq, UInt8.le_iff_toNat_le] at a1 a2
    simp at a1 a2
    omega
  · have := usize_dec (names.idxOf c) [] (by omega) (by simp)
    rw [List.append_nil] at this
    rw [NamedCol.newFrom, this]
    rfl

theorem tabKey_made {names : List Bytes} (hn : ∀ n ∈ names, IsName n) (hl : names.length < 2 ^ 64) {k : TabKey} (hk : k.col ∈ names)
    {spec : Bytes} (h : k.Text names spec) :
    ∃ c m conf, (∀ compiles, makeLineComp compiles spec = .ok ⟨conf, m, .col (.kind k.kind) [c]⟩) ∧ conf.reverse = k.reverse ∧
      c.lookup names = .ok (names.idxOf k.col) ∧ keyPos names c = names.idxOf k.col ∧ (c.name = [] ∨ c.name ∈ names) ∧
      (DigitFirst spec → c = ⟨[], names.idxOf k.col⟩) := by
  obtain ⟨r, h1, h2⟩ := h
  obtain ⟨r1, r2, r3, c, r4, r5⟩ := newFrom_ref hn hl hk h1
  have dig : DigitFirst spec → c = ⟨[], names.idxOf k.col⟩ := by
    rintro ⟨d, t, hs, hd⟩
    have : DigitFirst r := by
      cases r with
      | nil => exact absurd rfl r3
      | cons x r =>
        rcases h2 with ⟨e, -⟩ | ⟨m, e, -⟩ <;> (rw [e] at hs; simp only [List.cons_append, List.cons.injEq] at hs; exact ⟨x, r, rfl, by rw [hs.1]; exact hd⟩)
    have := newFrom_digit hn hl hk h1 this
    rw [r4] at this
    simpa using this
  have e : colsNew (sliceSplit 46 r) = .ok [c] := by
    have := sliceSplit_intercalate 46 [r] (by simp) (by simpa using r2)
    rw [intercalate_singleton] at this
    rw [this]
    simp only [colsNew, r4, Res.bind_ok]
  have pos : keyPos names c = names.idxOf k.col ∧ (c.name = [] ∨ c.name ∈ names) := by
    unfold NamedCol.lookup at r5
    unfold keyPos
    by_cases hc : c.name = []
    · rw [if_neg (by simpa using hc), Res.ok.injEq] at r5
      rw [if_pos hc]
      exact ⟨r5, .inl hc⟩
    · rw [if_pos hc] at r5
      have hm : c.name ∈ names := Classical.byContradiction fun hm => by
        unfold lookupCol at r5
        have : names.findIdx? (· == c.name) = none := by
          rw [List.findIdx?_eq_none_iff]
          intro x hx
          rw [beq_eq_false_iff_ne]
          rintro rfl
          exact hm hx
        rw [this] at r5
        cases r5
      rw [lookupCol_mem names c.name hm, Res.ok.injEq] at r5
      rw [if_neg hc]
      exact ⟨r5, .inr hm⟩
  have line : ∀ method, 44 ∉ method → AliasOk (nameOf method) → MethodOf (nameOf method) (.kind k.kind) →
      ∀ compiles, makeLineComp compiles (r ++ 44 :: (method ++ 44 :: [])) = .ok ⟨confOf method, [], .col (.kind k.kind) [c]⟩ := by
    intro method m1 m2 m3 compiles
    rw [C110_line_partial compiles r method [] m2 (.kind k.kind) m3 r1 m1, if_neg r3, e, Res.bind_ok]
  rcases h2 with ⟨rfl, e1, e2⟩ | ⟨method, rfl, m1, m2, m3, m4⟩
  · refine ⟨c, [], confOf [], fun compiles => ?_, by rw [e2]; decide +kernel, r5, pos.1, pos.2, dig⟩
    rw [(C110_short compiles spec [] [] r1 (by simp)).2.1]
    exact line [] (by simp) (by unfold AliasOk; decide +kernel) (by rw [e1]; unfold MethodOf; decide +kernel) compiles
  · refine ⟨c, [], confOf method, fun compiles => ?_, m4.symm, r5, pos.1, pos.2, dig⟩
    rw [(C110_short compiles r method [] r1 m1).1]
    exact line method m1 m2 m3 compiles

theorem tabKeys_asked {names : List Bytes} (hn : ∀ n ∈ names, IsName n) (hl : names.length < 2 ^ 64) (os : List SortOpt) :
    ∀ (ks : List TabKey), (∀ k ∈ ks, k.Suits names) → (sortSpecs os).length = ks.length →
      (∀ x ∈ ks.zip (sortSpecs os), x.1.Text names x.2) → (∀ x ∈ os, x.isCheck = false) →
      ∃ qs, keysAsked os = some qs ∧ qs.length = ks.length ∧ (∀ q ∈ qs, TableKey names q) ∧ (∀ a b, rowsCmp names qs a b = tabCmp names ks a b) ∧
        ((∀ k ∈ ks.head?, k.kind = .length ∨ k.kind = .equal ∨ k.reverse = false) → ∀ q qs', qs = q :: qs' → TableFirst q) ∧
        (∀ o : SortOpts, ∃ o', o.addAll os = .ok o') ∧
        ((∀ s ∈ sortSpecs os, DigitFirst s) → qs = ks.map fun k => .col k.kind ⟨[], names.idxOf k.col⟩ k.reverse) := by
  induction os with
  | nil =>
    intro ks _ h _ _
    have : ks = [] := List.length_eq_zero_iff.1 h.symm
    subst this
    exact ⟨[], rfl, rfl, by simp, fun _ _ => rfl, by simp, fun o => ⟨o, rfl⟩, fun _ => rfl⟩
  | cons x os ih =>
    intro ks hs hlen ht hc
    have hx := hc x (by simp)
    replace hc : ∀ y ∈ os, y.isCheck = false := fun y hy => hc y (List.mem_cons_of_mem x hy)
    cases x with
    | check => cases hx
    | checkN v => cases hx
    | key spec =>
      cases ks with
      | nil => simp [sortSpecs] at hlen
      | cons k ks =>
        obtain ⟨c, m, conf, h1, h2, h3, h4, h5, h6⟩ := tabKey_made hn hl (hs k (by simp)).1 (ht (k, spec) (by simp [sortSpecs]))
        obtain ⟨qs, g1, g2, g3, g4, g5, g6, g7⟩ := ih ks (fun k hk => hs k (by simp [hk])) (by simpa [sortSpecs] using hlen)
          (fun x hx => ht x (by simp only [sortSpecs, List.filterMap_cons, List.zip_cons_cons]; exact List.mem_cons_of_mem _ hx)) hc
        have hkey : keyOfSpec spec = .ok (.col k.kind c k.reverse) := by
          unfold keyOfSpec
          rw [h1, Res.bind_ok, h2]
        refine ⟨.col k.kind c k.reverse :: qs, by simp [keysAsked, hkey, g1], by simp [g2], ?_, ?_, ?_, ?_, ?_⟩
        · intro q hq
          rcases List.mem_cons.1 hq with rfl | hq
          · exact ⟨(hs k (by simp)).2.1, (hs k (by simp)).2.2, h5⟩
          · exact g3 q hq
        · intro a b
          cases hr : k.reverse <;> simp [rowsCmp, tabCmp, hr, g4, h4, cellOf]
        · intro h q qs' e
          rw [List.cons.injEq] at e
          rw [← e.1]
          exact h k (by simp)
        · intro o
          obtain ⟨o', ho⟩ := g6 { o with keys := o.keys ++ [.col k.kind c k.reverse] }
          exact ⟨o', by simp [SortOpts.addAll, SortOpts.add, hkey, ho]⟩
        · intro h
          rw [g7 fun s hs => h s (by simp only [sortSpecs, List.filterMap_cons]; exact List.mem_cons_of_mem _ hs),
            h6 (h spec (by simp [sortSpecs])), List.map_cons]
    | _ =>
      obtain ⟨qs, g1, g2, g3, g4, g5, g6, g7⟩ := ih ks hs hlen ht hc
      exact ⟨qs, g1, g2, g3, g4, g5, fun o => by simp only [SortOpts.addAll, SortOpts.add, Res.bind_ok]; exact g6 _, g7⟩

theorem sort_tables (toF64 : Bytes → F64) (nameOk : Bytes → Bool) (pick : Nat → List (Nat × Bytes) → Nat)
    (rd : Nat → Nat → Nat) (cap : Nat) (m : TextMode) {os : List SortOpt} {names : List Bytes} {tables : List (List (List Bytes))} {ks : List TabKey}
    (h : SortFits names ks os) (ht : GoodTable names tables.flatten) (hok : ∀ n ∈ names, nameOk n = true) (htn : tables ≠ [])
    (hz : ∀ r ∈ tables.flatten, ∀ c ∈ r, 0 ∉ c) (hcap : 8 < cap) (hfit : (sepText TAB tables.flatten).length < cap) :
    ∃ out, sortMain toF64 nameOk pick rd cap m os (tables.map fun rows => sepHead TAB names ++ sepText TAB rows) =
        .ok (sepHead TAB names ++ sepText TAB out) ∧
      (SortOpt.unique ∉ os → StableSort (tabCmp names ks) tables.flatten out) ∧
      (SortOpt.unique ∈ os → UniqueSort (tabCmp names ks) tables.flatten out) := by
  obtain ⟨t1, t2, t3, t4, t5⟩ := ht
  obtain ⟨qs, g1, g2, g3, g4, g5, g6, -⟩ := tabKeys_asked t2 t4 os ks h.suits h.keys.1 h.keys.2 h.noCheck
  obtain ⟨o, ho⟩ := g6 {}
  have hq : qs ≠ [] := by
    rintro rfl
    exact h.some (List.length_eq_zero_iff.1 g2.symm)
  have hcmp : rowsCmp names qs = tabCmp names ks := funext fun a => funext fun b => g4 a b
  have := C140_table_sort toF64 nameOk pick rd cap m os names tables o ho h.noMerge h.noCheck qs g1 hq g3 (g5 h.first)
    ⟨t1, fun n hn => name_free (d := TAB) (by decide) (by decide) (t2 n hn)⟩ hok htn t5 hz hcap hfit
  rw [hcmp] at this
  exact this

theorem tabCmp_preorder (names : List Bytes) (ks : List TabKey) : TotalPreorder (tabCmp names ks) := by
  have := rowsCmp_preorder (names.map fun _ => []) (ks.map fun k => .col k.kind ⟨[], names.idxOf k.col⟩ k.reverse)
  have e : rowsCmp (names.map fun _ => []) (ks.map fun k => .col k.kind ⟨[], names.idxOf k.col⟩ k.reverse) = tabCmp names ks := by
    funext a b
    induction ks with
    | nil => rfl
    | cons k ks ih =>
      have ih := ih (rowsCmp_preorder _ _)
      cases hr : k.reverse <;> simp [rowsCmp, tabCmp, hr, ih, cellOf, keyPos]
  rw [← e]
  exact this

/-! ## C207: sorting and joining -/

/-- A key of a join, on the first table. -/
def JoinKey.onLeft (k : JoinKey) : TabKey := ⟨k.left, k.kind, k.reverse⟩

/-- A key of a join, on the second table. -/
def JoinKey.onRight (k : JoinKey) : TabKey := ⟨k.right, k.kind, k.reverse⟩

theorem keyCmp_left (names : List Bytes) (ks : List JoinKey) (a b : List Bytes) :
    keyCmp ks (leftKey names ks a) (leftKey names ks b) = tabCmp names (ks.map (·.onLeft)) a b := by
  induction ks with
  | nil => rfl
  | cons k ks ih =>
    simp only [leftKey] at ih
    simp only [leftKey, List.map_cons, keyCmp, tabCmp, ih, JoinKey.onLeft]

theorem keyCmp_right (names : List Bytes) (ks : List JoinKey) (a b : List Bytes) :
    keyCmp ks (rightKey names ks a) (rightKey names ks b) = tabCmp names (ks.map (·.onRight)) a b := by
  induction ks with
  | nil => rfl
  | cons k ks ih =>
    simp only [rightKey] at ih
    simp only [rightKey, List.map_cons, keyCmp, tabCmp, ih, JoinKey.onRight]

theorem goodTable_perm {names : List Bytes} {rows rows' : List (List Bytes)} (hp : rows'.Perm rows) (h : GoodTable names rows) : GoodTable names rows' :=
  ⟨h.1, h.2.1, h.2.2.1, h.2.2.2.1, fun r hr => h.2.2.2.2 r (hp.mem_iff.1 hr)⟩

theorem joinedRows_perm (namesA namesB : List Bytes) (ks : List JoinKey) (shown : List (Nat × Bytes)) {rowsA rowsA' rowsB rowsB' : List (List Bytes)}
    (hA : rowsA'.Perm rowsA) (hB : rowsB'.Perm rowsB) :
    (joinedRows namesA namesB ks shown rowsA' rowsB').Perm (joinedRows namesA namesB ks shown rowsA rowsB) := by
  unfold joinedRows
  refine (hA.flatMap_right _).trans ?_
  clear hA
  induction rowsA with
  | nil => exact List.Perm.refl _
  | cons a rows ih =>
    rw [List.flatMap_cons, List.flatMap_cons]
    exact ((hB.filter _).map _).append ih

theorem lonelyRows_perm (namesA namesB : List Bytes) (ks : List JoinKey) {rowsA rowsA' rowsB rowsB' : List (List Bytes)}
    (hA : rowsA'.Perm rowsA) (hB : rowsB'.Perm rowsB) (n : Nat) :
    (lonelyRows namesA namesB ks rowsA' rowsB' n).Perm (lonelyRows namesA namesB ks rowsA rowsB n) := by
  unfold lonelyRows
  split
  · have : (fun a => !rowsB'.any fun b => keysMeet namesA namesB ks a b) = fun a => !rowsB.any fun b => keysMeet namesA namesB ks a b := by
      funext a
      rw [hB.any_eq]
    rw [this]
    exact hA.filter _
  · have : (fun b => !rowsA'.any fun a => keysMeet namesA namesB ks a b) = fun b => !rowsA.any fun a => keysMeet namesA namesB ks a b := by
      funext b
      rw [hA.any_eq]
    rw [this]
    exact hB.filter _

/-- C207: two tables, in any order, the keys of the second being distinct: sorted by their keys and joined, they give the joined rows of the
tables as they were, sorted by key, and so for the rows without a partner. -/
theorem C207_sort_join (toF64 : Bytes → F64) (nameOk : Bytes → Bool) (pick : Nat → List (Nat × Bytes) → Nat) (rd : Nat → Nat → Nat) (cap : Nat)
    (m : TextMode) (transOk compiles : Bytes → Bool) (mk : Bytes → Res (Bytes → Bool)) (eval : Bytes → List Bytes → Res (Bytes → F64))
    (exprCols : (Nat → Bytes → F64) → Nat → List Nat)
    (namesA namesB : List Bytes) (rowsA rowsB : List (List Bytes)) (ks : List JoinKey) (asks : List (List (Nat × Bytes × List Bytes)))
    (also : List (Nat × Bytes)) (os : List (Bytes × Bytes)) (sA sB : List SortOpt)
    (hA : GoodTable namesA rowsA) (hB : GoodTable namesB rowsB) (hj : JoinOptsFit namesA namesB ks asks also os)
    (fA : SortFits namesA (ks.map (·.onLeft)) sA) (fB : SortFits namesB (ks.map (·.onRight)) sB)
    (uA : SortOpt.unique ∉ sA) (uB : SortOpt.unique ∉ sB) (okA : ∀ n ∈ namesA, nameOk n = true) (okB : ∀ n ∈ namesB, nameOk n = true)
    (zA : ∀ r ∈ rowsA, ∀ c ∈ r, 0 ∉ c) (zB : ∀ r ∈ rowsB, ∀ c ∈ r, 0 ∉ c) (hcap : 8 < cap)
    (cA : (sepText TAB rowsA).length < cap) (cB : (sepText TAB rowsB).length < cap)
    (hd : rowsB.Pairwise fun x y => keyCmp ks (rightKey namesB ks x) (rightKey namesB ks y) ≠ .eq) :
    ∃ tA tB rowsA' rowsB', sortMain toF64 nameOk pick rd cap m sA [sepHead TAB namesA ++ sepText TAB rowsA] = .ok tA ∧
      sortMain toF64 nameOk pick rd cap m sB [sepHead TAB namesB ++ sepText TAB rowsB] = .ok tB ∧
      StableSort (fun x y => keyCmp ks (leftKey namesA ks x) (leftKey namesA ks y)) rowsA rowsA' ∧ rowsB'.Perm rowsB ∧
      joinMain transOk compiles mk eval toF64 exprCols os [tA, tB] =
        .ok (((optVals "file" os).getLastD (ascii "-"), sepHead TAB ((joinShown namesA namesB ks asks.flatten).map (·.2)) ++
            sepText TAB (joinedRows namesA namesB ks (joinShown namesA namesB ks asks.flatten) rowsA' rowsB')) ::
          also.map fun p => (p.2, sepHead TAB (if p.1 = 1 then namesA else namesB) ++ sepText TAB (lonelyRows namesA namesB ks rowsA' rowsB' p.1))) ∧
      (joinedRows namesA namesB ks (joinShown namesA namesB ks asks.flatten) rowsA' rowsB').Perm
        (joinedRows namesA namesB ks (joinShown namesA namesB ks asks.flatten) rowsA rowsB) ∧
      ∀ n, (lonelyRows namesA namesB ks rowsA' rowsB' n).Perm (lonelyRows namesA namesB ks rowsA rowsB n) := by
  obtain ⟨rowsA', a1, a2, -⟩ := sort_tables toF64 nameOk pick rd cap m (tables := [rowsA]) fA (by simpa using hA) okA (by simp) (by simpa using zA)
    hcap (by simpa using cA)
  obtain ⟨rowsB', b1, b2, -⟩ := sort_tables toF64 nameOk pick rd cap m (tables := [rowsB]) fB (by simpa using hB) okB (by simp) (by simpa using zB)
    hcap (by simpa using cB)
  simp only [List.flatten_cons, List.flatten_nil, List.append_nil, List.map_cons, List.map_nil] at a1 a2 b1 b2
  have a2 := a2 uA
  have b2 := b2 uB
  have eA : (fun x y => keyCmp ks (leftKey namesA ks x) (leftKey namesA ks y)) = tabCmp namesA (ks.map (·.onLeft)) :=
    funext fun a => funext fun b => keyCmp_left namesA ks a b
  have hp := tabCmp_preorder namesB (ks.map (·.onRight))
  have hd' : rowsB'.Pairwise fun x y => tabCmp namesB (ks.map (·.onRight)) x y ≠ .eq := by
    refine (b2.perm.symm.pairwise_iff ?_).1 (hd.imp fun h => by rwa [keyCmp_right] at h)
    intro x y h e
    rw [hp.swap, e] at h
    exact h rfl
  refine ⟨_, _, rowsA', rowsB', a1, b1, by rw [eA]; exact a2, b2.perm, ?_, joinedRows_perm _ _ _ _ a2.perm b2.perm,
    lonelyRows_perm _ _ _ a2.perm b2.perm⟩
  refine C206_join _ _ _ _ _ _ _ _ _ _ _ _ _ _ ⟨goodTable_perm a2.perm hA, goodTable_perm b2.perm hB, hj, ?_, ?_⟩
  · refine a2.sorted.imp fun h => ?_
    rwa [keyCmp_left]
  · refine (b2.sorted.and hd').imp fun {x y} h => ?_
    rw [keyCmp_right]
    revert h
    cases tabCmp namesB (ks.map (·.onRight)) x y <;> simp

theorem joinOptsFit_example : JoinOptsFit [ascii "k", ascii "x"] [ascii "y", ascii "i"]
    [⟨ascii "k", ascii "i", .plain, false⟩] [[(1, ascii "y", []), (0, ascii "x", [ascii "k"])]] [(2, ascii "u"), (1, ascii "v")]
    [(ascii "also", ascii "2,u"), (ascii "key", ascii "k.2"), (ascii "file", ascii "o"), (ascii "output", ascii "2.y,1.x,k"), (ascii "also", ascii "1,v")] := by
  refine ⟨?_, by decide +kernel, ?_, ⟨by decide +kernel, by decide, by decide +kernel⟩, ⟨by decide +kernel, by decide, by decide⟩⟩
  · intro k hk
    rw [List.mem_singleton] at hk
    subst hk
    exact ⟨by decide, by decide, by decide, by decide⟩
  · rw [if_neg (by decide +kernel)]
    refine ⟨by decide +kernel, ?_⟩
    have e : optVals "key" [(ascii "also", ascii "2,u"), (ascii "key", ascii "k.2"), (ascii "file", ascii "o"), (ascii "output", ascii "2.y,1.x,k"),
      (ascii "also", ascii "1,v")] = [ascii "k.2"] := by decide +kernel
    rw [e]
    intro x hx
    simp only [List.zip_cons_cons, List.zip_nil_right, List.mem_singleton] at hx
    subst hx
    exact ⟨ascii "k", ascii "2", ascii "k.2", .inl rfl, .inr (by decide +kernel), .inl (by decide +kernel), .inl (by decide +kernel)⟩

theorem sortFits_one (names : List Bytes) (n : Bytes) (h : n ∈ names) :
    SortFits names [⟨n, .plain, false⟩] [.key n] := by
  refine ⟨?_, by simp, ⟨rfl, ?_⟩, by simp, by simp [SortOpt.isCheck], by simp⟩
  · intro k hk
    rw [List.mem_singleton] at hk
    subst hk
    exact ⟨h, by simp, by simp⟩
  · intro x hx
    simp only [sortSpecs, List.filterMap_cons, List.filterMap_nil, List.zip_cons_cons, List.zip_nil_left, List.mem_singleton] at hx
    subst hx
    exact ⟨n, .inl rfl, .inl ⟨rfl, rfl, rfl⟩⟩

/-- Rows in no order, joined once sorted. -/
example : ∃ tA tB, sortMain (fun _ => 0) (fun _ => true) (fun _ _ => 0) (fun _ _ => 0) 100 .default [.key (ascii "k")]
      [sepHead TAB [ascii "k", ascii "x"] ++ sepText TAB [[ascii "b", ascii "1"], [ascii "a", ascii "3"], [ascii "b", ascii "2"]]] = .ok tA ∧
    sortMain (fun _ => 0) (fun _ => true) (fun _ _ => 0) (fun _ _ => 0) 100 .default [.key (ascii "i")]
      [sepHead TAB [ascii "y", ascii "i"] ++ sepText TAB [[ascii "8", ascii "c"], [ascii "9", ascii "b"]]] = .ok tB ∧
    ∃ out, joinMain (fun _ => true) (fun _ => true) (fun _ => .err) (fun _ _ => .err) (fun _ => 0) (fun _ _ => [])
      [(ascii "also", ascii "2,u"), (ascii "key", ascii "k.2"), (ascii "file", ascii "o"), (ascii "output", ascii "2.y,1.x,k"), (ascii "also", ascii "1,v")]
      [tA, tB] = .ok out := by
  have nm : ∀ (c : UInt8), Letter c → IsName [c] := one_letter
  have hA : ∀ n ∈ [ascii "k", ascii "x"], IsName n := by
    intro n hn
    simp only [List.mem_cons, List.not_mem_nil, or_false] at hn
    rcases hn with rfl | rfl
    · exact nm 107 (by unfold Letter; decide)
    · exact nm 120 (by unfold Letter; decide)
  have hB : ∀ n ∈ [ascii "y", ascii "i"], IsName n := by
    intro n hn
    simp only [List.mem_cons, List.not_mem_nil, or_false] at hn
    rcases hn with rfl | rfl
    · exact nm 121 (by unfold Letter; decide)
    · exact nm 105 (by unfold Letter; decide)
  obtain ⟨tA, tB, rA, rB, h1, h2, -, -, h3, -⟩ := C207_sort_join (fun _ => 0) (fun _ => true) (fun _ _ => 0) (fun _ _ => 0) 100 .default
    (fun _ => true) (fun _ => true) (fun _ => .err) (fun _ _ => .err) (fun _ _ => []) [ascii "k", ascii "x"] [ascii "y", ascii "i"]
    [[ascii "b", ascii "1"], [ascii "a", ascii "3"], [ascii "b", ascii "2"]] [[ascii "8", ascii "c"], [ascii "9", ascii "b"]] _ _ _ _
    [.key (ascii "k")] [.key (ascii "i")] ⟨by decide, hA, by decide, by decide, by decide +kernel⟩ ⟨by decide, hB, by decide, by decide, by decide +kernel⟩
    joinOptsFit_example (sortFits_one _ _ (by decide)) (sortFits_one _ _ (by decide)) (by simp) (by simp) (by simp) (by simp)
    (by decide +kernel) (by decide +kernel) (by decide) (by decide +kernel) (by decide +kernel) (by decide +kernel)
  exact ⟨tA, tB, h1, h2, _, h3⟩

end Cdx
