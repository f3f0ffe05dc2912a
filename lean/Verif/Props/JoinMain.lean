import Verif.Model.JoinMain
import Verif.Props.Join
import Verif.Props.Options
import Verif.Props.SortTable
import Verif.Props.CutTable
import Verif.Props.Transpose
import Verif.Props.CatMain

/-!
C205: the options of `join`. C206: joining tables.
-/

namespace Cdx

/-! ## C205: the options -/

/-- The options of `join`. -/
def joinNames : List String := ["key", "output", "file", "also"]

/-- What `--also` asks for: the number of a file and the name of the output. -/
def AlsoMeans (v : Bytes) (p : Nat × Bytes) : Prop := ∃ a, v = a ++ 44 :: p.2 ∧ (44 : UInt8) ∉ a ∧ toUsizeWhole a = .ok p.1

theorem joinAlso_ok (v : Bytes) (p : Nat × Bytes) : joinAlso v = .ok p ↔ AlsoMeans v p := by
  unfold joinAlso AlsoMeans
  constructor
  · intro h
    cases hs : splitOnce 44 v with
    | none => rw [hs] at h; cases h
    | some q =>
      rw [hs] at h
      obtain ⟨n, h1, h2⟩ := Res.bind_eq_ok h
      cases h2
      exact ⟨q.1, (splitOnce_eq 44 v q.1 q.2 hs).1, (splitOnce_eq 44 v q.1 q.2 hs).2, h1⟩
  · rintro ⟨a, rfl, h1, h2⟩
    rw [splitOnce_some 44 a p.2 h1]
    simp [h2]

/-- What the options make of `c`. -/
structure JoinAsks (transOk : Bytes → Bool) (c : JoinAsk) (os : List (Bytes × Bytes)) (c' : JoinAsk) : Prop where
  names : ∀ o ∈ os, o.1 ∈ joinNames.map ascii
  keys : c'.keys = c.keys ++ optVals "key" os
  outs : ∃ ls : List (List (Nat × ColumnSet)), (optVals "output" os).map (joinOutputs transOk) = ls.map .ok ∧ c'.outs = c.outs ++ ls.flatten
  matchOut : c'.matchOut = (optVals "file" os).getLastD c.matchOut
  also : ∃ ps : List (Nat × Bytes), (optVals "also" os).map joinAlso = ps.map .ok ∧ c'.also = c.also ++ ps

theorem outs_cons (transOk : Bytes → Bool) (v : Bytes) (vs : List Bytes) (old new : List (Nat × ColumnSet)) :
    (∃ ls : List (List (Nat × ColumnSet)), (v :: vs).map (joinOutputs transOk) = ls.map .ok ∧ new = old ++ ls.flatten) ↔
      ∃ l, joinOutputs transOk v = .ok l ∧ ∃ ls : List (List (Nat × ColumnSet)), vs.map (joinOutputs transOk) = ls.map .ok ∧ new = (old ++ l) ++ ls.flatten := by
  constructor
  · rintro ⟨ls, h1, h2⟩
    cases ls with
    | nil => simp at h1
    | cons l ls =>
      simp only [List.map_cons, List.cons.injEq] at h1
      exact ⟨l, h1.1, ls, h1.2, by simpa using h2⟩
  · rintro ⟨l, h1, ls, h2, h3⟩
    exact ⟨l :: ls, by simp [h1, h2], by simpa using h3⟩

theorem joinOptions_iff (transOk : Bytes → Bool) (os : List (Bytes × Bytes)) :
    ∀ c c' : JoinAsk, joinOptions transOk c os = .ok c' ↔ JoinAsks transOk c os c' := by
  induction os with
  | nil =>
    intro c c'
    simp only [joinOptions, Res.ok.injEq]
    constructor
    · rintro rfl
      exact ⟨by simp, by simp [optVals], ⟨[], by simp [optVals], by simp⟩, by simp [optVals], ⟨[], by simp [optVals], by simp⟩⟩
    · rintro ⟨-, h2, ⟨ls, h3, h3'⟩, h4, ⟨ps, h5, h5'⟩⟩
      have e3 : ls = [] := by simpa [optVals] using h3.symm
      have e5 : ps = [] := by simpa [optVals] using h5.symm
      subst e3 e5
      obtain ⟨a, b, d, e⟩ := c
      obtain ⟨a', b', d', e'⟩ := c'
      simp only [optVals, List.filter_nil, List.map_nil, List.append_nil, List.flatten_nil, List.getLastD_nil] at *
      simp_all
  | cons o os ih =>
    intro c c'
    obtain ⟨n, v⟩ := o
    have dist : ∀ a ∈ joinNames, ∀ b ∈ joinNames, a ≠ b → ascii a ≠ ascii b := by decide
    by_cases hn : n ∈ joinNames.map ascii
    · have names : (∀ o ∈ (n, v) :: os, o.1 ∈ joinNames.map ascii) ↔ ∀ o ∈ os, o.1 ∈ joinNames.map ascii := by
        simp only [List.forall_mem_cons, hn, true_and]
      obtain ⟨a, ha, e⟩ := List.mem_map.1 hn
      have e := e.symm
      have D : ∀ b ∈ joinNames, a ≠ b → n ≠ ascii b := fun b hb hab => by rw [e]; exact dist a ha b hb hab
      have V : ∀ b ∈ joinNames, optVals b ((n, v) :: os) = if a = b then v :: optVals b os else optVals b os := by
        intro b hb
        rw [optVals_cons]
        by_cases hab : a = b
        · rw [if_pos hab, if_pos (by rw [e, hab])]
        · rw [if_neg hab, if_neg (D b hb hab)]
      have conv : ∀ (c c' : JoinAsk) (os : List (Bytes × Bytes)), JoinAsks transOk c os c' ↔ (∀ o ∈ os, o.1 ∈ joinNames.map ascii) ∧
          c'.keys = c.keys ++ optVals "key" os ∧
          (∃ ls : List (List (Nat × ColumnSet)), (optVals "output" os).map (joinOutputs transOk) = ls.map .ok ∧ c'.outs = c.outs ++ ls.flatten) ∧
          c'.matchOut = (optVals "file" os).getLastD c.matchOut ∧
          (∃ ps : List (Nat × Bytes), (optVals "also" os).map joinAlso = ps.map .ok ∧ c'.also = c.also ++ ps) := by
        intro c c' os
        constructor
        · rintro ⟨h1, h2, h3, h4, h5⟩
          exact ⟨h1, h2, h3, h4, h5⟩
        · rintro ⟨h1, h2, h3, h4, h5⟩
          exact ⟨h1, h2, h3, h4, h5⟩
      rw [conv, names, V "key" (by decide), V "output" (by decide), V "file" (by decide), V "also" (by decide)]
      simp only [conv] at ih
      unfold joinOptions
      have cs : a = "key" ∨ a = "output" ∨ a = "file" ∨ a = "also" := by simpa [joinNames] using ha
      rcases cs with rfl | rfl | rfl | rfl
      · rw [if_pos e]
        simp only [ih, String.reduceEq, if_true, if_false, List.append_assoc, List.singleton_append]
      · rw [if_neg (D _ (by decide) (by decide)), if_pos e]
        simp only [bind_ok_iff, ih, String.reduceEq, if_true, if_false, outs_cons]
        constructor
        · rintro ⟨u, h0, h1, h2, h3, h4, h5⟩
          exact ⟨h1, h2, ⟨u, h0, h3⟩, h4, h5⟩
        · rintro ⟨h1, h2, ⟨u, h0, h3⟩, h4, h5⟩
          exact ⟨u, h0, h1, h2, h3, h4, h5⟩
      · rw [if_neg (D _ (by decide) (by decide)), if_neg (D _ (by decide) (by decide)), if_pos e]
        simp only [ih, String.reduceEq, if_true, if_false, List.getLastD_cons]
      · rw [if_neg (D _ (by decide) (by decide)), if_neg (D _ (by decide) (by decide)), if_neg (D _ (by decide) (by decide)), if_pos e]
        simp only [bind_ok_iff, ih, String.reduceEq, if_true, if_false, map_cons_ok]
        constructor
        · rintro ⟨u, h0, h1, h2, h3, h4, h5⟩
          exact ⟨h1, h2, h3, h4, ⟨u, h0, h5⟩⟩
        · rintro ⟨h1, h2, h3, h4, ⟨u, h0, h5⟩⟩
          exact ⟨u, h0, h1, h2, h3, h4, h5⟩
    · have D : ∀ b ∈ joinNames, n ≠ ascii b := fun b hb e => hn (by rw [e]; exact List.mem_map.2 ⟨b, hb, rfl⟩)
      unfold joinOptions
      rw [if_neg (D _ (by decide)), if_neg (D _ (by decide)), if_neg (D _ (by decide)), if_neg (D _ (by decide))]
      constructor
      · intro h
        cases h
      · intro h
        exact absurd (h.names (n, v) (by simp)) hn

/-- C205: exactly which options are accepted, and what they ask for. -/
theorem C205_options (transOk : Bytes → Bool) (os : List (Bytes × Bytes)) (c : JoinAsk) :
    joinOptions transOk {} os = .ok c ↔
      (∀ o ∈ os, o.1 ∈ joinNames.map ascii) ∧ c.keys = optVals "key" os ∧
      (∃ ls : List (List (Nat × ColumnSet)), (optVals "output" os).map (joinOutputs transOk) = ls.map .ok ∧ c.outs = ls.flatten) ∧
      c.matchOut = (optVals "file" os).getLastD (ascii "-") ∧
      (optVals "also" os).length = c.also.length ∧ ∀ x ∈ (optVals "also" os).zip c.also, AlsoMeans x.1 x.2 := by
  have key : ∀ (vs : List Bytes) (ps : List (Nat × Bytes)), vs.map joinAlso = ps.map .ok ↔ vs.length = ps.length ∧ ∀ x ∈ vs.zip ps, AlsoMeans x.1 x.2 := by
    intro vs
    induction vs with
    | nil => intro ps; cases ps <;> simp
    | cons v vs ih =>
      intro ps
      cases ps with
      | nil => simp
      | cons p ps =>
        simp only [List.map_cons, List.cons.injEq, ih, List.length_cons, Nat.add_right_cancel_iff, List.zip_cons_cons, List.forall_mem_cons,
          joinAlso_ok]
        constructor
        · rintro ⟨h1, h2, h3⟩
          exact ⟨h2, h1, h3⟩
        · rintro ⟨h1, h2, h3⟩
          exact ⟨h2, h1, h3⟩
  rw [joinOptions_iff, ← key]
  constructor
  · rintro ⟨h1, h2, h3, h4, ⟨ps, h5, h5'⟩⟩
    rw [List.nil_append] at h5'
    subst h5'
    exact ⟨h1, by simpa using h2, by simpa using h3, h4, h5⟩
  · rintro ⟨h1, h2, h3, h4, h5⟩
    exact ⟨h1, by simpa using h2, by simpa using h3, h4, ⟨_, h5, by simp⟩⟩

/-- C205: options of different names may be given in any order. -/
theorem C205_order (transOk : Bytes → Bool) (c : JoinAsk) (os os' : List (Bytes × Bytes)) (hp : os.Perm os')
    (hv : ∀ n ∈ joinNames, optVals n os = optVals n os') : joinOptions transOk {} os = .ok c ↔ joinOptions transOk {} os' = .ok c := by
  rw [C205_options, C205_options, hv "key" (by decide), hv "output" (by decide), hv "file" (by decide), hv "also" (by decide)]
  have : (∀ o ∈ os, o.1 ∈ joinNames.map ascii) ↔ ∀ o ∈ os', o.1 ∈ joinNames.map ascii :=
    ⟨fun h o ho => h o (hp.mem_iff.2 ho), fun h o ho => h o (hp.mem_iff.1 ho)⟩
  rw [this]

example : joinOptions (fun _ => true) {} [(ascii "also", ascii "2,x,y"), (ascii "key", ascii "a.b"), (ascii "file", ascii "o"), (ascii "key", ascii "2,num"),
    (ascii "output", ascii "2.a,b"), (ascii "also", ascii "1,-"), (ascii "output", ascii "1.c")] =
    .ok ⟨[ascii "a.b", ascii "2,num"], [(1, ⟨[⟨ascii "a", none⟩, ⟨ascii "b", none⟩], [], [], []⟩), (0, ⟨[⟨ascii "c", none⟩], [], [], []⟩)],
      ascii "o", [(2, ascii "x,y"), (1, ascii "-")]⟩ := by decide +kernel

/-! ## C206: joining tables: specification -/

/-- One key of a join of two tables: a column of each, how its values are compared, and whether the order is reversed. -/
structure JoinKey where
  left : Bytes
  right : Bytes
  kind : CompKind
  reverse : Bool

/-- The texts that stand for a column: its name, or its number. -/
def RefOf (names : List Bytes) (r c : Bytes) : Prop := r = c ∨ r = decText (names.idxOf c + 1)

/-- The texts of a key: `name.name,method`, or `name,method` for both tables; without a method it is `plain`. -/
def JoinKey.Text (k : JoinKey) (namesA namesB : List Bytes) (spec : Bytes) : Prop :=
  ∃ l r cols, RefOf namesA l k.left ∧ RefOf namesB r k.right ∧ (cols = l ++ 46 :: r ∨ cols = l ∧ l = r) ∧
    (spec = cols ∧ k.kind = .plain ∧ k.reverse = false ∨
      ∃ method, spec = cols ++ 44 :: method ∧ 44 ∉ method ∧ AliasOk (nameOf method) ∧ MethodOf (nameOf method) (.kind k.kind) ∧
        k.reverse = (confOf method).reverse)

/-- The columns are in the tables, and the method is an order. -/
def JoinKey.Suits (k : JoinKey) (namesA namesB : List Bytes) : Prop :=
  k.left ∈ namesA ∧ k.right ∈ namesB ∧ k.kind ≠ .numeric ∧ k.kind ≠ .float

/-- The value of a row in a column. -/
def cellOf (names row : List Bytes) (c : Bytes) : Bytes := row.getD (names.idxOf c) []

/-- The order of the values of keys: the first difference decides. -/
def keyCmp : List JoinKey → List Bytes → List Bytes → Ordering
  | k :: ks, a :: as, b :: bs => (if k.reverse then cellCmp k.kind b a else cellCmp k.kind a b).then (keyCmp ks as bs)
  | _, _, _ => .eq

/-- The values of the keys of a row of the first table. -/
def leftKey (names : List Bytes) (ks : List JoinKey) (row : List Bytes) : List Bytes := ks.map fun k => cellOf names row k.left

/-- The values of the keys of a row of the second table. -/
def rightKey (names : List Bytes) (ks : List JoinKey) (row : List Bytes) : List Bytes := ks.map fun k => cellOf names row k.right

/-- The rows have the same key. -/
def keysMeet (namesA namesB : List Bytes) (ks : List JoinKey) (a b : List Bytes) : Bool :=
  keyCmp ks (leftKey namesA ks a) (rightKey namesB ks b) == .eq

/-- The columns of the output: those asked for, or all of the first table and those of the second that are no keys. -/
def joinShown (namesA namesB : List Bytes) (ks : List JoinKey) (asked : List (Nat × Bytes × List Bytes)) : List (Nat × Bytes) :=
  if asked = [] then namesA.map (fun n => (0, n)) ++ (namesB.filter fun n => n ∉ ks.map (·.right)).map fun n => (1, n)
  else asked.flatMap fun p => (p.2.1 :: p.2.2).map fun n => (p.1, n)

/-- The joined table. -/
def joinedRows (namesA namesB : List Bytes) (ks : List JoinKey) (shown : List (Nat × Bytes)) (rowsA rowsB : List (List Bytes)) : List (List Bytes) :=
  rowsA.flatMap fun a => (rowsB.filter fun b => keysMeet namesA namesB ks a b).map fun b =>
    shown.map fun o => if o.1 = 0 then cellOf namesA a o.2 else cellOf namesB b o.2

/-- The rows of the table with this number (from 1) that have no partner. -/
def lonelyRows (namesA namesB : List Bytes) (ks : List JoinKey) (rowsA rowsB : List (List Bytes)) (n : Nat) : List (List Bytes) :=
  if n = 1 then rowsA.filter fun a => !rowsB.any fun b => keysMeet namesA namesB ks a b
  else rowsB.filter fun b => !rowsA.any fun a => keysMeet namesA namesB ks a b

/-! ## Proof -/

/-- A table with a header that has these names. -/
def GoodTable (names : List Bytes) (rows : List (List Bytes)) : Prop :=
  names ≠ [] ∧ (∀ n ∈ names, IsName n) ∧ names.Nodup ∧ names.length < 2 ^ 64 ∧ SepTable TAB names.length rows

theorem keyCmp_preorder (ks : List JoinKey) : TotalPreorder (fun a b : { l : List Bytes // l.length = ks.length } => keyCmp ks a.1 b.1) := by
  induction ks with
  | nil =>
    have : ∀ a b : List Bytes, keyCmp [] a b = .eq := by intro a b; rfl
    exact ⟨fun _ => this _ _, fun _ _ => by simp [this], fun _ _ _ _ _ => by simp [this]⟩
  | cons k ks ih =>
    have h0 := cellCmp_preorder k.kind k.reverse
    have out : ∀ a : { l : List Bytes // l.length = (k :: ks).length }, ∃ x xs, ∃ h : xs.length = ks.length, a = ⟨x :: xs, by simp [h]⟩ := by
      rintro ⟨l, h⟩
      cases l with
      | nil => simp at h
      | cons x xs => exact ⟨x, xs, by simpa using h, rfl⟩
    refine ⟨?_, ?_, ?_⟩
    · intro a
      obtain ⟨x, xs, h, rfl⟩ := out a
      have h1 := h0.refl x
      have h2 := ih.refl ⟨xs, h⟩
      simp only at h1 h2
      simp only [keyCmp, h1, h2, Ordering.then]
    · intro a b
      obtain ⟨x, xs, h, rfl⟩ := out a
      obtain ⟨y, ys, h', rfl⟩ := out b
      have h1 := h0.swap x y
      have h2 := ih.swap ⟨xs, h⟩ ⟨ys, h'⟩
      simp only at h1 h2
      simp only [keyCmp, h1, h2]
      cases (if k.reverse = true then cellCmp k.kind y x else cellCmp k.kind x y) <;> simp [Ordering.then, Ordering.swap]
    · intro a b c
      obtain ⟨x, xs, h, rfl⟩ := out a
      obtain ⟨y, ys, h', rfl⟩ := out b
      obtain ⟨z, zs, h'', rfl⟩ := out c
      have h2 := ih.trans ⟨xs, h⟩ ⟨ys, h'⟩ ⟨zs, h''⟩
      have h1 := h0.trans x y z
      have s1 := h0.trans y z x
      have s2 := h0.trans z x y
      have w1 := h0.swap x y
      have w2 := h0.swap y z
      have w3 := h0.swap x z
      simp only at h1 h2 s1 s2 w1 w2 w3
      simp only [keyCmp]
      rw [w3] at s1 s2
      rw [w2] at s2
      rw [w1] at s1
      revert h1 s1 s2 h2
      generalize (if k.reverse = true then cellCmp k.kind y x else cellCmp k.kind x y) = p
      generalize (if k.reverse = true then cellCmp k.kind z y else cellCmp k.kind y z) = q
      generalize (if k.reverse = true then cellCmp k.kind z x else cellCmp k.kind x z) = r
      cases p <;> cases q <;> cases r <;> simp +decide [Ordering.then, Ordering.swap]

theorem newFrom_ref {names : List Bytes} (hn : ∀ n ∈ names, IsName n) (hl : names.length < 2 ^ 64) {r c : Bytes} (hc : c ∈ names)
    (h : RefOf names r c) : 44 ∉ r ∧ 46 ∉ r ∧ r ≠ [] ∧ ∃ col, NamedCol.newFrom r = .ok col ∧ col.lookup names = .ok (names.idxOf c) := by
  have hi : names.idxOf c < names.length := List.idxOf_lt_length_iff.2 hc
  rcases h with rfl | rfl
  · have h1 := name_free (d := 44) (by decide) (by decide) (hn r hc)
    have h2 := name_free (d := 46) (by decide) (by decide) (hn r hc)
    refine ⟨h1.2.1, h2.2.1, h1.1, ⟨r, 0⟩, ?_, ?_⟩
    · have := name_take r [] (hn r hc) (by simp)
      rw [List.append_nil] at this
      rw [NamedCol.newFrom, this]
      rfl
    · unfold NamedCol.lookup
      rw [if_pos h1.1]
      exact lookupCol_mem names r hc
  · refine ⟨decText_free _ 44 (by decide), decText_free _ 46 (by decide), decText_ne_nil _, ⟨[], names.idxOf c⟩, ?_, ?_⟩
    · have := usize_dec (names.idxOf c) [] (by omega) (by simp)
      rw [List.append_nil] at this
      rw [NamedCol.newFrom, this]
      rfl
    · rfl

/-- What a key becomes. -/
def JoinKey.at (k : JoinKey) (namesA namesB : List Bytes) : LineComp :=
  ⟨.col k.kind (fun f => [namesA.idxOf k.left, namesB.idxOf k.right].getD f 0), k.reverse, TAB⟩

theorem key_made (compiles : Bytes → Bool) (eval : Bytes → List Bytes → Res (Bytes → F64)) {namesA namesB : List Bytes}
    (hA : ∀ n ∈ namesA, IsName n) (hB : ∀ n ∈ namesB, IsName n) (hA' : namesA.length < 2 ^ 64) (hB' : namesB.length < 2 ^ 64)
    {k : JoinKey} (hk : k.Suits namesA namesB) {spec : Bytes} (h : k.Text namesA namesB spec) :
    ∃ m, makeLineComp compiles spec = .ok m ∧ m.resolveN eval [namesA, namesB] = .ok (k.at namesA namesB) := by
  obtain ⟨l, r, cols, h1, h2, h3, h4⟩ := h
  obtain ⟨l1, l2, l3, cl, l4, l5⟩ := newFrom_ref hA hA' hk.1 h1
  obtain ⟨r1, r2, r3, cr, r4, r5⟩ := newFrom_ref hB hB' hk.2.1 h2
  have hcols : 44 ∉ cols ∧ cols ≠ [] ∧ ∃ cs, colsNew (sliceSplit 46 cols) = .ok cs ∧
      lookupAt cs 0 [namesA, namesB] = .ok [namesA.idxOf k.left, namesB.idxOf k.right] := by
    rcases h3 with rfl | ⟨rfl, rfl⟩
    · refine ⟨?_, by simp [l3], [cl, cr], ?_, ?_⟩
      · rw [List.mem_append, List.mem_cons]
        rintro (h | h | h)
        · exact l1 h
        · exact absurd h (by decide)
        · exact r1 h
      · have := sliceSplit_intercalate 46 [l, r] (by simp) (by
          intro c hc
          rcases List.mem_cons.1 hc with rfl | hc
          · exact l2
          · rw [List.mem_singleton] at hc; subst hc; exact r2)
        rw [intercalate_cons_cons] at this
        simp only [List.append_assoc, List.singleton_append, intercalate_singleton] at this
        rw [this]
        simp only [colsNew, l4, r4, Res.bind_ok]
      · simp only [lookupAt, C110_files [cl, cr] (by simp), List.length_cons, List.length_nil, Nat.zero_add, Nat.reduceAdd, Nat.zero_min,
          List.getD_cons_zero, Nat.reduceSub, Nat.min_self, List.getD_cons_succ, l5, r5, Res.bind_ok]
    · refine ⟨l1, l3, [cl], ?_, ?_⟩
      · have := sliceSplit_intercalate 46 [cols] (by simp) (by simpa using l2)
        rw [intercalate_singleton] at this
        rw [this]
        simp only [colsNew, l4, Res.bind_ok]
      · have e : cl = cr := by rw [l4] at r4; cases r4; rfl
        simp only [lookupAt, C110_files [cl] (by simp), List.length_cons, List.length_nil, Nat.zero_add, Nat.sub_self, Nat.min_zero,
          List.getD_cons_zero, l5, Res.bind_ok]
        rw [e, r5]
        rfl
  obtain ⟨c1, c2, cs, c3, c4⟩ := hcols
  have line : ∀ method, 44 ∉ method → AliasOk (nameOf method) → MethodOf (nameOf method) (.kind k.kind) →
      k.reverse = (confOf method).reverse → ∃ m, makeLineComp compiles (cols ++ 44 :: (method ++ 44 :: [])) = .ok m ∧
        m.resolveN eval [namesA, namesB] = .ok (k.at namesA namesB) := by
    intro method m1 m2 m3 m4
    refine ⟨⟨confOf method, [], .col (.kind k.kind) cs⟩, ?_, ?_⟩
    · rw [C110_line_partial compiles cols method [] m2 (.kind k.kind) m3 c1 m1, if_neg c2, c3, Res.bind_ok]
    · simp only [LineCompMade.resolveN, c4, Res.bind_ok, ← m4, JoinKey.at]
  rcases h4 with ⟨rfl, e1, e2⟩ | ⟨method, rfl, m1, m2, m3, m4⟩
  · rw [(C110_short compiles spec [] [] c1 (by simp)).2.1]
    exact line [] (by simp) (by unfold AliasOk; decide +kernel) (by rw [e1]; unfold MethodOf; decide +kernel) (by rw [e2]; decide +kernel)
  · rw [(C110_short compiles cols method [] c1 m1).1]
    exact line method m1 m2 m3 m4

theorem keys_made (compiles : Bytes → Bool) (eval : Bytes → List Bytes → Res (Bytes → F64)) {namesA namesB : List Bytes}
    (hA : ∀ n ∈ namesA, IsName n) (hB : ∀ n ∈ namesB, IsName n) (hA' : namesA.length < 2 ^ 64) (hB' : namesB.length < 2 ^ 64) :
    ∀ (ks : List JoinKey) (specs : List Bytes), (∀ k ∈ ks, k.Suits namesA namesB) → specs.length = ks.length →
      (∀ x ∈ ks.zip specs, x.1.Text namesA namesB x.2) →
      (joinMake compiles specs).bind (fun ms => resolveKeysN eval [namesA, namesB] ms) = .ok (ks.map fun k => k.at namesA namesB) := by
  intro ks
  induction ks with
  | nil =>
    intro specs _ hl _
    rw [List.length_eq_zero_iff.1 hl]
    rfl
  | cons k ks ih =>
    intro specs hs hl ht
    cases specs with
    | nil => simp at hl
    | cons spec specs =>
      obtain ⟨m, h1, h2⟩ := key_made compiles eval hA hB hA' hB' (hs k (by simp)) (ht (k, spec) (by simp))
      have h3 := ih specs (fun k hk => hs k (by simp [hk])) (by simpa using hl) (fun x hx => ht x (by simp [hx]))
      obtain ⟨ms, h4, h5⟩ := Res.bind_eq_ok h3
      simp only [joinMake, h1, h4, Res.bind_ok, resolveKeysN, h2, h5, List.map_cons]

/-- A line of a table. -/
def tabLine (r : List Bytes) : Bytes := List.intercalate [TAB] r ++ [NL]

/-- The values of the keys of a row of a table. -/
def sideKey (namesA namesB : List Bytes) (ks : List JoinKey) (f : Nat) (row : List Bytes) : List Bytes :=
  ks.map fun k => row.getD ([namesA.idxOf k.left, namesB.idxOf k.right].getD f 0) []

theorem keyCmp_join (toF64 : Bytes → F64) (namesA namesB : List Bytes) (ks : List JoinKey) (hk : ∀ k ∈ ks, k.kind ≠ .numeric ∧ k.kind ≠ .float)
    (f g : Nat) (a b : List Bytes) (ha : a ≠ [] ∧ ∀ c ∈ a, TAB ∉ c ∧ NL ∉ c) (hb : b ≠ [] ∧ ∀ c ∈ b, TAB ∉ c ∧ NL ∉ c) :
    joinComp toF64 (ks.map fun k => k.at namesA namesB) (f, tabLine a) (g, tabLine b) =
      keyCmp ks (sideKey namesA namesB ks f a) (sideKey namesA namesB ks g b) := by
  unfold joinComp
  simp only
  have ga := mergeLine_row_get ha.1 ha.2
  have gb := mergeLine_row_get hb.1 hb.2
  induction ks with
  | nil => rfl
  | cons k ks ih =>
    have ih := ih fun k h => hk k (by simp [h])
    have hk := hk k (by simp)
    have sw : ∀ x y, (if k.reverse = true then (cellCmp k.kind x y).swap else cellCmp k.kind x y) =
        if k.reverse = true then cellCmp k.kind y x else cellCmp k.kind x y := by
      intro x y
      have := (cellCmp_preorder k.kind false).swap x y
      simp only [Bool.false_eq_true, if_false] at this
      rw [this]
    simp only [List.map_cons, compColsListN, sideKey, keyCmp, LineComp.compColsN, JoinKey.at, tabLine, ga, gb, compK_cell toF64 _ hk.1 hk.2,
      rev, sw] at ih ⊢
    have key : ∀ o x : Ordering, (if o ≠ .eq then o else x) = o.then x := by
      intro o x
      cases o <;> simp [Ordering.then]
    rw [ih, key]

theorem idxOf_inj {names : List Bytes} {a b : Bytes} (ha : a ∈ names) (h : names.idxOf a = names.idxOf b) : a = b := by
  have hi : names.idxOf a < names.length := List.idxOf_lt_length_iff.2 ha
  have e1 := List.getElem_idxOf (xs := names) (x := a) hi
  have hi' : names.idxOf b < names.length := h ▸ hi
  have e2 := List.getElem_idxOf (xs := names) (x := b) hi'
  rw [← e1, ← e2]
  simp only [h]

theorem map_idxOf (names : List Bytes) (hn : names.Nodup) : names.map (fun n => names.idxOf n) = List.range names.length := by
  apply List.ext_getElem (by simp)
  intro i h1 h2
  simp only [List.getElem_map, List.getElem_range]
  exact hn.idxOf_getElem i (by simpa using h1)

/-- The numbers of the output columns. -/
def shownAt (namesA namesB : List Bytes) (shown : List (Nat × Bytes)) : List (Nat × Nat) :=
  shown.map fun o => (o.1, (if o.1 = 0 then namesA else namesB).idxOf o.2)

theorem default_shown (exprCols : (Nat → Bytes → F64) → Nat → List Nat) (namesA namesB : List Bytes) (ks : List JoinKey) (a b : Opened)
    (ha : a.names = namesA) (hb : b.names = namesB) (hA : namesA.Nodup) (hB : namesB.Nodup) :
    defaultOut (usedCols exprCols (ks.map fun k => k.at namesA namesB)) [a, b] = shownAt namesA namesB (joinShown namesA namesB ks []) := by
  rw [C31_default_columns, ha, hb, ← map_idxOf namesA hA, ← map_idxOf namesB hB, List.filter_map]
  simp only [shownAt, joinShown, if_true, List.map_append, List.map_map]
  congr 1
  simp only [Function.comp_def, Nat.one_ne_zero, if_false]
  congr 1
  apply List.filter_congr
  intro n hn
  rw [decide_eq_decide]
  refine not_congr ?_
  simp only [usedCols, List.mem_flatMap, List.mem_map]
  constructor
  · rintro ⟨c, ⟨k, hk, rfl⟩, h⟩
    simp only [JoinKey.at, List.mem_singleton, List.getD_cons_succ, List.getD_cons_zero] at h
    exact ⟨k, hk, (idxOf_inj hn h).symm⟩
  · rintro ⟨k, hk, rfl⟩
    exact ⟨_, ⟨k, hk, rfl⟩, by simp [JoinKey.at]⟩

theorem denote_names (names cs : List Bytes) (hc : ∀ c ∈ cs, c ∈ names) :
    denoteAll names (cs.map fun c => ⟨false, none, .one (.name c)⟩) = some (cs.map fun c => (names.idxOf c, [])) := by
  induction cs with
  | nil => rfl
  | cons c cs ih =>
    have h1 : names.findIdx? (· == c) = some (names.idxOf c) := by
      have := lookupCol_mem names c (hc c (by simp))
      unfold lookupCol at this
      cases h : names.findIdx? (· == c) with
      | none => rw [h] at this; cases this
      | some i => rw [h] at this; cases this; rfl
    simp only [List.map_cons, denoteAll, Sel.denote, ih fun c h => hc c (by simp [h]), ColRef.resolve, h1, Option.map_some, Option.getD_none,
      List.map_nil, List.singleton_append]

theorem joinCols_shown (mk : Bytes → Res (Bytes → Bool)) (namesA namesB : List Bytes) (hA : ∀ n ∈ namesA, IsName n) (hB : ∀ n ∈ namesB, IsName n)
    (asked : List (Nat × Bytes × List Bytes)) (h : ∀ p ∈ asked, p.1 < 2 ∧ ∀ c ∈ p.2.1 :: p.2.2, c ∈ if p.1 = 0 then namesA else namesB) :
    joinCols mk [namesA, namesB] (outputMeaning asked) =
      .ok (shownAt namesA namesB (asked.flatMap fun p => (p.2.1 :: p.2.2).map fun n => (p.1, n))) := by
  induction asked with
  | nil => rfl
  | cons p ps ih =>
    have ih := ih fun q hq => h q (by simp [hq])
    obtain ⟨h1, h2⟩ := h p (by simp)
    have hf : [namesA, namesB][p.1]? = some (if p.1 = 0 then namesA else namesB) := by
      match hp : p.1 with
      | 0 => simp
      | 1 => simp
      | n + 2 => omega
    have hl : ColumnSet.lookup mk ⟨(p.2.1 :: p.2.2).map fun c => ⟨c, none⟩, [], [], []⟩ (if p.1 = 0 then namesA else namesB) =
        .ok ((p.2.1 :: p.2.2).map fun c => ⟨(if p.1 = 0 then namesA else namesB).idxOf c, [], none⟩) := by
      have hn : ∀ n ∈ (if p.1 = 0 then namesA else namesB), IsName n := by
        split
        · exact hA
        · exact hB
      generalize (if p.1 = 0 then namesA else namesB) = names at h2 hn
      have hy := yesCols_spec mk names hn [] ((p.2.1 :: p.2.2).map fun c => ⟨false, none, .one (.name c)⟩) (by
        intro i hi
        obtain ⟨c, hc, rfl⟩ := List.mem_map.1 hi
        refine ⟨⟨by simp, ?_⟩, ?_⟩
        · intro r hr
          simp only [Sel.refs, List.mem_singleton] at hr
          subst hr
          exact hn c (h2 c hc)
        · intro r hr
          simp only [Sel.refs, List.mem_singleton] at hr
          subst hr
          simp [ColRef.Fair])
      rw [denote_names names _ h2] at hy
      unfold ColumnSet.lookup
      simp only [noCols, Res.bind_ok]
      rw [if_neg (by simp)]
      have e : ((p.2.1 :: p.2.2).map fun c => (⟨c, none⟩ : ColSetPart)) =
          ((p.2.1 :: p.2.2).map fun c => (⟨false, none, .one (.name c)⟩ : ColItem)).map part := by
        rw [List.map_map]
        apply List.map_congr_left
        intro c _
        simp [part, ColItem.body, namePart, Sel.text, ColRef.text]
      rw [e, hy]
      simp only
      rw [List.filter_eq_self.2 (by simp), List.map_map]
      rfl
    have e : outputMeaning (p :: ps) = (p.1, ⟨(p.2.1 :: p.2.2).map fun c => ⟨c, none⟩, [], [], []⟩) :: outputMeaning ps := rfl
    rw [e]
    unfold joinCols
    simp only [hf, hl, Res.bind_ok, ih]
    simp only [shownAt, List.flatMap_cons, List.map_append, List.map_map, Function.comp_def]

theorem table_rows {names : List Bytes} {rows : List (List Bytes)} (h : GoodTable names rows) : ∀ r ∈ rows, r ≠ [] ∧ ∀ c ∈ r, TAB ∉ c ∧ NL ∉ c := by
  intro r hr
  refine ⟨?_, (h.2.2.2.2 r hr).2⟩
  rintro rfl
  exact h.1 (List.length_eq_zero_iff.1 (h.2.2.2.2 [] hr).1.symm)

theorem table_opened {names : List Bytes} {rows : List (List Bytes)} (h : GoodTable names rows) :
    openReader (sepHead TAB names ++ sepText TAB rows) = ⟨sepHead TAB names, true, names, rows.map tabLine⟩ := by
  have hn : ∀ n ∈ names, TAB ∉ n ∧ NL ∉ n := fun n hn => (name_free (d := TAB) (by decide) (by decide) (h.2.1 n hn)).2
  have e : ascii " CDX" = cdxTag := by decide +kernel
  have := openReader_names names (sepText TAB rows) hn
  rw [sepHead, e, List.append_assoc, List.singleton_append, this, sepText_lines, readLines_flatten]
  · rfl
  · intro l hl
    obtain ⟨r, hr, rfl⟩ := List.mem_map.1 hl
    exact sepRow_isLine (by decide) h.2.2.2.2 hr

theorem filter_unique {α : Type} (p : α → Bool) (l : List α) (h : l.Pairwise fun x y => ¬ (p x = true ∧ p y = true)) :
    l.filter p = (l.find? p).toList := by
  induction l with
  | nil => rfl
  | cons x xs ih =>
    rw [List.pairwise_cons] at h
    by_cases hx : p x = true
    · rw [List.filter_cons_of_pos hx, List.find?_cons_of_pos hx, List.filter_eq_nil_iff.2]
      · rfl
      · intro y hy hp
        exact h.1 y hy ⟨hx, hp⟩
    · rw [List.filter_cons_of_neg hx, List.find?_cons_of_neg hx, ih h.2]

/-- Options of a join of two tables that fit their names. -/
structure JoinOptsFit (namesA namesB : List Bytes) (ks : List JoinKey) (asks : List (List (Nat × Bytes × List Bytes))) (also : List (Nat × Bytes))
    (os : List (Bytes × Bytes)) : Prop where
  suits : ∀ k ∈ ks, k.Suits namesA namesB
  names : ∀ o ∈ os, o.1 ∈ joinNames.map ascii
  /-- The keys are written as options; without any it is the first column of both. -/
  keys : if optVals "key" os = [] then ks = [⟨namesA.headD [], namesB.headD [], .plain, false⟩]
    else (optVals "key" os).length = ks.length ∧ ∀ x ∈ ks.zip (optVals "key" os), x.1.Text namesA namesB x.2
  outs : optVals "output" os = asks.map outputText ∧ (∀ l ∈ asks, l ≠ []) ∧
    ∀ l ∈ asks, ∀ p ∈ l, p.1 < 2 ∧ ∀ c ∈ p.2.1 :: p.2.2, c ∈ if p.1 = 0 then namesA else namesB
  also : optVals "also" os = also.map (fun p => decText p.1 ++ 44 :: p.2) ∧ (∀ p ∈ also, p.1 = 1 ∨ p.1 = 2) ∧ (also.map (·.1)).Nodup

/-- The hypotheses of a join of two tables: tables, keys and options that fit. -/
structure JoinFits (namesA namesB : List Bytes) (rowsA rowsB : List (List Bytes)) (ks : List JoinKey)
    (asks : List (List (Nat × Bytes × List Bytes))) (also : List (Nat × Bytes)) (os : List (Bytes × Bytes)) : Prop where
  tableA : GoodTable namesA rowsA
  tableB : GoodTable namesB rowsB
  opts : JoinOptsFit namesA namesB ks asks also os
  /-- The first table is in the order of its keys. -/
  sorted : rowsA.Pairwise fun x y => keyCmp ks (leftKey namesA ks x) (leftKey namesA ks y) ≠ .gt
  /-- So is the second, and no key occurs twice. -/
  strict : rowsB.Pairwise fun x y => keyCmp ks (rightKey namesB ks x) (rightKey namesB ks y) = .lt

theorem sideKey_left {namesA namesB : List Bytes} {ks : List JoinKey} (row : List Bytes) : sideKey namesA namesB ks 0 row = leftKey namesA ks row := rfl

theorem sideKey_right {namesA namesB : List Bytes} {ks : List JoinKey} (row : List Bytes) : sideKey namesA namesB ks 1 row = rightKey namesB ks row := rfl

/-- C206: `join` of two tables with headers, the first in the order of the keys and the second too and without repeated keys: the rows with the same
keys put together, under the names of the columns shown, and the rows without partner as asked for. -/
theorem C206_join (transOk compiles : Bytes → Bool) (mk : Bytes → Res (Bytes → Bool)) (eval : Bytes → List Bytes → Res (Bytes → F64))
    (toF64 : Bytes → F64) (exprCols : (Nat → Bytes → F64) → Nat → List Nat) (namesA namesB : List Bytes) (rowsA rowsB : List (List Bytes))
    (ks : List JoinKey) (asks : List (List (Nat × Bytes × List Bytes))) (also : List (Nat × Bytes)) (os : List (Bytes × Bytes))
    (h : JoinFits namesA namesB rowsA rowsB ks asks also os) :
    joinMain transOk compiles mk eval toF64 exprCols os [sepHead TAB namesA ++ sepText TAB rowsA, sepHead TAB namesB ++ sepText TAB rowsB] =
      .ok (((optVals "file" os).getLastD (ascii "-"),
          sepHead TAB ((joinShown namesA namesB ks asks.flatten).map (·.2)) ++
            sepText TAB (joinedRows namesA namesB ks (joinShown namesA namesB ks asks.flatten) rowsA rowsB)) ::
        also.map fun p => (p.2, sepHead TAB (if p.1 = 1 then namesA else namesB) ++ sepText TAB (lonelyRows namesA namesB ks rowsA rowsB p.1))) := by
  obtain ⟨hA, hB, ⟨hs, hn, hk, ho, ha⟩, sA, sB⟩ := h
  -- the options
  have hopt : joinOptions transOk {} os = .ok ⟨optVals "key" os, outputMeaning asks.flatten, (optVals "file" os).getLastD (ascii "-"), also⟩ := by
    rw [joinOptions_iff]
    refine ⟨hn, by simp, ⟨asks.map outputMeaning, ?_, ?_⟩, rfl, ⟨also, ?_, by simp⟩⟩
    · rw [ho.1, List.map_map, List.map_map]
      apply List.map_congr_left
      intro l hl
      simp only [Function.comp_apply]
      refine C126_round transOk l (ho.2.1 l hl) fun p hp => ?_
      have h1 := ho.2.2 l hl p hp
      refine ⟨by have := h1.1; omega, fun c hc => ?_⟩
      have h2 := h1.2 c hc
      have h3 : IsName c := by
        by_cases e : p.1 = 0
        · rw [if_pos e] at h2; exact hA.2.1 c h2
        · rw [if_neg e] at h2; exact hB.2.1 c h2
      have f44 := name_free (d := 44) (by decide) (by decide) h3
      have f46 := name_free (d := 46) (by decide) (by decide) h3
      have f43 := name_free (d := 43) (by decide) (by decide) h3
      have f40 := name_free (d := 40) (by decide) (by decide) h3
      have f126 := name_free (d := 126) (by decide) (by decide) h3
      exact ⟨f44.1, f44.2.1, f46.2.1, f43.2.1, fun e => f40.2.1 (List.mem_of_mem_head? e), fun e => f126.2.1 (List.mem_of_mem_head? e)⟩
    · simp only [List.nil_append, outputMeaning, List.map_flatten]
      rfl
    · rw [ha.1, List.map_map]
      apply List.map_congr_left
      intro p hp
      simp only [Function.comp_apply]
      rw [joinAlso_ok]
      refine ⟨decText p.1, rfl, decText_free _ 44 (by decide), ?_⟩
      rcases ha.2.1 p hp with e | e <;> rw [e] <;> decide +kernel
  -- the keys
  have hkeys : (joinMake compiles (if optVals "key" os = [] then [ascii "1"] else optVals "key" os)).bind
      (fun ms => resolveKeysN eval [namesA, namesB] ms) = .ok (ks.map fun k => k.at namesA namesB) := by
    refine keys_made compiles eval hA.2.1 hB.2.1 hA.2.2.2.1 hB.2.2.2.1 ks _ hs ?_ ?_
    · split at hk <;> rename_i e
      · rw [if_pos e, hk]; rfl
      · rw [if_neg e]; exact hk.1
    · split at hk <;> rename_i e
      · rw [if_pos e, hk]
        intro x hx
        simp only [List.zip_cons_cons, List.zip_nil_right, List.mem_singleton] at hx
        subst hx
        have first : ∀ names : List Bytes, names ≠ [] → RefOf names (ascii "1") (names.headD []) := by
          intro names hne
          cases names with
          | nil => exact absurd rfl hne
          | cons n ns =>
            refine .inr ?_
            simp only [List.headD_cons, List.idxOf_cons_self]
            decide +kernel
        exact ⟨ascii "1", ascii "1", ascii "1", first namesA hA.1, first namesB hB.1, .inr ⟨rfl, rfl⟩, .inl ⟨rfl, rfl, rfl⟩⟩
      · rw [if_neg e]; exact hk.2
  obtain ⟨ms, hm1, hm2⟩ := Res.bind_eq_ok hkeys
  -- the columns
  have hflat : ∀ p ∈ asks.flatten, p.1 < 2 ∧ ∀ c ∈ p.2.1 :: p.2.2, c ∈ if p.1 = 0 then namesA else namesB := by
    intro p hp
    obtain ⟨l, hl, hp⟩ := List.mem_flatten.1 hp
    exact ho.2.2 l hl p hp
  have hcols := joinCols_shown mk namesA namesB hA.2.1 hB.2.1 asks.flatten hflat
  have oA := table_opened hA
  have oB := table_opened hB
  have hkinds : ∀ k ∈ ks, k.kind ≠ .numeric ∧ k.kind ≠ .float := fun k hk => (hs k hk).2.2
  have alsoT : alsoOk 2 (also.map (·.1)) = true := by
    unfold alsoOk
    rw [Bool.and_eq_true, List.all_eq_true]
    refine ⟨?_, decide_eq_true ha.2.2⟩
    intro n hn
    obtain ⟨p, hp, rfl⟩ := List.mem_map.1 hn
    rcases ha.2.1 p hp with e | e <;> rw [e] <;> rfl
  have hshow : ∀ o ∈ joinShown namesA namesB ks asks.flatten, o.1 < 2 ∧ o.2 ∈ if o.1 = 0 then namesA else namesB := by
    intro o hmem
    unfold joinShown at hmem
    split at hmem
    · simp only [List.mem_append, List.mem_map, List.mem_filter] at hmem
      rcases hmem with ⟨n, hn, rfl⟩ | ⟨n, hn, rfl⟩
      · exact ⟨by simp, by simpa using hn⟩
      · exact ⟨by simp, by simpa using hn.1⟩
    · obtain ⟨p, hp, hmem⟩ := List.mem_flatMap.1 hmem
      obtain ⟨n, hn, rfl⟩ := List.mem_map.1 hmem
      exact ⟨(hflat p hp).1, (hflat p hp).2 n hn⟩
  have hsne : joinShown namesA namesB ks asks.flatten ≠ [] := by
    unfold joinShown
    split
    · intro e
      have := (List.append_eq_nil_iff.1 e).1
      rw [List.map_eq_nil_iff] at this
      exact hA.1 this
    · rename_i e
      cases hf : asks.flatten with
      | nil => exact absurd hf e
      | cons p ps => simp
  have hspecs : outputMeaning asks.flatten = [] ↔ asks.flatten = [] := by simp [outputMeaning]
  -- the join of the lines
  have hout : joinOut (usedCols exprCols (ks.map fun k => k.at namesA namesB))
      (shownAt namesA namesB (asks.flatten.flatMap fun p => (p.2.1 :: p.2.2).map fun n => (p.1, n)))
      [openReader (sepHead TAB namesA ++ sepText TAB rowsA), openReader (sepHead TAB namesB ++ sepText TAB rowsB)] =
      some (shownAt namesA namesB (joinShown namesA namesB ks asks.flatten)) := by
    unfold joinOut
    by_cases e : asks.flatten = []
    · rw [e] at hsne ⊢
      rw [if_pos (by rfl), default_shown exprCols namesA namesB ks _ _ (by rw [oA]) (by rw [oB]) hA.2.2.1 hB.2.2.1, if_neg]
      simpa [shownAt] using hsne
    · have e2 : joinShown namesA namesB ks asks.flatten = asks.flatten.flatMap fun p => (p.2.1 :: p.2.2).map fun n => (p.1, n) := by
        unfold joinShown
        rw [if_neg e]
      rw [e2] at hsne hshow ⊢
      rw [if_neg (by simpa [shownAt] using hsne), if_neg]
      rw [Bool.not_eq_true, List.any_eq_false]
      intro c hc
      obtain ⟨o, ho, rfl⟩ := List.mem_map.1 hc
      have := (hshow o ho).1
      simp only [List.length_cons, List.length_nil, decide_eq_true_eq]
      omega
  have rA := table_rows hA
  have rB := table_rows hB
  have hpre : PreorderOn (InFiles (fileLines (sepHead TAB namesA ++ sepText TAB rowsA)) (fileLines (sepHead TAB namesB ++ sepText TAB rowsB)))
      (joinComp toF64 (ks.map fun k => k.at namesA namesB)) := by
    apply C31_preorder
    intro c hc p _
    obtain ⟨k, hk, rfl⟩ := List.mem_map.1 hc
    exact ⟨fun e => absurd e (hkinds k hk).1, fun e => absurd e (hkinds k hk).2⟩
  have hjoin := C31_join toF64 exprCols (ks.map fun k => k.at namesA namesB) _ _ TAB (also.map (·.1))
    (sepHead TAB namesA ++ sepText TAB rowsA) (sepHead TAB namesB ++ sepText TAB rowsB) hpre
    (by
      unfold KeySorted SortedBy fileLines
      rw [oA]
      simp only
      rw [List.pairwise_map]
      refine sA.imp_of_mem fun {x y} hx hy h => ?_
      rw [keyCmp_join toF64 namesA namesB ks hkinds 0 0 x y (rA x hx) (rA y hy)]
      exact h)
    (by
      unfold KeyStrict fileLines
      rw [oB]
      simp only
      rw [List.pairwise_map]
      refine sB.imp_of_mem fun {x y} hx hy h => ?_
      rw [keyCmp_join toF64 namesA namesB ks hkinds 1 1 x y (rB x hx) (rB y hy)]
      exact h)
    alsoT hout
  have hsame : ∀ a ∈ rowsA, ∀ b ∈ rowsB, sameKey toF64 (ks.map fun k => k.at namesA namesB) (tabLine a) (tabLine b) = keysMeet namesA namesB ks a b := by
    intro a ha b hb
    unfold sameKey keysMeet
    rw [keyCmp_join toF64 namesA namesB ks hkinds 0 1 a b (rA a ha) (rB b hb)]
    rfl
  have lA : fileLines (sepHead TAB namesA ++ sepText TAB rowsA) = rowsA.map tabLine := by unfold fileLines; rw [oA]
  have lB : fileLines (sepHead TAB namesB ++ sepText TAB rowsB) = rowsB.map tabLine := by unfold fileLines; rw [oB]
  have hhead : joinHeader TAB (shownAt namesA namesB (joinShown namesA namesB ks asks.flatten))
      [openReader (sepHead TAB namesA ++ sepText TAB rowsA), openReader (sepHead TAB namesB ++ sepText TAB rowsB)] =
      sepHead TAB ((joinShown namesA namesB ks asks.flatten).map (·.2)) := by
    have nA : ∀ n ∈ namesA, TAB ∉ n ∧ NL ∉ n := fun n hn => (name_free (d := TAB) (by decide) (by decide) (hA.2.1 n hn)).2
    have nB : ∀ n ∈ namesB, TAB ∉ n ∧ NL ∉ n := fun n hn => (name_free (d := TAB) (by decide) (by decide) (hB.2.1 n hn)).2
    have e : ascii " CDX" = cdxTag := by decide +kernel
    have h1 := C31_header TAB (shownAt namesA namesB (joinShown namesA namesB ks asks.flatten)) namesA namesB (sepText TAB rowsA) (sepText TAB rowsB)
      nA nB (by
        intro c hc
        obtain ⟨o, ho, rfl⟩ := List.mem_map.1 hc
        exact (hshow o ho).1)
    simp only [sepHead, e, List.append_assoc, List.singleton_append]
    rw [h1, shownAt, List.map_map]
    congr 3
    apply List.map_congr_left
    intro o ho
    simp only [Function.comp_apply]
    have h2 := (hshow o ho).2
    generalize (if o.1 = 0 then namesA else namesB) = names at h2
    have hi : names.idxOf o.2 < names.length := List.idxOf_lt_length_iff.2 h2
    rw [List.getD_eq_getElem?_getD, List.getElem?_eq_getElem hi, Option.getD_some]
    exact List.getElem_idxOf hi
  have hyes : (matchPairs (sameKey toF64 (ks.map fun k => k.at namesA namesB)) (rowsA.map tabLine) (rowsB.map tabLine)).flatMap
      (combined TAB (shownAt namesA namesB (joinShown namesA namesB ks asks.flatten))) =
      sepText TAB (joinedRows namesA namesB ks (joinShown namesA namesB ks asks.flatten) rowsA rowsB) := by
    have huniq : ∀ a, (rowsB.filter fun b => keysMeet namesA namesB ks a b) = (rowsB.find? fun b => keysMeet namesA namesB ks a b).toList := by
      intro a
      apply filter_unique
      refine sB.imp fun {x y} h => ?_
      rintro ⟨h1, h2⟩
      have hp := keyCmp_preorder ks
      have h1' : keyCmp ks (leftKey namesA ks a) (rightKey namesB ks x) = .eq := by simpa [keysMeet] using h1
      have h2' : keyCmp ks (leftKey namesA ks a) (rightKey namesB ks y) = .eq := by simpa [keysMeet] using h2
      have t1 := hp.swap ⟨leftKey namesA ks a, by simp [leftKey]⟩ ⟨rightKey namesB ks y, by simp [rightKey]⟩
      have t2 := hp.trans ⟨rightKey namesB ks y, by simp [rightKey]⟩ ⟨leftKey namesA ks a, by simp [leftKey]⟩ ⟨rightKey namesB ks x, by simp [rightKey]⟩
      have t3 := hp.swap ⟨rightKey namesB ks x, by simp [rightKey]⟩ ⟨rightKey namesB ks y, by simp [rightKey]⟩
      simp only at t1 t2 t3
      rw [t1, h2', h1', t3, h] at t2
      exact t2 (by decide) (by decide) rfl
    have hfind : ∀ a ∈ rowsA, (rowsB.map tabLine).find? (sameKey toF64 (ks.map fun k => k.at namesA namesB) (tabLine a)) =
        (rowsB.find? fun b => keysMeet namesA namesB ks a b).map tabLine := by
      intro a ha
      have : ∀ l : List (List Bytes), (∀ b ∈ l, b ∈ rowsB) → (l.map tabLine).find? (sameKey toF64 (ks.map fun k => k.at namesA namesB) (tabLine a)) =
          (l.find? fun b => keysMeet namesA namesB ks a b).map tabLine := by
        intro l
        induction l with
        | nil => intro _; rfl
        | cons b l ih =>
          intro h
          rw [List.map_cons, List.find?_cons, List.find?_cons, hsame a ha b (h b (by simp)), ih fun b hb => h b (by simp [hb])]
          cases keysMeet namesA namesB ks a b <;> rfl
      exact this rowsB fun _ h => h
    have hcell : ∀ a ∈ rowsA, ∀ b ∈ rowsB, combined TAB (shownAt namesA namesB (joinShown namesA namesB ks asks.flatten)) (tabLine a, tabLine b) =
        List.intercalate [TAB] ((joinShown namesA namesB ks asks.flatten).map fun o => if o.1 = 0 then cellOf namesA a o.2 else cellOf namesB b o.2) ++
          [NL] := by
      intro a ha b hb
      unfold combined shownAt
      rw [List.map_map]
      congr 2
      apply List.map_congr_left
      intro o _
      simp only [Function.comp_apply]
      by_cases e : o.1 = 0
      · simp only [if_pos e, tabLine, mergeLine_row_get (rA a ha).1 (rA a ha).2]
        rfl
      · simp only [if_neg e, tabLine, mergeLine_row_get (rB b hb).1 (rB b hb).2]
        rfl
    unfold joinedRows
    have : ∀ l : List (List Bytes), (∀ a ∈ l, a ∈ rowsA) →
        (matchPairs (sameKey toF64 (ks.map fun k => k.at namesA namesB)) (l.map tabLine) (rowsB.map tabLine)).flatMap
          (combined TAB (shownAt namesA namesB (joinShown namesA namesB ks asks.flatten))) =
        sepText TAB (l.flatMap fun a => (rowsB.filter fun b => keysMeet namesA namesB ks a b).map fun b =>
          (joinShown namesA namesB ks asks.flatten).map fun o => if o.1 = 0 then cellOf namesA a o.2 else cellOf namesB b o.2) := by
      intro l
      induction l with
      | nil => intro _; rfl
      | cons a l ih =>
        intro h
        have ih := ih fun a ha => h a (by simp [ha])
        have ha := h a (by simp)
        unfold matchPairs at ih ⊢
        rw [List.flatMap_cons, sepText_append, ← ih, List.map_cons, List.filterMap_cons, hfind a ha, huniq a]
        cases hf : rowsB.find? fun b => keysMeet namesA namesB ks a b with
        | none => rfl
        | some b =>
          simp only [Option.map_some, List.flatMap_cons, Option.toList_some, List.map_cons, List.map_nil, sepText, List.flatMap_nil, List.append_nil]
          rw [hcell a ha b (List.mem_of_find?_eq_some hf)]
    exact this rowsA fun _ h => h
  have hno0 : (unmatchedLeft (sameKey toF64 (ks.map fun k => k.at namesA namesB)) (rowsA.map tabLine) (rowsB.map tabLine)).flatten =
      sepText TAB (lonelyRows namesA namesB ks rowsA rowsB 1) := by
    unfold unmatchedLeft lonelyRows
    rw [if_pos rfl, List.filter_map, sepText_lines]
    have e : rowsA.filter ((fun a => !(rowsB.map tabLine).any (sameKey toF64 (ks.map fun k => k.at namesA namesB) a)) ∘ tabLine) =
        rowsA.filter fun a => !rowsB.any fun b => keysMeet namesA namesB ks a b := by
      apply List.filter_congr
      intro a ha
      simp only [Function.comp_apply, List.any_map]
      congr 1
      rw [Bool.eq_iff_iff, List.any_eq_true, List.any_eq_true]
      refine exists_congr fun b => and_congr_right fun hb => ?_
      rw [Function.comp_apply, hsame a ha b hb]
    rw [e]
    rfl
  have hno1 : (unmatchedRight (sameKey toF64 (ks.map fun k => k.at namesA namesB)) (rowsA.map tabLine) (rowsB.map tabLine)).flatten =
      sepText TAB (lonelyRows namesA namesB ks rowsA rowsB 2) := by
    unfold unmatchedRight lonelyRows
    rw [if_neg (by decide), List.filter_map, sepText_lines]
    have e : rowsB.filter ((fun b => !(rowsA.map tabLine).any fun a => sameKey toF64 (ks.map fun k => k.at namesA namesB) a b) ∘ tabLine) =
        rowsB.filter fun b => !rowsA.any fun a => keysMeet namesA namesB ks a b := by
      apply List.filter_congr
      intro b hb
      simp only [Function.comp_apply, List.any_map]
      congr 1
      rw [Bool.eq_iff_iff, List.any_eq_true, List.any_eq_true]
      refine exists_congr fun a => and_congr_right fun ha => ?_
      rw [Function.comp_apply, hsame a ha b hb]
    rw [e]
    rfl
  rw [lA, lB, hyes, hno0, hno1, hhead] at hjoin
  simp only [List.map_cons] at hjoin
  unfold joinMain
  rw [hopt, Res.bind_ok]
  rw [if_neg (by simp)]
  simp only [List.length_cons, List.length_nil, Nat.zero_add, Nat.reduceAdd, alsoT, Bool.true_eq_false, if_false, List.map_cons, List.map_nil, oA, oB,
    hm1, hm2, hcols, Res.bind_ok]
  rw [if_neg, hjoin, Res.bind_ok]
  · congr 2
    apply List.map_congr_left
    intro p hp
    have hmem : p.1 ∈ also.map (·.1) := List.mem_map.2 ⟨p, hp, rfl⟩
    rcases ha.2.1 p hp with e | e
    · rw [e] at hmem
      simp [e, hmem, oA]
    · rw [e] at hmem
      simp [e, hmem, oB]
  · rintro ⟨h1, h2⟩
    apply h1
    rw [hspecs]
    cases hf : asks.flatten with
    | nil => rfl
    | cons p ps => rw [hf] at h2; simp [shownAt] at h2

theorem one_letter (c : UInt8) (h : Letter c) : IsName [c] := ⟨c, [], rfl, h, by simp⟩

theorem joinFits_example : JoinFits [ascii "k", ascii "x"] [ascii "y", ascii "i"]
    [[ascii "b", ascii "1"], [ascii "b", ascii "2"], [ascii "a", ascii "3"]] [[ascii "8", ascii "c"], [ascii "9", ascii "b"]]
    [⟨ascii "k", ascii "i", .plain, true⟩] [[(1, ascii "y", []), (0, ascii "x", [ascii "k"])]] [(2, ascii "u"), (1, ascii "v")]
    [(ascii "also", ascii "2,u"), (ascii "key", ascii "k.2,Rev"), (ascii "file", ascii "o"), (ascii "output", ascii "2.y,1.x,k"), (ascii "also", ascii "1,v")] := by
  have hA : ∀ n ∈ [ascii "k", ascii "x"], IsName n := by
    intro n hn
    simp only [List.mem_cons, List.not_mem_nil, or_false] at hn
    rcases hn with rfl | rfl
    · exact one_letter 107 (by unfold Letter; decide)
    · exact one_letter 120 (by unfold Letter; decide)
  have hB : ∀ n ∈ [ascii "y", ascii "i"], IsName n := by
    intro n hn
    simp only [List.mem_cons, List.not_mem_nil, or_false] at hn
    rcases hn with rfl | rfl
    · exact one_letter 121 (by unfold Letter; decide)
    · exact one_letter 105 (by unfold Letter; decide)
  refine ⟨⟨by decide, hA, by decide, by decide, by decide +kernel⟩, ⟨by decide, hB, by decide, by decide, by decide +kernel⟩,
    ⟨?_, by decide +kernel, ?_, ⟨by decide +kernel, by decide, by decide +kernel⟩, ⟨by decide +kernel, by decide, by decide⟩⟩, by decide +kernel, by decide +kernel⟩
  · intro k hk
    rw [List.mem_singleton] at hk
    subst hk
    exact ⟨by decide, by decide, by decide, by decide⟩
  · rw [if_neg (by decide +kernel)]
    refine ⟨by decide +kernel, ?_⟩
    have e : optVals "key" [(ascii "also", ascii "2,u"), (ascii "key", ascii "k.2,Rev"), (ascii "file", ascii "o"), (ascii "output", ascii "2.y,1.x,k"),
      (ascii "also", ascii "1,v")] = [ascii "k.2,Rev"] := by decide +kernel
    rw [e]
    intro x hx
    simp only [List.zip_cons_cons, List.zip_nil_right, List.mem_singleton] at hx
    subst hx
    refine ⟨ascii "k", ascii "2", ascii "k.2", .inl rfl, .inr (by decide +kernel), .inl (by decide +kernel), .inr ⟨ascii "Rev", by decide +kernel, by decide +kernel, ?_, ?_, ?_⟩⟩
    · unfold AliasOk; decide +kernel
    · unfold MethodOf; decide +kernel
    · decide +kernel

example : ∃ c1 c2 c3, joinMain (fun _ => true) (fun _ => true) (fun _ => .err) (fun _ _ => .err) (fun _ => 0) (fun _ _ => [])
    [(ascii "also", ascii "2,u"), (ascii "key", ascii "k.2,Rev"), (ascii "file", ascii "o"), (ascii "output", ascii "2.y,1.x,k"), (ascii "also", ascii "1,v")]
    [ascii " CDX\tk\tx\nb\t1\nb\t2\na\t3\n", ascii " CDX\ty\ti\n8\tc\n9\tb\n"] = .ok [(ascii "o", c1), (ascii "u", c2), (ascii "v", c3)] ∧
    c1 = ascii " CDX\ty\tx\tk\n9\t1\tb\n9\t2\tb\n" ∧ c2 = ascii " CDX\ty\ti\n8\tc\n" ∧ c3 = ascii " CDX\tk\tx\na\t3\n" := by
  have := C206_join (fun _ => true) (fun _ => true) (fun _ => .err) (fun _ _ => .err) (fun _ => 0) (fun _ _ => []) _ _ _ _ _ _ _ _ joinFits_example
  refine ⟨_, _, _, ?_, rfl, rfl, rfl⟩
  rw [show [ascii " CDX\tk\tx\nb\t1\nb\t2\na\t3\n", ascii " CDX\ty\ti\n8\tc\n9\tb\n"] = [_, _] from ?_, this]
  · decide +kernel
  · decide +kernel

end Cdx
