import Verif.Props.CutTable
import Verif.Props.Trans

/-!
C223: `cut` with transforms of the columns.
-/

namespace Cdx

/-! ## Columns with a transform -/

/-- What is asked for: columns, or columns in one, with a transform after them. -/
structure TWant where
  group : Option (UInt8 × Bytes)
  is : List ColItem
  tr : Option Bytes

/-- The text of the columns and the transform: `a,b+upper`. -/
def TWant.text (w : TWant) : Bytes := colListText w.is ++ (match w.tr with | none => [] | some t => 43 :: t)

/-- The option. -/
def TWant.opt (w : TWant) : Bytes × Bytes :=
  match w.group with
  | none => (ascii "fields", w.text)
  | some (d, name) => (ascii "group", d :: name ++ 58 :: w.text)

/-- The texts are well formed, and the transform is known. -/
def TWant.Fine (env : CutEnv) (w : TWant) : Prop :=
  w.is ≠ [] ∧ (∀ i ∈ w.is, i.WF) ∧ (∀ t, w.tr = some t → env.transOk t = true ∧ ∃ l r, t = l :: r ∧ Letter l) ∧
    ∀ g, w.group = some g → g.1 < 128 ∧ 58 ∉ g.2

/-- What is asked for makes sense for the names of a file. -/
def TWant.Suits (names : List Bytes) (w : TWant) : Prop :=
  (∃ v, pickedOf names w.is = some v ∧ v ≠ []) ∧ ∀ i ∈ w.is, ∀ r ∈ i.sel.refs, r.Fair names

/-- The names of the columns written. -/
def TWant.outNames (names : List Bytes) (w : TWant) : List Bytes :=
  match w.group with
  | none => ((pickedOf names w.is).getD []).map fun x => if x.2 = [] then names.getD x.1 [] else x.2
  | some (_, name) => [name]

/-- The values of the columns chosen. -/
def TWant.values (names : List Bytes) (line : TextLine) (w : TWant) : List Bytes :=
  ((pickedOf names w.is).getD []).map fun x => line.vec.getD x.1 []

/-- The columns written for a line, given what the transform makes of values. -/
def TWant.cells (f : Bytes → Bytes) (t : TextMode) (names : List Bytes) (line : TextLine) (w : TWant) : List Bytes :=
  match w.group with
  | none => (w.values names line).map fun v => t.write (f v)
  | some (d, _) => [List.intercalate [d] ((w.values names line).map fun v => blanked d (f v))]

/-- What the transform is meant to make of a value: nothing if it fails. -/
def TWant.made (env : CutEnv) (w : TWant) (v : Bytes) : Option Bytes :=
  match w.tr with
  | none => some v
  | some t => env.trans t v

/-- The set of columns the option makes. -/
def TWant.set (w : TWant) : ColumnSet :=
  let k : Option Nat := w.tr.map fun _ => 0
  ⟨(w.is.filter fun i => !i.tilde).map fun i => ⟨i.body, k⟩, (w.is.filter fun i => i.tilde).map fun i => ⟨i.body, k⟩, [], w.tr.toList⟩

/-- What the option makes. -/
def TWant.spec (w : TWant) : CutSpec :=
  match w.group with
  | none => .fields w.set
  | some (d, name) => .group d name w.set

theorem TWant.add {env : CutEnv} {w : TWant} (h : w.Fine env) : ColumnSet.empty.add env.transOk w.text false = .ok w.set := by
  obtain ⟨h1, h2, h3, _⟩ := h
  cases ht : w.tr with
  | none =>
    rw [TWant.text, ht, List.append_nil, add_set env.transOk w.is h1 h2, TWant.set, ht]
    rfl
  | some t =>
    obtain ⟨g1, l, r, rfl, g2⟩ := h3 t ht
    rw [TWant.text, ht]
    simp only
    rw [colListText, C18_translator env.transOk .empty false w.is h1 h2 l r g2 g1, TWant.set, ht]
    have e1 : (w.is.filter fun i => i.tilde == false) = w.is.filter fun i => !i.tilde := by
      congr 1; funext i; cases i.tilde <;> rfl
    have e2 : (w.is.filter fun i => i.tilde != false) = w.is.filter fun i => i.tilde := by
      congr 1; funext i; cases i.tilde <;> rfl
    simp [ColumnSet.empty, e1, e2]

theorem noCols_trans (mk : Bytes → Res (Bytes → Bool)) (names : List Bytes) (k : Option Nat) (is : List ColItem) :
    noCols mk names (is.map fun i => ⟨i.body, k⟩) = noCols mk names (is.map part) := by
  induction is with
  | nil => rfl
  | cons i is ih => rw [List.map_cons, List.map_cons, noCols, noCols, ih]; rfl

theorem yesCols_trans (mk : Bytes → Res (Bytes → Bool)) (names : List Bytes) (no : List Nat) (k : Option Nat) (is : List ColItem) :
    yesCols mk names no (is.map fun i => ⟨i.body, k⟩) =
      (yesCols mk names no (is.map part)).bind fun w => .ok (w.map fun x => { x with trans := k }) := by
  induction is with
  | nil => rfl
  | cons i is ih =>
    rw [List.map_cons, List.map_cons, yesCols, yesCols, ih]
    show (range mk names i.body).bind _ = ((range mk names i.body).bind _).bind _
    cases range mk names i.body with
    | err => rfl
    | panic => rfl
    | ok v =>
      simp only [Res.bind_ok]
      cases yesCols mk names no (is.map part) with
      | err => rfl
      | panic => rfl
      | ok u => simp [Function.comp_def]

/-- Which transform the columns get: none, if there are only columns to leave out. -/
def TWant.which (w : TWant) : Option Nat := if w.is.all (fun i => i.tilde) then none else w.tr.map fun _ => 0

theorem TWant.lookup {env : CutEnv} {names : List Bytes} (hn : ∀ n ∈ names, IsName n) {w : TWant} (h : w.Fine env) (hs : w.Suits names)
    {v : List (Nat × Bytes)} (hv : pickedOf names w.is = some v) :
    ColumnSet.lookup env.colMatch w.set names = .ok (v.map fun x => ⟨x.1, x.2, w.which⟩) := by
  have := lookup_set env.colMatch names hn w.is h.1 h.2.1 hs.2 v hv
  unfold TWant.set
  dsimp only
  unfold ColumnSet.lookup at this ⊢
  dsimp only at this ⊢
  rw [noCols_trans]
  obtain ⟨no, h1, h2⟩ := Res.bind_eq_ok this
  rw [h1, Res.bind_ok]
  by_cases hp : (w.is.filter fun i => !i.tilde) = []
  · have ha : w.is.all (fun i => i.tilde) = true := by
      rw [List.all_eq_true]
      intro i hi
      have := List.filter_eq_nil_iff.1 hp i hi
      simpa using this
    rw [if_pos (by simpa using hp)] at h2 ⊢
    rw [h2, TWant.which, if_pos ha]
  · have ha : ¬ w.is.all (fun i => i.tilde) = true := by
      intro ha
      apply hp
      rw [List.filter_eq_nil_iff]
      intro i hi
      have := List.all_eq_true.1 ha i hi
      simpa using this
    rw [if_neg (by simpa using hp)] at h2 ⊢
    rw [yesCols_trans, h2, Res.bind_ok, TWant.which, if_neg ha, List.map_map]
    rfl

/-- What the columns get in fact. -/
def TWant.got (env : CutEnv) (w : TWant) (v : Bytes) : Option Bytes :=
  if w.is.all (fun i => i.tilde) then some v else w.made env v

theorem TWant.fetch (env : CutEnv) (w : TWant) (line : TextLine) (x : Nat × Bytes) :
    Cdx.fetch (transAt env w.tr.toList) line ⟨x.1, x.2, w.which⟩ = w.got env (line.vec.getD x.1 []) := by
  unfold Cdx.fetch TWant.which TWant.got TWant.made
  rw [get_getD]
  by_cases h : w.is.all (fun i => i.tilde) = true
  · rw [if_pos h, if_pos h]
  · rw [if_neg h, if_neg h]
    cases w.tr with
    | none => rfl
    | some t => rfl

theorem write3_none (tr : Nat → Bytes → Option Bytes) (wr : Bytes → Bytes) (d : UInt8) (l : TextLine) (columns : List OutCol)
    (h : ∃ x ∈ columns, Cdx.fetch tr l x = none) : ColumnSet.write3 tr wr d columns l = none := by
  have hnone : ∀ xs : List OutCol, xs.foldl (write3Step tr wr d l) none = none := by
    intro xs
    induction xs with
    | nil => rfl
    | cons x xs ih => rw [List.foldl_cons]; exact ih
  have hfold : ∀ (xs : List OutCol) (a : Bytes), (∃ x ∈ xs, Cdx.fetch tr l x = none) → xs.foldl (write3Step tr wr d l) (some a) = none := by
    intro xs
    induction xs with
    | nil => intro a ⟨x, hx, _⟩; simp at hx
    | cons x xs ih =>
      intro a hx
      rw [List.foldl_cons]
      cases hf : Cdx.fetch tr l x with
      | none => simp only [write3Step, hf]; exact hnone xs
      | some v =>
        simp only [write3Step, hf]
        apply ih
        obtain ⟨y, hy, e⟩ := hx
        rcases List.mem_cons.1 hy with rfl | hy
        · rw [hf] at e; simp at e
        · exact ⟨y, hy, e⟩
  cases columns with
  | nil => obtain ⟨x, hx, _⟩ := h; simp at hx
  | cons x xs =>
    unfold ColumnSet.write3
    dsimp only
    cases hf : Cdx.fetch tr l x with
    | none => rfl
    | some v =>
      dsimp only
      apply hfold
      obtain ⟨y, hy, e⟩ := h
      rcases List.mem_cons.1 hy with rfl | hy
      · rw [hf] at e; simp at e
      · exact ⟨y, hy, e⟩

theorem TWant.column {env : CutEnv} (t : TextMode) {names : List Bytes} (hn : ∀ n ∈ names, IsName n) {w : TWant} (h : w.Fine env) (hs : w.Suits names) :
    ∃ c, w.spec.lookup env names = .ok c ∧ c.names names = w.outNames names ∧ ∀ line : TextLine,
      (∀ f : Bytes → Bytes, (∀ v ∈ w.values names line, w.got env v = some (f v)) →
        w.cells f t names line ≠ [] ∧ c.write env t line = some (List.intercalate [t.delim] (w.cells f t names line))) ∧
      ((∃ v ∈ w.values names line, w.got env v = none) → c.write env t line = none) := by
  obtain ⟨⟨v, hv, hne⟩, _⟩ := id hs
  have hl := TWant.lookup hn h hs hv
  have hvals : ∀ line, w.values names line = v.map fun x => line.vec.getD x.1 [] := by
    intro line; simp [TWant.values, hv]
  have hw3 : ∀ (wr : Bytes → Bytes) (d : UInt8) (line : TextLine) (f : Bytes → Bytes), (∀ v ∈ w.values names line, w.got env v = some (f v)) →
      ColumnSet.write3 (transAt env w.tr.toList) wr d (v.map fun x => ⟨x.1, x.2, w.which⟩) line =
        some (List.intercalate [d] ((w.values names line).map fun v => wr (f v))) := by
    intro wr d line f hf
    rw [C21_write3 _ wr d line (fun x => f (line.vec.getD x.num [])) _ (by
      intro x hx
      obtain ⟨y, hy, rfl⟩ := List.mem_map.1 hx
      rw [TWant.fetch]
      exact hf _ (by rw [hvals]; exact List.mem_map.2 ⟨y, hy, rfl⟩)), hvals]
    simp [Function.comp_def]
  have hw0 : ∀ (wr : Bytes → Bytes) (d : UInt8) (line : TextLine), (∃ v ∈ w.values names line, w.got env v = none) →
      ColumnSet.write3 (transAt env w.tr.toList) wr d (v.map fun x => ⟨x.1, x.2, w.which⟩) line = none := by
    intro wr d line ⟨u, hu, e⟩
    rw [hvals] at hu
    obtain ⟨y, hy, rfl⟩ := List.mem_map.1 hu
    exact write3_none _ _ _ _ _ ⟨_, List.mem_map.2 ⟨y, hy, rfl⟩, by rw [TWant.fetch]; exact e⟩
  cases hg : w.group with
  | none =>
    refine ⟨.fields w.tr.toList (v.map fun x => ⟨x.1, x.2, w.which⟩), ?_, ?_, ?_⟩
    · rw [TWant.spec, hg]
      simp only [CutSpec.lookup, hl, Res.bind_ok]
      rfl
    · simp [CutCol.names, TWant.outNames, hg, hv, outName, Function.comp_def]
    · intro line
      refine ⟨?_, ?_⟩
      · intro f hf
        have e : w.cells f t names line = (w.values names line).map fun v => t.write (f v) := by rw [TWant.cells, hg]
        refine ⟨by rw [e, hvals]; simpa using hne, ?_⟩
        rw [e, CutCol.write, hw3 _ _ _ f hf]
      · intro hx
        rw [CutCol.write, hw0 _ _ _ hx]
  | some g =>
    obtain ⟨d, name⟩ := g
    refine ⟨.group d name w.tr.toList (v.map fun x => ⟨x.1, x.2, w.which⟩), ?_, ?_, ?_⟩
    · rw [TWant.spec, hg]
      simp only [CutSpec.lookup, hl, Res.bind_ok]
      rfl
    · simp [CutCol.names, TWant.outNames, hg]
    · intro line
      refine ⟨?_, ?_⟩
      · intro f hf
        have e : w.cells f t names line = [List.intercalate [d] ((w.values names line).map fun v => blanked d (f v))] := by rw [TWant.cells, hg]
        refine ⟨by rw [e]; simp, ?_⟩
        rw [e, CutCol.write, hw3 _ _ _ f hf]
        simp only [group_write]
        simp
      · intro hx
        rw [CutCol.write, hw0 _ _ _ hx]

theorem TWant.options (env : CutEnv) (dups : DupColHandling) (ws : List TWant) (h : ∀ w ∈ ws, w.Fine env) :
    cutOptions env dups (ws.map TWant.opt) = .ok (dups, ws.map TWant.spec) := by
  induction ws with
  | nil => rfl
  | cons w ws ih =>
    have hw := h w (by simp)
    rw [List.map_cons, show w.opt = (w.opt.1, w.opt.2) from rfl, cutOptions, ih (fun x hx => h x (by simp [hx]))]
    have n1 : ascii "fields" ≠ ascii "dups" := by decide
    have n2 : ascii "group" ≠ ascii "dups" := by decide
    have n5 : ascii "group" ≠ ascii "fields" := by decide
    cases hg : w.group with
    | none => simp only [TWant.opt, hg, n1, if_false, if_true, TWant.add hw, Res.bind_ok, List.map_cons, TWant.spec]
    | some g =>
      obtain ⟨d, name⟩ := g
      obtain ⟨h1, h2⟩ := hw.2.2.2 _ hg
      have hd : ¬ (d ≥ 128) := by simpa using h1
      simp only [TWant.opt, hg, n2, n5, if_false, if_true, List.cons_append, groupSpec, hd, splitOnce_some 58 name _ h2,
        TWant.add hw, Res.bind_ok, List.map_cons, TWant.spec]

theorem TWant.columns {env : CutEnv} (t : TextMode) {names : List Bytes} (hn : ∀ n ∈ names, IsName n) (ws : List TWant)
    (hf : ∀ w ∈ ws, w.Fine env) (hs : ∀ w ∈ ws, w.Suits names) :
    ∃ cs, cutLookup env names (ws.map TWant.spec) = .ok cs ∧ cs.flatMap (·.names names) = ws.flatMap (TWant.outNames names) ∧
      ∀ (line : TextLine) (f : Option Bytes → Bytes → Bytes), (∀ w ∈ ws, ∀ v ∈ w.values names line, w.got env v = some (f w.tr v)) →
        cs.map (fun c => c.write env t line) =
          (ws.map fun w => w.cells (f w.tr) t names line).map (fun v => some (List.intercalate [t.delim] v)) ∧
        ∀ v ∈ ws.map fun w => w.cells (f w.tr) t names line, v ≠ [] := by
  induction ws with
  | nil => exact ⟨[], rfl, rfl, fun line f _ => ⟨rfl, by simp⟩⟩
  | cons w ws ih =>
    obtain ⟨cs, h1, h2, h3⟩ := ih (fun x hx => hf x (by simp [hx])) (fun x hx => hs x (by simp [hx]))
    obtain ⟨c, g1, g2, g3⟩ := TWant.column t hn (hf w (by simp)) (hs w (by simp))
    refine ⟨c :: cs, ?_, ?_, ?_⟩
    · rw [List.map_cons, cutLookup, g1, h1]; rfl
    · rw [List.flatMap_cons, List.flatMap_cons, g2, h2]
    · intro line f hfv
      obtain ⟨a1, a2⟩ := h3 line f (fun x hx => hfv x (by simp [hx]))
      obtain ⟨b1, b2⟩ := (g3 line).1 (f w.tr) (hfv w (by simp))
      refine ⟨by rw [List.map_cons, List.map_cons, List.map_cons, a1, b2], ?_⟩
      intro v hv
      simp only [List.map_cons, List.mem_cons] at hv
      rcases hv with rfl | hv
      · exact b1
      · exact a2 v hv

/-- The row for a line, given what the transforms make of values. -/
def tRow (f : Option Bytes → Bytes → Bytes) (m t : TextMode) (names : List Bytes) (ws : List TWant) (l : Bytes) : Bytes :=
  List.intercalate [t.delim] (ws.flatMap fun w => w.cells (f w.tr) t names (decoded m l)) ++ [NL]

/-- The header for a file, nothing if it has none. -/
def tHead (m t : TextMode) (ws : List TWant) (f : Bytes) : Bytes :=
  if ((Reader.newWith 1 m).open_ f).hasHeader then headText t (ws.flatMap (TWant.outNames (namesOf m f))) else []

/-- What is asked for suits a file: the names are names, what is asked for is among them, and the columns written have names, each one
once. -/
def TSuits (m : TextMode) (ws : List TWant) (f : Bytes) : Prop :=
  (∀ n ∈ namesOf m f, IsName n) ∧ (∀ w ∈ ws, w.Suits (namesOf m f)) ∧ (ws.flatMap (TWant.outNames (namesOf m f))).Nodup ∧
    ∀ n ∈ ws.flatMap (TWant.outNames (namesOf m f)), IsName n

variable {m : TextMode}

theorem cutLoop_rows (env : CutEnv) (t : TextMode) (cs : List CutCol) (row : Bytes → Bytes) (L : List Bytes) :
    ∀ (fuel : Nat) (r : Reader) (d : Bytes) (o : TextLine), L.length < fuel → View m true (decoded m d) o L r →
      (m.col = .plain → o.orig = []) →
      (∀ l ∈ d :: L, writerWrite t.delim (cs.map fun c l => c.write env t l) (decoded m l) = some (row l)) →
      cutLoop env t cs fuel r = some ((d :: L).flatMap row) := by
  induction L with
  | nil =>
    intro fuel r d o hf hv _ hrow
    obtain ⟨fuel, rfl⟩ : ∃ k, fuel = k + 1 := ⟨fuel - 1, by simp at hf; omega⟩
    simp [cutLoop, hv.cur, hrow d (by simp), hv.end_.1]
  | cons l L ih =>
    intro fuel r d o hf hv ho hrow
    obtain ⟨fuel, rfl⟩ : ∃ k, fuel = k + 1 := ⟨fuel - 1, by simp at hf; omega⟩
    have hn := hv.next
    rw [putLine_decoded o l ho] at hn
    have := ih fuel _ l _ (by simp at hf; omega) hn (decoded_orig d) (fun x hx => hrow x (List.mem_cons_of_mem _ hx))
    simp [cutLoop, hv.cur, hrow d (by simp), hn.more, this]

theorem tFile (env : CutEnv) (nameOk : Bytes → Bool) (t : TextMode) (dups : DupColHandling) (ws : List TWant) (hws : ws ≠ [])
    (hf : ∀ w ∈ ws, w.Fine env) (chk : HeaderChecker) (f : Bytes) (hne : (readHeader m f).isSome = true) (hs : TSuits m ws f)
    (g : Option Bytes → Bytes → Bytes)
    (hg : ∀ l ∈ dataOf m f, ∀ w ∈ ws, ∀ v ∈ w.values (namesOf m f) (decoded m l), w.got env v = some (g w.tr v)) :
    cutFile env nameOk m t dups (ws.map TWant.spec) chk f =
      match chk.check nameOk (tHead m t ws f) with
      | none => .err
      | some (c, b) => .ok (c, (if b then tHead m t ws f else []) ++ (dataOf m f).flatMap (tRow g m t (namesOf m f) ws)) := by
  obtain ⟨hn, hs, ho, hv⟩ := hs
  obtain ⟨cs, h1, h2, h3⟩ := TWant.columns t hn ws hf hs
  have hrow : ∀ l ∈ dataOf m f, writerWrite t.delim (cs.map fun c l => c.write env t l) (decoded m l) = some (tRow g m t (namesOf m f) ws l) := by
    intro l hl
    obtain ⟨a1, a2⟩ := h3 (decoded m l) g (hg l hl)
    rw [C21_writer t.delim (decoded m l) _ (ws.map fun w => w.cells (g w.tr) t (namesOf m f) (decoded m l)) (by
      rw [← a1]; simp [Function.comp_def]) a2]
    simp [tRow, List.flatMap_def]
  have hoc : ws.flatMap (TWant.outNames (namesOf m f)) ≠ [] := by
    intro e
    cases ws with
    | nil => exact hws rfl
    | cons w ws =>
      rw [List.flatMap_cons, List.append_eq_nil_iff] at e
      obtain ⟨⟨v, hv, hne⟩, _⟩ := hs w (by simp)
      cases hgr : w.group with
      | none => simp [TWant.outNames, hgr, hv] at e; exact hne e.1
      | some q => simp [TWant.outNames, hgr] at e
  have hemp : ((Reader.newWith 1 m).open_ f).isEmpty = false := by
    rw [open_isEmpty]
    cases h : readHeader m f with
    | none => rw [h] at hne; simp at hne
    | some p => rfl
  have hnames : ((Reader.newWith 1 m).open_ f).names = namesOf m f := rfl
  have hpush : cutNames ⟨[], dups, []⟩ (namesOf m f) cs = .ok ⟨ws.flatMap (TWant.outNames (namesOf m f)), dups, []⟩ := by
    rw [cutNames, h2, pushAll_fresh dups [] _ [] (fun n hn' => ((isValid_iff n).2 (hv n hn')).2) (by simpa using ho), List.nil_append]
  have hhead : (if ((Reader.newWith 1 m).open_ f).hasHeader then getHead t (ws.flatMap (TWant.outNames (namesOf m f))) else .ok []) =
      .ok (tHead m t ws f) := by
    unfold tHead
    split
    · simp [getHead, hoc, headText]
    · rfl
  unfold cutFile
  simp only [hemp, Bool.false_eq_true, if_false, hnames, h1, hpush, Res.bind_ok, hhead]
  cases hc : chk.check nameOk (tHead m t ws f) with
  | none => rfl
  | some p =>
    obtain ⟨c, b⟩ := p
    simp only [open_done]
    cases hD : dataOf m f with
    | nil => simp
    | cons d D =>
      cases hh : readHeader m f with
      | none => simp [hh] at hne
      | some p =>
        obtain ⟨hd, rest⟩ := p
        have hD' : readLines m.col m.eol rest = d :: D := by simpa [dataOf, hh] using hD
        have hvw := view_open m f hd rest d D hh hD'
        have hl : D.length < ((Reader.newWith 1 m).open_ f).file.length + 1 := by
          have := hvw.file
          have h2 := readLines_length m.col m.eol ((Reader.newWith 1 m).open_ f).file
          rw [this] at h2
          omega
        rw [cutLoop_rows env t cs (tRow g m t (namesOf m f) ws) D _ _ d _ hl hvw (fun _ => rfl) (by rw [← hD]; exact hrow)]
        simp

/-- The output: for each file its header, if it is to be shown, and its rows. -/
def tOutput (g : Option Bytes → Bytes → Bytes) (m t : TextMode) (ws : List TWant) (files : List Bytes) (shown : List Bool) : Bytes :=
  (files.zip shown).flatMap fun x => (if x.2 then tHead m t ws x.1 else []) ++ (dataOf m x.1).flatMap (tRow g m t (namesOf m x.1) ws)

/-- `cut` with transforms writes for each file the header, if the checker says so, and a row for each line: the columns asked for in
order, every value first changed by the transform asked for. -/
def C223_statement : Prop := ∀ (env : CutEnv) (nameOk : Bytes → Bool) (m t : TextMode) (mode : HeaderMode) (ws : List TWant), ws ≠ [] →
  (∀ w ∈ ws, w.Fine env) → ∀ (files : List Bytes) (g : Option Bytes → Bytes → Bytes), (∀ f ∈ notEmpty m files, TSuits m ws f ∧
    ∀ l ∈ dataOf m f, ∀ w ∈ ws, ∀ v ∈ w.values (namesOf m f) (decoded m l), w.made env v = some (g w.tr v)) →
  cutMain env nameOk m t mode (ws.map TWant.opt) files =
    match (HeaderChecker.fromMode mode).checkAll nameOk ((notEmpty m files).map (tHead m t ws)) with
    | none => .err
    | some shown => .ok (tOutput g m t ws (notEmpty m files) shown)

theorem tFiles (env : CutEnv) (nameOk : Bytes → Bool) (t : TextMode) (dups : DupColHandling) (ws : List TWant) (hws : ws ≠ [])
    (hf : ∀ w ∈ ws, w.Fine env) (files : List Bytes) (g : Option Bytes → Bytes → Bytes) (hfile : ∀ f ∈ notEmpty m files, TSuits m ws f ∧
      ∀ l ∈ dataOf m f, ∀ w ∈ ws, ∀ v ∈ w.values (namesOf m f) (decoded m l), w.got env v = some (g w.tr v)) : ∀ chk : HeaderChecker,
    cutFiles env nameOk m t dups (ws.map TWant.spec) chk files =
      match chk.checkAll nameOk ((notEmpty m files).map (tHead m t ws)) with
      | none => .err
      | some shown => .ok (tOutput g m t ws (notEmpty m files) shown) := by
  induction files with
  | nil => intro chk; rfl
  | cons f fs ih =>
    intro chk
    cases hne : (readHeader m f).isSome with
    | false =>
      have e : notEmpty m (f :: fs) = notEmpty m fs := by simp [notEmpty, hne]
      rw [e] at hfile ⊢
      have hemp : ((Reader.newWith 1 m).open_ f).isEmpty = true := by
        rw [open_isEmpty]
        cases h : readHeader m f with
        | none => rfl
        | some p => rw [h] at hne; simp at hne
      rw [cutFiles]
      unfold cutFile
      simp only [hemp, if_true, Res.bind_ok, ih hfile chk]
      cases chk.checkAll nameOk ((notEmpty m fs).map (tHead m t ws)) <;> simp
    | true =>
      have e : notEmpty m (f :: fs) = f :: notEmpty m fs := by simp [notEmpty, hne]
      rw [e] at hfile ⊢
      obtain ⟨a1, a2⟩ := hfile f (by simp)
      rw [cutFiles, tFile env nameOk t dups ws hws hf chk f hne a1 g a2, List.map_cons, HeaderChecker.checkAll]
      cases hc : chk.check nameOk (tHead m t ws f) with
      | none => rfl
      | some p =>
        obtain ⟨c, b⟩ := p
        simp only [Res.bind_ok]
        rw [ih (fun x hx => hfile x (by simp [hx])) c]
        cases c.checkAll nameOk ((notEmpty m fs).map (tHead m t ws)) with
        | none => rfl
        | some sh => simp [tOutput]

theorem tMain (env : CutEnv) (nameOk : Bytes → Bool) (m t : TextMode) (mode : HeaderMode) (ws : List TWant) (hws : ws ≠ [])
    (hf : ∀ w ∈ ws, w.Fine env) (files : List Bytes) (g : Option Bytes → Bytes → Bytes) (hfile : ∀ f ∈ notEmpty m files, TSuits m ws f ∧
      ∀ l ∈ dataOf m f, ∀ w ∈ ws, ∀ v ∈ w.values (namesOf m f) (decoded m l), w.got env v = some (g w.tr v)) :
    cutMain env nameOk m t mode (ws.map TWant.opt) files =
      match (HeaderChecker.fromMode mode).checkAll nameOk ((notEmpty m files).map (tHead m t ws)) with
      | none => .err
      | some shown => .ok (tOutput g m t ws (notEmpty m files) shown) := by
  unfold cutMain
  rw [TWant.options env .fail ws hf, Res.bind_ok, if_neg (by simpa using hws), tFiles env nameOk t .fail ws hws hf files g hfile]

/-- The statement holds if each option also names a column that is not to be left out. -/
theorem C223_cut_partial (env : CutEnv) (nameOk : Bytes → Bool) (m t : TextMode) (mode : HeaderMode) (ws : List TWant) (hws : ws ≠ [])
    (hf : ∀ w ∈ ws, w.Fine env) (hpos : ∀ w ∈ ws, ∃ i ∈ w.is, i.tilde = false) (files : List Bytes) (g : Option Bytes → Bytes → Bytes)
    (hfile : ∀ f ∈ notEmpty m files, TSuits m ws f ∧
      ∀ l ∈ dataOf m f, ∀ w ∈ ws, ∀ v ∈ w.values (namesOf m f) (decoded m l), w.made env v = some (g w.tr v)) :
    cutMain env nameOk m t mode (ws.map TWant.opt) files =
      match (HeaderChecker.fromMode mode).checkAll nameOk ((notEmpty m files).map (tHead m t ws)) with
      | none => .err
      | some shown => .ok (tOutput g m t ws (notEmpty m files) shown) := by
  refine tMain env nameOk m t mode ws hws hf files g fun f hm => ⟨(hfile f hm).1, ?_⟩
  intro l hl w hw v hv
  have : ¬ w.is.all (fun i => i.tilde) = true := by
    intro h
    obtain ⟨i, hi, e⟩ := hpos w hw
    have := List.all_eq_true.1 h i hi
    simp [e] at this
  rw [TWant.got, if_neg this]
  exact (hfile f hm).2 l hl w hw v hv

/-- If an option only says what to leave out, its transform has no effect: the same is written without it. -/
theorem C223_only_left_out (env : CutEnv) (nameOk : Bytes → Bool) (m t : TextMode) (mode : HeaderMode) (ws : List TWant) (hws : ws ≠ [])
    (hf : ∀ w ∈ ws, w.Fine env) (hneg : ∀ w ∈ ws, ∀ i ∈ w.is, i.tilde = true) (files : List Bytes) (hfile : ∀ f ∈ notEmpty m files, TSuits m ws f) :
    cutMain env nameOk m t mode (ws.map TWant.opt) files = cutMain env nameOk m t mode (ws.map fun w => ({ w with tr := none } : TWant).opt) files := by
  have hall : ∀ w ∈ ws, w.is.all (fun i => i.tilde) = true := fun w hw => List.all_eq_true.2 (hneg w hw)
  rw [tMain env nameOk m t mode ws hws hf files (fun _ v => v) fun f hm => ⟨hfile f hm, fun l hl w hw v hv => by rw [TWant.got, if_pos (hall w hw)]⟩]
  have e := tMain env nameOk m t mode (ws.map fun w => ({ w with tr := none } : TWant)) (by simpa using hws) (by
    intro w hw
    obtain ⟨u, hu, rfl⟩ := List.mem_map.1 hw
    obtain ⟨h1, h2, _, h4⟩ := hf u hu
    exact ⟨h1, h2, by simp, h4⟩) files (fun _ v => v) (by
    intro f hm
    obtain ⟨h1, h2, h3, h4⟩ := hfile f hm
    have en : (ws.map fun w => ({ w with tr := none } : TWant)).flatMap (TWant.outNames (namesOf m f)) =
        ws.flatMap (TWant.outNames (namesOf m f)) := by rw [List.flatMap_map]; rfl
    refine ⟨⟨h1, ?_, by rw [en]; exact h3, by rw [en]; exact h4⟩, ?_⟩
    · intro w hw
      obtain ⟨u, hu, rfl⟩ := List.mem_map.1 hw
      exact h2 u hu
    · intro l hl w hw v hv
      obtain ⟨u, hu, rfl⟩ := List.mem_map.1 hw
      rw [TWant.got, if_pos (hall u hu)])
  rw [List.map_map] at e
  have e2 : (TWant.opt ∘ fun w : TWant => ({ w with tr := none } : TWant)) = fun w => ({ w with tr := none } : TWant).opt := rfl
  rw [e2] at e
  rw [e]
  have eh : tHead m t (ws.map fun w => ({ w with tr := none } : TWant)) = tHead m t ws := by
    funext f
    unfold tHead
    rw [List.flatMap_map]
    rfl
  have er : ∀ names, tRow (fun _ v => v) m t names (ws.map fun w => ({ w with tr := none } : TWant)) = tRow (fun _ v => v) m t names ws := by
    intro names
    funext l
    unfold tRow
    rw [List.flatMap_map]
    rfl
  rw [eh]
  unfold tOutput
  simp only [eh, er]

/-! ## Transforms that fail -/

theorem writerWrite_none (d : UInt8) (ws : List (TextLine → Option Bytes)) (line : TextLine) (h : ∃ w ∈ ws, w line = none) :
    writerWrite d ws line = none := by
  have hrest : ∀ ws : List (TextLine → Option Bytes), (∃ w ∈ ws, w line = none) → writerRest d ws line = none := by
    intro ws
    induction ws with
    | nil => intro ⟨w, hw, _⟩; simp at hw
    | cons x xs ih =>
      intro ⟨w, hw, e⟩
      unfold writerRest
      cases hx : x line with
      | none => rfl
      | some v =>
        rcases List.mem_cons.1 hw with rfl | hw
        · rw [hx] at e; simp at e
        · dsimp only
          rw [ih ⟨w, hw, e⟩]
  cases ws with
  | nil => obtain ⟨w, hw, _⟩ := h; simp at hw
  | cons x xs =>
    obtain ⟨w, hw, e⟩ := h
    unfold writerWrite
    dsimp only
    cases hx : x line with
    | none => rfl
    | some v =>
      rcases List.mem_cons.1 hw with rfl | hw
      · rw [hx] at e; simp at e
      · dsimp only
        rw [hrest xs ⟨w, hw, e⟩]

theorem cutLoop_none (env : CutEnv) (t : TextMode) (cs : List CutCol) (L : List Bytes) :
    ∀ (fuel : Nat) (r : Reader) (d : Bytes) (o : TextLine), L.length < fuel → View m true (decoded m d) o L r →
      (m.col = .plain → o.orig = []) →
      (∃ l ∈ d :: L, writerWrite t.delim (cs.map fun c l => c.write env t l) (decoded m l) = none) → cutLoop env t cs fuel r = none := by
  induction L with
  | nil =>
    intro fuel r d o hf hv _ ⟨l, hl, e⟩
    obtain ⟨fuel, rfl⟩ : ∃ k, fuel = k + 1 := ⟨fuel - 1, by simp at hf; omega⟩
    simp only [List.mem_singleton] at hl
    subst hl
    rw [cutLoop, hv.cur, e]
    rfl
  | cons l L ih =>
    intro fuel r d o hf hv ho ⟨x, hx, e⟩
    obtain ⟨fuel, rfl⟩ : ∃ k, fuel = k + 1 := ⟨fuel - 1, by simp at hf; omega⟩
    rw [cutLoop, hv.cur]
    cases hd : writerWrite t.delim (cs.map fun c l => c.write env t l) (decoded m d) with
    | none => rfl
    | some u =>
      have hn := hv.next
      rw [putLine_decoded o l ho] at hn
      rcases List.mem_cons.1 hx with rfl | hx
      · rw [hd] at e; simp at e
      · have := ih fuel _ l _ (by simp at hf; omega) hn (decoded_orig d) ⟨x, hx, e⟩
        simp [hn.more, this]

/-- If a transform fails on a value of a file, `cut` panics, unless the header was refused. -/
theorem C223_fails (env : CutEnv) (nameOk : Bytes → Bool) (m t : TextMode) (mode : HeaderMode) (ws : List TWant) (hws : ws ≠ [])
    (hf : ∀ w ∈ ws, w.Fine env) (f : Bytes) (hs : TSuits m ws f)
    (hbad : ∃ l ∈ dataOf m f, ∃ w ∈ ws, (∃ i ∈ w.is, i.tilde = false) ∧ ∃ v ∈ w.values (namesOf m f) (decoded m l), w.made env v = none) :
    cutMain env nameOk m t mode (ws.map TWant.opt) [f] =
      match (HeaderChecker.fromMode mode).check nameOk (tHead m t ws f) with
      | none => .err
      | some _ => .panic := by
  obtain ⟨hn, hs, ho, hv⟩ := hs
  obtain ⟨x, hx, w, hw, ⟨i, hi, hit⟩, v, hvv, hnone⟩ := hbad
  have hgot : w.got env v = none := by
    have : ¬ w.is.all (fun i => i.tilde) = true := by
      intro h
      have := List.all_eq_true.1 h i hi
      simp [hit] at this
    rw [TWant.got, if_neg this, hnone]
  have key : ∀ ws : List TWant, w ∈ ws → (∀ w ∈ ws, w.Fine env) → (∀ w ∈ ws, w.Suits (namesOf m f)) →
      ∃ cs, cutLookup env (namesOf m f) (ws.map TWant.spec) = .ok cs ∧
      cs.flatMap (·.names (namesOf m f)) = ws.flatMap (TWant.outNames (namesOf m f)) ∧ ∃ c ∈ cs, c.write env t (decoded m x) = none := by
    intro ws
    induction ws with
    | nil => intro h; simp at h
    | cons u us ih =>
      intro hm hf hs
      obtain ⟨c, g1, g2, g3⟩ := TWant.column t hn (hf u (by simp)) (hs u (by simp))
      obtain ⟨cs, h1, h2, _⟩ := TWant.columns t hn us (fun y hy => hf y (by simp [hy])) (fun y hy => hs y (by simp [hy]))
      rcases List.mem_cons.1 hm with rfl | hm
      · refine ⟨c :: cs, by rw [List.map_cons, cutLookup, g1, h1]; rfl, by rw [List.flatMap_cons, List.flatMap_cons, g2, h2], c, by simp, ?_⟩
        exact (g3 _).2 ⟨v, hvv, hgot⟩
      · obtain ⟨cs, h1, h2, d, hd, e⟩ := ih hm (fun y hy => hf y (by simp [hy])) (fun y hy => hs y (by simp [hy]))
        exact ⟨c :: cs, by rw [List.map_cons, cutLookup, g1, h1]; rfl, by rw [List.flatMap_cons, List.flatMap_cons, g2, h2], d, by simp [hd], e⟩
  obtain ⟨cs, h1, h2, c, hc, hcn⟩ := key ws hw hf hs
  have hrow : writerWrite t.delim (cs.map fun c l => c.write env t l) (decoded m x) = none :=
    writerWrite_none _ _ _ ⟨_, List.mem_map.2 ⟨c, hc, rfl⟩, hcn⟩
  have hoc : ws.flatMap (TWant.outNames (namesOf m f)) ≠ [] := by
    intro e
    cases ws with
    | nil => exact hws rfl
    | cons w ws =>
      rw [List.flatMap_cons, List.append_eq_nil_iff] at e
      obtain ⟨⟨v, hv, hne⟩, _⟩ := hs w (by simp)
      cases hgr : w.group with
      | none => simp [TWant.outNames, hgr, hv] at e; exact hne e.1
      | some q => simp [TWant.outNames, hgr] at e
  have hne : (readHeader m f).isSome = true := by
    cases h : readHeader m f with
    | none => simp [dataOf, h] at hx
    | some p => rfl
  have hemp : ((Reader.newWith 1 m).open_ f).isEmpty = false := by
    rw [open_isEmpty]
    cases h : readHeader m f with
    | none => rw [h] at hne; simp at hne
    | some p => rfl
  have hnames : ((Reader.newWith 1 m).open_ f).names = namesOf m f := rfl
  have hpush : cutNames ⟨[], .fail, []⟩ (namesOf m f) cs = .ok ⟨ws.flatMap (TWant.outNames (namesOf m f)), .fail, []⟩ := by
    rw [cutNames, h2, pushAll_fresh .fail [] _ [] (fun n hn' => ((isValid_iff n).2 (hv n hn')).2) (by simpa using ho), List.nil_append]
  have hhead : (if ((Reader.newWith 1 m).open_ f).hasHeader then getHead t (ws.flatMap (TWant.outNames (namesOf m f))) else .ok []) =
      .ok (tHead m t ws f) := by
    unfold tHead
    split
    · simp [getHead, hoc, headText]
    · rfl
  unfold cutMain
  rw [TWant.options env .fail ws hf, Res.bind_ok, if_neg (by simpa using hws), cutFiles]
  unfold cutFile
  simp only [hemp, Bool.false_eq_true, if_false, hnames, h1, hpush, Res.bind_ok, hhead]
  cases hck : (HeaderChecker.fromMode mode).check nameOk (tHead m t ws f) with
  | none => rfl
  | some p =>
    obtain ⟨k, b⟩ := p
    simp only [open_done]
    cases hD : dataOf m f with
    | nil => rw [hD] at hx; simp at hx
    | cons d D =>
      cases hh : readHeader m f with
      | none => simp [hh] at hne
      | some p =>
        obtain ⟨hd, rest⟩ := p
        have hD' : readLines m.col m.eol rest = d :: D := by simpa [dataOf, hh] using hD
        have hvw := view_open m f hd rest d D hh hD'
        have hl : D.length < ((Reader.newWith 1 m).open_ f).file.length + 1 := by
          have := hvw.file
          have h2 := readLines_length m.col m.eol ((Reader.newWith 1 m).open_ f).file
          rw [this] at h2
          omega
        rw [cutLoop_none env t cs D _ _ d _ hl hvw (fun _ => rfl) ⟨x, by rw [← hD]; exact hx, hrow⟩]
        simp

/-! ## The transforms of the program -/

/-- `cut` with the transforms that the program has (`src/trans.rs` 206-240); names of columns are not matched, and there are no formulas. -/
def transEnv (o : TransOps) (known : Bool) : CutEnv where
  transOk s := match transListNew known s with
    | .ok _ => true
    | _ => false
  trans s v := match transListNew known s with
    | .ok l => (match transList o l [] [] v with
      | .ok x => some x
      | _ => none)
    | _ => none
  colMatch _ := .err
  compiles _ := false
  eval _ _ := .err

/-- So the value of a column is what the transforms of its text make of the value of the file, one after the other. -/
theorem C223_transforms (o : TransOps) (known : Bool) (w : TWant) (s : Bytes) (hs : w.tr = some s) (l : List Trans)
    (hl : transListNew known s = .ok l) (v x : Bytes) :
    (w.made (transEnv o known) v = some x ↔ pipeline (l.map (Trans.apply o)) v = .ok x) ∧
    (w.made (transEnv o known) v = none ↔ ∀ y, pipeline (l.map (Trans.apply o)) v ≠ .ok y) := by
  have e : w.made (transEnv o known) v = match pipeline (l.map (Trans.apply o)) v with
      | .ok x => some x
      | _ => none := by
    rw [← C49_spec o known s l hl [] [] v, TWant.made, hs]
    simp only [transEnv, hl]
  rw [e]
  cases pipeline (l.map (Trans.apply o)) v <;> simp

/-! ## Examples -/

theorem one_fine (tilde : Bool) (c : UInt8) (h : isAlpha c = true) : ∀ i ∈ [(⟨tilde, none, .one (.name [c])⟩ : ColItem)], i.WF := by
  intro i hi
  simp only [List.mem_singleton] at hi
  subst hi
  exact ⟨by simp, by simp only [Sel.refs, List.mem_singleton, forall_eq]; exact name_one c h⟩

/-- `~b+upper`. -/
def leftOut : TWant := ⟨none, [⟨true, none, .one (.name [98])⟩], some (ascii "upper")⟩

/-- `,g:a+upper+bytes,1-2`. -/
def shortened : TWant := ⟨some (44, [103]), [⟨false, none, .one (.name [97])⟩], some (ascii "upper+bytes,1-2")⟩

/-- `b+from_base64`. -/
def undone : TWant := ⟨none, [⟨false, none, .one (.name [98])⟩], some (ascii "from_base64")⟩

theorem leftOut_fine : leftOut.Fine (transEnv .plain true) :=
  ⟨by simp [leftOut], one_fine true 98 (by decide), by
    intro t ht
    simp only [leftOut, Option.some.injEq] at ht
    subst ht
    exact ⟨by decide +kernel, _, _, rfl, by decide⟩, by simp [leftOut]⟩

theorem shortened_fine : shortened.Fine (transEnv .plain true) :=
  ⟨by simp [shortened], one_fine false 97 (by decide), by
    intro t ht
    simp only [shortened, Option.some.injEq] at ht
    subst ht
    exact ⟨by decide +kernel, _, _, rfl, by decide⟩, by
    intro g hg
    simp only [shortened, Option.some.injEq] at hg
    subst hg
    exact ⟨by decide, by decide⟩⟩

theorem undone_fine : undone.Fine (transEnv .plain true) :=
  ⟨by simp [undone], one_fine false 98 (by decide), by
    intro t ht
    simp only [undone, Option.some.injEq] at ht
    subst ht
    exact ⟨by decide +kernel, _, _, rfl, by decide⟩, by simp [undone]⟩

/-- A table with two columns. -/
def twoCols : Bytes := ascii " CDX\ta\tb\nxyz\tc\nuvw\td\n"

theorem twoCols_names : namesOf .default twoCols = [[97], [98]] := by decide +kernel

theorem twoCols_data : dataOf .default twoCols = [ascii "xyz\tc\n", ascii "uvw\td\n"] := by decide +kernel

theorem name_fair (tilde : Bool) (c : UInt8) : ∀ i ∈ [(⟨tilde, none, .one (.name [c])⟩ : ColItem)], ∀ r ∈ i.sel.refs, r.Fair [[97], [98]] := by
  intro i hi
  simp only [List.mem_singleton] at hi
  subst hi
  simp [Sel.refs, ColRef.Fair]

theorem two_names : ∀ n ∈ ([[97], [98]] : List Bytes), IsName n := by
  intro n hn
  simp only [List.mem_cons, List.not_mem_nil, or_false] at hn
  rcases hn with rfl | rfl
  · exact name_one 97 (by decide)
  · exact name_one 98 (by decide)

theorem leftOut_suits : TSuits .default [leftOut] twoCols := by
  unfold TSuits
  rw [twoCols_names]
  refine ⟨two_names, ?_, by decide +kernel, ?_⟩
  · simp only [List.mem_singleton, forall_eq]
    exact ⟨⟨[(0, [])], by decide +kernel, by simp⟩, name_fair true 98⟩
  · have e : [leftOut].flatMap (TWant.outNames [[97], [98]]) = [[97]] := by decide +kernel
    rw [e]
    simp only [List.mem_singleton, forall_eq]
    exact name_one 97 (by decide)

/-- With `~b+upper` the values of `a` are left as they are. -/
theorem C223_refuted : ¬ C223_statement := by
  intro h
  have := h (transEnv .plain true) (fun _ => true) .default .default .matching [leftOut] (by simp) (by
    simp only [List.mem_singleton, forall_eq]; exact leftOut_fine) [twoCols] (fun _ v => v.map upperByte) (by
    intro f hm
    have e : f = twoCols := by
      have := (List.mem_filter.1 hm).1
      simpa using this
    subst e
    refine ⟨leftOut_suits, ?_⟩
    intro l _ w hw v _
    simp only [List.mem_singleton] at hw
    subst hw
    have hl : transListNew true (ascii "upper") = .ok [.upper] := by decide +kernel
    exact ((C223_transforms .plain true leftOut _ rfl _ hl v _).1).2 rfl)
  revert this
  decide +kernel

example : cutMain (transEnv .plain true) (fun _ => true) .default .default .matching [leftOut.opt] [twoCols] =
    cutMain (transEnv .plain true) (fun _ => true) .default .default .matching [({ leftOut with tr := none } : TWant).opt] [twoCols] :=
  C223_only_left_out (transEnv .plain true) (fun _ => true) .default .default .matching [leftOut] (by simp) (by
    simp only [List.mem_singleton, forall_eq]; exact leftOut_fine) (by
    simp only [List.mem_singleton, forall_eq]; decide) [twoCols] (by
    intro f hm
    have e : f = twoCols := by
      have := (List.mem_filter.1 hm).1
      simpa using this
    subst e
    exact leftOut_suits)

theorem shortened_suits : TSuits .default [shortened] twoCols := by
  unfold TSuits
  rw [twoCols_names]
  refine ⟨two_names, ?_, by decide +kernel, ?_⟩
  · simp only [List.mem_singleton, forall_eq]
    exact ⟨⟨[(0, [])], by decide +kernel, by simp⟩, name_fair false 97⟩
  · have e : [shortened].flatMap (TWant.outNames [[97], [98]]) = [[103]] := by decide +kernel
    rw [e]
    simp only [List.mem_singleton, forall_eq]
    exact name_one 103 (by decide)

/-- `--group ,g:a+upper+bytes,1-2`: the first two bytes in upper case. -/
example : cutMain (transEnv .plain true) (fun _ => true) .default .default .matching [shortened.opt] [twoCols] = .ok (ascii " CDX\tg\nXY\nUV\n") := by
  have h := C223_cut_partial (transEnv .plain true) (fun _ => true) .default .default .matching [shortened] (by simp) (by
    simp only [List.mem_singleton, forall_eq]; exact shortened_fine) (by
    simp only [List.mem_singleton, forall_eq]; exact ⟨_, List.mem_singleton.2 rfl, rfl⟩) [twoCols]
    (fun _ v => bytesTrans [⟨0, 2⟩] (v.map upperByte)) (by
    intro f hm
    have e : f = twoCols := by
      have := (List.mem_filter.1 hm).1
      simpa using this
    subst e
    refine ⟨shortened_suits, ?_⟩
    intro l _ w hw v _
    simp only [List.mem_singleton] at hw
    subst hw
    have hl : transListNew true (ascii "upper+bytes,1-2") = .ok [.upper, .bytes [⟨0, 2⟩]] := by decide +kernel
    exact ((C223_transforms .plain true shortened _ rfl _ hl v _).1).2 rfl)
  exact h.trans (by decide +kernel)

theorem undone_suits : TSuits .default [undone] twoCols := by
  unfold TSuits
  rw [twoCols_names]
  refine ⟨two_names, ?_, by decide +kernel, ?_⟩
  · simp only [List.mem_singleton, forall_eq]
    exact ⟨⟨[(1, [])], by decide +kernel, by simp⟩, name_fair false 98⟩
  · have e : [undone].flatMap (TWant.outNames [[97], [98]]) = [[98]] := by decide +kernel
    rw [e]
    simp only [List.mem_singleton, forall_eq]
    exact name_one 98 (by decide)

/-- `c` is no base64. -/
example : cutMain (transEnv .plain true) (fun _ => true) .default .default .matching [undone.opt] [twoCols] = .panic := by
  have h := C223_fails (transEnv .plain true) (fun _ => true) .default .default .matching [undone] (by simp) (by
    simp only [List.mem_singleton, forall_eq]; exact undone_fine) twoCols undone_suits
    ⟨ascii "xyz\tc\n", by rw [twoCols_data]; simp, undone, by simp, ⟨_, List.mem_singleton.2 rfl, rfl⟩, ascii "c", by decide +kernel, by decide +kernel⟩
  exact h.trans (by decide +kernel)

end Cdx
