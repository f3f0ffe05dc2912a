import Verif.Model.Cut
import Verif.Props.Wc
import Verif.Props.UniqAgg
import Verif.Props.Filegen
import Verif.Props.BinMain

/-!
C130-C136: the `cut` command, composite columns, groups and renames.
-/

namespace Cdx

/-! ## C130: composite columns -/

/-- A piece of a composite column: a text, or the value of a column, by number (from 0) or by name, with or without braces. -/
inductive Piece
  | text (s : Bytes)
  | num (braces : Bool) (n : Nat)
  | name (braces : Bool) (s : Bytes)

/-- `^` and the column, maybe in braces. -/
def tagged (braces : Bool) (s : Bytes) : Bytes := if braces then ascii "^{" ++ s ++ ascii "}" else ascii "^" ++ s

/-- How a piece is written; `^` is doubled. -/
def Piece.write : Piece → Bytes
  | .text s => s.flatMap fun c => if c = 94 then ascii "^^" else [c]
  | .num b n => tagged b (decText (n + 1))
  | .name b s => tagged b s

/-- The pieces one after the other. -/
def piecesText (ps : List Piece) : Bytes := ps.flatMap Piece.write

/-- A letter that multiplies the number before it, such as `k`. -/
def Multiplies (c : UInt8) : Prop := (suffixValU c).isSome = true

/-- The pieces can be told apart: numbers fit a machine word, names are names, and without braces the next byte is not part of
the name or number. -/
def Apart : List Piece → Prop
  | [] => True
  | .text _ :: ps => Apart ps
  | .num b n :: ps => n + 1 < 2 ^ 64 ∧ (b = false → ∀ c, (piecesText ps).head? = some c → ¬ Digit c ∧ ¬ Multiplies c) ∧ Apart ps
  | .name b s :: ps =>
    IsName s ∧ (b = false → ∀ c, (piecesText ps).head? = some c → ¬ Letter c ∧ ¬ Digit c ∧ c ≠ 95) ∧ Apart ps

/-- The value of a piece for a line. -/
def Piece.value (names line : List Bytes) : Piece → Bytes
  | .text s => s
  | .num _ n => line.getD n []
  | .name _ s => line.getD (names.idxOf s) []

/-- The names used. -/
def Piece.used : Piece → List Bytes
  | .name _ s => [s]
  | _ => []

/-- The column a piece refers to, as parsed. -/
def Piece.col : Piece → NamedCol
  | .text _ => ⟨[], 0⟩
  | .num _ n => ⟨[], n⟩
  | .name _ s => ⟨s, 0⟩

/-- The parts and the suffix, with the text `pre` before the pieces. -/
def collect : (pre : Bytes) → List Piece → List (Bytes × NamedCol) × Bytes
  | pre, [] => ([], pre)
  | pre, .text s :: ps => collect (pre ++ s) ps
  | pre, p :: ps => ((pre, p.col) :: (collect [] ps).1, (collect [] ps).2)

theorem usize_dec (n : Nat) (rest : Bytes) (h : n + 1 < 2 ^ 64) (hr : ∀ c, rest.head? = some c → ¬ Digit c ∧ ¬ Multiplies c) :
    NamedCol.parse (decText (n + 1) ++ rest) = .ok (⟨[], n⟩, rest) := by
  have hne := decText_ne_nil (n + 1)
  have hv := decVal_decText (n + 1)
  have hu := C39_to_usize [] (decText (n + 1)) rest (Or.inl rfl) (fun c hc => (isDigit_iff c).2 (decText_digits _ c hc))
    (fun c hc => by
      have := (hr c hc).1
      rw [← isDigit_iff] at this
      simpa using this) (fun _ h => absurd h hne)
  have hs : takeSuffix rest = (1, rest) := by
    cases rest with
    | nil => rfl
    | cons c cs =>
      have := (hr c rfl).2
      unfold Multiplies at this
      cases hc : suffixValU c with
      | none => simp [takeSuffix, hc]
      | some v => simp [hc] at this
  rw [if_neg hne, hs, hv, List.nil_append] at hu
  have hm : usizeMax = 2 ^ 64 - 1 := by decide
  rw [if_pos (by simp only [Nat.mul_one]; omega), Nat.mul_one] at hu
  cases hd : decText (n + 1) with
  | nil => exact absurd hd hne
  | cons c cs =>
    have hdig : Digit c := decText_digits (n + 1) c (by rw [hd]; simp)
    have h0 : c ≠ 48 := by
      have := decText_lead (n + 1) (by omega)
      rw [hd] at this
      simpa using this
    rw [hd] at hu
    simp only [List.cons_append] at hu ⊢
    simp only [NamedCol.parse, (isDigit_iff c).2 hdig, h0, ne_eq, not_false_eq_true, and_self, if_true, hu]
    simp

theorem name_take (s rest : Bytes) (hs : IsName s) (hr : ∀ c, rest.head? = some c → ¬ Letter c ∧ ¬ Digit c ∧ c ≠ 95) :
    NamedCol.parse (s ++ rest) = .ok (⟨s, 0⟩, rest) := by
  obtain ⟨c, cs, rfl, hc, hcs⟩ := hs
  have ha : isAlpha c = true := (isAlpha_iff c).2 hc
  have hd : ¬ (isDigit c = true ∧ c ≠ 48) := by
    intro h
    have h1 := h.1
    rw [isDigit_iff] at h1
    obtain ⟨h2, h3⟩ := h1
    unfold Letter at hc
    simp only [UInt8.le_iff_toNat_le] at *
    have e1 : (57 : UInt8).toNat = 57 := rfl
    have e2 : (65 : UInt8).toNat = 65 := rfl
    have e3 : (97 : UInt8).toNat = 97 := rfl
    omega
  have ht : (cs ++ rest).takeWhile isNameChar = cs := by
    have h1 : ∀ x ∈ cs, isNameChar x = true := fun x hx => (isNameChar_iff x).2 (hcs x hx)
    rw [List.takeWhile_append_of_pos h1]
    cases rest with
    | nil => simp
    | cons d ds =>
      have := hr d rfl
      have hn : isNameChar d = false := by
        cases h : isNameChar d with
        | false => rfl
        | true =>
          rw [isNameChar_iff] at h
          rcases h with h | h | h
          · exact absurd h this.1
          · exact absurd h this.2.1
          · exact absurd h this.2.2
      simp [hn]
  have hg : getColName (c :: (cs ++ rest)) = (c :: cs).length := by
    simp [getColName, ha, ht, Nat.add_comm]
  rw [List.cons_append]
  simp only [NamedCol.parse, if_neg hd, ha, if_true, hg]
  rw [← List.cons_append, List.take_left, List.drop_left]

theorem text_spec (s : Bytes) : ∀ (fuel : Nat) (pre rest : Bytes), (Piece.write (.text s)).length ≤ fuel →
    compLoop fuel pre (Piece.write (.text s) ++ rest) = compLoop (fuel - (s.length)) (pre ++ s) rest := by
  induction s with
  | nil => intro fuel pre rest _; simp [Piece.write]
  | cons c cs ih =>
    intro fuel pre rest hf
    have e : Piece.write (.text (c :: cs)) = (if c = 94 then ascii "^^" else [c]) ++ Piece.write (.text cs) := by
      simp [Piece.write]
    rw [e] at hf ⊢
    obtain ⟨fuel, rfl⟩ : ∃ k, fuel = k + 1 := ⟨fuel - 1, by
      by_cases h : c = 94 <;> simp [h, ascii] at hf <;> omega⟩
    have ih := ih fuel (pre ++ [c]) rest (by by_cases h : c = 94 <;> simp [h, ascii] at hf <;> omega)
    have ef : fuel + 1 - (c :: cs).length = fuel - cs.length := by simp
    rw [ef]
    by_cases h : c = 94
    · subst h
      have ea : ascii "^^" = [94, 94] := by decide
      simp only [if_true, ea, List.cons_append, List.nil_append, compLoop, List.append_assoc] at ih ⊢
      exact ih
    · simp only [if_neg h, List.cons_append, List.nil_append, compLoop, List.append_assoc] at ih ⊢
      exact ih

theorem write_length (s : Bytes) : s.length ≤ (Piece.write (.text s)).length := by
  induction s with
  | nil => simp
  | cons c cs ih =>
    simp only [Piece.write, List.flatMap_cons, List.length_append, List.length_cons] at ih ⊢
    have : 1 ≤ (if c = 94 then ascii "^^" else [c]).length := by by_cases h : c = 94 <;> simp [h, ascii]
    omega

theorem compPart_col (b : Bool) (s rest : Bytes) (col : NamedCol) (hs : ∀ c, s.head? = some c → c ≠ 123 ∧ c ≠ 94) (hne : s ≠ [])
    (hp : NamedCol.parse (s ++ (if b then ascii "}" ++ rest else rest)) = .ok (col, if b then ascii "}" ++ rest else rest))
    (fuel : Nat) (pre : Bytes) :
    compLoop (fuel + 1) pre (tagged b s ++ rest) = (compLoop fuel [] rest).bind fun q => .ok ((pre, col) :: q.1, q.2) := by
  have e1 : ascii "^{" = [94, 123] := by decide
  have e2 : ascii "}" = [125] := by decide
  have e3 : ascii "^" = [94] := by decide
  cases b with
  | true =>
    simp only [if_true, e2, tagged, e1, List.cons_append, List.nil_append, List.append_assoc, compLoop, compPart] at hp ⊢
    rw [hp]
    simp
  | false =>
    cases s with
    | nil => exact absurd rfl hne
    | cons c cs =>
      have := hs c rfl
      simp only [tagged, e3, Bool.false_eq_true, if_false, List.cons_append, List.nil_append, compLoop, compPart, this.1, this.2, if_true] at hp ⊢
      rw [hp, Res.bind_ok]

theorem compLoop_spec (ps : List Piece) : ∀ (fuel : Nat) (pre : Bytes), (piecesText ps).length < fuel → Apart ps →
    compLoop fuel pre (piecesText ps) = .ok (collect pre ps) := by
  induction ps with
  | nil =>
    intro fuel pre hf _
    obtain ⟨fuel, rfl⟩ : ∃ k, fuel = k + 1 := ⟨fuel - 1, by omega⟩
    simp [piecesText, compLoop, collect]
  | cons p ps ih =>
    intro fuel pre hf ha
    have e : piecesText (p :: ps) = p.write ++ piecesText ps := by simp [piecesText]
    rw [e, List.length_append] at hf
    rw [e]
    cases p with
    | text s =>
      rw [text_spec s fuel pre _ (by omega), ih _ _ (by have := write_length s; omega) ha, collect]
    | num b n =>
      obtain ⟨h1, h2, h3⟩ := ha
      obtain ⟨fuel, rfl⟩ : ∃ k, fuel = k + 1 := ⟨fuel - 1, by omega⟩
      have hl : 1 ≤ (Piece.write (.num b n)).length := by
        cases b <;> simp [Piece.write, tagged, ascii] <;> omega
      have hd : ∀ c ∈ decText (n + 1), Digit c := decText_digits _
      rw [Piece.write, compPart_col b (decText (n + 1)) (piecesText ps) ⟨[], n⟩ ?_ (decText_ne_nil _) ?_, ih fuel [] (by omega) h3, Res.bind_ok]
      · simp [collect, Piece.col]
      · intro c hc
        have := hd c (List.mem_of_mem_head? hc)
        constructor <;> rintro rfl <;> revert this <;> decide
      · apply usize_dec n _ h1
        cases b with
        | false => simpa using h2 rfl
        | true =>
          intro c hc
          have e2 : ascii "}" = [125] := by decide
          simp only [if_true, e2, List.cons_append, List.head?_cons, Option.some.injEq] at hc
          subst hc
          exact ⟨by decide, by unfold Multiplies; decide⟩
    | name b s =>
      obtain ⟨h1, h2, h3⟩ := ha
      obtain ⟨fuel, rfl⟩ : ∃ k, fuel = k + 1 := ⟨fuel - 1, by omega⟩
      have hl : 1 ≤ (Piece.write (.name b s)).length := by
        cases b <;> simp [Piece.write, tagged, ascii] <;> omega
      obtain ⟨c0, cs, hs, hc0, _⟩ := id h1
      rw [Piece.write, compPart_col b s (piecesText ps) ⟨s, 0⟩ ?_ (by rw [hs]; simp) ?_, ih fuel [] (by omega) h3, Res.bind_ok]
      · simp [collect, Piece.col]
      · intro c hc
        rw [hs, List.head?_cons, Option.some.injEq] at hc
        subst hc
        constructor <;> rintro rfl <;> revert hc0 <;> decide
      · apply name_take s _ h1
        cases b with
        | false => simpa using h2 rfl
        | true =>
          intro c hc
          have e2 : ascii "}" = [125] := by decide
          simp only [if_true, e2, List.cons_append, List.head?_cons, Option.some.injEq] at hc
          subst hc
          decide

/-- The column of a parsed reference. -/
def placeOf (names : List Bytes) (c : NamedCol) : Nat := if c.name ≠ [] then names.idxOf c.name else c.num

theorem collect_value (names line : List Bytes) (ps : List Piece) (ha : Apart ps) : ∀ pre,
    ((collect pre ps).1.flatMap fun p => p.1 ++ line.getD (placeOf names p.2) []) ++ (collect pre ps).2 =
      pre ++ ps.flatMap (Piece.value names line) := by
  induction ps with
  | nil => intro pre; simp [collect]
  | cons p ps ih =>
    intro pre
    cases p with
    | text s => rw [collect, ih ha]; simp [Piece.value]
    | num b n =>
      have ih0 := ih ha.2.2 []
      rw [List.nil_append] at ih0
      rw [collect]
      · simp only [List.flatMap_cons, List.append_assoc, ih0]
        rfl
      · simp
    | name b s =>
      have ih0 := ih ha.2.2 []
      rw [List.nil_append] at ih0
      obtain ⟨⟨c0, cs, hs, _⟩, _⟩ := ha
      rw [collect]
      · simp only [List.flatMap_cons, List.append_assoc, ih0]
        simp [Piece.col, placeOf, Piece.value, hs]
      · simp

theorem lookupCol_mem (names : List Bytes) (s : Bytes) (h : s ∈ names) : lookupCol names s = .ok (names.idxOf s) := by
  have : names.findIdx? (· == s) = some (names.idxOf s) := by
    rw [List.findIdx?_eq_some_iff_findIdx_eq]
    exact ⟨List.idxOf_lt_length_of_mem h, rfl⟩
  simp [lookupCol, this]

theorem compLookup_spec (names : List Bytes) (cs : List (Bytes × NamedCol)) (h : ∀ c ∈ cs, c.2.name ≠ [] → c.2.name ∈ names) :
    compLookup names cs = .ok (cs.map fun c => (c.1, placeOf names c.2)) := by
  induction cs with
  | nil => rfl
  | cons c cs ih =>
    have h0 := h c (by simp)
    rw [compLookup, ih (fun x hx => h x (by simp [hx]))]
    by_cases hn : c.2.name = []
    · simp [NamedCol.lookup, hn, placeOf]
    · simp [NamedCol.lookup, hn, placeOf, lookupCol_mem names _ (h0 hn)]

theorem collect_num (pre : Bytes) (b : Bool) (n : Nat) (ps : List Piece) :
    collect pre (.num b n :: ps) = ((pre, ⟨[], n⟩) :: (collect [] ps).1, (collect [] ps).2) := by simp [collect, Piece.col]

theorem collect_name (pre : Bytes) (b : Bool) (s : Bytes) (ps : List Piece) :
    collect pre (.name b s :: ps) = ((pre, ⟨s, 0⟩) :: (collect [] ps).1, (collect [] ps).2) := by simp [collect, Piece.col]

theorem collect_used (ps : List Piece) : ∀ pre, ∀ c ∈ (collect pre ps).1, c.2.name ≠ [] → c.2.name ∈ ps.flatMap Piece.used := by
  induction ps with
  | nil => intro pre c hc; simp [collect] at hc
  | cons p ps ih =>
    intro pre c hc hn
    cases p with
    | text s =>
      rw [collect] at hc
      simpa [Piece.used] using ih _ c hc hn
    | num b n =>
      rw [collect_num] at hc
      simp only [List.mem_cons] at hc
      rcases hc with rfl | hc
      · simp at hn
      · simpa [Piece.used] using ih _ c hc hn
    | name b s =>
      rw [collect_name] at hc
      simp only [List.mem_cons] at hc
      rw [List.flatMap_cons, List.mem_append]
      rcases hc with rfl | hc
      · left; simp [Piece.used]
      · right; exact ih _ c hc hn

theorem tmode_write_append (t : TextMode) (h : t.col ≠ .quote) (a b : Bytes) : t.write (a ++ b) = t.write a ++ t.write b := by
  unfold TextMode.write writeCol
  cases hc : t.col with
  | plain => simp [writePlain]
  | backslash => simp [writeBackslash]
  | quote => exact absurd hc h

theorem tmode_write_nil (t : TextMode) : t.write [] = [] := by
  unfold TextMode.write writeCol
  cases t.col <;> rfl

theorem tmode_write_flatMap {α : Type} (t : TextMode) (h : t.col ≠ .quote) (f : α → Bytes) (l : List α) :
    t.write (l.flatMap f) = l.flatMap fun x => t.write (f x) := by
  induction l with
  | nil => simp [tmode_write_nil]
  | cons x l ih => simp [tmode_write_append t h, ih]

theorem get_getD (l : TextLine) (i : Nat) : l.get i = l.vec.getD i [] := TextLine.get_eq_vec l i

/-- The name is before the first colon. -/
theorem C130_parse (name : Bytes) (ps : List Piece) (hn : 58 ∉ name) (ha : Apart ps) :
    compSpec (name ++ 58 :: piecesText ps) = .ok (.comp name (collect [] ps).1 (collect [] ps).2) := by
  unfold compSpec
  rw [splitOnce_some 58 name _ hn]
  simp only [compLoop_spec ps ((piecesText ps).length + 1) [] (by omega) ha, Res.bind_ok]

/-- The value written is that of the pieces one after the other, escaped for the output. -/
theorem C130_value_partial (env : CutEnv) (t : TextMode) (ht : t.col ≠ .quote) (names : List Bytes) (name : Bytes) (ps : List Piece)
    (hn : 58 ∉ name) (ha : Apart ps) (hu : ∀ s ∈ ps.flatMap Piece.used, s ∈ names) :
    ∃ s c, compSpec (name ++ 58 :: piecesText ps) = .ok s ∧ s.lookup env names = .ok c ∧ c.names names = [name] ∧
      ∀ line : TextLine, c.write env t line = some (t.write (ps.flatMap (Piece.value names line.vec))) := by
  refine ⟨_, .comp name ((collect [] ps).1.map fun c => (c.1, placeOf names c.2)) (collect [] ps).2, C130_parse name ps hn ha, ?_, rfl, ?_⟩
  · rw [CutSpec.lookup, compLookup_spec names _ (fun c hc hne => hu _ (collect_used ps [] c hc hne)), Res.bind_ok]
  · intro line
    have := collect_value names line.vec ps ha []
    rw [List.nil_append] at this
    rw [← this, tmode_write_append t ht, tmode_write_flatMap t ht]
    simp only [CutCol.write, List.flatMap_map, tmode_write_append t ht, get_getD]

/-! ## C133: the output of `cut` -/

/-- What is asked for: columns, columns in one, an expression, or a composite. -/
inductive Want
  | fields (is : List ColItem)
  | group (delim : UInt8) (name : Bytes) (is : List ColItem)
  | expr (name formula : Bytes)
  | comp (name : Bytes) (ps : List Piece)

/-- The text of a list of columns. -/
def colListText (is : List ColItem) : Bytes := List.intercalate [44] (is.map ColItem.text)

/-- The option. -/
def Want.opt : Want → Bytes × Bytes
  | .fields is => (ascii "fields", colListText is)
  | .group d name is => (ascii "group", d :: name ++ 58 :: colListText is)
  | .expr name f => (ascii "expr", name ++ 58 :: f)
  | .comp name ps => (ascii "composite", name ++ 58 :: piecesText ps)

/-- The texts are well formed. -/
def Want.Fine (env : CutEnv) : Want → Prop
  | .fields is => is ≠ [] ∧ ∀ i ∈ is, i.WF
  | .group d name is => d < 128 ∧ 58 ∉ name ∧ is ≠ [] ∧ ∀ i ∈ is, i.WF
  | .expr name f => 58 ∉ name ∧ env.compiles f = true
  | .comp name ps => 58 ∉ name ∧ Apart ps

/-- The columns of a list, with the names asked for. -/
def pickedOf (names : List Bytes) (is : List ColItem) : Option (List (Nat × Bytes)) :=
  selectSpec names (is.filter fun i => !i.tilde) (is.filter fun i => i.tilde)

/-- What is asked for makes sense for the names of a file. -/
def Want.Suits (env : CutEnv) (names : List Bytes) : Want → Prop
  | .fields is => (∃ v, pickedOf names is = some v ∧ v ≠ []) ∧ ∀ i ∈ is, ∀ r ∈ i.sel.refs, r.Fair names
  | .group _ _ is => (∃ v, pickedOf names is = some v) ∧ ∀ i ∈ is, ∀ r ∈ i.sel.refs, r.Fair names
  | .expr _ f => ∃ v, env.eval f names = .ok v
  | .comp _ ps => ∀ s ∈ ps.flatMap Piece.used, s ∈ names

/-- The names of the columns written. -/
def Want.outNames (names : List Bytes) : Want → List Bytes
  | .fields is => ((pickedOf names is).getD []).map fun x => if x.2 = [] then names.getD x.1 [] else x.2
  | .group _ name _ => [name]
  | .expr name _ => [name]
  | .comp name _ => [name]

/-- The byte `d` and newlines replaced by a space. -/
def blanked (d : UInt8) (v : Bytes) : Bytes := v.map fun c => if c = d ∨ c = NL then SP else c

/-- The columns written for a line, as they are in the output. -/
def Want.cells (env : CutEnv) (t : TextMode) (names : List Bytes) (line : TextLine) : Want → List Bytes
  | .fields is => ((pickedOf names is).getD []).map fun x => t.write (line.vec.getD x.1 [])
  | .group d _ is => [List.intercalate [d] (((pickedOf names is).getD []).map fun x => blanked d (line.vec.getD x.1 []))]
  | .expr _ f => match env.eval f names with
    | .ok v => [v line]
    | _ => []
  | .comp _ ps => [t.write (ps.flatMap (Piece.value names line.vec))]

/-- The row for a line. -/
def cutRow (env : CutEnv) (m t : TextMode) (names : List Bytes) (ws : List Want) (l : Bytes) : Bytes :=
  List.intercalate [t.delim] (ws.flatMap (Want.cells env t names (decoded m l))) ++ [NL]

/-- The header for a file, nothing if it has none. -/
def cutHead (m t : TextMode) (ws : List Want) (f : Bytes) : Bytes :=
  if ((Reader.newWith 1 m).open_ f).hasHeader then headText t (ws.flatMap (Want.outNames (namesOf m f))) else []

/-- The parts and columns of an option. -/
def Want.spec : Want → CutSpec
  | .fields is => .fields ⟨(is.filter fun i => !i.tilde).map part, (is.filter fun i => i.tilde).map part, [], []⟩
  | .group d name is => .group d name ⟨(is.filter fun i => !i.tilde).map part, (is.filter fun i => i.tilde).map part, [], []⟩
  | .expr name f => .expr name f
  | .comp name ps => .comp name (collect [] ps).1 (collect [] ps).2

theorem add_set (transOk : Bytes → Bool) (is : List ColItem) (hne : is ≠ []) (h : ∀ i ∈ is, i.WF) :
    ColumnSet.empty.add transOk (colListText is) false =
      .ok ⟨(is.filter fun i => !i.tilde).map part, (is.filter fun i => i.tilde).map part, [], []⟩ := by
  have := addCalls_spec transOk [(false, is)] (by
    intro c hc
    simp only [List.mem_singleton] at hc
    subst hc
    exact ⟨hne, h⟩) .empty
  simp only [addCalls] at this
  obtain ⟨s, hs, h2⟩ := Res.bind_eq_ok this
  rw [colListText, hs]
  simp only [Res.ok.injEq] at h2 ⊢
  rw [h2]
  simp [ColumnSet.empty, chosenOf, rejectedOf]

theorem lookup_set (mk : Bytes → Res (Bytes → Bool)) (names : List Bytes) (hn : ∀ n ∈ names, IsName n) (is : List ColItem) (hne : is ≠ [])
    (h : ∀ i ∈ is, i.WF) (hf : ∀ i ∈ is, ∀ r ∈ i.sel.refs, r.Fair names) (v : List (Nat × Bytes)) (hv : pickedOf names is = some v) :
    ColumnSet.lookup mk ⟨(is.filter fun i => !i.tilde).map part, (is.filter fun i => i.tilde).map part, [], []⟩ names =
      .ok (v.map fun x => ⟨x.1, x.2, none⟩) := by
  have hw : CallsWF [(false, is)] := by
    intro c hc
    simp only [List.mem_singleton] at hc
    subst hc
    exact ⟨hne, h⟩
  have := C18_partial (fun _ => false) mk names hn [(false, is)] hw (by
    intro r hr
    simp only [allRefs, List.flatMap_cons, List.flatMap_nil, List.append_nil, List.mem_flatMap] at hr
    obtain ⟨i, hi, hr⟩ := hr
    exact hf i hi r hr)
  unfold selectCode at this
  rw [addCalls_spec _ _ hw, Res.bind_ok] at this
  simp only [ColumnSet.empty, List.nil_append] at this
  have e1 : chosenOf [(false, is)] = is.filter fun i => !i.tilde := by simp [chosenOf]
  have e2 : rejectedOf [(false, is)] = is.filter fun i => i.tilde := by simp [rejectedOf]
  rw [e1, e2] at this
  rw [this]
  unfold pickedOf at hv
  rw [hv]

theorem cutOptions_spec (env : CutEnv) (dups : DupColHandling) (ws : List Want) (h : ∀ w ∈ ws, w.Fine env) :
    cutOptions env dups (ws.map Want.opt) = .ok (dups, ws.map Want.spec) := by
  induction ws with
  | nil => rfl
  | cons w ws ih =>
    have hw := h w (by simp)
    rw [List.map_cons, show w.opt = (w.opt.1, w.opt.2) from rfl, cutOptions, ih (fun x hx => h x (by simp [hx]))]
    have n1 : ascii "fields" ≠ ascii "dups" := by decide
    have n2 : ascii "group" ≠ ascii "dups" := by decide
    have n3 : ascii "expr" ≠ ascii "dups" := by decide
    have n4 : ascii "composite" ≠ ascii "dups" := by decide
    have n5 : ascii "group" ≠ ascii "fields" := by decide
    have n6 : ascii "expr" ≠ ascii "fields" := by decide
    have n7 : ascii "composite" ≠ ascii "fields" := by decide
    have n8 : ascii "expr" ≠ ascii "group" := by decide
    have n9 : ascii "composite" ≠ ascii "group" := by decide
    have n10 : ascii "composite" ≠ ascii "expr" := by decide
    cases w with
    | fields is => simp only [Want.opt, n1, if_false, if_true, add_set env.transOk is hw.1 hw.2, Res.bind_ok, List.map_cons, Want.spec]
    | group d name is =>
      obtain ⟨h1, h2, h3, h4⟩ := hw
      have hd : ¬ (d ≥ 128) := by simpa using h1
      simp only [Want.opt, n2, n5, if_false, if_true, List.cons_append, groupSpec, hd, splitOnce_some 58 name _ h2,
        add_set env.transOk is h3 h4, Res.bind_ok, List.map_cons, Want.spec]
    | expr name f =>
      simp only [Want.opt, n3, n6, n8, if_false, if_true, exprSpec, splitOnce_some 58 name _ hw.1, hw.2, Res.bind_ok, List.map_cons, Want.spec]
    | comp name ps =>
      simp only [Want.opt, n4, n7, n9, n10, if_false, if_true, C130_parse name ps hw.1 hw.2, Res.bind_ok, List.map_cons, Want.spec]

theorem writePlain_blanked (d : UInt8) (u : Bytes) : writePlain d NL SP u = blanked d u := by
  unfold writePlain blanked
  induction u with
  | nil => rfl
  | cons c u ih =>
    rw [List.flatMap_cons, ih, List.map_cons]
    split <;> simp

theorem group_write (d : UInt8) (u : Bytes) : ({ TextMode.default with delim := d } : TextMode).write u = blanked d u :=
  writePlain_blanked d u

theorem want_lookup (env : CutEnv) (t : TextMode) (ht : t.col ≠ .quote) (names : List Bytes) (hn : ∀ n ∈ names, IsName n) (w : Want) (hf : w.Fine env)
    (hs : w.Suits env names) : ∃ c, w.spec.lookup env names = .ok c ∧ c.names names = w.outNames names ∧
      ∀ line : TextLine, w.cells env t names line ≠ [] ∧ c.write env t line = some (List.intercalate [t.delim] (w.cells env t names line)) := by
  cases w with
  | fields is =>
    obtain ⟨⟨v, hv, hne⟩, hfair⟩ := hs
    refine ⟨.fields [] (v.map fun x => ⟨x.1, x.2, none⟩), ?_, ?_, ?_⟩
    · rw [Want.spec, CutSpec.lookup, lookup_set env.colMatch names hn is hf.1 hf.2 hfair v hv, Res.bind_ok]
    · simp [CutCol.names, Want.outNames, hv, outName, Function.comp_def]
    · intro line
      refine ⟨by simpa [Want.cells, hv] using hne, ?_⟩
      rw [CutCol.write, C21_write3 _ _ _ line (fun x => line.vec.getD x.num []) _ (by
        intro x hx
        simp only [List.mem_map] at hx
        obtain ⟨y, _, rfl⟩ := hx
        simp only [fetch, get_getD])]
      simp [Want.cells, hv, Function.comp_def]
  | group d name is =>
    obtain ⟨⟨v, hv⟩, hfair⟩ := hs
    refine ⟨.group d name [] (v.map fun x => ⟨x.1, x.2, none⟩), ?_, rfl, ?_⟩
    · rw [Want.spec, CutSpec.lookup, lookup_set env.colMatch names hn is hf.2.2.1 hf.2.2.2 hfair v hv, Res.bind_ok]
    · intro line
      refine ⟨by simp [Want.cells], ?_⟩
      rw [CutCol.write, C21_write3 _ _ _ line (fun x => line.vec.getD x.num []) _ (by
        intro x hx
        simp only [List.mem_map] at hx
        obtain ⟨y, _, rfl⟩ := hx
        simp only [fetch, get_getD])]
      simp [Want.cells, hv, Function.comp_def, group_write]
  | expr name f =>
    obtain ⟨v, hv⟩ := hs
    refine ⟨.expr name v, ?_, rfl, ?_⟩
    · rw [Want.spec, CutSpec.lookup, hv, Res.bind_ok]
    · intro line
      simp [Want.cells, hv, CutCol.write]
  | comp name ps =>
    obtain ⟨s, c, h1, h2, h3, h4⟩ := C130_value_partial env t ht names name ps hf.1 hf.2 hs
    rw [C130_parse name ps hf.1 hf.2] at h1
    refine ⟨c, ?_, h3, ?_⟩
    · simp only [Res.ok.injEq] at h1
      rw [Want.spec, h1, h2]
    · intro line
      simp [Want.cells, h4]

theorem want_lookups (env : CutEnv) (t : TextMode) (ht : t.col ≠ .quote) (names : List Bytes) (hn : ∀ n ∈ names, IsName n) (ws : List Want)
    (hf : ∀ w ∈ ws, w.Fine env) (hs : ∀ w ∈ ws, w.Suits env names) :
    ∃ cs, cutLookup env names (ws.map Want.spec) = .ok cs ∧ cs.flatMap (·.names names) = ws.flatMap (Want.outNames names) ∧
      ∀ line : TextLine, cs.map (fun c => c.write env t line) =
        (ws.map (Want.cells env t names line)).map (fun v => some (List.intercalate [t.delim] v)) ∧
        ∀ v ∈ ws.map (Want.cells env t names line), v ≠ [] := by
  induction ws with
  | nil => exact ⟨[], rfl, rfl, fun line => ⟨rfl, by simp⟩⟩
  | cons w ws ih =>
    obtain ⟨cs, h1, h2, h3⟩ := ih (fun x hx => hf x (by simp [hx])) (fun x hx => hs x (by simp [hx]))
    obtain ⟨c, g1, g2, g3⟩ := want_lookup env t ht names hn w (hf w (by simp)) (hs w (by simp))
    refine ⟨c :: cs, ?_, ?_, ?_⟩
    · rw [List.map_cons, cutLookup, g1, h1]; rfl
    · rw [List.flatMap_cons, List.flatMap_cons, g2, h2]
    · intro line
      obtain ⟨a1, a2⟩ := h3 line
      obtain ⟨b1, b2⟩ := g3 line
      refine ⟨by rw [List.map_cons, List.map_cons, List.map_cons, a1, b2], ?_⟩
      intro v hv
      simp only [List.map_cons, List.mem_cons] at hv
      rcases hv with rfl | hv
      · exact b1
      · exact a2 v hv

variable {m : TextMode}

theorem cutLoop_spec (env : CutEnv) (t : TextMode) (cs : List CutCol) (row : Bytes → Bytes)
    (hrow : ∀ l, writerWrite t.delim (cs.map fun c l => c.write env t l) (decoded m l) = some (row l)) (L : List Bytes) :
    ∀ (fuel : Nat) (r : Reader) (d : Bytes) (o : TextLine), L.length < fuel → View m true (decoded m d) o L r →
      (m.col = .plain → o.orig = []) → cutLoop env t cs fuel r = some ((d :: L).flatMap row) := by
  induction L with
  | nil =>
    intro fuel r d o hf hv _
    obtain ⟨fuel, rfl⟩ : ∃ k, fuel = k + 1 := ⟨fuel - 1, by simp at hf; omega⟩
    simp [cutLoop, hv.cur, hrow, hv.end_.1]
  | cons l L ih =>
    intro fuel r d o hf hv ho
    obtain ⟨fuel, rfl⟩ : ∃ k, fuel = k + 1 := ⟨fuel - 1, by simp at hf; omega⟩
    have hn := hv.next
    rw [putLine_decoded o l ho] at hn
    have := ih fuel _ l _ (by simp at hf; omega) hn (decoded_orig d)
    simp [cutLoop, hv.cur, hrow, hn.more, this]

/-- Header and rows of a file. -/
theorem cutFile_spec (env : CutEnv) (nameOk : Bytes → Bool) (t : TextMode) (ht : t.col ≠ .quote) (dups : DupColHandling) (ws : List Want)
    (hws : ws ≠ []) (hf : ∀ w ∈ ws, w.Fine env) (chk : HeaderChecker) (f : Bytes) (hne : (readHeader m f).isSome = true)
    (hn : ∀ n ∈ namesOf m f, IsName n) (hs : ∀ w ∈ ws, w.Suits env (namesOf m f))
    (ho : (ws.flatMap (Want.outNames (namesOf m f))).Nodup) (hv : ∀ n ∈ ws.flatMap (Want.outNames (namesOf m f)), IsName n) :
    cutFile env nameOk m t dups (ws.map Want.spec) chk f =
      match chk.check nameOk (cutHead m t ws f) with
      | none => .err
      | some (c, b) => .ok (c, (if b then cutHead m t ws f else []) ++ (dataOf m f).flatMap (cutRow env m t (namesOf m f) ws)) := by
  obtain ⟨cs, h1, h2, h3⟩ := want_lookups env t ht (namesOf m f) hn ws hf hs
  have hrow : ∀ l, writerWrite t.delim (cs.map fun c l => c.write env t l) (decoded m l) = some (cutRow env m t (namesOf m f) ws l) := by
    intro l
    obtain ⟨a1, a2⟩ := h3 (decoded m l)
    rw [C21_writer t.delim (decoded m l) _ (ws.map (Want.cells env t (namesOf m f) (decoded m l))) (by
      rw [← a1]; simp [Function.comp_def]) a2]
    simp [cutRow, List.flatMap_def]
  have hoc : ws.flatMap (Want.outNames (namesOf m f)) ≠ [] := by
    intro e
    cases ws with
    | nil => exact hws rfl
    | cons w ws =>
      rw [List.flatMap_cons, List.append_eq_nil_iff] at e
      have hw := hs w (by simp)
      cases w with
      | fields is =>
        obtain ⟨⟨v, hv, hne⟩, _⟩ := hw
        simp [Want.outNames, hv] at e
        exact hne e.1
      | group d name is => simp [Want.outNames] at e
      | expr name f => simp [Want.outNames] at e
      | comp name ps => simp [Want.outNames] at e
  have hemp : ((Reader.newWith 1 m).open_ f).isEmpty = false := by
    rw [open_isEmpty]
    cases h : readHeader m f with
    | none => rw [h] at hne; simp at hne
    | some p => rfl
  have hnames : ((Reader.newWith 1 m).open_ f).names = namesOf m f := rfl
  have hpush : cutNames ⟨[], dups, []⟩ (namesOf m f) cs = .ok ⟨ws.flatMap (Want.outNames (namesOf m f)), dups, []⟩ := by
    rw [cutNames, h2, pushAll_fresh dups [] _ [] (fun n hn' => ((isValid_iff n).2 (hv n hn')).2) (by simpa using ho), List.nil_append]
  have hhead : (if ((Reader.newWith 1 m).open_ f).hasHeader then getHead t (ws.flatMap (Want.outNames (namesOf m f))) else .ok []) =
      .ok (cutHead m t ws f) := by
    unfold cutHead
    split
    · simp [getHead, hoc, headText]
    · rfl
  unfold cutFile
  simp only [hemp, Bool.false_eq_true, if_false, hnames, h1, hpush, Res.bind_ok, hhead]
  cases hc : chk.check nameOk (cutHead m t ws f) with
  | none => rfl
  | some p =>
    obtain ⟨c, b⟩ := p
    simp only [open_done]
    cases hD : dataOf m f with
    | nil => simp
    | cons d D =>
      cases hh : readHeader m f with
      | none => simp [hh] at hne
      | some p =>
        obtain ⟨hd, rest⟩ := p
        have hD' : readLines m.col m.eol rest = d :: D := by simpa [dataOf, hh] using hD
        have hvw := view_open m f hd rest d D hh hD'
        have hl : D.length < ((Reader.newWith 1 m).open_ f).file.length + 1 := by
          have := hvw.file
          have h2 := readLines_length m.col m.eol ((Reader.newWith 1 m).open_ f).file
          rw [this] at h2
          omega
        rw [cutLoop_spec env t cs _ hrow D _ _ d _ hl hvw (fun _ => rfl)]
        simp

/-- The files that are not empty. -/
def notEmpty (m : TextMode) (files : List Bytes) : List Bytes := files.filter fun f => (readHeader m f).isSome

/-- The output: for each file its header, if it is to be shown, and its rows. -/
def cutOutput (env : CutEnv) (m t : TextMode) (ws : List Want) (files : List Bytes) (shown : List Bool) : Bytes :=
  (files.zip shown).flatMap fun x => (if x.2 then cutHead m t ws x.1 else []) ++ (dataOf m x.1).flatMap (cutRow env m t (namesOf m x.1) ws)

theorem cutFiles_spec (env : CutEnv) (nameOk : Bytes → Bool) (t : TextMode) (ht : t.col ≠ .quote) (dups : DupColHandling) (ws : List Want)
    (hws : ws ≠ []) (hf : ∀ w ∈ ws, w.Fine env) (files : List Bytes)
    (hfile : ∀ f ∈ notEmpty m files, (∀ n ∈ namesOf m f, IsName n) ∧ (∀ w ∈ ws, w.Suits env (namesOf m f)) ∧
      (ws.flatMap (Want.outNames (namesOf m f))).Nodup ∧ ∀ n ∈ ws.flatMap (Want.outNames (namesOf m f)), IsName n) : ∀ chk : HeaderChecker,
    cutFiles env nameOk m t dups (ws.map Want.spec) chk files =
      match chk.checkAll nameOk ((notEmpty m files).map (cutHead m t ws)) with
      | none => .err
      | some shown => .ok (cutOutput env m t ws (notEmpty m files) shown) := by
  induction files with
  | nil => intro chk; rfl
  | cons f fs ih =>
    intro chk
    cases hne : (readHeader m f).isSome with
    | false =>
      have e : notEmpty m (f :: fs) = notEmpty m fs := by simp [notEmpty, hne]
      rw [e] at hfile ⊢
      have hemp : ((Reader.newWith 1 m).open_ f).isEmpty = true := by
        rw [open_isEmpty]
        cases h : readHeader m f with
        | none => rfl
        | some p => rw [h] at hne; simp at hne
      rw [cutFiles]
      unfold cutFile
      simp only [hemp, if_true, Res.bind_ok, ih hfile chk]
      cases chk.checkAll nameOk ((notEmpty m fs).map (cutHead m t ws)) <;> simp
    | true =>
      have e : notEmpty m (f :: fs) = f :: notEmpty m fs := by simp [notEmpty, hne]
      rw [e] at hfile ⊢
      obtain ⟨a1, a2, a3, a4⟩ := hfile f (by simp)
      rw [cutFiles, cutFile_spec env nameOk t ht dups ws hws hf chk f hne a1 a2 a3 a4, List.map_cons, HeaderChecker.checkAll]
      cases hc : chk.check nameOk (cutHead m t ws f) with
      | none => rfl
      | some p =>
        obtain ⟨c, b⟩ := p
        simp only [Res.bind_ok]
        rw [ih (fun x hx => hfile x (by simp [hx])) c]
        cases c.checkAll nameOk ((notEmpty m fs).map (cutHead m t ws)) with
        | none => rfl
        | some sh => simp [cutOutput]

/-- `cut` writes for each file the header, if the checker says so, and a row for each line, with the columns asked for in order. The
output is not in quote mode. -/
theorem C133_cut_partial (env : CutEnv) (nameOk : Bytes → Bool) (m t : TextMode) (ht : t.col ≠ .quote) (mode : HeaderMode) (ws : List Want)
    (hws : ws ≠ []) (hf : ∀ w ∈ ws, w.Fine env) (files : List Bytes)
    (hfile : ∀ f ∈ notEmpty m files, (∀ n ∈ namesOf m f, IsName n) ∧ (∀ w ∈ ws, w.Suits env (namesOf m f)) ∧
      (ws.flatMap (Want.outNames (namesOf m f))).Nodup ∧ ∀ n ∈ ws.flatMap (Want.outNames (namesOf m f)), IsName n) :
    cutMain env nameOk m t mode (ws.map Want.opt) files =
      match (HeaderChecker.fromMode mode).checkAll nameOk ((notEmpty m files).map (cutHead m t ws)) with
      | none => .err
      | some shown => .ok (cutOutput env m t ws (notEmpty m files) shown) := by
  unfold cutMain
  rw [cutOptions_spec env .fail ws hf, Res.bind_ok, if_neg (by simpa using hws), cutFiles_spec env nameOk t ht .fail ws hws hf files hfile]

end Cdx
