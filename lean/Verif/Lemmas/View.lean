import Verif.Model.Uniq
import Verif.Props.Reader

/-!
A reader that keeps one previous line, seen as the current line, the other line and the lines to come.
-/

namespace Cdx

/-- What reading the line `l` into the slot `o` leaves there. -/
def putLine (m : TextMode) (b : Bool) (o : TextLine) (l : Bytes) : TextLine :=
  if b then ({ o with line := l } : TextLine).split m.col m.delim else { o with line := l }

/-- The reader has the current line `c` and the other line `o`, and will read the lines `ls`. -/
structure View (m : TextMode) (b : Bool) (c o : TextLine) (ls : List Bytes) (r : Reader) : Prop where
  mode : r.mode = m
  split : r.doSplit = b
  more : r.isDone = false
  slots : (r.curr = 0 ∧ r.lines = [c, o]) ∨ (r.curr = 1 ∧ r.lines = [o, c])
  file : readLines m.col m.eol r.file = ls

variable {m : TextMode} {b : Bool} {c o : TextLine} {ls : List Bytes} {r : Reader}

theorem View.cur (h : View m b c o ls r) : r.currLine = c := by
  rcases h.slots with ⟨h1, h2⟩ | ⟨h1, h2⟩ <;> simp [Reader.currLine, h1, h2]

theorem View.prev (h : View m b c o ls r) : r.prevLine 1 = some o := by
  rcases h.slots with ⟨h1, h2⟩ | ⟨h1, h2⟩ <;> simp [Reader.prevLine, h1, h2]

theorem View.next {l : Bytes} (h : View m b c o (l :: ls) r) : View m b (putLine m b o l) c ls r.getline := by
  obtain ⟨hm, hs, hd, hsl, hf⟩ := h
  cases hr : readLine m.col m.eol r.file with
  | none =>
    rw [(readLine_none_iff _ _ _).1 hr, readLines_nil] at hf
    simp at hf
  | some p =>
    obtain ⟨l', rest⟩ := p
    rw [readLines_some _ _ _ _ _ hr] at hf
    simp only [List.cons.injEq] at hf
    obtain ⟨rfl, hf⟩ := hf
    unfold Reader.getline
    rcases hsl with ⟨h1, h2⟩ | ⟨h1, h2⟩
    · simp only [h1, h2, hm, hr, hs, List.length_cons, List.length_nil, Nat.zero_add, ge_iff_le, Nat.reduceAdd,
        Nat.reduceLeDiff, if_false]
      exact ⟨rfl, rfl, hd, Or.inr ⟨rfl, by simp [putLine]⟩, hf⟩
    · simp only [h1, h2, hm, hr, hs, List.length_cons, List.length_nil, Nat.zero_add, ge_iff_le, Nat.reduceAdd,
        Nat.le_refl, if_true]
      exact ⟨rfl, rfl, hd, Or.inl ⟨rfl, by simp [putLine]⟩, hf⟩

theorem View.end_ (h : View m b c o [] r) : r.getline.isDone = true ∧ r.getline.prevLine 1 = some c := by
  obtain ⟨hm, hs, hd, hsl, hf⟩ := h
  have hfe := (readLines_eq_nil _ _ _).1 hf
  have hr : readLine m.col m.eol r.file = none := (readLine_none_iff _ _ _).2 hfe
  unfold Reader.getline
  rcases hsl with ⟨h1, h2⟩ | ⟨h1, h2⟩
  · simp [h1, h2, hm, hr, Reader.prevLine]
  · simp [h1, h2, hm, hr, Reader.prevLine]

theorem View.setSplit (h : View m b c o ls r) (b' : Bool) : View m b' c o ls (r.setSplit b') :=
  ⟨h.mode, rfl, h.more, h.slots, h.file⟩

/-- A reader just opened on a file with data lines. -/
theorem view_open (m : TextMode) (content hd rest : Bytes) (d : Bytes) (D : List Bytes)
    (hh : readHeader m content = some (hd, rest)) (hD : readLines m.col m.eol rest = d :: D) :
    View m true (decoded m d) ⟨[], [], []⟩ D ((Reader.newWith 1 m).open_ content) := by
  cases hr : readLine m.col m.eol rest with
  | none =>
    rw [(readLine_none_iff _ _ _).1 hr, readLines_nil] at hD
    simp at hD
  | some p =>
    obtain ⟨l, rest'⟩ := p
    rw [readLines_some _ _ _ _ _ hr] at hD
    simp only [List.cons.injEq] at hD
    obtain ⟨rfl, hD⟩ := hD
    unfold Reader.open_
    have hm : (Reader.newWith 1 m).mode = m := rfl
    simp only [hm, hh, hr]
    refine ⟨rfl, rfl, rfl, Or.inl ⟨rfl, ?_⟩, hD⟩
    simp only [Reader.newWith, List.replicate, List.modify_zero_cons, List.cons.injEq, and_true]
    exact split_setLine m ⟨[], [], []⟩ l (fun _ => rfl)

theorem readLines_length (q : QuoteMode) (eol : UInt8) (file : Bytes) : (readLines q eol file).length ≤ file.length := by
  refine readLines_induction q eol (fun f => (readLines q eol f).length ≤ f.length) (by simp [readLines_nil]) ?_ file
  intro f l rest h ih
  have := readLine_shorter q eol f l rest h
  rw [readLines_some _ _ _ _ _ h]
  simp only [List.length_cons]
  omega

/-- A line as a reader in plain mode shows it: split if it splits. -/
structure Shows (m : TextMode) (b : Bool) (t : TextLine) (raw : Bytes) : Prop where
  line : t.line = raw
  orig : t.orig = []
  split : b = true → t = decoded m raw

theorem Shows.text {raw : Bytes} {t : TextLine} (h : Shows m b t raw) : t.text = raw := by
  simp [TextLine.text, h.orig, h.line]

theorem decoded_plain (hm : m.col = .plain) (raw : Bytes) : (decoded m raw).line = raw ∧ (decoded m raw).orig = [] := by
  simp [decoded, TextLine.split, TextLine.ofRaw, hm]

theorem decoded_shows (hm : m.col = .plain) (raw : Bytes) : Shows m b (decoded m raw) raw :=
  ⟨(decoded_plain hm raw).1, (decoded_plain hm raw).2, fun _ => rfl⟩

theorem putLine_shows (hm : m.col = .plain) (o : TextLine) (ho : o.orig = []) (l : Bytes) :
    Shows m b (putLine m b o l) l := by
  unfold putLine
  cases b with
  | false => exact ⟨rfl, ho, by simp⟩
  | true =>
    rw [if_pos rfl, split_setLine m o l (fun _ => ho)]
    exact decoded_shows hm l

theorem Shows.assign {t u : TextLine} {x y : Bytes} (ht : Shows m b t x) (hu : Shows m b u y) :
    Shows m b (t.assign u) y := by
  refine ⟨hu.line, ht.orig, fun hb => ?_⟩
  have h := hu.split hb
  have e : t.assign u = u := by
    have h1 := ht.orig.trans hu.orig.symm
    cases t; cases u
    simpa [TextLine.assign] using h1
  rw [e, h]

theorem equalCols_shows (toF64 : Bytes → F64) (cs : List LineComp) (hb : needSplit cs = true → b = true)
    {t u : TextLine} {x y : Bytes} (ht : Shows m b t x) (hu : Shows m b u y) (hm : m.col = .plain) :
    equalColsList toF64 cs t u = equalColsList toF64 cs (decoded m x) (decoded m y) := by
  cases hb' : b with
  | true => rw [← ht.split hb', ← hu.split hb']
  | false =>
    have hn : needSplit cs = false := by
      cases h : needSplit cs with
      | false => rfl
      | true => rw [hb h] at hb'; simp at hb'
    clear hb
    have hx : (decoded m x).text = x := (decoded_shows (b := b) hm x).text
    have hy : (decoded m y).text = y := (decoded_shows (b := b) hm y).text
    induction cs with
    | nil => rfl
    | cons c cs ih =>
      simp only [needSplit, List.any_cons, Bool.or_eq_false_iff] at hn
      have hc : c.equalCols toF64 t u = c.equalCols toF64 (decoded m x) (decoded m y) := by
        obtain ⟨k, rv, d⟩ := c
        cases k with
        | whole k => simp only [LineComp.equalCols, ht.text, hu.text, hx, hy]
        | col k n => simp [LineComp.needSplit] at hn
        | expr e => simp [LineComp.needSplit] at hn
      simp only [equalColsList, hc, ih hn.2]

theorem compCols_shows (toF64 : Bytes → F64) (c : LineComp) (hb : c.needSplit = true → b = true)
    {t u : TextLine} {x y : Bytes} (ht : Shows m b t x) (hu : Shows m b u y) (hm : m.col = .plain) :
    c.compCols toF64 t u = c.compCols toF64 (decoded m x) (decoded m y) := by
  cases hb' : b with
  | true => rw [← ht.split hb', ← hu.split hb']
  | false =>
    have hn : c.needSplit = false := by
      cases h : c.needSplit with
      | false => rfl
      | true => rw [hb h] at hb'; simp at hb'
    have hx : (decoded m x).text = x := (decoded_shows (b := b) hm x).text
    have hy : (decoded m y).text = y := (decoded_shows (b := b) hm y).text
    obtain ⟨k, rv, d⟩ := c
    cases k with
    | whole k => simp only [LineComp.compCols, ht.text, hu.text, hx, hy]
    | col k n => simp [LineComp.needSplit] at hn
    | expr e => simp [LineComp.needSplit] at hn

end Cdx
