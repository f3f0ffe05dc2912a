import Verif.Model.BinMain
import Verif.Props.Binsearch
import Verif.Props.Comp
import Verif.Props.Header
import Verif.Props.Transpose
import Verif.Props.Options
import Verif.Props.Paste
import Verif.Props.UniqAgg

/-!
Properties C127 to C129: the command binsearch.
-/

namespace Cdx

/-! ## The lines shown -/

theorem withNl_flatten (ls : List Bytes) (h : WF ls) : withNl ls.flatten = ls.flatMap withNl := by
  induction ls with
  | nil => rfl
  | cons l ls ih =>
    obtain ⟨h1, h2, h3⟩ := h
    have ih := ih h3
    rcases h2 with ⟨b, hb, rfl⟩ | ⟨h2, rfl⟩
    · rw [List.flatten_cons, List.flatMap_cons, ← ih]
      have e : withNl (b ++ [10]) = b ++ [10] := by simp [withNl]
      rw [e]
      unfold withNl
      by_cases h : ls.flatten = []
      · simp [h]
      · simp only [h, if_false]
        rw [if_neg (by simp), List.getLast?_append, List.getLast?_eq_some_getLast h, Option.some_or]
        split <;> simp
    · simp

theorem WF.drop {ls : List Bytes} (h : WF ls) (n : Nat) : WF (ls.drop n) := by
  induction n generalizing ls with
  | zero => exact h
  | succ n ih =>
    cases ls with
    | nil => exact h
    | cons l ls => exact ih h.2.2

theorem WF.take {ls : List Bytes} (h : WF ls) (n : Nat) : WF (ls.take n) := by
  induction n generalizing ls with
  | zero => exact trivial
  | succ n ih =>
    cases ls with
    | nil => exact h
    | cons l ls =>
      obtain ⟨h1, h2, h3⟩ := h
      refine ⟨h1, ?_, ih h3⟩
      rcases h2 with h2 | ⟨h2, rfl⟩
      · exact Or.inl h2
      · exact Or.inr ⟨h2, by simp⟩

theorem prefixLoop_spec (data tail : Bytes) : ∀ (fuel a b : Nat), a ≤ b → b ≤ (cutLines data).length → b - a < fuel →
    prefixLoop data tail fuel (lineStart (cutLines data) a) (lineStart (cutLines data) b) =
      .ok ((((cutLines data).take b).drop a).flatMap fun l => tail ++ [TAB] ++ withNl l) := by
  have hw := cutLines_wf data
  intro fuel
  induction fuel with
  | zero => intro a b _ _ h; omega
  | succ fuel ih =>
    intro a b hab hb hf
    unfold prefixLoop
    by_cases h : a = b
    · subst h
      rw [if_neg (by omega), List.drop_of_length_le (by simp; omega)]
      rfl
    · have hl := lineStart_mono hw (show a < b by omega) hb
      rw [if_pos hl, (C03_stepping_partial data a (by omega)).1]
      obtain ⟨line, e1, e2⟩ := slice_lines hw (show a < (cutLines data).length by omega)
      rw [cutLines_flatten] at e2
      rw [e2]
      simp only
      rw [ih (a + 1) b (by omega) hb (by omega)]
      have e : ((cutLines data).take b).drop a = line :: ((cutLines data).take b).drop (a + 1) := by
        have hlen : a < ((cutLines data).take b).length := by simp; omega
        rw [List.drop_eq_getElem_cons hlen]
        congr 1
        rw [List.getElem_take]
        rw [List.getElem?_eq_getElem (by omega)] at e1
        exact Option.some_inj.1 e1
      rw [e]
      simp

theorem slice_range (data : Bytes) {a b : Nat} (hab : a ≤ b) (hb : b ≤ (cutLines data).length) :
    slice data (lineStart (cutLines data) a) (lineStart (cutLines data) b) = some ((((cutLines data).take b).drop a).flatten) := by
  have hw := cutLines_wf data
  have hf := cutLines_flatten data
  generalize cutLines data = ls at *
  have h1 := lineStart_le hw hab hb
  have h2 := lineStart_le hw hb (Nat.le_refl _)
  rw [lineStart_length, hf] at h2
  unfold slice
  rw [if_pos ⟨h1, h2⟩]
  congr 1
  have p1 : ls = ls.take a ++ ((ls.take b).drop a ++ ls.drop b) := by
    have : (ls.take b).take a = ls.take a := by rw [List.take_take, Nat.min_eq_left hab]
    rw [← this, ← List.append_assoc, List.take_append_drop, List.take_append_drop]
  have p2 : ls.take b = ls.take a ++ (ls.take b).drop a := by
    have : (ls.take b).take a = ls.take a := by rw [List.take_take, Nat.min_eq_left hab]
    rw [← this, List.take_append_drop]
  have hd : data = (ls.take a).flatten ++ (((ls.take b).drop a).flatten ++ (ls.drop b).flatten) := by
    rw [← hf]
    conv => lhs; rw [p1]
    simp
  have hl : lineStart ls b = lineStart ls a + ((ls.take b).drop a).flatten.length := by
    unfold lineStart
    conv => lhs; rw [p2]
    simp only [List.flatten_append, List.length_append]
  rw [hl, hd]
  unfold lineStart
  simp

/-- What comes before a line in the output. -/
def linePrefix (filename : Option FileNameColumn) (fname : Bytes) : Bytes :=
  match filename with
  | none => []
  | some f => tailPath fname f.tail 47 ++ [TAB]

/-- A line as it is written: with its newline, even if the file does not end with one. -/
def endedLine (l : Bytes) : Bytes := if l.getLast? = some 10 then l else l ++ [10]

theorem withNl_ended {l : Bytes} (h : l ≠ []) : withNl l = endedLine l := by simp [withNl, endedLine, h]

theorem flatMap_same {α β : Type} (f g : α → List β) (l : List α) (h : ∀ a ∈ l, f a = g a) : l.flatMap f = l.flatMap g := by
  induction l with
  | nil => rfl
  | cons a l ih =>
    rw [List.flatMap_cons, List.flatMap_cons, h a (by simp), ih fun b hb => h b (by simp [hb])]

/-- The lines a file contributes: those found, with lines around them as asked for. -/
def contextLines (c : Context) (gs es ss : List Bytes) : List Bytes :=
  let n := c.get (decide (es = []))
  ((gs ++ es ++ ss).take (gs.length + es.length + n.2)).drop (gs.length - n.1)

theorem cutLines_ne {data l : Bytes} (h : l ∈ cutLines data) : l ≠ [] := by
  obtain ⟨k, hk, hkx⟩ := List.getElem_of_mem h
  obtain ⟨_, line, _, _, _, e3, _, hne, _, _⟩ := (cutLines_wf data).at hk
  rw [List.getElem?_eq_getElem hk, hkx] at e3
  cases e3
  exact hne

/-- The body of the output for one file. -/
theorem binBody_spec (fuel : Nat) (o : BinOpts) (fname data : Bytes) (gs es ss : List Bytes)
    (hl : cutLines data = gs ++ es ++ ss) (hfuel : (cutLines data).length < fuel)
    (hctx : (o.context.get (decide (es = []))).1 = 0 ∨ gs.length < (cutLines data).length ∨ data = [] ∨ data.getLast? = some 10) :
    binBody fuel o fname data (gs.flatten.length, (gs ++ es).flatten.length) =
      .ok ((contextLines o.context gs es ss).flatMap fun l => linePrefix o.filename fname ++ withNl l) := by
  have hw := cutLines_wf data
  have e1 : gs.flatten.length = lineStart (cutLines data) gs.length := by rw [hl]; simp [lineStart]
  have e2 : (gs ++ es).flatten.length = lineStart (cutLines data) (gs.length + es.length) := by
    rw [hl]; simp only [lineStart, ← List.length_append, List.take_left']
  have hlen : gs.length + es.length ≤ (cutLines data).length := by rw [hl]; simp
  have hem : decide (gs.flatten.length = (gs ++ es).flatten.length) = decide (es = []) := by
    apply decide_eq_decide.2
    constructor
    · intro h
      cases es with
      | nil => rfl
      | cons x xs =>
        have hx : x ≠ [] := cutLines_ne (data := data) (by rw [hl]; simp)
        have := List.length_pos_iff.2 hx
        simp at h
        exact absurd h.1 hx
    · rintro rfl; simp
  unfold binBody
  simp only [hem]
  have hback : backLoop data (o.context.get (decide (es = []))).1 gs.flatten.length =
      some (lineStart (cutLines data) (gs.length - (o.context.get (decide (es = []))).1)) := by
    rw [e1]
    rcases hctx with h | h
    · rw [h]; rfl
    · exact C03_context_before gs.length _ (by omega) h
  have hforw := C03_context_after (data := data) (gs.length + es.length) (o.context.get (decide (es = []))).2 hlen
  rw [hback, e2, hforw]
  simp only
  unfold contextLines
  simp only [← hl]
  generalize o.context.get (decide (es = [])) = n at hback hforw ⊢
  have hsub : (cutLines data).take (gs.length + es.length + n.2) =
      (cutLines data).take (min (gs.length + es.length + n.2) (cutLines data).length) := by
    rw [List.take_eq_take_iff]; simp
  cases hfn : o.filename with
  | some f =>
    simp only [linePrefix]
    rw [prefixLoop_spec data _ fuel _ _ (by omega) (by omega) (by omega), hsub]
  | none =>
    simp only [linePrefix, List.nil_append]
    rw [← withNl_flatten _ ((hw.take _).drop _), hsub]
    have hs := slice_range data (a := gs.length - n.1) (b := min (gs.length + es.length + n.2) (cutLines data).length)
      (by omega) (by omega)
    rw [hs]

/-! ## C127: what is found in a file -/

/-- One file: the header if it is to be shown, and the lines found with their context, each ended by a newline. The lines of the
file, the header being one of them, must be in the order the comparison implies. -/
theorem C127_lines_partial (toF64 : Bytes → F64) (eval : Bytes → List Bytes → Res (Bytes → F64)) (utf8 nameOk : Bytes → Bool)
    (fuel : Nat) (o : BinOpts) (chk chk' : HeaderChecker) (fname data : Bytes) (m : MemMap) (sh : Bool) (cs : List LineComp)
    (gs es ss : List Bytes) (hm : MemMap.new utf8 data = .ok m) (hc : chk.check nameOk (binHeader o.filename m) = some (chk', sh))
    (hk : resolveKeys eval m.names o.keys = .ok cs) (hl : cutLines data = gs ++ es ++ ss)
    (ho : Ordered (compSelfParts toF64 cs o.values) gs es ss)
    (h0 : compSelfParts toF64 cs o.values [] = compSelfParts toF64 cs o.values [10])
    (h1 : compSelfParts toF64 cs o.values [] ≠ .lt ∨ [10] ∉ cutLines data)
    (hf : 2 * (cutLines data).length + 1 < fuel)
    (hctx : (o.context.get (decide (es = []))).1 = 0 ∨ gs.length < (cutLines data).length ∨ data = [] ∨ data.getLast? = some 10) :
    binFile toF64 eval utf8 nameOk fuel o chk fname data = .ok (some (chk', (if sh then binHeader o.filename m else []) ++
      (contextLines o.context gs es ss).flatMap fun l => linePrefix o.filename fname ++ endedLine l)) := by
  have hr := (C01_total_partial data _ gs es ss hl ho h0 h1 fuel hf).2.2.2.2
  unfold binFile
  simp only [hm, hc, hk, hr, binBody_spec fuel o fname data gs es ss hl (by omega) hctx]
  congr 4
  apply flatMap_same
  intro l hl'
  rw [withNl_ended]
  refine cutLines_ne (data := data) ?_
  rw [hl]
  exact List.mem_of_mem_take (List.mem_of_mem_drop hl')

/-- Elements in the order a test implies fall into three stretches. -/
theorem three_parts {α : Type} (f : α → Ordering) (l : List α)
    (h : l.Pairwise fun a b => (f b = .gt → f a = .gt) ∧ (f a = .lt → f b = .lt)) :
    l = l.filter (fun a => f a = .gt) ++ l.filter (fun a => f a = .eq) ++ l.filter (fun a => f a = .lt) := by
  induction l with
  | nil => rfl
  | cons a l ih =>
    rw [List.pairwise_cons] at h
    have ih := ih h.2
    cases ha : f a with
    | gt =>
      simp only [List.filter_cons, ha, decide_true, if_true, decide_false, Bool.false_eq_true, if_false, reduceCtorEq,
        List.cons_append]
      rw [← ih]
    | eq =>
      have hn : l.filter (fun a => decide (f a = .gt)) = [] := by
        rw [List.filter_eq_nil_iff]
        intro b hb hg
        have := (h.1 b hb).1 (by simpa using hg)
        rw [ha] at this
        cases this
      simp only [List.filter_cons, ha, decide_true, if_true, decide_false, Bool.false_eq_true, if_false, reduceCtorEq, hn,
        List.cons_append, List.nil_append]
      rw [hn, List.nil_append] at ih
      rw [← ih]
    | lt =>
      have hn : l.filter (fun a => decide (f a = .gt)) = [] := by
        rw [List.filter_eq_nil_iff]
        intro b hb hg
        rw [(h.1 b hb).2 ha] at hg
        simp at hg
      have hn' : l.filter (fun a => decide (f a = .eq)) = [] := by
        rw [List.filter_eq_nil_iff]
        intro b hb hg
        rw [(h.1 b hb).2 ha] at hg
        simp at hg
      simp only [List.filter_cons, ha, decide_true, if_true, decide_false, Bool.false_eq_true, if_false, reduceCtorEq, hn, hn',
        List.cons_append, List.nil_append]
      rw [hn, hn', List.nil_append] at ih
      rw [List.nil_append] at ih
      rw [← ih]

/-- Comparing a value with elements in order gives such a test. -/
theorem stretches {α : Type} {cmp : α → α → Ordering} (hp : TotalPreorder cmp) (v a b : α) (h : cmp a b ≠ .gt) :
    (cmp v b = .gt → cmp v a = .gt) ∧ (cmp v a = .lt → cmp v b = .lt) := by
  constructor
  · intro hb
    cases ha : cmp v a with
    | gt => rfl
    | lt => exact absurd hb (hp.trans v a b (by simp [ha]) h)
    | eq => exact absurd hb (hp.trans v a b (by simp [ha]) h)
  · intro ha
    have hbv : cmp b v = (cmp v b).swap := hp.swap v b
    have hav : cmp a v = .gt := by rw [hp.swap v a, ha]; rfl
    cases hb : cmp v b with
    | lt => rfl
    | eq => rw [hb] at hbv; exact absurd hav (hp.trans a b v h (by simp [hbv]))
    | gt => rw [hb] at hbv; exact absurd hav (hp.trans a b v h (by simp [hbv]))

theorem cutLines_lines (ls : List Bytes) (h : ∀ l ∈ ls, IsLine l) : cutLines ls.flatten = ls := by
  induction ls with
  | nil => rfl
  | cons l ls ih =>
    obtain ⟨b, rfl, hb⟩ := h l (by simp)
    rw [List.flatten_cons]
    have ih := ih fun x hx => h x (by simp [hx])
    clear h
    induction b with
    | nil => simp [cutLines, NL, ih]
    | cons c b ihb =>
      simp only [List.mem_cons, not_or] at hb
      have hc : ¬ c = 10 := fun e => hb.1 e.symm
      simp only [List.cons_append, cutLines, hc, if_false]
      have := ihb hb.2
      rw [this]

/-- A table as text with any separator. -/
def sepText (d : UInt8) (rows : List (List Bytes)) : Bytes := rows.flatMap fun r => List.intercalate [d] r ++ [NL]

/-- A table of `k` columns that can be written with a separator. -/
def SepTable (d : UInt8) (k : Nat) (rows : List (List Bytes)) : Prop :=
  ∀ r ∈ rows, r.length = k ∧ ∀ c ∈ r, d ∉ c ∧ NL ∉ c

instance (d : UInt8) (k : Nat) (rows : List (List Bytes)) : Decidable (SepTable d k rows) := by unfold SepTable; infer_instance

/-- The header of a table. -/
def sepHead (d : UInt8) (names : List Bytes) : Bytes := List.intercalate [d] (ascii " CDX" :: names) ++ [NL]

/-- Separators a header can have. -/
def SepByte (d : UInt8) : Prop := d ≠ NL ∧ isAsciiAlnum d = false ∧ d ≤ 127 ∧ d ≠ SP

instance (d : UInt8) : Decidable (SepByte d) := by unfold SepByte; infer_instance

/-- A key: the column with this number, compared byte by byte. -/
def colKey (i : Nat) : LineCompMade := ⟨{}, [], .col (.kind .plain) [⟨[], i⟩]⟩

/-- A file sorted by a column is searched for a value: the header and all lines with that value in that column are written, and
nothing else. -/
def C127_statement : Prop := ∀ (toF64 : Bytes → F64) (eval : Bytes → List Bytes → Res (Bytes → F64)) (compiles : Bytes → Bool)
  (d : UInt8) (names : List Bytes) (rows : List (List Bytes)) (i : Nat) (value fname : Bytes), SepByte d →
  names ≠ [] → (∀ n ∈ names, n ≠ [] ∧ ∀ c ∈ n, isAsciiAlnum c = true) → SepTable d names.length rows → i < names.length →
  rows.Pairwise (fun r s => lexCmp (r.getD i []) (s.getD i []) ≠ .gt) →
  ∃ fuel, binMain toF64 eval compiles (fun _ => true) (fun _ => true) fuel [colKey i] none .new value
    [(fname, sepHead d names ++ sepText d rows)] =
      .ok (some (sepHead d names ++ sepText d (rows.filter fun r => r.getD i [] = value)))

theorem lowerLoop_mono (data : Bytes) (cmp : Bytes → Ordering) (f g : Nat) (h : f ≤ g) : ∀ (b e : Nat) (t : Bool) (r),
    lowerLoop data cmp f b e t = .ok r → lowerLoop data cmp g b e t = .ok r := by
  induction f generalizing g with
  | zero => intro b e t r hr; simp [lowerLoop] at hr
  | succ f ih =>
    intro b e t r hr
    obtain ⟨g, rfl⟩ : ∃ k, g = k + 1 := ⟨g - 1, by omega⟩
    unfold lowerLoop at hr ⊢
    split at hr
    · rename_i hlt
      simp only [hlt, if_true]
      cases hp : pickLine data b e t with
      | none => simp [hp] at hr
      | some p =>
        simp only [hp] at hr ⊢
        cases hs : slice data p.1 p.2 with
        | none => simp [hs] at hr
        | some line =>
          simp only [hs] at hr ⊢
          cases hc : cmp line with
          | eq =>
            simp only [hc] at hr ⊢
            split at hr
            · rename_i h1; simp only [h1, if_true]; simpa [h1] using hr
            · rename_i h1; simp only [h1, if_false]; exact ih g (by omega) _ _ _ _ hr
          | lt => simp only [hc] at hr ⊢; exact ih g (by omega) _ _ _ _ hr
          | gt => simp only [hc] at hr ⊢; exact ih g (by omega) _ _ _ _ hr
    · rename_i hlt
      simp only [hlt, if_false]
      exact hr

theorem upperLoop_mono (data : Bytes) (cmp : Bytes → Ordering) (f g : Nat) (h : f ≤ g) : ∀ (b e : Nat) (r),
    upperLoop data cmp f b e = .ok r → upperLoop data cmp g b e = .ok r := by
  induction f generalizing g with
  | zero => intro b e r hr; simp [upperLoop] at hr
  | succ f ih =>
    intro b e r hr
    obtain ⟨g, rfl⟩ : ∃ k, g = k + 1 := ⟨g - 1, by omega⟩
    unfold upperLoop at hr ⊢
    split at hr
    · rename_i hlt
      simp only [hlt, if_true]
      cases hp : pickLine data b e false with
      | none => simp [hp] at hr
      | some p =>
        simp only [hp] at hr ⊢
        cases hs : slice data p.1 p.2 with
        | none => simp [hs] at hr
        | some line =>
          simp only [hs] at hr ⊢
          split at hr
          · rename_i h1; simp only [h1, if_true]; exact ih g (by omega) _ _ _ hr
          · rename_i h1; simp only [h1, if_false]; exact ih g (by omega) _ _ _ hr
    · rename_i hlt
      simp only [hlt, if_false]
      exact hr

/-- More steps do not change a result. -/
theorem equalRangeN_mono (data : Bytes) (cmp : Bytes → Ordering) (f g : Nat) (h : f ≤ g) (r) (hr : equalRangeN f data cmp = .ok r) :
    equalRangeN g data cmp = .ok r := by
  unfold equalRangeN lowerBoundN upperBoundN at hr ⊢
  cases hl : lowerLoop data cmp f 0 data.length false with
  | panic => simp [hl] at hr
  | noFuel => simp [hl] at hr
  | ok p =>
    rw [lowerLoop_mono data cmp f g h _ _ _ _ hl]
    simp only [hl] at hr ⊢
    split at hr
    · rename_i h1; simp only [h1, if_true]; simpa [h1] using hr
    · rename_i h1
      simp only [h1, if_false]
      cases hu : upperLoop data cmp f 0 data.length with
      | panic => simp [hu] at hr
      | noFuel => simp [hu] at hr
      | ok u =>
        rw [upperLoop_mono data cmp f g h _ _ _ hu]
        simp only [hu] at hr ⊢
        exact hr

/-- A result stays the same whatever the number of steps. -/
theorem equalRangeN_all (data : Bytes) (cmp : Bytes → Ordering) (f : Nat) (r) (hr : equalRangeN f data cmp = .ok r) (g : Nat) (r')
    (hg : equalRangeN g data cmp = .ok r') : r' = r := by
  rcases Nat.le_total f g with h | h
  · rw [equalRangeN_mono data cmp f g h r hr] at hg; cases hg; rfl
  · rw [equalRangeN_mono data cmp g f h r' hg] at hr; cases hr; rfl

theorem getCol_row (d : UInt8) (hd : d ≠ NL) (r : List Bytes) (hne : r ≠ []) (h : ∀ c ∈ r, d ∉ c ∧ NL ∉ c) (i : Nat) :
    getCol (List.intercalate [d] r ++ [NL]) i d = r.getD i [] := by
  rw [C05_get_col_agrees d hd _ (fun hm => by
    rcases mem_intercalate hm with h1 | ⟨c, hc, hx⟩
    · exact hd h1.symm
    · exact (h c hc).2 hx)]
  exact (C04_split_join d hd r hne h).2.2 i

theorem compSelf_col (toF64 : Bytes → F64) (i : Nat) (value l : Bytes) :
    compSelfParts toF64 [⟨.col .plain (fun _ => i), false, TAB⟩] [value] l = lexCmp value (getCol l i TAB) := by
  simp only [compSelfParts, LineComp.compSelf, rev, Bool.false_eq_true, if_false, compSelfK]
  cases lexCmp value (getCol l i TAB) <;> simp

theorem findEnd_line (b rest : Bytes) (h : NL ∉ b) : findEnd (b ++ [NL] ++ rest) 0 = (b ++ [NL]).length := by
  unfold findEnd
  rw [List.drop_zero, List.append_assoc, List.singleton_append, show (NL : UInt8) = 10 from rfl, findEndLoop_nl b rest 0 h]
  simp

theorem sepHead_eq (d : UInt8) (names : List Bytes) (hn : names ≠ []) :
    sepHead d names = cdxTag ++ d :: (List.intercalate [d] names ++ [NL]) := by
  unfold sepHead
  rw [intercalate_cons_ne _ _ hn]
  have : ascii " CDX" = cdxTag := by decide +kernel
  rw [this]
  simp

/-- Names that a header can have. -/
def SepNames (d : UInt8) (names : List Bytes) : Prop := names ≠ [] ∧ ∀ n ∈ names, n ≠ [] ∧ d ∉ n ∧ NL ∉ n

theorem sepHead_free (d : UInt8) (hd : SepByte d) (names : List Bytes) (hn : SepNames d names) :
    NL ∉ List.intercalate [d] (ascii " CDX" :: names) := by
  intro hm
  rcases mem_intercalate hm with h1 | ⟨c, hc, hx⟩
  · exact hd.1 h1.symm
  · rcases List.mem_cons.1 hc with rfl | hc
    · revert hx; decide +kernel
    · exact (hn.2 c hc).2.2 hx

theorem SepByte.tag {d : UInt8} (hd : SepByte d) : d ∉ ascii " CDX" := by
  have : ascii " CDX" = [32, 67, 68, 88] := by decide +kernel
  rw [this]
  intro hm
  simp only [List.mem_cons, List.not_mem_nil, or_false] at hm
  obtain ⟨h1, h2, h3, h4⟩ := hd
  rcases hm with rfl | rfl | rfl | rfl
  · exact h4 rfl
  · revert h2; decide
  · revert h2; decide
  · revert h2; decide

theorem lineNames_row (d : UInt8) (hd : d ≠ NL) (r : List Bytes) (hne : r ≠ []) (h : ∀ c ∈ r, d ∉ c ∧ NL ∉ c) :
    lineNames (List.intercalate [d] r ++ [NL]) d = r := (C04_split_join d hd r hne h).1

/-- A file with a header. -/
theorem memMap_head (utf8 : Bytes → Bool) (d : UInt8) (hd : SepByte d) (names : List Bytes) (hn : SepNames d names)
    (hu : utf8 (sepHead d names) = true) (rest : Bytes) : MemMap.new utf8 (sepHead d names ++ rest) =
      .ok ⟨sepHead d names ++ rest, (sepHead d names).length, sepHead d names, names, d⟩ := by
  have hf := sepHead_free d hd names hn
  have he : findEnd (sepHead d names ++ rest) 0 = (sepHead d names).length := findEnd_line _ rest hf
  have hl : lineNames (sepHead d names) d = ascii " CDX" :: names := by
    unfold sepHead
    refine lineNames_row d hd.1 _ (by simp) fun c hc => ?_
    rcases List.mem_cons.1 hc with rfl | hc
    · exact ⟨hd.tag, by decide +kernel⟩
    · exact (hn.2 c hc).2
  have hcdx : isCdx (sepHead d names ++ rest) = true := by
    rw [sepHead_eq d names hn.1]; simp [isCdx, cdxTag, List.isPrefixOf]
  have h4 : (sepHead d names ++ rest)[4]? = some d := by
    rw [sepHead_eq d names hn.1]; simp [cdxTag]
  unfold MemMap.new
  simp only [he, hcdx, if_true, h4, List.take_left', hu, hl]

/-- A file without. -/
theorem memMap_bare (utf8 : Bytes → Bool) (data : Bytes) (h : isCdx data = false) : ∃ n, 0 < n ∧
    n = (sliceSplit TAB (data.take (findEnd data 0))).length ∧
    MemMap.new utf8 data = .ok ⟨data, 0, sepHead TAB (madeUp n), madeUp n, TAB⟩ := by
  refine ⟨_, List.length_pos_iff.2 (sliceSplit_ne_nil _ _), rfl, ?_⟩
  generalize hn : (sliceSplit TAB (data.take (findEnd data 0))).length = n
  have e : fakeCdx n TAB = sepHead TAB (madeUp n) := by
    unfold fakeCdx sepHead
    rw [intercalate_flatMap]
    simp [madeUp, List.flatMap_map]
  have hl : lineNames (sepHead TAB (madeUp n)) TAB = ascii " CDX" :: madeUp n := by
    unfold sepHead
    refine lineNames_row TAB (by decide) _ (by simp) fun c hc => ?_
    rcases List.mem_cons.1 hc with rfl | hc
    · decide +kernel
    · obtain ⟨k, -, rfl⟩ := List.mem_map.1 hc
      simp only [List.mem_cons, not_or]
      exact ⟨⟨by decide, decText_free _ _ (by decide)⟩, ⟨by decide, decText_free _ _ (by decide)⟩⟩
  unfold MemMap.new
  simp only [h, Bool.false_eq_true, if_false, hn, e, hl]

theorem sepHead_ok (nameOk : Bytes → Bool) (d : UInt8) (hd : SepByte d) (names : List Bytes) (hn : SepNames d names)
    (hk : ∀ n ∈ names, nameOk n = true) : FirstLineOk nameOk .matching (sepHead d names) := by
  have e := sepHead_eq d names hn.1
  refine ⟨by rw [e]; simp [cdxTag], fun _ => by simp [sepHead], ?_⟩
  have hcdx : isCdx (sepHead d names) = true := by rw [e]; simp [isCdx, cdxTag, List.isPrefixOf]
  have hlast : (sepHead d names).getLast? = some NL := by simp [sepHead]
  have hdl : (sepHead d names).dropLast = cdxTag ++ d :: List.intercalate [d] names := by
    rw [e, show cdxTag ++ d :: (List.intercalate [d] names ++ [NL]) = (cdxTag ++ d :: List.intercalate [d] names) ++ [NL] by simp]
    rw [List.dropLast_concat]
  have hpos : 0 < (List.intercalate [d] names).length := by
    cases names with
    | nil => exact absurd rfl hn.1
    | cons n ns =>
      rw [intercalate_flatMap]
      have := List.length_pos_iff.2 (hn.2 n (by simp)).1
      simp; omega
  have hsp : sliceSplit d (List.intercalate [d] names) = names := sliceSplit_intercalate d names hn.1 fun c hc => (hn.2 c hc).2.1
  unfold isValidCdx
  simp only [reduceCtorEq, if_false, hcdx, Bool.true_eq_false, or_self, hlast, if_true, hdl]
  have h6 : ¬ (cdxTag ++ d :: List.intercalate [d] names).length < 6 := by simp [cdxTag]; omega
  have hg : (cdxTag ++ d :: List.intercalate [d] names).getD 4 0 = d := by simp [cdxTag]
  have hdr : (cdxTag ++ d :: List.intercalate [d] names).drop 5 = List.intercalate [d] names := by simp [cdxTag]
  simp only [h6, if_false, hg, hdr, hsp]
  have hb : ¬ (d = NL ∨ isAsciiAlnum d = true ∨ d > 127) := by
    rintro (h | h | h)
    · exact hd.1 h
    · rw [hd.2.1] at h; cases h
    · exact absurd hd.2.2.1 (UInt8.not_le.2 h)
  have ha : names.all nameOk = true := List.all_eq_true.2 hk
  simp [hb, ha]

/-- A key that is a column compared byte by byte, given by number or by name. -/
def KeyFor (names : List Bytes) (i : Nat) (k : LineCompMade) : Prop :=
  ∃ c : NamedCol, k = ⟨{}, [], .col (.kind .plain) [c]⟩ ∧ ((c.name = [] ∧ c.num = i) ∨ (names.Nodup ∧ c.name ≠ [] ∧ names[i]? = some c.name))

theorem KeyFor.resolve {names : List Bytes} {i : Nat} {k : LineCompMade} (h : KeyFor names i k)
    (eval : Bytes → List Bytes → Res (Bytes → F64)) : resolveKeys eval names [k] = .ok [⟨.col .plain (fun _ => i), false, TAB⟩] := by
  obtain ⟨c, rfl, h⟩ := h
  have : lookupFile [c] 0 names = .ok i := by
    simp only [lookupFile, fillCols, List.length_singleton, Nat.zero_add, Nat.lt_irrefl, if_false, List.getElem?_cons_zero,
      NamedCol.lookup]
    rcases h with ⟨h1, h2⟩ | ⟨h1, h2, h3⟩
    · simp [h1, h2]
    · simp only [h2, ne_eq, not_false_eq_true, if_true]
      exact lookupCol_nodup names h1 i c.name h3
  simp [resolveKeys, LineCompMade.resolve, this]

theorem sepText_append (d : UInt8) (a b : List (List Bytes)) : sepText d (a ++ b) = sepText d a ++ sepText d b := by
  simp [sepText, List.flatMap_append]

theorem sepText_lines (d : UInt8) (rows : List (List Bytes)) :
    sepText d rows = (rows.map fun r => List.intercalate [d] r ++ [NL]).flatten := by
  simp [sepText, List.flatMap_def]

theorem sepRow_isLine {d : UInt8} (hd : d ≠ NL) {k : Nat} {rows : List (List Bytes)} (h : SepTable d k rows) {r : List Bytes}
    (hr : r ∈ rows) : IsLine (List.intercalate [d] r ++ [NL]) := by
  refine ⟨_, rfl, fun hm => ?_⟩
  rcases mem_intercalate hm with h1 | ⟨c, hc, hx⟩
  · exact hd h1.symm
  · exact ((h r hr).2 c hc).2 hx

theorem new_get (b : Bool) : (Context.new.get b).1 = 0 := by cases b <;> rfl

theorem contextLines_new (gs es ss : List Bytes) : contextLines .new gs es ss = es := by
  have : Context.new.get (decide (es = [])) = (0, 0) := by cases decide (es = []) <;> rfl
  simp only [contextLines, this, Nat.add_zero, Nat.sub_zero, ← List.length_append, List.take_left']
  simp

theorem endedLine_line {l : Bytes} (h : IsLine l) : endedLine l = l := by
  obtain ⟨b, rfl, -⟩ := h
  simp [endedLine]

/-- The lines of a table, sorted by a column, as a search sees them. -/
theorem rows_ordered (toF64 : Bytes → F64) (k : Nat) (hk : 0 < k) (rows : List (List Bytes)) (ht : SepTable TAB k rows) (i : Nat)
    (value : Bytes) (hs : rows.Pairwise fun r s => lexCmp (r.getD i []) (s.getD i []) ≠ .gt) (pre : List Bytes)
    (hpre : ∀ l ∈ pre, lexCmp value (getCol l i TAB) = .gt) : ∃ gs ss,
    pre ++ rows.map (fun r => List.intercalate [TAB] r ++ [NL]) =
      gs ++ (rows.filter fun r => r.getD i [] = value).map (fun r => List.intercalate [TAB] r ++ [NL]) ++ ss ∧
    Ordered (compSelfParts toF64 [⟨.col .plain (fun _ => i), false, TAB⟩] [value]) gs
      ((rows.filter fun r => r.getD i [] = value).map (fun r => List.intercalate [TAB] r ++ [NL])) ss := by
  have h3 := three_parts (fun r : List Bytes => lexCmp value (r.getD i [])) rows
    (hs.imp fun h => stretches preorder_lex value _ _ h)
  have hcol : ∀ r ∈ rows, getCol (List.intercalate [TAB] r ++ [NL]) i TAB = r.getD i [] := fun r hr =>
    getCol_row TAB (by decide) r (by have := (ht r hr).1; cases r with | nil => simp at this; omega | cons _ _ => simp)
      (ht r hr).2 i
  have he : (rows.filter fun r => r.getD i [] = value) = rows.filter fun r => lexCmp value (r.getD i []) = .eq := by
    apply List.filter_congr
    intro r _
    apply decide_eq_decide.2
    rw [lexCmp_eq]
    exact eq_comm
  refine ⟨pre ++ (rows.filter fun r => lexCmp value (r.getD i []) = .gt).map (fun r => List.intercalate [TAB] r ++ [NL]),
    (rows.filter fun r => lexCmp value (r.getD i []) = .lt).map (fun r => List.intercalate [TAB] r ++ [NL]), ?_, ?_⟩
  · rw [he]
    conv => lhs; rw [h3]
    simp
  · rw [he]
    refine ⟨?_, ?_, ?_⟩
    · intro l hl
      rw [compSelf_col]
      rcases List.mem_append.1 hl with hl | hl
      · exact hpre l hl
      · obtain ⟨r, hr, rfl⟩ := List.mem_map.1 hl
        obtain ⟨hr, hv⟩ := List.mem_filter.1 hr
        rw [hcol r hr]; simpa using hv
    · intro l hl
      obtain ⟨r, hr, rfl⟩ := List.mem_map.1 hl
      obtain ⟨hr, hv⟩ := List.mem_filter.1 hr
      rw [compSelf_col, hcol r hr]; simpa using hv
    · intro l hl
      obtain ⟨r, hr, rfl⟩ := List.mem_map.1 hl
      obtain ⟨hr, hv⟩ := List.mem_filter.1 hr
      rw [compSelf_col, hcol r hr]; simpa using hv

theorem plain_empty (toF64 : Bytes → F64) (i : Nat) (value : Bytes) :
    compSelfParts toF64 [⟨.col .plain (fun _ => i), false, TAB⟩] [value] [] =
      compSelfParts toF64 [⟨.col .plain (fun _ => i), false, TAB⟩] [value] [10] ∧
    compSelfParts toF64 [⟨.col .plain (fun _ => i), false, TAB⟩] [value] [] ≠ .lt := by
  rw [compSelf_col, compSelf_col]
  have e1 : getCol [] i TAB = [] := by
    cases i with
    | zero => rfl
    | succ i => simp [getCol, sliceSplit_free TAB [] (by simp)]
  have e2 : getCol [10] i TAB = [] := by
    cases i with
    | zero => decide
    | succ i => simp [getCol, sliceSplit_free TAB [10] (by decide)]
  rw [e1, e2]
  refine ⟨rfl, ?_⟩
  cases value <;> simp [lexCmp]

/-- A sorted table with a header, one file. -/
theorem binFile_table (toF64 : Bytes → F64) (eval : Bytes → List Bytes → Res (Bytes → F64)) (utf8 nameOk : Bytes → Bool)
    (names : List Bytes) (hn : SepNames TAB names) (hu : utf8 (sepHead TAB names) = true)
    (rows : List (List Bytes)) (ht : SepTable TAB names.length rows) (i : Nat) (key : LineCompMade) (hkey : KeyFor names i key)
    (value fname : Bytes) (filename : Option FileNameColumn)
    (hs : rows.Pairwise fun r s => lexCmp (r.getD i []) (s.getD i []) ≠ .gt)
    (hv : lexCmp value ((ascii " CDX" :: names).getD i []) = .gt) (chk chk' : HeaderChecker) (sh : Bool)
    (hc : chk.check nameOk (binHeader filename ⟨sepHead TAB names ++ sepText TAB rows, (sepHead TAB names).length, sepHead TAB names,
      names, TAB⟩) = some (chk', sh)) (fuel : Nat) (hf : 2 * (rows.length + 1) + 1 < fuel) :
    binFile toF64 eval utf8 nameOk fuel ⟨[key], [value], filename, .new⟩ chk fname (sepHead TAB names ++ sepText TAB rows) =
      .ok (some (chk', (if sh then binHeader filename ⟨sepHead TAB names ++ sepText TAB rows, (sepHead TAB names).length,
          sepHead TAB names, names, TAB⟩ else []) ++
        (rows.filter fun r => r.getD i [] = value).flatMap fun r => linePrefix filename fname ++ (List.intercalate [TAB] r ++ [NL]))) := by
  have hd : SepByte TAB := by decide
  have hnl : ∀ c ∈ ascii " CDX" :: names, TAB ∉ c ∧ NL ∉ c := by
    intro c hc
    rcases List.mem_cons.1 hc with rfl | hc
    · decide +kernel
    · exact (hn.2 c hc).2
  have hhead : IsLine (sepHead TAB names) := ⟨_, rfl, sepHead_free TAB hd names hn⟩
  have hcut : cutLines (sepHead TAB names ++ sepText TAB rows) =
      sepHead TAB names :: rows.map (fun r => List.intercalate [TAB] r ++ [NL]) := by
    rw [sepText_lines, ← List.flatten_cons]
    refine cutLines_lines _ fun l hl => ?_
    rcases List.mem_cons.1 hl with rfl | hl
    · exact hhead
    · obtain ⟨r, hr, rfl⟩ := List.mem_map.1 hl
      exact sepRow_isLine (by decide) ht hr
  have hpos : 0 < names.length := List.length_pos_iff.2 hn.1
  obtain ⟨gs, ss, e, ho⟩ := rows_ordered toF64 names.length hpos rows ht i value hs [sepHead TAB names] (by
    intro l hl
    rw [List.mem_singleton.1 hl, sepHead, getCol_row TAB (by decide) _ (by simp) hnl i]
    exact hv)
  rw [List.singleton_append, ← hcut] at e
  have := C127_lines_partial toF64 eval utf8 nameOk fuel ⟨[key], [value], filename, .new⟩ chk chk' fname _ _ sh _ gs _ ss
    (memMap_head utf8 TAB hd names hn hu _) hc (hkey.resolve eval) e ho (plain_empty toF64 i value).1
    (Or.inl (plain_empty toF64 i value).2) (by rw [hcut]; simpa using hf) (Or.inl (new_get _))
  rw [this, contextLines_new, List.flatMap_map]
  congr 4
  apply flatMap_same
  intro r hr
  rw [endedLine_line (sepRow_isLine (by decide) ht (List.mem_filter.1 hr).1)]

theorem binMain_one (toF64 : Bytes → F64) (eval : Bytes → List Bytes → Res (Bytes → F64)) (compiles utf8 nameOk : Bytes → Bool)
    (fuel : Nat) (key : LineCompMade) (filename : Option FileNameColumn) (context : Context) (value : Bytes)
    (files : List (Bytes × Bytes)) : binMain toF64 eval compiles utf8 nameOk fuel [key] filename context value files =
      binFiles toF64 eval utf8 nameOk fuel ⟨[key], [value], filename, context⟩ (.fromMode .matching) files := by
  simp [binMain, setParts]

/-- C127 for tab-separated files and values greater than what the header has in the same place of its line. -/
theorem C127_table_partial (toF64 : Bytes → F64) (eval : Bytes → List Bytes → Res (Bytes → F64)) (compiles utf8 nameOk : Bytes → Bool)
    (names : List Bytes) (hn : SepNames TAB names) (hok : ∀ n ∈ names, nameOk n = true) (hu : utf8 (sepHead TAB names) = true)
    (rows : List (List Bytes)) (ht : SepTable TAB names.length rows) (i : Nat) (key : LineCompMade) (hkey : KeyFor names i key)
    (value fname : Bytes) (hs : rows.Pairwise fun r s => lexCmp (r.getD i []) (s.getD i []) ≠ .gt)
    (hv : lexCmp value ((ascii " CDX" :: names).getD i []) = .gt) (fuel : Nat) (hf : 2 * (rows.length + 1) + 1 < fuel) :
    binMain toF64 eval compiles utf8 nameOk fuel [key] none .new value [(fname, sepHead TAB names ++ sepText TAB rows)] =
      .ok (some (sepHead TAB names ++ sepText TAB (rows.filter fun r => r.getD i [] = value))) := by
  have hd : SepByte TAB := by decide
  have hpos : (sepHead TAB names).length > 0 := by simp [sepHead]
  have hcdx : isCdx (sepHead TAB names) = true := by rw [sepHead_eq TAB names hn.1]; simp [isCdx, cdxTag, List.isPrefixOf]
  have hc := check_first (sepHead_ok nameOk TAB hd names hn hok)
  simp only [hcdx, if_true, reduceCtorEq, if_false] at hc
  rw [binMain_one]
  simp only [binFiles]
  rw [binFile_table toF64 eval utf8 nameOk names hn hu rows ht i key hkey value fname none hs hv _ ⟨.matching, sepHead TAB names, true⟩
    true (by simp only [binHeader, hpos, if_true]; exact hc) fuel hf]
  simp only [binHeader, hpos, if_true, linePrefix, List.nil_append, List.append_nil]
  rfl

/-- C127 for tab-separated files without a header, with any value. -/
theorem C127_bare_partial (toF64 : Bytes → F64) (eval : Bytes → List Bytes → Res (Bytes → F64)) (compiles utf8 nameOk : Bytes → Bool)
    (k : Nat) (hk : 0 < k) (rows : List (List Bytes)) (ht : SepTable TAB k rows) (hb : isCdx (sepText TAB rows) = false) (i : Nat)
    (value fname : Bytes) (hs : rows.Pairwise fun r s => lexCmp (r.getD i []) (s.getD i []) ≠ .gt) (fuel : Nat)
    (hf : 2 * rows.length + 1 < fuel) :
    binMain toF64 eval compiles utf8 nameOk fuel [colKey i] none .new value [(fname, sepText TAB rows)] =
      .ok (some (sepText TAB (rows.filter fun r => r.getD i [] = value))) := by
  obtain ⟨n, hn0, hn, hm⟩ := memMap_bare utf8 (sepText TAB rows) hb
  have hcut : cutLines (sepText TAB rows) = rows.map (fun r => List.intercalate [TAB] r ++ [NL]) := by
    rw [sepText_lines]
    refine cutLines_lines _ fun l hl => ?_
    obtain ⟨r, hr, rfl⟩ := List.mem_map.1 hl
    exact sepRow_isLine (by decide) ht hr
  obtain ⟨gs, ss, e, ho⟩ := rows_ordered toF64 k hk rows ht i value hs [] (by simp)
  rw [List.nil_append, ← hcut] at e
  have hc : (HeaderChecker.fromMode .matching).check nameOk [] = some (.fromMode .matching, false) := rfl
  have := C127_lines_partial toF64 eval utf8 nameOk fuel ⟨[colKey i], [value], none, .new⟩ (.fromMode .matching) (.fromMode .matching)
    fname _ _ false _ gs _ ss hm hc (KeyFor.resolve (i := i) ⟨⟨[], i⟩, rfl, Or.inl ⟨rfl, rfl⟩⟩ eval) e ho (plain_empty toF64 i value).1
    (Or.inl (plain_empty toF64 i value).2) (by rw [hcut]; simpa using hf) (Or.inl (new_get _))
  rw [binMain_one]
  simp only [binFiles]
  rw [this, contextLines_new, List.flatMap_map]
  simp only [Bool.false_eq_true, if_false, List.nil_append, linePrefix, List.append_nil]
  rw [sepText]
  congr 2
  apply flatMap_same
  intro r hr
  rw [endedLine_line (sepRow_isLine (by decide) ht (List.mem_filter.1 hr).1)]

theorem prefixLoop_mono (data tail : Bytes) (f g : Nat) (h : f ≤ g) : ∀ (a b : Nat) (r), prefixLoop data tail f a b = .ok r →
    prefixLoop data tail g a b = .ok r := by
  induction f generalizing g with
  | zero => intro a b r hr; simp [prefixLoop] at hr
  | succ f ih =>
    intro a b r hr
    obtain ⟨g, rfl⟩ : ∃ k, g = k + 1 := ⟨g - 1, by omega⟩
    unfold prefixLoop at hr ⊢
    split at hr
    · rename_i h1
      simp only [h1, if_true]
      cases hs : slice data a (findEnd data a) with
      | none => simp [hs] at hr
      | some line =>
        simp only [hs] at hr ⊢
        cases hp : prefixLoop data tail f (findEnd data a) b with
        | panic => simp [hp] at hr
        | noFuel => simp [hp] at hr
        | ok rest => rw [ih g (by omega) _ _ _ hp]; simpa [hp] using hr
    · rename_i h1
      simpa [h1] using hr

theorem binBody_mono (f g : Nat) (h : f ≤ g) (o : BinOpts) (fname data : Bytes) (range : Nat × Nat) (r)
    (hr : binBody f o fname data range = .ok r) : binBody g o fname data range = .ok r := by
  unfold binBody at hr ⊢
  simp only at hr ⊢
  cases hb : backLoop data (o.context.get (decide (range.1 = range.2))).1 range.1 with
  | none => simp [hb] at hr
  | some start =>
    simp only [hb] at hr ⊢
    cases hf : o.filename with
    | none => simpa [hf] using hr
    | some n => simp only [hf] at hr ⊢; exact prefixLoop_mono _ _ f g h _ _ _ hr

theorem binFile_mono (toF64 : Bytes → F64) (eval : Bytes → List Bytes → Res (Bytes → F64)) (utf8 nameOk : Bytes → Bool) (f g : Nat)
    (h : f ≤ g) (o : BinOpts) (chk : HeaderChecker) (fname data : Bytes) (r)
    (hr : binFile toF64 eval utf8 nameOk f o chk fname data = .ok r) : binFile toF64 eval utf8 nameOk g o chk fname data = .ok r := by
  unfold binFile at hr ⊢
  cases hm : MemMap.new utf8 data with
  | panic => simp [hm] at hr
  | err => simpa [hm] using hr
  | ok m =>
    simp only [hm] at hr ⊢
    cases hc : chk.check nameOk (binHeader o.filename m) with
    | none => simpa [hc] using hr
    | some p =>
      simp only [hc] at hr ⊢
      cases hk : resolveKeys eval m.names o.keys with
      | panic => simp [hk] at hr
      | err => simpa [hk] using hr
      | ok cs =>
        simp only [hk] at hr ⊢
        cases he : equalRangeN f data (compSelfParts toF64 cs o.values) with
        | panic => simp [he] at hr
        | noFuel => simp [he] at hr
        | ok range =>
          rw [equalRangeN_mono _ _ f g h _ he]
          simp only [he] at hr ⊢
          cases hb : binBody f o fname data range with
          | panic => simp [hb] at hr
          | noFuel => simp [hb] at hr
          | ok b => rw [binBody_mono f g h _ _ _ _ _ hb]; simpa [hb] using hr

theorem binFiles_mono (toF64 : Bytes → F64) (eval : Bytes → List Bytes → Res (Bytes → F64)) (utf8 nameOk : Bytes → Bool) (f g : Nat)
    (h : f ≤ g) (o : BinOpts) (files : List (Bytes × Bytes)) : ∀ (chk : HeaderChecker) (r),
    binFiles toF64 eval utf8 nameOk f o chk files = .ok r → binFiles toF64 eval utf8 nameOk g o chk files = .ok r := by
  induction files with
  | nil => intro chk r hr; exact hr
  | cons a files ih =>
    intro chk r hr
    unfold binFiles at hr ⊢
    cases hb : binFile toF64 eval utf8 nameOk f o chk a.1 a.2 with
    | panic => simp [hb] at hr
    | noFuel => simp [hb] at hr
    | ok p =>
      rw [binFile_mono toF64 eval utf8 nameOk f g h _ _ _ _ _ hb]
      rcases p with _ | ⟨chk', b⟩
      · simpa [hb] using hr
      · simp only [hb] at hr ⊢
        cases hr' : binFiles toF64 eval utf8 nameOk f o chk' files with
        | panic => simp [hr'] at hr
        | noFuel => simp [hr'] at hr
        | ok q => rw [ih _ _ hr']; simpa [hr'] using hr

/-- The outcome of a search does not depend on how many steps it may take, once they are enough. -/
theorem binMain_all (toF64 : Bytes → F64) (eval : Bytes → List Bytes → Res (Bytes → F64)) (compiles utf8 nameOk : Bytes → Bool)
    (f g : Nat) (key : LineCompMade) (filename : Option FileNameColumn) (context : Context) (value : Bytes)
    (files : List (Bytes × Bytes)) (r r') (hf : binMain toF64 eval compiles utf8 nameOk f [key] filename context value files = .ok r)
    (hg : binMain toF64 eval compiles utf8 nameOk g [key] filename context value files = .ok r') : r' = r := by
  rw [binMain_one] at hf hg
  rcases Nat.le_total f g with h | h
  · rw [binFiles_mono _ _ _ _ f g h _ _ _ _ hf] at hg; cases hg; rfl
  · rw [binFiles_mono _ _ _ _ g f h _ _ _ _ hg] at hf; cases hf; rfl

/-- The full statement is false for a file whose columns are separated by commas: the keys always cut lines at tabs, so the line
`p,1` is not found when `p` is searched for in the first column. -/
theorem C127_refuted : ¬ C127_statement := by
  intro h
  obtain ⟨fuel, hf⟩ := h (fun _ => default) (fun _ _ => .err) (fun _ => true) 44 [ascii "a", ascii "b"] [[ascii "p", ascii "1"]] 0
    (ascii "p") [] (by decide) (by decide) (by decide +kernel) (by decide +kernel) (by decide) (by simp)
  have := binMain_all _ _ _ _ _ 20 fuel _ _ _ _ _ (some (ascii " CDX,a,b\n")) _ (by decide +kernel) hf
  revert this
  decide +kernel

/-- It is also false with tabs: the header takes part in the search, and its line has ` CDX` before the names, so that searching the
second column for `1` stops at the name `x`. -/
theorem C127_refuted_header : ¬ ∀ (names : List Bytes) (rows : List (List Bytes)) (i : Nat) (value : Bytes),
    names ≠ [] → (∀ n ∈ names, n ≠ [] ∧ ∀ c ∈ n, isAsciiAlnum c = true) → SepTable TAB names.length rows → i < names.length →
    rows.Pairwise (fun r s => lexCmp (r.getD i []) (s.getD i []) ≠ .gt) →
    ∃ fuel, binMain (fun _ => default) (fun _ _ => .err) (fun _ => true) (fun _ => true) (fun _ => true) fuel [colKey i] none .new value
      [([], sepHead TAB names ++ sepText TAB rows)] =
        .ok (some (sepHead TAB names ++ sepText TAB (rows.filter fun r => r.getD i [] = value))) := by
  intro h
  obtain ⟨fuel, hf⟩ := h [ascii "x", ascii "y"] [[ascii "p", ascii "1"], [ascii "q", ascii "2"]] 1
    (ascii "1") (by decide) (by decide +kernel) (by decide +kernel) (by decide) (by decide +kernel)
  have := binMain_all _ _ _ _ _ 20 fuel _ _ _ _ _ (some (ascii " CDX\tx\ty\n")) _ (by decide +kernel) hf
  revert this
  decide +kernel

/-- A table in which `b` is searched for in the second column, by name. -/
example : SepNames TAB [ascii "a", ascii "A"] ∧
    SepTable TAB 2 [[ascii "2", ascii "a"], [ascii "1", ascii "b"], [ascii "3", ascii "b"], [ascii "0", ascii "c"]] ∧
    KeyFor [ascii "a", ascii "A"] 1 ⟨{}, [], .col (.kind .plain) [⟨ascii "A", 0⟩]⟩ ∧
    ([[ascii "2", ascii "a"], [ascii "1", ascii "b"], [ascii "3", ascii "b"], [ascii "0", ascii "c"]] : List (List Bytes)).Pairwise
      (fun r s => lexCmp (r.getD 1 []) (s.getD 1 []) ≠ .gt) ∧
    lexCmp (ascii "b") ((ascii " CDX" :: [ascii "a", ascii "A"]).getD 1 []) = .gt ∧
    isCdx (sepText TAB [[ascii "2", ascii "a"], [ascii "1", ascii "b"]]) = false :=
  ⟨by unfold SepNames; decide +kernel, by unfold SepTable; decide +kernel,
    ⟨⟨ascii "A", 0⟩, rfl, Or.inr ⟨by decide +kernel, by decide +kernel, by decide +kernel⟩⟩, by decide +kernel, by decide +kernel,
    by decide +kernel⟩

/-- The name of the file is one more column, before the others: the header has its name and each line the last parts of the path. -/
def C128_statement : Prop := ∀ (d : UInt8) (names : List Bytes) (rows : List (List Bytes)) (value fname : Bytes)
  (f : FileNameColumn), SepByte d → names ≠ [] → (∀ n ∈ f.name :: names, n ≠ [] ∧ ∀ c ∈ n, isAsciiAlnum c = true) →
  SepTable d names.length rows → rows.Pairwise (fun r s => lexCmp (r.getD 0 []) (s.getD 0 []) ≠ .gt) →
  lexCmp value (ascii " CDX") = .gt →
  ∃ fuel, binMain (fun _ => default) (fun _ _ => .err) (fun _ => true) (fun _ => true) (fun _ => true) fuel [colKey 0] (some f) .new
    value [(fname, sepHead d names ++ sepText d rows)] =
      .ok (some (sepHead d (f.name :: names) ++
        sepText d ((rows.filter fun r => r.getD 0 [] = value).map (tailPath fname f.tail 47 :: ·))))

/-- The full statement is false: a tab is written after ` CDX` and after the name of the file, whatever separates the columns of the
file. -/
theorem C128_refuted : ¬ C128_statement := by
  intro h
  obtain ⟨fuel, hf⟩ := h 44 [ascii "a"] [] (ascii "z") [] ⟨ascii "f", 0⟩ (by decide) (by decide) (by decide +kernel)
    (by simp [SepTable]) (by simp) (by decide +kernel)
  have := binMain_all _ _ _ _ _ 20 fuel _ _ _ _ _ (some (ascii " CDX\tf,a\n")) _ (by decide +kernel) hf
  revert this
  decide +kernel

theorem binHeader_name (names : List Bytes) (hn : names ≠ []) (f : FileNameColumn) (data : Bytes) :
    binHeader (some f) ⟨data, (sepHead TAB names).length, sepHead TAB names, names, TAB⟩ = sepHead TAB (f.name :: names) := by
  have hpos : (sepHead TAB names).length > 0 := by simp [sepHead]
  simp only [binHeader, hpos, if_true]
  have : (sepHead TAB names).drop 4 = TAB :: (List.intercalate [TAB] names ++ [NL]) := by
    rw [sepHead_eq TAB names hn]; rfl
  rw [this, sepHead_eq TAB (f.name :: names) (by simp), intercalate_cons_ne [TAB] f.name hn]
  simp [show ascii " CDX\t" = cdxTag ++ [TAB] by decide +kernel]

/-- The names in the header of the output. -/
def outNames (filename : Option FileNameColumn) (names : List Bytes) : List Bytes :=
  match filename with
  | none => names
  | some f => f.name :: names

/-- A row of the output. -/
def outRow (filename : Option FileNameColumn) (fname : Bytes) (r : List Bytes) : List Bytes :=
  match filename with
  | none => r
  | some f => tailPath fname f.tail 47 :: r

theorem binHeader_out (filename : Option FileNameColumn) (names : List Bytes) (hn : names ≠ []) (data : Bytes) :
    binHeader filename ⟨data, (sepHead TAB names).length, sepHead TAB names, names, TAB⟩ = sepHead TAB (outNames filename names) := by
  cases filename with
  | some f => exact binHeader_name names hn f data
  | none => simp [binHeader, outNames, sepHead]

theorem outRow_text (filename : Option FileNameColumn) (fname : Bytes) (r : List Bytes) (hr : r ≠ []) :
    linePrefix filename fname ++ (List.intercalate [TAB] r ++ [NL]) = List.intercalate [TAB] (outRow filename fname r) ++ [NL] := by
  cases filename with
  | none => rfl
  | some f => simp [linePrefix, outRow, intercalate_cons_ne [TAB] _ hr]

/-- Many tab-separated files with the same header: after the header come the lines found in each of them, with the name of the file
as first column if it was asked for. -/
theorem C129_concat_partial (toF64 : Bytes → F64) (eval : Bytes → List Bytes → Res (Bytes → F64)) (compiles utf8 nameOk : Bytes → Bool)
    (names : List Bytes) (hn : SepNames TAB names) (filename : Option FileNameColumn) (hn' : SepNames TAB (outNames filename names))
    (hok : ∀ n ∈ outNames filename names, nameOk n = true) (hu : utf8 (sepHead TAB names) = true) (i : Nat) (key : LineCompMade)
    (hkey : KeyFor names i key) (value : Bytes) (hv : lexCmp value ((ascii " CDX" :: names).getD i []) = .gt)
    (files : List (Bytes × List (List Bytes))) (hne : files ≠ []) (ht : ∀ f ∈ files, SepTable TAB names.length f.2)
    (hs : ∀ f ∈ files, f.2.Pairwise fun r s => lexCmp (r.getD i []) (s.getD i []) ≠ .gt) (fuel : Nat)
    (hf : ∀ f ∈ files, 2 * (f.2.length + 1) + 1 < fuel) :
    binMain toF64 eval compiles utf8 nameOk fuel [key] filename .new value
      (files.map fun f => (f.1, sepHead TAB names ++ sepText TAB f.2)) =
      .ok (some (sepHead TAB (outNames filename names) ++
        sepText TAB (files.flatMap fun f => (f.2.filter fun r => r.getD i [] = value).map (outRow filename f.1)))) := by
  have hd : SepByte TAB := by decide
  have hpos : 0 < names.length := List.length_pos_iff.2 hn.1
  have hfirst := sepHead_ok nameOk TAB hd _ hn' hok
  have hcdx : isCdx (sepHead TAB (outNames filename names)) = true := by
    rw [sepHead_eq TAB _ hn'.1]; simp [isCdx, cdxTag, List.isPrefixOf]
  have hne' : sepHead TAB (outNames filename names) ≠ [] := by simp [sepHead]
  have hrow : ∀ f ∈ files, ((f.2.filter fun r => r.getD i [] = value).flatMap fun r => linePrefix filename f.1 ++
      (List.intercalate [TAB] r ++ [NL])) =
      sepText TAB ((f.2.filter fun r => r.getD i [] = value).map (outRow filename f.1)) := by
    intro f hm
    rw [sepText, List.flatMap_map]
    apply flatMap_same
    intro r hr
    refine outRow_text filename f.1 r ?_
    have := (ht f hm r (List.mem_filter.1 hr).1).1
    rintro rfl
    simp at this
    omega
  rw [binMain_one]
  have hlater : ∀ fs : List (Bytes × List (List Bytes)), (∀ f ∈ fs, f ∈ files) →
      binFiles toF64 eval utf8 nameOk fuel ⟨[key], [value], filename, .new⟩
        ⟨.matching, sepHead TAB (outNames filename names), true⟩ (fs.map fun f => (f.1, sepHead TAB names ++ sepText TAB f.2)) =
      .ok (some (sepText TAB (fs.flatMap fun f => (f.2.filter fun r => r.getD i [] = value).map (outRow filename f.1)))) := by
    intro fs
    induction fs with
    | nil => intro _; rfl
    | cons f fs ih =>
      intro hm
      have hmf := hm f (by simp)
      have hc := check_later (nameOk := nameOk) (c := ⟨.matching, sepHead TAB (outNames filename names), true⟩) rfl hfirst
      simp only [hcdx, if_true, hne', ne_eq, not_false_eq_true, and_self] at hc
      rw [List.map_cons, binFiles]
      rw [binFile_table toF64 eval utf8 nameOk names hn hu f.2 (ht f hmf) i key hkey value f.1 filename (hs f hmf) hv _
        ⟨.matching, sepHead TAB (outNames filename names), true⟩ false (by rw [binHeader_out _ _ hn.1]; exact hc) fuel (hf f hmf)]
      simp only [hrow f hmf, ih fun g hg => hm g (by simp [hg]), Bool.false_eq_true, if_false, List.nil_append,
        List.flatMap_cons, sepText_append]
  cases files with
  | nil => simp at hne
  | cons f fs =>
    have hc := check_first hfirst
    simp only [hcdx, if_true, reduceCtorEq, if_false] at hc
    rw [List.map_cons, binFiles]
    rw [binFile_table toF64 eval utf8 nameOk names hn hu f.2 (ht f (by simp)) i key hkey value f.1 filename (hs f (by simp)) hv _
      ⟨.matching, sepHead TAB (outNames filename names), true⟩ true (by rw [binHeader_out _ _ hn.1]; exact hc) fuel (hf f (by simp))]
    simp only [hrow f (by simp), hlater fs fun g hg => by simp [hg], if_true, List.flatMap_cons, sepText_append, binHeader_out _ _ hn.1,
      List.append_assoc]

/-- C128 for tab-separated files. -/
theorem C128_table_partial (toF64 : Bytes → F64) (eval : Bytes → List Bytes → Res (Bytes → F64)) (compiles utf8 nameOk : Bytes → Bool)
    (names : List Bytes) (f : FileNameColumn) (hn : SepNames TAB names) (hf : f.name ≠ [] ∧ TAB ∉ f.name ∧ NL ∉ f.name)
    (hok : ∀ n ∈ f.name :: names, nameOk n = true) (hu : utf8 (sepHead TAB names) = true) (rows : List (List Bytes))
    (ht : SepTable TAB names.length rows) (i : Nat) (key : LineCompMade) (hkey : KeyFor names i key) (value fname : Bytes)
    (hs : rows.Pairwise fun r s => lexCmp (r.getD i []) (s.getD i []) ≠ .gt)
    (hv : lexCmp value ((ascii " CDX" :: names).getD i []) = .gt) (fuel : Nat) (hfuel : 2 * (rows.length + 1) + 1 < fuel) :
    binMain toF64 eval compiles utf8 nameOk fuel [key] (some f) .new value [(fname, sepHead TAB names ++ sepText TAB rows)] =
      .ok (some (sepHead TAB (f.name :: names) ++
        sepText TAB ((rows.filter fun r => r.getD i [] = value).map (tailPath fname f.tail 47 :: ·)))) := by
  have := C129_concat_partial toF64 eval compiles utf8 nameOk names hn (some f)
    ⟨by simp [outNames], fun n hm => by
      rcases List.mem_cons.1 hm with rfl | hm
      · exact hf
      · exact hn.2 n hm⟩ hok hu i key hkey value hv [(fname, rows)] (by simp) (by simpa using ht) (by simpa using hs) fuel
      (by simpa using hfuel)
  have e : (fun r : List Bytes => tailPath fname f.tail 47 :: r) = outRow (some f) fname := rfl
  simpa [outNames, e] using this

/-- With no name given for the column, as in `-H 2`, any file with a header is an error. -/
theorem C128_unnamed_refuted (toF64 : Bytes → F64) (eval : Bytes → List Bytes → Res (Bytes → F64)) (compiles utf8 nameOk : Bytes → Bool)
    (hno : nameOk [] = false) (names : List Bytes) (hn : SepNames TAB names) (tail : Nat) (context : Context)
    (hu : utf8 (sepHead TAB names) = true) (rest : Bytes) (key : LineCompMade) (value fname : Bytes) (fuel : Nat)
    (files : List (Bytes × Bytes)) :
    binMain toF64 eval compiles utf8 nameOk fuel [key] (some ⟨[], tail⟩) context value
      ((fname, sepHead TAB names ++ rest) :: files) = .ok none := by
  have hd : SepByte TAB := by decide
  have hc : (HeaderChecker.fromMode .matching).check nameOk (sepHead TAB ([] :: names)) = none := by
    have e := sepHead_eq TAB ([] :: names) (by simp)
    rw [intercalate_cons_ne [TAB] [] hn.1] at e
    have : isValidCdx nameOk .matching (sepHead TAB ([] :: names)) = none := by
      rw [e]
      unfold isValidCdx
      have hcdx : isCdx (cdxTag ++ TAB :: ([] ++ [TAB] ++ List.intercalate [TAB] names ++ [NL])) = true := by
        simp [isCdx, cdxTag, List.isPrefixOf]
      have hlast : (cdxTag ++ TAB :: ([] ++ [TAB] ++ List.intercalate [TAB] names ++ [NL])).getLast? = some NL := by
        simp [cdxTag, List.getLast?_cons, List.getLast?_append]
      have hdl : (cdxTag ++ TAB :: ([] ++ [TAB] ++ List.intercalate [TAB] names ++ [NL])).dropLast =
          cdxTag ++ TAB :: TAB :: List.intercalate [TAB] names := by
        rw [show cdxTag ++ TAB :: ([] ++ [TAB] ++ List.intercalate [TAB] names ++ [NL]) =
          (cdxTag ++ TAB :: TAB :: List.intercalate [TAB] names) ++ [NL] by simp, List.dropLast_concat]
      simp only [reduceCtorEq, if_false, hcdx, Bool.true_eq_false, or_self, hlast, if_true, hdl]
      have hdr : (cdxTag ++ TAB :: TAB :: List.intercalate [TAB] names).drop 5 = TAB :: List.intercalate [TAB] names := by
        simp [cdxTag]
      have hall : (sliceSplit TAB (TAB :: List.intercalate [TAB] names)).all nameOk = false := by
        have := sliceSplit_intercalate TAB ([] :: names) (by simp) (by
          intro c hc
          rcases List.mem_cons.1 hc with rfl | hc
          · simp
          · exact (hn.2 c hc).2.1)
        rw [intercalate_cons_ne [TAB] [] hn.1] at this
        simp only [List.nil_append, List.singleton_append] at this
        rw [this]; simp [hno]
      have hg : (cdxTag ++ TAB :: TAB :: List.intercalate [TAB] names).getD 4 0 = TAB := by simp [cdxTag]
      simp only [hdr, hg, hall]
      simp
    simp [HeaderChecker.check, HeaderChecker.fromMode, this]
  rw [binMain_one, binFiles]
  unfold binFile
  simp only [memMap_head utf8 TAB hd names hn hu, binHeader_name names hn.1, hc]

/-- The header of a file; without one, nothing. -/
def fileHeader (data : Bytes) : Bytes := if isCdx data then (cutLines data).headD [] else []

/-- All files have the same header, or none has one. -/
def C129_statement : Prop := ∀ (toF64 : Bytes → F64) (eval : Bytes → List Bytes → Res (Bytes → F64)) (compiles utf8 nameOk : Bytes → Bool)
  (fuel : Nat) (key : LineCompMade) (filename : Option FileNameColumn) (context : Context) (value out : Bytes)
  (files : List (Bytes × Bytes)),
  binMain toF64 eval compiles utf8 nameOk fuel [key] filename context value files = .ok (some out) →
  ∀ f ∈ files, ∀ g ∈ files, fileHeader f.2 = fileHeader g.2

/-- The full statement is false: a file without a header may come with one that has a header. -/
theorem C129_refuted : ¬ C129_statement := by
  intro h
  have := h (fun _ => default) (fun _ _ => .err) (fun _ => true) (fun _ => true) (fun _ => true) 20 (colKey 0) none .new (ascii "x")
    (ascii " CDX\ta\nx\nx\n") [([], ascii " CDX\ta\nx\n"), ([], ascii "x\n")] (by decide +kernel)
    ([], ascii " CDX\ta\nx\n") (by simp) ([], ascii "x\n") (by simp)
  revert this
  decide +kernel

theorem check_same {nameOk : Bytes → Bool} {c c' : HeaderChecker} {l : Bytes} {sh : Bool} (hm : c.mode = .matching)
    (hl : isCdx l = true) (h : c.check nameOk l = some (c', sh)) :
    c'.mode = .matching ∧ c'.sawOne = true ∧ c'.head = l ∧ (c.sawOne = true → c.head = l) := by
  have hne : l ≠ [] := by rintro rfl; revert hl; decide
  unfold HeaderChecker.check at h
  cases hv : isValidCdx nameOk c.mode l with
  | none => simp [hv] at h
  | some b =>
    have hb := isValidCdx_eq (nameOk := nameOk) (mode := c.mode) (l := l) (by simp [hv])
    rw [hv] at hb
    simp only [hm, reduceCtorEq, if_false, hl, Option.some.injEq] at hb
    subst hb
    simp only [hv, hne, if_false] at h
    split at h
    · simp at h
    · split at h
      · rename_i hs
        simp only [hm] at h
        split at h
        · split at h
          · simp at h
          · split at h
            · simp at h
            · rename_i h1 h2
              simp only [Option.some.injEq, Prod.mk.injEq] at h
              obtain ⟨rfl, -⟩ := h
              have : l = c.head := by simpa using h2
              exact ⟨hm, hs, this.symm, fun _ => this.symm⟩
        · simp_all
      · rename_i hs
        simp only [hm, reduceCtorEq, and_false, if_false, Bool.true_eq_false, false_and] at h
        simp at h
        obtain ⟨rfl, -⟩ := h
        exact ⟨by simp [hm], rfl, by simp, fun h => absurd h hs⟩

theorem check_empty {nameOk : Bytes → Bool} {c c' : HeaderChecker} {sh : Bool} (h : c.check nameOk [] = some (c', sh)) : c' = c := by
  unfold HeaderChecker.check at h
  have : isValidCdx nameOk c.mode [] = some false := by
    unfold isValidCdx
    by_cases hm : c.mode = .ignore <;> simp [hm, isCdx, cdxTag]
  simp [this] at h
  exact h.1.symm

theorem firstLine_take (data : Bytes) : (cutLines data).headD [] = data.take (findEnd data 0) := by
  cases hc : cutLines data with
  | nil =>
    have := cutLines_flatten data
    rw [hc] at this
    simp at this
    subst this
    rfl
  | cons l ls =>
    have hw := cutLines_wf data
    have hf := cutLines_flatten data
    rw [hc] at hw hf
    have h1 : lineStart (l :: ls) 1 = l.length := by simp [lineStart]
    have hl : l ≠ [] := cutLines_ne (data := data) (by rw [hc]; simp)
    have := findEnd_in hw (k := 0) (m := 0) (by simp) (by simp) (by rw [Nat.zero_add, h1]; exact List.length_pos_iff.2 hl)
    rw [hf, Nat.zero_add, h1] at this
    rw [this, ← hf]
    simp

theorem isCdx_split {data : Bytes} (h : isCdx data = true) : ∃ r, data = cdxTag ++ r := by
  unfold isCdx at h
  obtain ⟨r, hr⟩ := List.isPrefixOf_iff_prefix.1 h
  exact ⟨r, hr.symm⟩

/-- What a file that has a header contributes to the header of the output. -/
theorem memMap_header {utf8 : Bytes → Bool} {data : Bytes} {m : MemMap} (h : MemMap.new utf8 data = .ok m) :
    (isCdx data = true → m.headerLen > 0 ∧ m.header = fileHeader data ∧ isCdx m.header = true) ∧
    (isCdx data = false → m.headerLen = 0) := by
  unfold MemMap.new at h
  simp only at h
  cases hc : isCdx data with
  | false =>
    refine ⟨by simp, fun _ => ?_⟩
    simp only [hc, Bool.false_eq_true, if_false] at h
    split at h
    · simp at h
    · cases h; rfl
  | true =>
    refine ⟨fun _ => ?_, by simp⟩
    obtain ⟨r, hr⟩ := isCdx_split hc
    have hfour : 4 ≤ findEnd data 0 := by
      have : findEnd data 0 = findEndLoop r 4 := by
        subst hr; simp +decide [findEnd, cdxTag, findEndLoop]
      rw [this]
      clear this h hc hr
      have : ∀ (r : Bytes) (p : Nat), p ≤ findEndLoop r p := by
        intro r
        induction r with
        | nil => intro p; simp [findEndLoop]
        | cons c r ih =>
          intro p
          unfold findEndLoop
          split
          · omega
          · have := ih (p + 1); omega
      exact this r 4
    simp only [hc, if_true] at h
    split at h
    · simp at h
    · split at h
      · split at h
        · simp at h
        · cases h
          refine ⟨by show findEnd data 0 > 0; omega, ?_, ?_⟩
          · simp only [fileHeader, hc, if_true, firstLine_take]
          · show isCdx (data.take (findEnd data 0)) = true
            obtain ⟨n, hn⟩ : ∃ n, findEnd data 0 = 4 + n := ⟨findEnd data 0 - 4, by omega⟩
            rw [hn, hr, isCdx, List.isPrefixOf_iff_prefix]
            exact ⟨r.take n, by simp [cdxTag, Nat.add_comm 4 n]⟩
      · simp at h

theorem binHeader_cdx {utf8 : Bytes → Bool} {data : Bytes} {m : MemMap} (filename : Option FileNameColumn)
    (h : MemMap.new utf8 data = .ok m) (hc : isCdx data = true) : isCdx (binHeader filename m) = true ∧
    (∃ pre, binHeader filename m = pre ++ (fileHeader data).drop 4 ∧ pre = (match filename with
      | some f => ascii " CDX\t" ++ f.name | none => cdxTag)) ∧ fileHeader data = cdxTag ++ (fileHeader data).drop 4 := by
  obtain ⟨h1, h2, h3⟩ := (memMap_header h).1 hc
  have h4 : fileHeader data = cdxTag ++ (fileHeader data).drop 4 := by
    obtain ⟨r, hr⟩ := isCdx_split h3
    rw [← h2, hr]; simp [cdxTag]
  cases filename with
  | none =>
    simp only [binHeader, h1, if_true]
    exact ⟨h3, ⟨_, by rw [h2]; exact h4, rfl⟩, h4⟩
  | some f =>
    simp only [binHeader, h1, if_true, h2]
    refine ⟨?_, ⟨_, rfl, rfl⟩, h4⟩
    simp [isCdx, show ascii " CDX\t" = cdxTag ++ [TAB] by decide +kernel]

theorem binFiles_heads (toF64 : Bytes → F64) (eval : Bytes → List Bytes → Res (Bytes → F64)) (utf8 nameOk : Bytes → Bool) (fuel : Nat)
    (o : BinOpts) (files : List (Bytes × Bytes)) : ∀ (chk : HeaderChecker) (out : Bytes), chk.mode = .matching →
    binFiles toF64 eval utf8 nameOk fuel o chk files = .ok (some out) → ∃ h : Bytes, (chk.sawOne = true → h = chk.head) ∧
      ∀ f ∈ files, isCdx f.2 = true → ∃ m, MemMap.new utf8 f.2 = .ok m ∧ binHeader o.filename m = h := by
  induction files with
  | nil => intro chk out _ _; exact ⟨chk.head, fun _ => rfl, by simp⟩
  | cons a files ih =>
    intro chk out hm h
    unfold binFiles at h
    cases hb : binFile toF64 eval utf8 nameOk fuel o chk a.1 a.2 with
    | panic => simp [hb] at h
    | noFuel => simp [hb] at h
    | ok p =>
      rcases p with _ | ⟨chk', b⟩
      · simp [hb] at h
      · simp only [hb] at h
        cases hr : binFiles toF64 eval utf8 nameOk fuel o chk' files with
        | panic => simp [hr] at h
        | noFuel => simp [hr] at h
        | ok q =>
          rcases q with _ | q
          · simp [hr] at h
          · unfold binFile at hb
            cases hn : MemMap.new utf8 a.2 with
            | panic => simp [hn] at hb
            | err => simp [hn] at hb
            | ok m =>
              simp only [hn] at hb
              cases hk : chk.check nameOk (binHeader o.filename m) with
              | none => simp [hk] at hb
              | some c =>
                obtain ⟨c, sh⟩ := c
                have hcc : c = chk' := by
                  simp only [hk] at hb
                  split at hb
                  · simp at hb
                  · simp at hb
                  · split at hb
                    · simp at hb
                    · simp at hb
                    · split at hb
                      · simp at hb
                      · simp at hb
                      · simp at hb; exact hb.1
                subst hcc
                cases hx : isCdx a.2 with
                | true =>
                  obtain ⟨k1, k2, k3, k4⟩ := check_same hm (binHeader_cdx o.filename hn hx).1 hk
                  obtain ⟨hd, e1, e2⟩ := ih c q k1 hr
                  refine ⟨hd, fun hs => ?_, fun f hf hfx => ?_⟩
                  · rw [e1 k2, k3, k4 hs]
                  · rcases List.mem_cons.1 hf with rfl | hf
                    · exact ⟨m, hn, by rw [e1 k2, k3]⟩
                    · exact e2 f hf hfx
                | false =>
                  have h0 := (memMap_header hn).2 hx
                  have : binHeader o.filename m = [] := by simp [binHeader, h0]
                  rw [this] at hk
                  have := check_empty hk
                  subst this
                  obtain ⟨hd, e1, e2⟩ := ih c q hm hr
                  refine ⟨hd, e1, fun f hf hfx => ?_⟩
                  rcases List.mem_cons.1 hf with rfl | hf
                  · rw [hx] at hfx; cases hfx
                  · exact e2 f hf hfx

/-- C129 for the files that have a header: they all have the same one. -/
theorem C129_headers_partial (toF64 : Bytes → F64) (eval : Bytes → List Bytes → Res (Bytes → F64)) (compiles utf8 nameOk : Bytes → Bool)
    (fuel : Nat) (key : LineCompMade) (filename : Option FileNameColumn) (context : Context) (value out : Bytes)
    (files : List (Bytes × Bytes))
    (h : binMain toF64 eval compiles utf8 nameOk fuel [key] filename context value files = .ok (some out))
    (f : Bytes × Bytes) (hf : f ∈ files) (hfx : isCdx f.2 = true) (g : Bytes × Bytes) (hg : g ∈ files) (hgx : isCdx g.2 = true) :
    fileHeader f.2 = fileHeader g.2 := by
  rw [binMain_one] at h
  obtain ⟨hd, -, e⟩ := binFiles_heads _ _ _ _ _ _ _ _ _ rfl h
  obtain ⟨m, hm, e1⟩ := e f hf hfx
  obtain ⟨n, hn, e2⟩ := e g hg hgx
  obtain ⟨-, ⟨p, hp, hpe⟩, h4⟩ := binHeader_cdx filename hm hfx
  obtain ⟨-, ⟨q, hq, hqe⟩, h5⟩ := binHeader_cdx filename hn hgx
  have : p = q := by rw [hpe, hqe]
  simp only at e1 e2
  rw [hp] at e1
  rw [hq, ← this] at e2
  have := List.append_cancel_left (e1.trans e2.symm)
  rw [h4, h5, this]

/-- Two files with the same header that are searched. -/
example : binMain (fun _ => default) (fun _ _ => .err) (fun _ => true) (fun _ => true) (fun _ => true) 20 [colKey 0]
    (some ⟨ascii "f", 1⟩) .new (ascii "x")
    [(ascii "d/p", ascii " CDX\ta\nw\nx\n"), (ascii "d/q", ascii " CDX\ta\nx\nx\ny\n")] =
    .ok (some (ascii " CDX\tf\ta\np\tx\nq\tx\nq\tx\n")) := by decide +kernel

end Cdx
