import Verif.Spec.Settings
import Verif.Props.AggMake
import Verif.Props.Filegen
import Verif.Props.CompMake

/-!
Text formats, settings, arguments, commands and texts of options: C118 to C126.
-/

namespace Cdx

/-! ## C118: text formats -/

theorem headLetter_iff (c : Char) (h : HeadMode) : headLetter c = some h ↔ HeadLetter c h := by
  constructor
  · unfold headLetter
    intro e
    repeat' split at e
    all_goals first | (cases e; subst_vars; constructor) | cases e
  · rintro ⟨⟩ <;> decide

theorem quoteLetter_iff (c : Char) (q : QuoteMode) : quoteLetter c = some q ↔ QuoteLetter c q := by
  constructor
  · unfold quoteLetter
    intro e
    repeat' split at e
    all_goals first | (cases e; subst_vars; constructor) | cases e
  · rintro ⟨⟩ <;> decide

theorem autoEscape_iff (c : Char) (hc : c.toNat < 128) (b : UInt8) : autoEscape c = b ↔ CharByte c b := by
  constructor
  · unfold autoEscape
    intro e
    repeat' split at e
    all_goals subst e
    all_goals first | (subst_vars; constructor; done) | skip
    exact .self c hc (by assumption) (by assumption) (by assumption) (by assumption)
  · rintro (_ | _ | _ | _ | ⟨_, _, ht, hs, hr, hn⟩)
    · decide
    · decide
    · decide
    · decide
    · simp [autoEscape, ht, hs, hr, hn]

theorem CharByte.small {c : Char} {b : UInt8} (h : CharByte c b) : c.toNat < 128 := by
  cases h with
  | self c h => exact h
  | _ => decide

/-- The text of a format gives exactly what the documentation says. -/
def C118_statement : Prop := ∀ (dflt : TextMode) (spec : List Char) (m : TextMode),
  TextMode.newWith spec dflt = .ok m ↔ Described dflt spec m

/-- More than five characters are accepted; a character outside ASCII stands for its low byte. -/
theorem C118_refuted : ¬ C118_statement := by
  intro h
  exact absurd ((h .default "ytpsnq".toList ⟨.yes, .plain, 9, 10, 32⟩).1 (by decide +kernel)).short (by decide)

/-- U+0109 as delimiter means tab. -/
theorem C118_refuted_wide : ∃ m, TextMode.newWith ['m', Char.ofNat 0x109] .default = .ok m ∧
    ¬ Described .default ['m', Char.ofNat 0x109] m := by
  exact ⟨_, rfl, fun h => absurd (CharByte.small h.delim) (by decide)⟩

theorem takePart_some {α : Type} (f : Char → Option α) (R : Char → α → Prop) (old : α) (s : List Char)
    (hf : ∀ c ∈ s, ∀ a, f c = some a ↔ R c a) (a : α) (r : List Char) :
    takePart f old s = some (a, r) ↔ PartIs R old s[0]? a ∧ r = s.drop 1 := by
  cases s with
  | nil => simp [takePart, PartIs, eq_comm]
  | cons c cs =>
    simp only [takePart, List.getElem?_cons_zero, PartIs, List.drop_succ_cons, List.drop_zero, Option.map_eq_some_iff,
      Prod.mk.injEq]
    constructor
    · rintro ⟨b, hb, rfl, rfl⟩
      exact ⟨(hf c (by simp) b).1 hb, rfl⟩
    · rintro ⟨h, rfl⟩
      exact ⟨a, (hf c (by simp) a).2 h, rfl, rfl⟩

/-- The nested matches of `newWith`. -/
theorem newWith_iff (spec : List Char) (dflt m : TextMode) : TextMode.newWith spec dflt = .ok m ↔
    ∃ s1 s2 s3 s4 s5, takePart headLetter dflt.head spec = some (m.head, s1) ∧
      takePart (fun c => some (autoEscape c)) dflt.delim s1 = some (m.delim, s2) ∧
      takePart quoteLetter dflt.col s2 = some (m.col, s3) ∧
      takePart (fun c => some (autoEscape c)) dflt.repl s3 = some (m.repl, s4) ∧
      takePart (fun c => some (autoEscape c)) dflt.eol s4 = some (m.eol, s5) := by
  obtain ⟨mh, mc, md, me, mr⟩ := m
  unfold TextMode.newWith
  constructor
  · intro h
    rcases h1 : takePart headLetter dflt.head spec with _ | ⟨a1, s1⟩ <;> simp only [h1] at h
    · cases h
    rcases h2 : takePart (fun c => some (autoEscape c)) dflt.delim s1 with _ | ⟨a2, s2⟩ <;> simp only [h2] at h
    · cases h
    rcases h3 : takePart quoteLetter dflt.col s2 with _ | ⟨a3, s3⟩ <;> simp only [h3] at h
    · cases h
    rcases h4 : takePart (fun c => some (autoEscape c)) dflt.repl s3 with _ | ⟨a4, s4⟩ <;> simp only [h4] at h
    · cases h
    rcases h5 : takePart (fun c => some (autoEscape c)) dflt.eol s4 with _ | ⟨a5, s5⟩ <;> simp only [h5] at h
    · cases h
    cases h
    exact ⟨s1, s2, s3, s4, s5, rfl, h2, h3, h4, h5⟩
  · rintro ⟨s1, s2, s3, s4, s5, h1, h2, h3, h4, h5⟩
    simp only at h1 h2 h3 h4 h5
    simp only [h1, h2, h3, h4, h5]

/-- C118 for texts of at most five ASCII characters. -/
theorem C118_format_partial (dflt : TextMode) (spec : List Char) (hl : spec.length ≤ 5) (ha : ∀ c ∈ spec, c.toNat < 128)
    (m : TextMode) : TextMode.newWith spec dflt = .ok m ↔ Described dflt spec m := by
  have hd : ∀ k, ∀ c ∈ spec.drop k, ∀ a : UInt8, some (autoEscape c) = some a ↔ CharByte c a := fun k c hc a => by
    rw [Option.some_inj]; exact autoEscape_iff c (ha c (List.mem_of_mem_drop hc)) a
  rw [newWith_iff]
  constructor
  · rintro ⟨s1, s2, s3, s4, s5, h1, h2, h3, h4, h5⟩
    obtain ⟨p1, rfl⟩ := (takePart_some _ _ _ _ (fun c _ => headLetter_iff c) _ _).1 h1
    obtain ⟨p2, rfl⟩ := (takePart_some _ _ _ _ (hd 1) _ _).1 h2
    rw [List.drop_drop] at h3
    obtain ⟨p3, rfl⟩ := (takePart_some _ _ _ _ (fun c _ => quoteLetter_iff c) _ _).1 h3
    rw [List.drop_drop] at h4
    obtain ⟨p4, rfl⟩ := (takePart_some _ _ _ _ (hd 3) _ _).1 h4
    rw [List.drop_drop] at h5
    obtain ⟨p5, rfl⟩ := (takePart_some _ _ _ _ (hd 4) _ _).1 h5
    simp only [List.getElem?_drop] at p2 p3 p4 p5
    exact ⟨hl, p1, p2, p3, p4, p5⟩
  · intro h
    refine ⟨spec.drop 1, spec.drop 2, spec.drop 3, spec.drop 4, spec.drop 5, ?_, ?_, ?_, ?_, ?_⟩
    · exact (takePart_some _ _ _ _ (fun c _ => headLetter_iff c) _ _).2 ⟨h.head, rfl⟩
    · exact (takePart_some _ _ _ _ (hd 1) _ _).2 ⟨by simpa using h.delim, by simp⟩
    · exact (takePart_some _ _ _ _ (fun c _ => quoteLetter_iff c) _ _).2 ⟨by simpa using h.col, by simp⟩
    · exact (takePart_some _ _ _ _ (hd 3) _ _).2 ⟨by simpa using h.repl, by simp⟩
    · exact (takePart_some _ _ _ _ (hd 4) _ _).2 ⟨by simpa using h.eol, by simp⟩

/-- Whatever the text, it never panics, and what comes after five characters makes no difference. -/
theorem C118_rest (dflt : TextMode) (spec : List Char) : TextMode.newWith spec dflt ≠ .panic ∧
    TextMode.newWith spec dflt = TextMode.newWith (spec.take 5) dflt := by
  constructor
  · unfold TextMode.newWith
    repeat' split
    all_goals simp
  · rcases spec with _ | ⟨a, _ | ⟨b, _ | ⟨c, _ | ⟨d, _ | ⟨e, t⟩⟩⟩⟩⟩ <;> try rfl
    simp only [List.take_succ_cons, TextMode.newWith, takePart, Option.map_some]
    cases headLetter a with
    | none => rfl
    | some x => simp only [Option.map_some]; cases quoteLetter c <;> rfl

/-- The text of a mode. -/
def modeText (m : TextMode) : List Char :=
  let esc : UInt8 → Char := fun b => if b = 9 then 't' else if b = 32 then 's' else if b = 13 then 'r' else if b = 10 then 'n'
    else Char.ofNat b.toNat
  [match m.head with | .yes => 'y' | .no => 'n' | .skip => 's' | .maybe => 'm' | .cdx => 'x', esc m.delim,
   match m.col with | .plain => 'p' | .quote => 'q' | .backslash => 'b', esc m.repl, esc m.eol]

theorem autoEscape_esc : ∀ b : UInt8, b ∉ ascii "tsrn" → autoEscape (if b = 9 then 't' else if b = 32 then 's' else
    if b = 13 then 'r' else if b = 10 then 'n' else Char.ofNat b.toNat) = b := by
  have h : ∀ n : Fin 256, UInt8.ofNat n.1 ∉ ascii "tsrn" → autoEscape (if UInt8.ofNat n.1 = 9 then 't' else
      if UInt8.ofNat n.1 = 32 then 's' else if UInt8.ofNat n.1 = 13 then 'r' else if UInt8.ofNat n.1 = 10 then 'n' else
      Char.ofNat (UInt8.ofNat n.1).toNat) = UInt8.ofNat n.1 := by decide +kernel
  intro b
  have := h ⟨b.toNat, b.toNat_lt⟩
  simpa using this

/-- Every mode that does not use one of the letters t, s, r and n as a delimiter has a text. -/
theorem C118_every (dflt m : TextMode) (hd : m.delim ∉ ascii "tsrn") (hr : m.repl ∉ ascii "tsrn") (he : m.eol ∉ ascii "tsrn") :
    TextMode.newWith (modeText m) dflt = .ok m := by
  refine (newWith_iff _ _ _).2 ⟨(modeText m).drop 1, (modeText m).drop 2, (modeText m).drop 3, (modeText m).drop 4, [],
    ?_, ?_, ?_, ?_, ?_⟩
  · simp only [modeText, takePart, List.drop_succ_cons, List.drop_zero]; cases m.head <;> rfl
  · simp only [modeText, takePart, List.drop_succ_cons, List.drop_zero, Option.map_some, autoEscape_esc _ hd]
  · simp only [modeText, takePart, List.drop_succ_cons, List.drop_zero]; cases m.col <;> rfl
  · simp only [modeText, takePart, List.drop_succ_cons, List.drop_zero, Option.map_some, autoEscape_esc _ hr]
  · simp only [modeText, takePart, List.drop_succ_cons, List.drop_zero, Option.map_some, autoEscape_esc _ he]

example : Described .default "y,q".toList ⟨.yes, .quote, 44, 10, 32⟩ :=
  ⟨by decide, .yes, .self ',' (by decide) (by decide) (by decide) (by decide) (by decide), .quote, rfl, rfl⟩
example : TextMode.newWith "y,q".toList .default = .ok ⟨.yes, .quote, 44, 10, 32⟩ := by decide +kernel
example : TextMode.default.delim ∉ ascii "tsrn" := by decide +kernel

/-! ## C120: arguments -/

theorem tokValues_index (toks : List Tok) : ∀ i, (tokValues i toks).Pairwise (fun a b => a.index < b.index) ∧
    ∀ a ∈ tokValues i toks, i < a.index := by
  induction toks with
  | nil => intro i; simp [tokValues]
  | cons t ts ih =>
    intro i
    cases t <;> simp only [tokValues, List.pairwise_cons, List.mem_cons, forall_eq_or_imp]
    · exact ⟨⟨fun a ha => (ih (i + 1)).2 a ha, (ih (i + 1)).1⟩, by omega, fun a ha => by have := (ih (i + 1)).2 a ha; omega⟩
    · exact ⟨⟨fun a ha => (ih (i + 2)).2 a ha, (ih (i + 2)).1⟩, by omega, fun a ha => by have := (ih (i + 2)).2 a ha; omega⟩
    · exact ⟨⟨fun a ha => (ih (i + 1)).2 a ha, (ih (i + 1)).1⟩, by omega, fun a ha => by have := (ih (i + 1)).2 a ha; omega⟩

theorem tokValues_map (toks : List Tok) : ∀ i, (tokValues i toks).map (fun a => (a.name, a.value)) =
    toks.map fun t => (t.name, t.value) := by
  induction toks with
  | nil => intro i; rfl
  | cons t ts ih => intro i; cases t <;> simp [tokValues, ih, Tok.name, Tok.value]

theorem tokValues_filter (p : String → Bool) (toks : List Tok) : ∀ i,
    ((tokValues i toks).filter fun a => p a.name).map (fun a => (a.name, a.value)) =
      (toks.filter fun t => p t.name).map fun t => (t.name, t.value) := by
  induction toks with
  | nil => intro i; rfl
  | cons t ts ih =>
    intro i
    cases t with
    | flag n => simp only [tokValues, List.filter_cons, Tok.name]; split <;> simp [ih, Tok.name, Tok.value]
    | opt n v => simp only [tokValues, List.filter_cons, Tok.name]; split <;> simp [ih, Tok.name, Tok.value]
    | pos n v => simp only [tokValues, List.filter_cons, Tok.name]; split <;> simp [ih, Tok.name, Tok.value]

/-- Values of flags are empty, as far as clap accepts them. -/
theorem flag_value (toks : List Tok) (x : ArgSpec) (hx : x.takes = false)
    (h : ∀ t ∈ toks, t.name = x.name → t.value = []) : ∀ i, ∀ a ∈ tokValues i toks, a.name = x.name → a.value = [] := by
  induction toks with
  | nil => intro i; simp [tokValues]
  | cons t ts ih =>
    intro i
    have ht := h t (by simp)
    have := fun j => ih (fun u hu => h u (by simp [hu])) j
    cases t <;> simp only [tokValues, List.mem_cons, forall_eq_or_imp]
    · exact ⟨fun _ => trivial, this _⟩
    · exact ⟨ht, this _⟩
    · exact ⟨ht, this _⟩

theorem Names.accepts {spec : List ArgSpec} (hn : Names spec) {t : Tok} (ht : Accepts spec t) {x : ArgSpec}
    (hx : x ∈ spec ++ globalArgs) (hf : x.takes = false) (e : t.name = x.name) : t.value = [] := by
  have inj : ∀ a ∈ spec ++ globalArgs, a.name = x.name → a = x := by
    intro a ha hax
    have hnd := (List.nodup_append.1 hn).1
    rw [List.Nodup, List.pairwise_map] at hnd
    obtain ⟨i, hi, rfl⟩ := List.getElem_of_mem ha
    obtain ⟨j, hj, rfl⟩ := List.getElem_of_mem hx
    rw [List.pairwise_iff_getElem] at hnd
    rcases Nat.lt_trichotomy i j with h | h | h
    · exact absurd hax (hnd i j hi hj h)
    · subst h; rfl
    · exact absurd hax.symm (hnd j i hj hi h)
  cases t with
  | flag n => rfl
  | opt n v =>
    obtain ⟨a, ha, h1, h2, _⟩ := ht
    have := inj a ha (h1.trans e)
    rw [this, hf] at h2
    cases h2
  | pos n v =>
    rcases ht with h | ⟨a, ha, h1, _, h2⟩
    · have hd := (List.nodup_append.1 hn).2.2 x.name (List.mem_map.2 ⟨x, hx, rfl⟩) "input_files" (by simp)
      exact absurd (e.symm.trans h) hd
    · have := inj a (by simp [ha]) (h1.trans e)
      rw [this, hf] at h2
      cases h2

theorem getArg_filter (spec : List ArgSpec) (toks : List Tok) (hn : Names spec) (ha : ∀ t ∈ toks, Accepts spec t) (x : ArgSpec)
    (hx : x ∈ spec ++ globalArgs) : getArg (tokValues 0 toks) x = (tokValues 0 toks).filter fun a => a.name = x.name := by
  unfold getArg
  split
  · rename_i hf
    have hv := flag_value toks x hf (fun t ht e => hn.accepts (ha t ht) hx hf e) 0
    conv => rhs; rw [← List.map_id (List.filter _ _)]
    refine List.map_congr_left fun a ha => ?_
    simp only [List.mem_filter, decide_eq_true_eq] at ha
    obtain ⟨n, v, i⟩ := a
    have := hv _ ha.1 ha.2
    simp only at this ha
    simp [this, ha.2]
  · conv => rhs; rw [← List.map_id (List.filter _ _)]
    refine List.map_congr_left fun a ha => ?_
    simp only [List.mem_filter, decide_eq_true_eq] at ha
    obtain ⟨n, v, i⟩ := a
    simp only at ha
    simp [ha.2]

theorem filters_perm {α : Type} (k : α → String) (l : List α) (names : List String) (h : names.Nodup) :
    (names.flatMap fun n => l.filter fun a => k a = n).Perm (l.filter fun a => names.contains (k a)) := by
  induction names with
  | nil => simp
  | cons n ns ih =>
    rw [List.nodup_cons] at h
    rw [List.flatMap_cons]
    refine ((ih h.2).append_left _).trans ?_
    clear ih
    induction l with
    | nil => simp
    | cons a as ihl =>
      simp only [List.filter_cons, List.contains_cons]
      by_cases e : k a = n
      · have : ns.contains (k a) = false := by rw [e]; simpa using h.1
        simp only [e, decide_true, if_true, beq_self_eq_true, Bool.true_or, List.cons_append]
        rw [e] at this
        simp only [this, Bool.false_eq_true, if_false]
        exact ihl.cons _
      · simp only [e, decide_false, Bool.false_eq_true, if_false, beq_eq_false_iff_ne.2 e, Bool.false_or]
        split
        · exact (List.perm_middle).trans (ihl.cons _)
        · exact ihl

theorem insertLe_pairwise {α : Type} (le : α → α → Bool) (ht : ∀ a b c, le a b → le b c → le a c) (hl : ∀ a b, le a b || le b a)
    (x : α) (l : List α) (h : l.Pairwise fun a b => le a b = true) : (insertLe le x l).Pairwise fun a b => le a b = true := by
  induction l with
  | nil => simp [insertLe]
  | cons y ys ih =>
    rw [List.pairwise_cons] at h
    unfold insertLe
    split
    · rename_i e
      refine List.pairwise_cons.2 ⟨fun z hz => ?_, List.pairwise_cons.2 h⟩
      rcases List.mem_cons.1 hz with rfl | hz
      · exact e
      · exact ht x y z e (h.1 z hz)
    · rename_i e
      refine List.pairwise_cons.2 ⟨fun z hz => ?_, ih h.2⟩
      rcases List.mem_cons.1 ((insertLe_perm le x ys).subset hz) with rfl | hz
      · have := hl y z
        simpa [e] using this
      · exact h.1 z hz

theorem stableSort_pairwise {α : Type} (le : α → α → Bool) (ht : ∀ a b c, le a b → le b c → le a c)
    (hl : ∀ a b, le a b || le b a) (l : List α) : (stableSort le l).Pairwise fun a b => le a b = true := by
  induction l with
  | nil => simp [stableSort]
  | cons x xs ih => exact insertLe_pairwise le ht hl x _ ih

/-- The options a command gets. -/
theorem sorted_args (spec : List ArgSpec) (toks : List Tok) (hn : Names spec) (ha : ∀ t ∈ toks, Accepts spec t) :
    stableSort (fun a b => decide (a.index ≤ b.index)) (spec.flatMap (getArg (tokValues 0 toks))) =
      (tokValues 0 toks).filter fun a => spec.any fun x => x.name = a.name := by
  have hidx := (tokValues_index toks 0).1
  have hnd : (spec.map (·.name)).Nodup := by
    have := (List.nodup_append.1 hn).1
    rw [List.map_append] at this
    exact (List.nodup_append.1 this).1
  have e1 : spec.flatMap (getArg (tokValues 0 toks)) =
      (spec.map (·.name)).flatMap fun n => (tokValues 0 toks).filter fun a => a.name = n := by
    rw [List.flatMap_map]
    have : ∀ l : List ArgSpec, (∀ x ∈ l, x ∈ spec) → l.flatMap (getArg (tokValues 0 toks)) =
        l.flatMap fun x => (tokValues 0 toks).filter fun a => a.name = x.name := by
      intro l hl
      induction l with
      | nil => rfl
      | cons x xs ih =>
        rw [List.flatMap_cons, List.flatMap_cons, ih fun y hy => hl y (by simp [hy]),
          getArg_filter spec toks hn ha x (by simp [hl x])]
    exact this spec fun _ h => h
  have e2 : ((tokValues 0 toks).filter fun a => spec.any fun x => x.name = a.name) =
      (tokValues 0 toks).filter fun a => (spec.map (·.name)).contains a.name := by
    refine List.filter_congr fun a _ => ?_
    rw [Bool.eq_iff_iff]
    simp only [List.any_eq_true, decide_eq_true_eq, List.contains_iff_mem, List.mem_map]
  rw [e2]
  refine List.Perm.eq_of_pairwise (le := fun a b : ArgValue => decide (a.index ≤ b.index) = true) ?_ ?_ ?_ ?_
  · intro a b hma hmb h1 h2
    simp only [decide_eq_true_eq] at h1 h2
    have hma' : a ∈ tokValues 0 toks := by
      have := (stableSort_perm _ _).subset hma
      rw [e1] at this
      obtain ⟨n, _, h⟩ := List.mem_flatMap.1 this
      exact (List.mem_filter.1 h).1
    have hmb' : b ∈ tokValues 0 toks := (List.mem_filter.1 hmb).1
    obtain ⟨i, hi, rfl⟩ := List.getElem_of_mem hma'
    obtain ⟨j, hj, rfl⟩ := List.getElem_of_mem hmb'
    rw [List.pairwise_iff_getElem] at hidx
    rcases Nat.lt_trichotomy i j with h | h | h
    · have := hidx i j hi hj h; omega
    · subst h; rfl
    · have := hidx j i hj hi h; omega
  · exact stableSort_pairwise _ (fun a b c => by simp only [decide_eq_true_eq]; omega)
      (fun a b => by simp only [Bool.or_eq_true, decide_eq_true_eq]; omega) _
  · refine List.Pairwise.filter _ (hidx.imp fun h => ?_)
    simp only [decide_eq_true_eq]; omega
  · rw [e1]
    exact (stableSort_perm _ _).trans (filters_perm ArgValue.name _ _ hnd)

/-- A command gets the options of its own table in the order of the command line, each once, with its value; the files it
gets are the other arguments, or standard input if there are none. -/
theorem C120_order (chars : Bytes → List Char) (s s' : Settings) (spec : List ArgSpec) (files : FileCount) (toks : List Tok)
    (hn : Names spec) (ha : ∀ t ∈ toks, Accepts spec t) (v : List ArgValue) (fs : List Bytes)
    (h : parseArgs chars s spec files toks = .ok (s', v, fs)) :
    v.map (fun a => (a.name, a.value)) = wantedArgs spec toks ∧
      fs = (if files = .zero then [] else
        let given := (toks.filter fun t => t.name = "input_files").map Tok.value
        if given = [] then [[45]] else given) := by
  unfold parseArgs at h
  simp only at h
  split at h
  · cases h
  · rcases hc : s.consume chars (globalArgs.flatMap (getArg (tokValues 0 toks))) with s2 | e | _ <;> rw [hc] at h
    · simp only [Run.bind, Run.ok.injEq, Prod.mk.injEq] at h
      obtain ⟨-, rfl, rfl⟩ := h
      refine ⟨?_, ?_⟩
      · rw [sorted_args spec toks hn ha, wantedArgs]
        exact tokValues_filter (fun n => spec.any fun x => x.name = n) toks 0
      · unfold argFiles
        have e : ((tokValues 0 toks).filter fun a => a.name = "input_files").map (·.value) =
            (toks.filter fun t => t.name = "input_files").map Tok.value := by
          have := congrArg (List.map Prod.snd) (tokValues_filter (fun n => decide (n = "input_files")) toks 0)
          simpa [List.map_map, Function.comp_def] using this
        simp only [e]
        rfl
    · cases h
    · cases h

/-- All tables have different names. -/
theorem C120_names : ∀ c ∈ mainList, Names c.spec := by
  unfold Names
  decide +kernel

example : parseArgs (fun b => b.map fun c => Char.ofNat c.toNat) .new
    [{ name := "lines" }, { name := "head", takes := false }] .one
    [.flag "head", .opt "text-in" (ascii "y,"), .opt "lines" (ascii "3"), .pos "input_files" (ascii "f"), .flag "head"] =
    .ok (⟨⟨.yes, .plain, 44, 10, 32⟩, none⟩, [⟨"head", [], 1⟩, ⟨"lines", ascii "3", 5⟩, ⟨"head", [], 7⟩], [ascii "f"]) := by
  decide +kernel

/-! ## C119: the format of the output -/

/-- Formats without `--text-out` are those of `--text-in`; what `--text-out` leaves out is that of `--text-in`. -/
def C119_statement : Prop := ∀ (chars : Bytes → List Char) (spec : List ArgSpec) (files : FileCount) (toks : List Tok)
    (s : Settings) (v : List ArgValue) (fs : List Bytes), Names spec → (∀ t ∈ toks, Accepts spec t) →
    parseArgs chars .new spec files toks = .ok (s, v, fs) →
    (match lastOpt "text-in" toks with
      | none => s.textIn = .default
      | some t => TextMode.newWith (chars t) .default = .ok s.textIn) ∧
    (match lastOpt "text-out" toks with
      | none => s.out = s.textIn
      | some t => TextMode.newWith (chars t) s.textIn = .ok s.out)

theorem Run.bind_eq_ok {α β : Type} {r : Run α} {f : α → Run β} {b : β} (h : r.bind f = .ok b) :
    ∃ a, r = .ok a ∧ f a = .ok b := by
  cases r with
  | ok a => exact ⟨a, rfl, h⟩
  | fail e => cases h
  | panic => cases h

theorem Res.run_eq_ok {α : Type} {r : Res α} {a : α} (h : r.run = .ok a) : r = .ok a := by
  cases r <;> simp_all [Res.run]

theorem consume_append (chars : Bytes → List Char) (a b : List ArgValue) : ∀ s : Settings,
    s.consume chars (a ++ b) = (s.consume chars a).bind fun s => s.consume chars b := by
  induction a with
  | nil => intro s; rfl
  | cons x xs ih =>
    intro s
    simp only [List.cons_append, Settings.consume]
    cases s.take chars x with
    | ok s1 => simp only [Run.bind]; exact ih s1
    | fail e => rfl
    | panic => rfl

theorem consume_in (chars : Bytes → List Char) (l : List ArgValue) (hl : ∀ a ∈ l, a.name = "text-in") : ∀ s s' : Settings,
    s.consume chars l = .ok s' → s'.textOut = s.textOut ∧ match (l.map (·.value)).getLast? with
      | none => s'.textIn = s.textIn
      | some t => TextMode.newWith (chars t) .default = .ok s'.textIn := by
  induction l with
  | nil => intro s s' h; cases h; exact ⟨rfl, rfl⟩
  | cons x xs ih =>
    intro s s' h
    obtain ⟨s1, h1, h2⟩ := Run.bind_eq_ok h
    unfold Settings.take at h1
    rw [if_pos (hl x (by simp))] at h1
    obtain ⟨t, ht, h1⟩ := Run.bind_eq_ok h1
    cases h1
    obtain ⟨i1, i2⟩ := ih (fun a ha => hl a (by simp [ha])) _ _ h2
    refine ⟨i1, ?_⟩
    cases xs with
    | nil => simp only [List.map_cons, List.map_nil, List.getLast?_singleton, List.getLast?_nil] at i2 ⊢; rw [i2]; exact Res.run_eq_ok ht
    | cons y ys =>
      simp only [List.map_cons, List.getLast?_cons_cons] at i2 ⊢
      rw [List.getLast?_eq_some_getLast (l := y.value :: ys.map (·.value)) (by simp)] at i2 ⊢
      exact i2

theorem consume_out (chars : Bytes → List Char) (l : List ArgValue) (hl : ∀ a ∈ l, a.name = "text-out") : ∀ s s' : Settings,
    s.consume chars l = .ok s' → s'.textIn = s.textIn ∧ match (l.map (·.value)).getLast? with
      | none => s'.textOut = s.textOut
      | some t => ∃ m, TextMode.newWith (chars t) .default = .ok m ∧ s'.textOut = some m := by
  induction l with
  | nil => intro s s' h; cases h; exact ⟨rfl, rfl⟩
  | cons x xs ih =>
    intro s s' h
    obtain ⟨s1, h1, h2⟩ := Run.bind_eq_ok h
    unfold Settings.take at h1
    rw [if_neg (by rw [hl x (by simp)]; decide), if_pos (hl x (by simp))] at h1
    obtain ⟨t, ht, h1⟩ := Run.bind_eq_ok h1
    cases h1
    obtain ⟨i1, i2⟩ := ih (fun a ha => hl a (by simp [ha])) _ _ h2
    refine ⟨i1, ?_⟩
    cases xs with
    | nil =>
      simp only [List.map_cons, List.map_nil, List.getLast?_singleton, List.getLast?_nil] at i2 ⊢
      exact ⟨t, Res.run_eq_ok ht, i2⟩
    | cons y ys =>
      simp only [List.map_cons, List.getLast?_cons_cons] at i2 ⊢
      rw [List.getLast?_eq_some_getLast (l := y.value :: ys.map (·.value)) (by simp)] at i2 ⊢
      exact i2

/-- The flags that only print something. -/
def stdNames : List String := ["std-agg", "std-comp", "std-const", "std-func", "std-gen", "std-match", "std-text", "std-trans"]

theorem take_std (chars : Bytes → List Char) (x : ArgValue) (h : x.name ∈ stdNames) (s : Settings) :
    s.take chars x = .fail .noError := by
  obtain ⟨n, v, i⟩ := x
  simp only [stdNames, List.mem_cons, List.not_mem_nil, or_false] at h
  rcases h with rfl | rfl | rfl | rfl | rfl | rfl | rfl | rfl <;> simp [Settings.take]

theorem consume_std (chars : Bytes → List Char) (l : List ArgValue) (hl : ∀ a ∈ l, a.name ∈ stdNames) (s s' : Settings)
    (h : s.consume chars l = .ok s') : s' = s ∧ l = [] := by
  cases l with
  | nil => cases h; exact ⟨rfl, rfl⟩
  | cons x xs =>
    simp only [Settings.consume, take_std chars x (hl x (by simp)) s, Run.bind] at h
    cases h

/-- The options of all commands, taken apart. -/
theorem globals_split (m : List ArgValue) : ∃ rest, globalArgs.flatMap (getArg m) =
    getArg m { name := "text-in" } ++ (getArg m { name := "text-out" } ++ rest) ∧ ∀ a ∈ rest, a.name ∈ stdNames := by
  refine ⟨(globalArgs.drop 2).flatMap (getArg m), rfl, fun a ha => ?_⟩
  obtain ⟨x, hx, h⟩ := List.mem_flatMap.1 ha
  have hn : a.name = x.name := by
    unfold getArg at h
    split at h
    all_goals
      obtain ⟨b, _, rfl⟩ := List.mem_map.1 h
      rfl
  have : ∀ y ∈ globalArgs.drop 2, y.name ∈ stdNames := by decide
  rw [hn]
  exact this x hx

theorem getArg_last (spec : List ArgSpec) (toks : List Tok) (hn : Names spec) (ha : ∀ t ∈ toks, Accepts spec t) (x : ArgSpec)
    (hx : x ∈ spec ++ globalArgs) : ((getArg (tokValues 0 toks) x).map (·.value)).getLast? = lastOpt x.name toks := by
  rw [getArg_filter spec toks hn ha x hx, lastOpt]
  have := congrArg (List.map Prod.snd) (tokValues_filter (fun n => decide (n = x.name)) toks 0)
  simp only [List.map_map, Function.comp_def] at this
  rw [this]

/-- What the formats of a run are: those of the last options, both starting from the same defaults. -/
theorem C119_formats (chars : Bytes → List Char) (spec : List ArgSpec) (files : FileCount) (toks : List Tok)
    (s : Settings) (v : List ArgValue) (fs : List Bytes) (hn : Names spec) (ha : ∀ t ∈ toks, Accepts spec t)
    (h : parseArgs chars .new spec files toks = .ok (s, v, fs)) :
    (match lastOpt "text-in" toks with
      | none => s.textIn = .default
      | some t => TextMode.newWith (chars t) .default = .ok s.textIn) ∧
    (match lastOpt "text-out" toks with
      | none => s.out = s.textIn
      | some t => TextMode.newWith (chars t) .default = .ok s.out) := by
  unfold parseArgs at h
  simp only at h
  split at h
  · cases h
  obtain ⟨s0, h0, h1⟩ := Run.bind_eq_ok h
  cases h1
  obtain ⟨rest, e, hr⟩ := globals_split (tokValues 0 toks)
  rw [e, consume_append] at h0
  obtain ⟨s1, h1, h0⟩ := Run.bind_eq_ok h0
  rw [consume_append] at h0
  obtain ⟨s2, h2, h0⟩ := Run.bind_eq_ok h0
  obtain ⟨rfl, -⟩ := consume_std chars rest hr _ _ h0
  have m1 : ({ name := "text-in" } : ArgSpec) ∈ spec ++ globalArgs := by simp [globalArgs]
  have m2 : ({ name := "text-out" } : ArgSpec) ∈ spec ++ globalArgs := by simp [globalArgs]
  have n1 : ∀ a ∈ getArg (tokValues 0 toks) { name := "text-in" }, a.name = "text-in" := by
    intro a ha'
    obtain ⟨b, _, rfl⟩ := List.mem_map.1 ha'
    rfl
  have n2 : ∀ a ∈ getArg (tokValues 0 toks) { name := "text-out" }, a.name = "text-out" := by
    intro a ha'
    obtain ⟨b, _, rfl⟩ := List.mem_map.1 ha'
    rfl
  obtain ⟨i1, i2⟩ := consume_in chars _ n1 _ _ h1
  obtain ⟨j1, j2⟩ := consume_out chars _ n2 _ _ h2
  rw [getArg_last spec toks hn ha _ m1] at i2
  rw [getArg_last spec toks hn ha _ m2] at j2
  refine ⟨?_, ?_⟩
  · rw [j1]; exact i2
  · simp only at j2
    cases hl : lastOpt "text-out" toks with
    | none =>
      rw [hl] at j2
      simp only at j2 ⊢
      rw [Settings.out, j2, i1]
      rfl
    | some t =>
      rw [hl] at j2
      obtain ⟨m, hm, hs⟩ := j2
      simp only
      rw [Settings.out, hs]
      exact hm

/-- A text of five characters or more says everything itself. -/
theorem newWith_full (spec : List Char) (h : 5 ≤ spec.length) (d d' : TextMode) :
    TextMode.newWith spec d = TextMode.newWith spec d' := by
  rcases spec with _ | ⟨a, _ | ⟨b, _ | ⟨c, _ | ⟨e, _ | ⟨f, t⟩⟩⟩⟩⟩
  · simp at h
  · simp at h
  · simp at h
  · simp at h
  · simp at h
  · simp only [TextMode.newWith, takePart, Option.map_some]
    cases headLetter a with
    | none => rfl
    | some x => simp only [Option.map_some]; cases quoteLetter c <;> rfl

/-- What `--text-out` leaves out is that of a tab-separated file, not that of the input. -/
theorem C119_refuted : ¬ C119_statement := by
  intro h
  have := (h (fun b => b.map fun c => Char.ofNat c.toNat) [] .zero
    [.opt "text-in" (ascii "n,"), .opt "text-out" (ascii "y")] ⟨⟨.no, .plain, 44, 10, 32⟩, some ⟨.yes, .plain, 9, 10, 32⟩⟩ [] []
    (by unfold Names; decide +kernel) ?_ (by decide +kernel)).2
  · have e : lastOpt "text-out" [.opt "text-in" (ascii "n,"), .opt "text-out" (ascii "y")] = some (ascii "y") := by decide +kernel
    rw [e] at this
    exact absurd this (by decide +kernel)
  · intro t ht
    simp only [List.mem_cons, List.not_mem_nil, or_false] at ht
    rcases ht with rfl | rfl
    · exact ⟨{ name := "text-in" }, by simp [globalArgs], rfl, rfl, rfl, Or.inl rfl⟩
    · exact ⟨{ name := "text-out" }, by simp [globalArgs], rfl, rfl, rfl, Or.inl rfl⟩

/-- C119 if the text of the output format is complete, or the input format is the usual one. -/
theorem C119_output_partial (chars : Bytes → List Char) (spec : List ArgSpec) (files : FileCount) (toks : List Tok)
    (s : Settings) (v : List ArgValue) (fs : List Bytes) (hn : Names spec) (ha : ∀ t ∈ toks, Accepts spec t)
    (h : parseArgs chars .new spec files toks = .ok (s, v, fs))
    (hf : ∀ t, lastOpt "text-out" toks = some t → 5 ≤ (chars t).length ∨ s.textIn = .default) :
    (match lastOpt "text-in" toks with
      | none => s.textIn = .default
      | some t => TextMode.newWith (chars t) .default = .ok s.textIn) ∧
    (match lastOpt "text-out" toks with
      | none => s.out = s.textIn
      | some t => TextMode.newWith (chars t) s.textIn = .ok s.out) := by
  obtain ⟨h1, h2⟩ := C119_formats chars spec files toks s v fs hn ha h
  refine ⟨h1, ?_⟩
  cases hl : lastOpt "text-out" toks with
  | none => rw [hl] at h2; exact h2
  | some t =>
    rw [hl] at h2
    simp only at h2 ⊢
    rcases hf t hl with h | h
    · rw [newWith_full _ h s.textIn .default]; exact h2
    · rw [h]; exact h2

/-- With another delimiter asked for, the rest is that of the input; a format given for the output is left alone. -/
theorem C119_delim (s : Settings) (d : UInt8) : (∀ m, s.textOut = some m → s.out2 d = m ∧ s.out = m) ∧
    (s.textOut = none → s.out2 d = ⟨s.textIn.head, s.textIn.col, d, s.textIn.eol, s.textIn.repl⟩ ∧ s.out = s.textIn) := by
  refine ⟨fun m h => ?_, fun h => ?_⟩
  · simp [Settings.out2, Settings.out, h]
  · simp [Settings.out2, Settings.out, h]

example : lastOpt "text-out" [.opt "text-out" (ascii "y"), .flag "or", .opt "text-out" (ascii "n,psn")] = some (ascii "n,psn") := by
  decide +kernel

/-! ## C121: options nobody handles -/

/-- No command line that is accepted makes a command reach `unreachable!()`. -/
def C121_statement : Prop := ∀ c ∈ mainList, ∀ (chars : Bytes → List Char) (σ : Type) (act : σ → ArgValue → Run σ) (s : σ)
    (toks : List Tok), (∀ t ∈ toks, Accepts c.spec t) → (∀ s a, act s a ≠ .panic) → c.start chars act s toks ≠ .panic

/-- The options that are declared but not handled. -/
def unhandled : List (String × String) :=
  [("binsearch", "sub-delim"), ("uniq", "agg-help"), ("verify", "report"), ("verify", "show-matchers")]

theorem handles_all : ∀ c ∈ mainList, ∀ x ∈ c.spec, x.name ∈ c.handles ∨ (c.name, x.name) ∈ unhandled := by decide +kernel

theorem unhandled_not : ∀ c ∈ mainList, ∀ x ∈ c.spec, (c.name, x.name) ∈ unhandled → x.name ∉ c.handles := by decide +kernel

theorem consume_no_panic (chars : Bytes → List Char) (l : List ArgValue)
    (hl : ∀ a ∈ l, a.name = "text-in" ∨ a.name = "text-out" ∨ a.name ∈ stdNames) : ∀ s : Settings, s.consume chars l ≠ .panic := by
  induction l with
  | nil => intro s; simp [Settings.consume]
  | cons x xs ih =>
    intro s
    have hb : ∀ r : Run Settings, r ≠ .panic → r.bind (fun s => Settings.consume chars s xs) ≠ .panic := by
      intro r hr
      cases r with
      | ok a => exact ih (fun a ha => hl a (by simp [ha])) a
      | fail e => simp [Run.bind]
      | panic => exact absurd rfl hr
    refine hb _ ?_
    have hm : ∀ (v : Bytes) (g : TextMode → Settings), (TextMode.new (chars v)).run.bind (fun t => Run.ok (g t)) ≠ .panic := by
      intro v g
      have := (C118_rest .default (chars v)).1
      unfold TextMode.new
      cases hq : TextMode.newWith (chars v) .default with
      | ok a => simp [Res.run, Run.bind]
      | err => simp [Res.run, Run.bind]
      | panic => exact absurd hq this
    rcases hl x (by simp) with h | h | h
    · simp only [Settings.take, h, if_true]; exact hm _ _
    · have : ¬ (("text-out" : String) = "text-in") := by decide
      simp only [Settings.take, h, this, if_false, if_true]; exact hm _ _
    · rw [take_std chars x h]; simp

theorem optLoop_no_panic {σ : Type} (handles : List String) (act : σ → ArgValue → Run σ) (hact : ∀ s a, act s a ≠ .panic)
    (l : List ArgValue) (hl : ∀ a ∈ l, a.name ∈ handles) : ∀ s, optLoop handles act s l ≠ .panic := by
  induction l with
  | nil => intro s; simp [optLoop]
  | cons x xs ih =>
    intro s
    have hx : handles.contains x.name = true := by simpa using hl x (by simp)
    simp only [optLoop, hx, if_true]
    cases h : act s x with
    | ok a => exact ih (fun a ha => hl a (by simp [ha])) a
    | fail e => simp [Run.bind]
    | panic => exact absurd h (hact s x)

theorem parse_no_panic (chars : Bytes → List Char) (s : Settings) (spec : List ArgSpec) (files : FileCount) (toks : List Tok) :
    parseArgs chars s spec files toks ≠ .panic := by
  unfold parseArgs
  simp only
  split
  · simp
  · obtain ⟨rest, e, hr⟩ := globals_split (tokValues 0 toks)
    have : s.consume chars (globalArgs.flatMap (getArg (tokValues 0 toks))) ≠ .panic := by
      rw [e]
      refine consume_no_panic chars _ (fun a ha => ?_) s
      simp only [List.mem_append] at ha
      rcases ha with ha | ha | ha
      · obtain ⟨b, _, rfl⟩ := List.mem_map.1 ha; exact Or.inl rfl
      · obtain ⟨b, _, rfl⟩ := List.mem_map.1 ha; exact Or.inr (Or.inl rfl)
      · exact Or.inr (Or.inr (hr a ha))
    cases h : s.consume chars (globalArgs.flatMap (getArg (tokValues 0 toks))) with
    | ok a => simp [Run.bind]
    | fail e => simp [Run.bind]
    | panic => exact absurd h this

/-- Names of options a command gets are among those given. -/
theorem parse_mem {chars : Bytes → List Char} {s s' : Settings} {spec : List ArgSpec} {files : FileCount} {toks : List Tok}
    (hn : Names spec) (ha : ∀ t ∈ toks, Accepts spec t) {v : List ArgValue} {fs : List Bytes}
    (h : parseArgs chars s spec files toks = .ok (s', v, fs)) (n : String) :
    (∃ a ∈ v, a.name = n) ↔ (∃ x ∈ spec, x.name = n) ∧ ∃ t ∈ toks, t.name = n := by
  have e := (C120_order chars s s' spec files toks hn ha v fs h).1
  have e1 : v.map (·.name) = (toks.filter fun t => spec.any fun a => a.name = t.name).map Tok.name := by
    have := congrArg (List.map Prod.fst) e
    simpa [wantedArgs, List.map_map, Function.comp_def] using this
  have : n ∈ v.map (·.name) ↔ n ∈ (toks.filter fun t => spec.any fun a => a.name = t.name).map Tok.name := by rw [e1]
  rw [List.mem_map, List.mem_map] at this
  constructor
  · intro h
    obtain ⟨t, ht, rfl⟩ := this.1 h
    simp only [List.mem_filter, List.any_eq_true, decide_eq_true_eq] at ht
    exact ⟨ht.2, t, ht.1, rfl⟩
  · rintro ⟨hx, t, ht, rfl⟩
    refine this.2 ⟨t, ?_, rfl⟩
    simp only [List.mem_filter, List.any_eq_true, decide_eq_true_eq]
    exact ⟨ht, hx⟩

/-- C121 for command lines without the four options nobody handles. -/
theorem C121_handled_partial (c : Cmd) (hc : c ∈ mainList) (chars : Bytes → List Char) (σ : Type) (act : σ → ArgValue → Run σ)
    (s : σ) (toks : List Tok) (ha : ∀ t ∈ toks, Accepts c.spec t) (hact : ∀ s a, act s a ≠ .panic)
    (hu : ∀ t ∈ toks, (c.name, t.name) ∉ unhandled) : c.start chars act s toks ≠ .panic := by
  unfold Cmd.start
  cases hp : parseArgs chars .new c.spec c.files toks with
  | panic => exact absurd hp (parse_no_panic _ _ _ _ _)
  | fail e => simp [Run.bind]
  | ok p =>
    obtain ⟨s', v, fs⟩ := p
    have hl : ∀ a ∈ v, a.name ∈ c.handles := by
      intro a hav
      obtain ⟨⟨x, hx, hxn⟩, t, ht, htn⟩ := (parse_mem (C120_names c hc) ha hp a.name).1 ⟨a, hav, rfl⟩
      rcases handles_all c hc x hx with h | h
      · rw [← hxn]; exact h
      · exact absurd (by rw [htn, ← hxn]; exact h) (hu t ht)
    have := optLoop_no_panic c.handles act hact v hl s
    simp only [Run.bind]
    cases h : optLoop c.handles act s v with
    | ok a => simp
    | fail e => simp
    | panic => exact absurd h this

theorem optLoop_unhandled {σ : Type} (handles : List String) (act : σ → ArgValue → Run σ) (l : List ArgValue)
    (hl : ∃ a ∈ l, a.name ∉ handles) : ∀ s s', optLoop handles act s l ≠ .ok s' := by
  induction l with
  | nil => obtain ⟨a, h, _⟩ := hl; simp at h
  | cons x xs ih =>
    intro s s' h
    obtain ⟨a, ha, hn⟩ := hl
    simp only [optLoop] at h
    split at h
    · obtain ⟨s1, h1, h2⟩ := Run.bind_eq_ok h
      rcases List.mem_cons.1 ha with rfl | ha
      · rename_i hcon; exact hn (by simpa using hcon)
      · exact ih ⟨a, ha, hn⟩ s1 s' h2
    · cases h

/-- Each of the four options stops the command wherever it stands. -/
theorem C121_stops (c : Cmd) (hc : c ∈ mainList) (chars : Bytes → List Char) (σ : Type) (act : σ → ArgValue → Run σ) (s : σ)
    (toks : List Tok) (ha : ∀ t ∈ toks, Accepts c.spec t) (x : ArgSpec) (hx : x ∈ c.spec) (hu : (c.name, x.name) ∈ unhandled)
    (ht : ∃ t ∈ toks, t.name = x.name) (r : Settings × σ × List Bytes) : c.start chars act s toks ≠ .ok r := by
  intro h
  unfold Cmd.start at h
  obtain ⟨⟨s', v, fs⟩, hp, h⟩ := Run.bind_eq_ok h
  obtain ⟨s1, h1, -⟩ := Run.bind_eq_ok h
  obtain ⟨a, hav, han⟩ := (parse_mem (C120_names c hc) ha hp x.name).2 ⟨⟨x, hx, rfl⟩, ht⟩
  exact optLoop_unhandled c.handles act v ⟨a, hav, by rw [han]; exact unhandled_not c hc x hx hu⟩ s s1 h1

/-- `binsearch --sub-delim ,` panics. -/
theorem C121_refuted : ¬ C121_statement := by
  intro h
  refine absurd ?_ (h (mainList.headD ⟨"", [], [], .zero⟩) (by simp [mainList]) (fun _ => []) Unit (fun _ _ => .ok ()) ()
    [.opt "sub-delim" (ascii ",")] ?_ (by intro _ _ h; cases h))
  · decide +kernel
  · intro t ht
    simp only [List.mem_cons, List.not_mem_nil, or_false] at ht
    subst ht
    exact ⟨{ name := "sub-delim" }, by decide +kernel, rfl, rfl, rfl, Or.inl rfl⟩

/-- Of the words clap lets through, `--pad` knows all. -/
theorem C121_pad (v : Bytes) (h : ∃ w ∈ ["Yes", "No", "End"], eqIgnoreCase v (ascii w) = true) : PadMode.new v ≠ .panic := by
  obtain ⟨w, hw, h⟩ := h
  simp only [eqIgnoreCase, beq_iff_eq] at h
  simp only [List.mem_cons, List.not_mem_nil, or_false] at hw
  rcases hw with rfl | rfl | rfl
  · have : lower (ascii "Yes") = ascii "yes" := by decide +kernel
    simp [PadMode.new, h, this]
  · have h1 : lower (ascii "No") = ascii "no" := by decide +kernel
    have h2 : ¬ ascii "no" = ascii "yes" := by decide +kernel
    simp [PadMode.new, h, h1, h2]
  · have h1 : lower (ascii "End") = ascii "end" := by decide +kernel
    have h2 : ¬ ascii "end" = ascii "yes" := by decide +kernel
    have h3 : ¬ ascii "end" = ascii "no" := by decide +kernel
    simp [PadMode.new, h, h1, h2, h3]

example : Accepts [{ name := "or", takes := false }] (.flag "or") := Or.inr ⟨⟨"or", false, [], false⟩, by simp, rfl, rfl⟩
example : ("cut", "fields") ∉ unhandled := by decide

end Cdx
