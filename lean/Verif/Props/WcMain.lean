import Verif.Model.WcMain
import Verif.Props.Wc
import Verif.Props.Words
import Verif.Props.Options
import Verif.Props.UniqMain

/-!
C202: the options of `wc`.
-/

namespace Cdx

/-! ## Specification -/

/-- The options of `wc`. -/
def wcNames : List String := ["agg", "lines", "bytes", "chars", "words", "format", "columns", "total", "with-header", "file"]

/-- The aggregator an option asks for. -/
def wcSpec (o : Bytes × Bytes) : Option Bytes :=
  if o.1 = ascii "agg" then some o.2 else if o.1 = ascii "lines" then some (ascii "lines,count")
  else if o.1 = ascii "bytes" then some (ascii "bytes,asum,chars") else if o.1 = ascii "chars" then some (ascii "chars,asum,utf8.chars")
  else if o.1 = ascii "words" then some (ascii "words,asum,swords") else none

/-- What `--format` asks for. -/
def FormatMeans (v : Bytes) (f : NumFormat) : Prop :=
  (∃ w ∈ formatWords, lower v = ascii w.1 ∧ f = w.2) ∨
    ∃ w ∈ precWords, ∃ a b n, v = a ++ 46 :: b ∧ lower a = ascii w.1 ∧ toUsizeWhole b = .ok n ∧ f = w.2 n

/-- What the options make of `c`. -/
structure WcAsks {F : Type} (env : AggEnv F) (c : WcAsk) (os : List (Bytes × Bytes)) (c' : WcAsk) : Prop where
  names : ∀ o ∈ os, o.1 ∈ wcNames.map ascii
  made : ∀ s ∈ os.filterMap wcSpec, ∃ a, Agger.new env s = .ok a
  specs : c'.specs = c.specs ++ os.filterMap wcSpec
  columns : c'.columns = (c.columns || !(optVals "columns" os).isEmpty)
  fmt : LastMeans FormatMeans (optVals "format" os) c.conf.fmt c'.conf.fmt
  totals : LastMeans (fun v t => (lower v, t) ∈ triWords) ((optVals "total" os).filter fun v => lower v ≠ ascii "only") c.conf.showTotals
    c'.conf.showTotals
  only : c'.conf.totalOnly = (c.conf.totalOnly || (optVals "total" os).any fun v => lower v = ascii "only")
  header : LastMeans (fun v t => (lower v, t) ∈ triWords) (optVals "with-header" os) c.conf.showHeader c'.conf.showHeader
  file : LastMeans (fun v t => ∃ a b, CommaParts v a b ∧ (lower a, t) ∈ triWords) (optVals "file" os) c.conf.showFile c'.conf.showFile
  col : LastMeans (fun v n => ∃ a, v = a ++ 44 :: n ∧ (44 : UInt8) ∉ a) ((optVals "file" os).filter fun v => (44 : UInt8) ∈ v) c.conf.fileCol
    c'.conf.fileCol
  out : c'.conf.out = c.conf.out

/-! ## Proof -/

theorem triMeans_ok {β : Type} (v : Bytes) (f : Tri → Res β) (y : β) :
    (Tri.new v).bind f = .ok y ↔ ∃ u, (lower v, u) ∈ triWords ∧ f u = .ok y := by
  rw [bind_ok_iff]
  simp only [C123_tri]

theorem formatMeans_ok {β : Type} (v : Bytes) (f : NumFormat → Res β) (y : β) :
    (NumFormat.parse v).bind f = .ok y ↔ ∃ u, FormatMeans v u ∧ f u = .ok y := by
  rw [bind_ok_iff]
  simp only [C190_formats, FormatMeans]

theorem wcOptions_iff {F : Type} (env : AggEnv F) (os : List (Bytes × Bytes)) :
    ∀ c c' : WcAsk, wcOptions env c os = .ok c' ↔ WcAsks env c os c' := by
  induction os with
  | nil =>
    intro c c'
    simp only [wcOptions, Res.ok.injEq]
    constructor
    · rintro rfl
      exact ⟨by simp, by simp, by simp, by simp [optVals], lastMeans_nil.2 rfl, lastMeans_nil.2 rfl, by simp [optVals], lastMeans_nil.2 rfl,
        lastMeans_nil.2 rfl, lastMeans_nil.2 rfl, rfl⟩
    · rintro ⟨-, -, h3, h4, h5, h6, h7, h8, h9, h10, h11⟩
      have e5 := lastMeans_nil.1 h5
      have e6 := lastMeans_nil.1 h6
      have e8 := lastMeans_nil.1 h8
      have e9 := lastMeans_nil.1 h9
      have e10 := lastMeans_nil.1 h10
      obtain ⟨s, cl, ⟨c1, c2, c3, c4, c5, c6, c7⟩⟩ := c
      obtain ⟨s', cl', ⟨d1, d2, d3, d4, d5, d6, d7⟩⟩ := c'
      simp only [optVals, List.filter_nil, List.map_nil, List.filterMap_nil, List.append_nil, List.isEmpty_nil, Bool.not_true, Bool.or_false,
        List.any_nil] at *
      simp_all
  | cons o os ih =>
    intro c c'
    obtain ⟨n, v⟩ := o
    have dist : ∀ a ∈ wcNames, ∀ b ∈ wcNames, a ≠ b → ascii a ≠ ascii b := by decide
    by_cases hn : n ∈ wcNames.map ascii
    · have names : (∀ o ∈ (n, v) :: os, o.1 ∈ wcNames.map ascii) ↔ ∀ o ∈ os, o.1 ∈ wcNames.map ascii := by
        simp only [List.forall_mem_cons, hn, true_and]
      obtain ⟨a, ha, e⟩ := List.mem_map.1 hn
      have e := e.symm
      have D : ∀ b ∈ wcNames, a ≠ b → n ≠ ascii b := fun b hb hab => by rw [e]; exact dist a ha b hb hab
      have V : ∀ b ∈ wcNames, optVals b ((n, v) :: os) = if a = b then v :: optVals b os else optVals b os := by
        intro b hb
        rw [optVals_cons]
        by_cases hab : a = b
        · rw [if_pos hab, if_pos (by rw [e, hab])]
        · rw [if_neg hab, if_neg (D b hb hab)]
      have S : ((n, v) :: os).filterMap wcSpec =
          (if a = "agg" then [v] else if a = "lines" then [ascii "lines,count"] else if a = "bytes" then [ascii "bytes,asum,chars"]
            else if a = "chars" then [ascii "chars,asum,utf8.chars"] else if a = "words" then [ascii "words,asum,swords"] else []) ++
            os.filterMap wcSpec := by
        have w : wcSpec (n, v) = if a = "agg" then some v else if a = "lines" then some (ascii "lines,count") else if a = "bytes" then
            some (ascii "bytes,asum,chars") else if a = "chars" then some (ascii "chars,asum,utf8.chars") else if a = "words" then
            some (ascii "words,asum,swords") else none := by
          have i : ∀ b ∈ wcNames, (n = ascii b) = (a = b) := by
            intro b hb
            apply propext
            constructor
            · intro h
              by_cases hab : a = b
              · exact hab
              · exact absurd h (D b hb hab)
            · intro h
              rw [e, h]
          unfold wcSpec
          simp only [i "agg" (by decide), i "lines" (by decide), i "bytes" (by decide), i "chars" (by decide), i "words" (by decide)]
        rw [List.filterMap_cons, w]
        by_cases c1 : a = "agg"
        · simp [c1]
        by_cases c2 : a = "lines"
        · simp [c2]
        by_cases c3 : a = "bytes"
        · simp [c3]
        by_cases c4 : a = "chars"
        · simp [c4]
        by_cases c5 : a = "words"
        · simp [c5]
        simp [c1, c2, c3, c4, c5]
      have conv : ∀ (c c' : WcAsk) (os : List (Bytes × Bytes)), WcAsks env c os c' ↔ (∀ o ∈ os, o.1 ∈ wcNames.map ascii) ∧
          (∀ s ∈ os.filterMap wcSpec, ∃ a, Agger.new env s = .ok a) ∧
          c'.specs = c.specs ++ os.filterMap wcSpec ∧
          c'.columns = (c.columns || !(optVals "columns" os).isEmpty) ∧
          LastMeans FormatMeans (optVals "format" os) c.conf.fmt c'.conf.fmt ∧
          LastMeans (fun v t => (lower v, t) ∈ triWords) ((optVals "total" os).filter fun v => lower v ≠ ascii "only") c.conf.showTotals
            c'.conf.showTotals ∧
          c'.conf.totalOnly = (c.conf.totalOnly || (optVals "total" os).any fun v => lower v = ascii "only") ∧
          LastMeans (fun v t => (lower v, t) ∈ triWords) (optVals "with-header" os) c.conf.showHeader c'.conf.showHeader ∧
          LastMeans (fun v t => ∃ a b, CommaParts v a b ∧ (lower a, t) ∈ triWords) (optVals "file" os) c.conf.showFile c'.conf.showFile ∧
          LastMeans (fun v n => ∃ a, v = a ++ 44 :: n ∧ (44 : UInt8) ∉ a) ((optVals "file" os).filter fun v => (44 : UInt8) ∈ v) c.conf.fileCol
            c'.conf.fileCol ∧
          c'.conf.out = c.conf.out := by
        intro c c' os
        constructor
        · rintro ⟨h1, h2, h3, h4, h5, h6, h7, h8, h9, h10, h11⟩
          exact ⟨h1, h2, h3, h4, h5, h6, h7, h8, h9, h10, h11⟩
        · rintro ⟨h1, h2, h3, h4, h5, h6, h7, h8, h9, h10, h11⟩
          exact ⟨h1, h2, h3, h4, h5, h6, h7, h8, h9, h10, h11⟩
      rw [conv, names, S, V "columns" (by decide), V "format" (by decide), V "total" (by decide), V "with-header" (by decide), V "file" (by decide)]
      simp only [conv] at ih
      unfold wcOptions
      have cs : a = "agg" ∨ a = "lines" ∨ a = "bytes" ∨ a = "chars" ∨ a = "words" ∨ a = "format" ∨ a = "columns" ∨ a = "total" ∨
        a = "with-header" ∨ a = "file" := by simpa [wcNames] using ha
      rcases cs with rfl | rfl | rfl | rfl | rfl | rfl | rfl | rfl | rfl | rfl
      · rw [if_pos e]
        simp only [bind_ok_iff, ih, String.reduceEq, if_true, if_false, List.cons_append, List.nil_append, List.forall_mem_cons, List.append_assoc]
        constructor
        · rintro ⟨u, h0, h1, h2, h3⟩
          exact ⟨h1, ⟨⟨u, h0⟩, h2⟩, h3⟩
        · rintro ⟨h1, ⟨⟨u, h0⟩, h2⟩, h3⟩
          exact ⟨u, h0, h1, h2, h3⟩
      · rw [if_neg (D _ (by decide) (by decide)), if_pos e]
        simp only [bind_ok_iff, ih, String.reduceEq, if_true, if_false, List.cons_append, List.nil_append, List.forall_mem_cons, List.append_assoc]
        constructor
        · rintro ⟨u, h0, h1, h2, h3⟩
          exact ⟨h1, ⟨⟨u, h0⟩, h2⟩, h3⟩
        · rintro ⟨h1, ⟨⟨u, h0⟩, h2⟩, h3⟩
          exact ⟨u, h0, h1, h2, h3⟩
      · rw [if_neg (D _ (by decide) (by decide)), if_neg (D _ (by decide) (by decide)), if_pos e]
        simp only [bind_ok_iff, ih, String.reduceEq, if_true, if_false, List.cons_append, List.nil_append, List.forall_mem_cons, List.append_assoc]
        constructor
        · rintro ⟨u, h0, h1, h2, h3⟩
          exact ⟨h1, ⟨⟨u, h0⟩, h2⟩, h3⟩
        · rintro ⟨h1, ⟨⟨u, h0⟩, h2⟩, h3⟩
          exact ⟨u, h0, h1, h2, h3⟩
      · rw [if_neg (D _ (by decide) (by decide)), if_neg (D _ (by decide) (by decide)), if_neg (D _ (by decide) (by decide)), if_pos e]
        simp only [bind_ok_iff, ih, String.reduceEq, if_true, if_false, List.cons_append, List.nil_append, List.forall_mem_cons, List.append_assoc]
        constructor
        · rintro ⟨u, h0, h1, h2, h3⟩
          exact ⟨h1, ⟨⟨u, h0⟩, h2⟩, h3⟩
        · rintro ⟨h1, ⟨⟨u, h0⟩, h2⟩, h3⟩
          exact ⟨u, h0, h1, h2, h3⟩
      · rw [if_neg (D _ (by decide) (by decide)), if_neg (D _ (by decide) (by decide)), if_neg (D _ (by decide) (by decide)), if_neg (D _ (by decide) (by decide)), if_pos e]
        simp only [bind_ok_iff, ih, String.reduceEq, if_true, if_false, List.cons_append, List.nil_append, List.forall_mem_cons, List.append_assoc]
        constructor
        · rintro ⟨u, h0, h1, h2, h3⟩
          exact ⟨h1, ⟨⟨u, h0⟩, h2⟩, h3⟩
        · rintro ⟨h1, ⟨⟨u, h0⟩, h2⟩, h3⟩
          exact ⟨u, h0, h1, h2, h3⟩
      · rw [if_neg (D _ (by decide) (by decide)), if_neg (D _ (by decide) (by decide)), if_neg (D _ (by decide) (by decide)), if_neg (D _ (by decide) (by decide)), if_neg (D _ (by decide) (by decide)), if_pos e]
        simp only [formatMeans_ok, ih, String.reduceEq, if_true, if_false, List.nil_append, lastMeans_cons]
        constructor
        · rintro ⟨u, h0, h1, h2, h3, h4, h5, h6⟩
          exact ⟨h1, h2, h3, h4, ⟨u, h0, h5⟩, h6⟩
        · rintro ⟨h1, h2, h3, h4, ⟨u, h0, h5⟩, h6⟩
          exact ⟨u, h0, h1, h2, h3, h4, h5, h6⟩
      · rw [if_neg (D _ (by decide) (by decide)), if_neg (D _ (by decide) (by decide)), if_neg (D _ (by decide) (by decide)), if_neg (D _ (by decide) (by decide)), if_neg (D _ (by decide) (by decide)), if_neg (D _ (by decide) (by decide)), if_pos e]
        simp only [ih, String.reduceEq, if_true, if_false, List.nil_append, List.isEmpty_cons, Bool.not_false, Bool.or_true, Bool.true_or]
      · rw [if_neg (D _ (by decide) (by decide)), if_neg (D _ (by decide) (by decide)), if_neg (D _ (by decide) (by decide)), if_neg (D _ (by decide) (by decide)), if_neg (D _ (by decide) (by decide)), if_neg (D _ (by decide) (by decide)), if_neg (D _ (by decide) (by decide)), if_pos e]
        by_cases ho : lower v = ascii "only"
        · rw [if_pos (by rw [eqIgnore_lower v _ (by decide +kernel), ho]; simp)]
          simp only [ih, String.reduceEq, if_true, if_false, List.nil_append, ho, List.filter_cons, ne_eq, not_true_eq_false, decide_false, List.any_cons, decide_true, Bool.true_or, Bool.or_true, Bool.false_eq_true]
        · rw [if_neg (by rw [eqIgnore_lower v _ (by decide +kernel)]; simp [ho])]
          simp only [triMeans_ok, ih, String.reduceEq, if_true, if_false, List.nil_append, ho, List.filter_cons, ne_eq, not_false_eq_true, decide_true, List.any_cons, decide_false, Bool.false_or, lastMeans_cons]
          constructor
          · rintro ⟨u, h0, h1, h2, h3, h4, h5, h6, h7⟩
            exact ⟨h1, h2, h3, h4, h5, ⟨u, h0, h6⟩, h7⟩
          · rintro ⟨h1, h2, h3, h4, h5, ⟨u, h0, h6⟩, h7⟩
            exact ⟨u, h0, h1, h2, h3, h4, h5, h6, h7⟩
      · rw [if_neg (D _ (by decide) (by decide)), if_neg (D _ (by decide) (by decide)), if_neg (D _ (by decide) (by decide)), if_neg (D _ (by decide) (by decide)), if_neg (D _ (by decide) (by decide)), if_neg (D _ (by decide) (by decide)), if_neg (D _ (by decide) (by decide)), if_neg (D _ (by decide) (by decide)), if_pos e]
        simp only [triMeans_ok, ih, String.reduceEq, if_true, if_false, List.nil_append, lastMeans_cons]
        constructor
        · rintro ⟨u, h0, h1, h2, h3, h4, h5, h6, h7, h8, h9⟩
          exact ⟨h1, h2, h3, h4, h5, h6, h7, ⟨u, h0, h8⟩, h9⟩
        · rintro ⟨h1, h2, h3, h4, h5, h6, h7, ⟨u, h0, h8⟩, h9⟩
          exact ⟨u, h0, h1, h2, h3, h4, h5, h6, h7, h8, h9⟩
      · rw [if_neg (D _ (by decide) (by decide)), if_neg (D _ (by decide) (by decide)), if_neg (D _ (by decide) (by decide)), if_neg (D _ (by decide) (by decide)), if_neg (D _ (by decide) (by decide)), if_neg (D _ (by decide) (by decide)), if_neg (D _ (by decide) (by decide)), if_neg (D _ (by decide) (by decide)), if_neg (D _ (by decide) (by decide)), if_pos e]
        cases hsp : splitOnce 44 v with
        | some p =>
          obtain ⟨a, b⟩ := p
          obtain ⟨hv, ha'⟩ := splitOnce_eq 44 v a b hsp
          have hp : ∀ t, (∃ a b, CommaParts v a b ∧ (lower a, t) ∈ triWords) ↔ (lower a, t) ∈ triWords := by
            intro t
            simp only [commaParts_iff, hsp, Option.getD_some, Prod.mk.injEq]
            exact ⟨fun ⟨_, _, ⟨h, _⟩, h'⟩ => h ▸ h', fun h => ⟨a, b, ⟨rfl, rfl⟩, h⟩⟩
          have hb : ∀ n, (∃ a, v = a ++ 44 :: n ∧ (44 : UInt8) ∉ a) ↔ n = b := by
            intro n
            constructor
            · rintro ⟨a', e', h'⟩
              rw [e', splitOnce_some 44 a' n h'] at hsp
              simpa using congrArg (fun o => o.map (·.2)) hsp
            · rintro rfl
              exact ⟨a, hv, ha'⟩
          have hm : (44 : UInt8) ∈ v := by rw [hv]; simp
          simp only [triMeans_ok, ih, String.reduceEq, if_true, if_false, List.nil_append, lastMeans_cons, List.filter_cons, hm, decide_true, hp, hb, exists_eq_left]
          constructor
          · rintro ⟨u, h0, h1, h2, h3, h4, h5, h6, h7, h8, h9, h10⟩
            exact ⟨h1, h2, h3, h4, h5, h6, h7, h8, ⟨u, h0, h9⟩, h10⟩
          · rintro ⟨h1, h2, h3, h4, h5, h6, h7, h8, ⟨u, h0, h9⟩, h10⟩
            exact ⟨u, h0, h1, h2, h3, h4, h5, h6, h7, h8, h9, h10⟩
        | none =>
          have hp : ∀ t, (∃ a b, CommaParts v a b ∧ (lower a, t) ∈ triWords) ↔ (lower v, t) ∈ triWords := by
            intro t
            simp only [commaParts_iff, hsp, Option.getD_none, Prod.mk.injEq]
            exact ⟨fun ⟨_, _, ⟨h, _⟩, h'⟩ => h ▸ h', fun h => ⟨v, [], ⟨rfl, rfl⟩, h⟩⟩
          have hm : (44 : UInt8) ∉ v := by
            intro hm
            obtain ⟨l, r, e', hl⟩ := List.eq_append_cons_of_mem hm
            rw [e', splitOnce_some 44 l r hl] at hsp
            cases hsp
          simp only [triMeans_ok, ih, String.reduceEq, if_true, if_false, List.nil_append, lastMeans_cons, List.filter_cons, hm, decide_false, hp, Bool.false_eq_true]
          constructor
          · rintro ⟨u, h0, h1, h2, h3, h4, h5, h6, h7, h8, h9, h10⟩
            exact ⟨h1, h2, h3, h4, h5, h6, h7, h8, ⟨u, h0, h9⟩, h10⟩
          · rintro ⟨h1, h2, h3, h4, h5, h6, h7, h8, ⟨u, h0, h9⟩, h10⟩
            exact ⟨u, h0, h1, h2, h3, h4, h5, h6, h7, h8, h9, h10⟩
    · have D : ∀ b ∈ wcNames, n ≠ ascii b := fun b hb e => hn (by rw [e]; exact List.mem_map.2 ⟨b, hb, rfl⟩)
      unfold wcOptions
      rw [if_neg (D _ (by decide)), if_neg (D _ (by decide)), if_neg (D _ (by decide)), if_neg (D _ (by decide)), if_neg (D _ (by decide)),
        if_neg (D _ (by decide)), if_neg (D _ (by decide)), if_neg (D _ (by decide)), if_neg (D _ (by decide)), if_neg (D _ (by decide))]
      constructor
      · intro h
        cases h
      · intro h
        exact absurd (h.names (n, v) (by simp)) hn

/-- C202: exactly which options are accepted, and what they ask for. -/
theorem C202_options {F : Type} (env : AggEnv F) (os : List (Bytes × Bytes)) (c : WcAsk) :
    wcOptions env {} os = .ok c ↔
      (∀ o ∈ os, o.1 ∈ wcNames.map ascii) ∧
      (∀ s ∈ c.specs, ∃ a, Agger.new env s = .ok a) ∧ c.specs = os.filterMap wcSpec ∧
      (c.columns = true ↔ ∃ o ∈ os, o.1 = ascii "columns") ∧
      LastMeans FormatMeans (optVals "format" os) .default c.conf.fmt ∧
      LastMeans (fun v t => (lower v, t) ∈ triWords) ((optVals "total" os).filter fun v => lower v ≠ ascii "only") .maybe c.conf.showTotals ∧
      (c.conf.totalOnly = true ↔ ∃ v ∈ optVals "total" os, lower v = ascii "only") ∧
      LastMeans (fun v t => (lower v, t) ∈ triWords) (optVals "with-header" os) .maybe c.conf.showHeader ∧
      LastMeans (fun v t => ∃ a b, CommaParts v a b ∧ (lower a, t) ∈ triWords) (optVals "file" os) .maybe c.conf.showFile ∧
      LastMeans (fun v n => ∃ a, v = a ++ 44 :: n ∧ (44 : UInt8) ∉ a) ((optVals "file" os).filter fun v => (44 : UInt8) ∈ v) (ascii "file")
        c.conf.fileCol ∧
      c.conf.out = none := by
  have k1 : ∀ b : Bool, (b = (false || !(optVals "columns" os).isEmpty)) ↔ (b = true ↔ ∃ o ∈ os, o.1 = ascii "columns") := by
    intro b
    have : (!(optVals "columns" os).isEmpty) = true ↔ ∃ o ∈ os, o.1 = ascii "columns" := by
      simp only [optVals, Bool.not_eq_true', List.isEmpty_eq_false_iff, ne_eq, List.map_eq_nil_iff, List.filter_eq_nil_iff, decide_eq_true_eq]
      constructor
      · intro h
        exact Classical.byContradiction fun hc => h fun o ho e => hc ⟨o, ho, e⟩
      · rintro ⟨o, ho, e⟩ h
        exact h o ho e
    rw [← this, Bool.false_or, Bool.eq_iff_iff]
  have k2 : ∀ b : Bool, (b = (false || (optVals "total" os).any fun v => lower v = ascii "only")) ↔
      (b = true ↔ ∃ v ∈ optVals "total" os, lower v = ascii "only") := by
    intro b
    rw [Bool.false_or, Bool.eq_iff_iff, List.any_eq_true]
    simp only [decide_eq_true_eq]
  rw [wcOptions_iff]
  constructor
  · rintro ⟨h1, h2, h3, h4, h5, h6, h7, h8, h9, h10, h11⟩
    rw [List.nil_append] at h3
    exact ⟨h1, h3 ▸ h2, h3, (k1 _).1 h4, h5, h6, (k2 _).1 h7, h8, h9, h10, h11⟩
  · rintro ⟨h1, h2, h3, h4, h5, h6, h7, h8, h9, h10, h11⟩
    exact ⟨h1, h3 ▸ h2, h3, (k1 _).2 h4, h5, h6, (k2 _).2 h7, h8, h9, h10, h11⟩


/-- What is asked for is determined by the options. -/
theorem lastMeans_unique {α β : Type} {R : α → β → Prop} (hR : ∀ x u v, R x u → R x v → u = v) {xs : List α} {s t t' : β}
    (h : LastMeans R xs s t) (h' : LastMeans R xs s t') : t = t' := by
  obtain ⟨-, h | ⟨x, h1, h2⟩⟩ := h <;> obtain ⟨-, h' | ⟨x', h1', h2'⟩⟩ := h'
  · rw [h.2, h'.2]
  · rw [h.1] at h1'; cases h1'
  · rw [h'.1] at h1; cases h1
  · rw [h1] at h1'
    cases h1'
    exact hR _ _ _ h2 h2'

/-- C202: only the order of the aggregators, and for each other option the order of its values, matter. -/
theorem C202_order {F : Type} (env : AggEnv F) (os os' : List (Bytes × Bytes)) (hp : os.Perm os') (hs : os.filterMap wcSpec = os'.filterMap wcSpec)
    (hv : ∀ n ∈ ["format", "total", "with-header", "file"], optVals n os = optVals n os') (c : WcAsk) :
    wcOptions env {} os = .ok c ↔ wcOptions env {} os' = .ok c := by
  have hm : ∀ P : Bytes × Bytes → Prop, (∀ o ∈ os, P o) ↔ ∀ o ∈ os', P o :=
    fun P => ⟨fun h o ho => h o (hp.mem_iff.2 ho), fun h o ho => h o (hp.mem_iff.1 ho)⟩
  have he : ∀ P : Bytes × Bytes → Prop, (∃ o ∈ os, P o) ↔ ∃ o ∈ os', P o :=
    fun P => ⟨fun ⟨o, ho, h⟩ => ⟨o, hp.mem_iff.1 ho, h⟩, fun ⟨o, ho, h⟩ => ⟨o, hp.mem_iff.2 ho, h⟩⟩
  rw [C202_options, C202_options, hs, hv "format" (by simp), hv "total" (by simp), hv "with-header" (by simp), hv "file" (by simp), hm, he]

theorem res_bind_assoc {α β γ : Type} (r : Res α) (f : α → Res β) (g : β → Res γ) : (r.bind f).bind g = r.bind fun x => (f x).bind g := by
  cases r <;> rfl

theorem res_bind_ite {α β : Type} (p : Prop) [Decidable p] (r s : Res α) (f : α → Res β) :
    (if p then r else s).bind f = if p then r.bind f else s.bind f := by
  split <;> rfl

theorem wcOptions_cons {F : Type} (env : AggEnv F) (c : WcAsk) (o : Bytes × Bytes) (os : List (Bytes × Bytes)) :
    wcOptions env c (o :: os) = (wcOptions env c [o]).bind fun c => wcOptions env c os := by
  obtain ⟨n, v⟩ := o
  simp only [wcOptions]
  cases splitOnce 44 v <;> simp only [res_bind_ite, res_bind_assoc, Res.bind_ok] <;> rfl

theorem wcOptions_append {F : Type} (env : AggEnv F) (os os' : List (Bytes × Bytes)) : ∀ c : WcAsk,
    wcOptions env c (os ++ os') = (wcOptions env c os).bind fun c => wcOptions env c os' := by
  induction os with
  | nil => intro c; rfl
  | cons o os ih =>
    intro c
    rw [List.cons_append, wcOptions_cons, wcOptions_cons env c o os, res_bind_assoc]
    simp only [ih]

/-- C202: the shortcuts mean what they are said to mean. -/
theorem C202_shortcuts {F : Type} (env : AggEnv F) (prn : NumFormat → F → Bytes) (m : TextMode) (out : Option TextMode)
    (os os' files : List (Bytes × Bytes)) (v : Bytes) (n spec : String)
    (h : (n, spec) ∈ [("lines", "lines,count"), ("bytes", "bytes,asum,chars"), ("chars", "chars,asum,utf8.chars"), ("words", "words,asum,swords")]) :
    wcMain env prn m out (os ++ (ascii n, v) :: os') files = wcMain env prn m out (os ++ (ascii "agg", ascii spec) :: os') files := by
  have key : ∀ c, wcOptions env c ((ascii n, v) :: os') = wcOptions env c ((ascii "agg", ascii spec) :: os') := by
    intro c
    rw [wcOptions, wcOptions]
    simp only [List.mem_cons, Prod.mk.injEq, List.not_mem_nil, or_false] at h
    rcases h with ⟨rfl, rfl⟩ | ⟨rfl, rfl⟩ | ⟨rfl, rfl⟩ | ⟨rfl, rfl⟩ <;> rfl
  unfold wcMain
  rw [wcOptions_append, wcOptions_append]
  simp only [key]

/-- C202: with `--lines`, `--bytes` and `--words` the counts of lines, bytes and words of each file are written, and their sums, in the format
asked for. Holds if every file ends in a newline (see C60). -/
theorem C202_counts_partial {F : Type} (env : AggEnv F) (prn : NumFormat → F → Bytes) (os files : List (Bytes × Bytes)) (fmt : NumFormat)
    (hn : ∀ o ∈ os, o.1 ∈ ["lines", "bytes", "words", "format"].map ascii)
    (hs : (os.filter fun o => o.1 ≠ ascii "format").map (·.1) = [ascii "lines", ascii "bytes", ascii "words"])
    (hfmt : LastMeans FormatMeans (optVals "format" os) .default fmt)
    (hx : ExactSums env.ops) (hne : files ≠ []) (hf : ∀ f ∈ files, isCdx f.2 = false ∧ f.2.getLast? = some NL) :
    wcMain env prn .default none os files = .ok (wcOutput prn fmt env.ops files) := by
  have dist : ∀ a ∈ wcNames, ∀ b ∈ wcNames, a ≠ b → ascii a ≠ ascii b := by decide
  have hspecs : os.filterMap wcSpec = wcSpecs := by
    have : ∀ os : List (Bytes × Bytes), (∀ o ∈ os, o.1 ∈ ["lines", "bytes", "words", "format"].map ascii) →
        os.filterMap wcSpec = ((os.filter fun o => o.1 ≠ ascii "format").map (·.1)).filterMap fun n => wcSpec (n, []) := by
      intro os
      induction os with
      | nil => intro _; rfl
      | cons o os ih =>
        intro h
        obtain ⟨n, v⟩ := o
        have ih := ih fun o ho => h o (by simp [ho])
        have hmem : n = ascii "lines" ∨ n = ascii "bytes" ∨ n = ascii "words" ∨ n = ascii "format" := by simpa using h (n, v) (by simp)
        rcases hmem with rfl | rfl | rfl | rfl
        · rw [List.filterMap_cons_some (f := wcSpec) (b := ascii "lines,count") rfl, ih, List.filter_cons_of_pos (by rfl)]; rfl
        · rw [List.filterMap_cons_some (f := wcSpec) (b := ascii "bytes,asum,chars") rfl, ih, List.filter_cons_of_pos (by rfl)]; rfl
        · rw [List.filterMap_cons_some (f := wcSpec) (b := ascii "words,asum,swords") rfl, ih, List.filter_cons_of_pos (by rfl)]; rfl
        · rw [List.filterMap_cons_none (f := wcSpec) rfl, ih, List.filter_cons_of_neg (by simp)]
    rw [this os hn, hs]
    rfl
  have none_ : ∀ b ∈ ["columns", "total", "with-header", "file"], ∀ o ∈ os, o.1 ≠ ascii b := by
    intro b hb o ho h
    have := hn o ho
    rw [h] at this
    have no : ∀ b ∈ ["columns", "total", "with-header", "file"], ascii b ∉ ["lines", "bytes", "words", "format"].map ascii := by decide
    exact no b hb this
  have vals : ∀ b ∈ ["columns", "total", "with-header", "file"], optVals b os = [] := by
    intro b hb
    unfold optVals
    rw [List.map_eq_nil_iff, List.filter_eq_nil_iff]
    intro o ho
    simpa using none_ b hb o ho
  have hopt : wcOptions env {} os = .ok { specs := wcSpecs, conf := { WcConf.default with fmt := fmt } } := by
    rw [C202_options, hspecs, vals "total" (by decide), vals "with-header" (by decide), vals "file" (by decide)]
    refine ⟨?_, ?_, rfl, ?_, hfmt, lastMeans_nil.2 rfl, by simp [WcConf.default], lastMeans_nil.2 rfl, lastMeans_nil.2 rfl, lastMeans_nil.2 rfl, rfl⟩
    · intro o ho
      have := hn o ho
      revert this
      simp only [List.map_cons, List.map_nil, List.mem_cons, List.not_mem_nil, or_false, wcNames]
      rintro (h | h | h | h) <;> simp [h]
    · intro s hs'
      have : s = ascii "lines,count" ∨ s = ascii "bytes,asum,chars" ∨ s = ascii "words,asum,swords" := by simpa [wcSpecs] using hs'
      rcases this with rfl | rfl | rfl <;> exact ⟨_, rfl⟩
    · simp only [Bool.false_eq_true, false_iff]
      rintro ⟨o, ho, h⟩
      exact none_ "columns" (by decide) o ho h
  unfold wcMain
  rw [hopt, Res.bind_ok]
  exact C60_counts_partial env prn fmt files hx hne hf

/-- Full statement: as `C202_counts_partial`, for all files without header. -/
def C202_statement : Prop :=
  ∀ (F : Type) (env : AggEnv F) (prn : NumFormat → F → Bytes) (os files : List (Bytes × Bytes)) (fmt : NumFormat),
    (∀ o ∈ os, o.1 ∈ ["lines", "bytes", "words", "format"].map ascii) →
    (os.filter fun o => o.1 ≠ ascii "format").map (·.1) = [ascii "lines", ascii "bytes", ascii "words"] →
    LastMeans FormatMeans (optVals "format" os) .default fmt → ExactSums env.ops → files ≠ [] → (∀ f ∈ files, isCdx f.2 = false) →
    wcMain env prn .default none os files = .ok (wcOutput prn fmt env.ops files)

/-- An empty file has no row. -/
theorem C202_refuted : ¬ C202_statement := by
  intro h
  have := h Nat AggEnv.plain decPrn [(ascii "lines", []), (ascii "bytes", []), (ascii "words", [])]
    [(ascii "a", []), (ascii "b", ascii "x y\n")] .default (by decide) (by decide) (lastMeans_nil.2 rfl) ⟨rfl, fun _ _ => rfl⟩ (by simp) (by
    intro f hf
    simp only [List.mem_cons, List.not_mem_nil, or_false] at hf
    rcases hf with rfl | rfl <;> decide +kernel)
  exact absurd this (by decide +kernel)

example : wcMain AggEnv.plain decPrn .default none [(ascii "lines", []), (ascii "bytes", []), (ascii "format", ascii "Plain"), (ascii "words", [])]
    [(ascii "a", ascii "x y\n\n"), (ascii "b", ascii "z\n")] =
    .ok (ascii " CDX\tfile\tlines\tbytes\twords\na\t2\t5\t2\nb\t1\t2\t1\ntotals\t3\t7\t3\n") := by decide +kernel

/-- The name of the column with the file names stays when a later `--file` has none; `only` does not undo another `--total`. -/
example : wcOptions AggEnv.plain {} [(ascii "file", ascii "no,path"), (ascii "total", ascii "NO"), (ascii "chars", []), (ascii "columns", []),
    (ascii "file", ascii "yes"), (ascii "total", ascii "Only")] =
    .ok ⟨[ascii "chars,asum,utf8.chars"], true, ⟨ascii "path", .yes, .maybe, .no, true, .default, none⟩⟩ := by decide +kernel

end Cdx
