import Verif.Model.CatMain
import Verif.Props.CatSlow
import Verif.Props.Options
import Verif.Props.UniqMain
import Verif.Props.Match

/-!
C201: the options of `cat`.
-/

namespace Cdx

/-! ## Specification -/

/-- The options of `cat`. -/
def catNames : List String := ["pad", "number", "begin", "end", "skip", "remove"]

/-- What an option says about numbers: `--begin` and `--end` are shortcuts. -/
def numberSpec (o : Bytes × Bytes) : Option Bytes :=
  if o.1 = ascii "number" then some o.2 else if o.1 = ascii "begin" then some (ascii "number,1,begin")
  else if o.1 = ascii "end" then some (ascii "number,1,end") else none

/-- The options that change `c` to `c'`. -/
structure CatAsks (env : MEnv) (c : CatConf) (os : List (Bytes × Bytes)) (c' : CatConf) : Prop where
  names : ∀ o ∈ os, o.1 ∈ catNames.map ascii
  pad : LastMeans (fun v p => (lower v, p) ∈ padWords) (optVals "pad" os) c.pad c'.pad
  num : LineNumber.sets c.num (os.filterMap numberSpec) = .ok c'.num
  skips : ∃ ts, (optVals "skip" os).map (Matcher.make env) = ts.map .ok ∧ c'.skips = c.skips ++ ts
  removes : ∃ ts, (optVals "remove" os).map (Matcher.make env) = ts.map .ok ∧ c'.removes = c.removes ++ ts

/-! ## Proof -/

theorem padMeans_ok {β : Type} (v : Bytes) (f : PadMode → Res β) (y : β) :
    (PadMode.new v).bind f = .ok y ↔ ∃ u, (lower v, u) ∈ padWords ∧ f u = .ok y := by
  rw [bind_ok_iff]
  simp only [C123_pad]

theorem sets_cons_ok (ln ln' : LineNumber) (s : Bytes) (ss : List Bytes) :
    ln.sets (s :: ss) = .ok ln' ↔ ∃ l, ln.set s = .ok l ∧ l.sets ss = .ok ln' := by
  rw [LineNumber.sets, bind_ok_iff]

/-- One more value at the front of a list of values. -/
theorem map_cons_ok {α β : Type} (f : α → Res β) (v : α) (vs : List α) (old new : List β) :
    (∃ ts, (v :: vs).map f = ts.map .ok ∧ new = old ++ ts) ↔
      ∃ t, f v = .ok t ∧ ∃ ts, vs.map f = ts.map .ok ∧ new = (old ++ [t]) ++ ts := by
  constructor
  · rintro ⟨ts, h1, h2⟩
    cases ts with
    | nil => simp at h1
    | cons t ts =>
      simp only [List.map_cons, List.cons.injEq] at h1
      exact ⟨t, h1.1, ts, h1.2, by simpa using h2⟩
  · rintro ⟨t, h1, ts, h2, h3⟩
    exact ⟨t :: ts, by simp [h1, h2], by simpa using h3⟩

theorem catOptions_iff (env : MEnv) (os : List (Bytes × Bytes)) :
    ∀ c c' : CatConf, catOptions env c os = .ok c' ↔ CatAsks env c os c' := by
  induction os with
  | nil =>
    intro c c'
    simp only [catOptions, Res.ok.injEq]
    constructor
    · rintro rfl
      exact ⟨by simp, lastMeans_nil.2 rfl, rfl, ⟨[], by simp [optVals], by simp⟩, ⟨[], by simp [optVals], by simp⟩⟩
    · rintro ⟨-, h1, h2, ⟨ts, h3, h4⟩, ⟨ts', h5, h6⟩⟩
      have e1 : ts = [] := by simpa [optVals] using h3.symm
      have e2 : ts' = [] := by simpa [optVals] using h5.symm
      have e3 := lastMeans_nil.1 h1
      have e4 : c.num = c'.num := by simpa [LineNumber.sets] using h2
      subst e1 e2
      cases c; cases c'
      simp_all
  | cons o os ih =>
    intro c c'
    obtain ⟨n, v⟩ := o
    have dist : ∀ a ∈ catNames, ∀ b ∈ catNames, a ≠ b → ascii a ≠ ascii b := by decide
    by_cases hn : n ∈ catNames.map ascii
    · have names : (∀ o ∈ (n, v) :: os, o.1 ∈ catNames.map ascii) ↔ ∀ o ∈ os, o.1 ∈ catNames.map ascii := by
        simp only [List.forall_mem_cons, hn, true_and]
      have V : ∀ a ∈ catNames, ∀ b ∈ catNames, n = ascii a → optVals b ((n, v) :: os) = if a = b then v :: optVals b os else optVals b os := by
        intro a ha b hb e
        rw [optVals_cons, e]
        by_cases hab : a = b
        · simp [hab]
        · rw [if_neg (dist a ha b hb hab), if_neg hab]
      obtain ⟨a, ha, e⟩ := List.mem_map.1 hn
      have e := e.symm
      have v1 := V a ha "pad" (by decide) e
      have v2 := V a ha "skip" (by decide) e
      have v3 := V a ha "remove" (by decide) e
      have D : ∀ b ∈ catNames, a ≠ b → n ≠ ascii b := fun b hb hab => by rw [e]; exact dist a ha b hb hab
      have v4 : ((n, v) :: os).filterMap numberSpec =
          (if a = "number" then [v] else if a = "begin" then [ascii "number,1,begin"] else if a = "end" then [ascii "number,1,end"] else []) ++
            os.filterMap numberSpec := by
        by_cases c1 : a = "number"
        · rw [List.filterMap_cons_some (b := v) (by rw [numberSpec, if_pos (by rw [e, c1])]), if_pos c1]; rfl
        by_cases c2 : a = "begin"
        · rw [List.filterMap_cons_some (b := ascii "number,1,begin")
            (by rw [numberSpec, if_neg (D _ (by decide) c1), if_pos (by rw [e, c2])]), if_neg c1, if_pos c2]; rfl
        by_cases c3 : a = "end"
        · rw [List.filterMap_cons_some (b := ascii "number,1,end")
            (by rw [numberSpec, if_neg (D _ (by decide) c1), if_neg (D _ (by decide) c2), if_pos (by rw [e, c3])]), if_neg c1, if_neg c2, if_pos c3]; rfl
        rw [List.filterMap_cons_none (by rw [numberSpec, if_neg (D _ (by decide) c1), if_neg (D _ (by decide) c2), if_neg (D _ (by decide) c3)]),
          if_neg c1, if_neg c2, if_neg c3]; rfl
      have conv : CatAsks env c ((n, v) :: os) c' ↔
          (∀ o ∈ os, o.1 ∈ catNames.map ascii) ∧
          LastMeans (fun v p => (lower v, p) ∈ padWords) (if a = "pad" then v :: optVals "pad" os else optVals "pad" os) c.pad c'.pad ∧
          LineNumber.sets c.num ((if a = "number" then [v] else if a = "begin" then [ascii "number,1,begin"] else if a = "end" then
            [ascii "number,1,end"] else []) ++ os.filterMap numberSpec) = .ok c'.num ∧
          (∃ ts, (if a = "skip" then v :: optVals "skip" os else optVals "skip" os).map (Matcher.make env) = ts.map .ok ∧ c'.skips = c.skips ++ ts) ∧
          ∃ ts, (if a = "remove" then v :: optVals "remove" os else optVals "remove" os).map (Matcher.make env) = ts.map .ok ∧
            c'.removes = c.removes ++ ts := by
        constructor
        · rintro ⟨h1, h2, h3, h4, h5⟩
          rw [v1] at h2; rw [v4] at h3; rw [v2] at h4; rw [v3] at h5
          exact ⟨names.1 h1, h2, h3, h4, h5⟩
        · rintro ⟨h1, h2, h3, h4, h5⟩
          exact ⟨names.2 h1, by rw [v1]; exact h2, by rw [v4]; exact h3, by rw [v2]; exact h4, by rw [v3]; exact h5⟩
      rw [conv]
      unfold catOptions
      have cs : a = "pad" ∨ a = "number" ∨ a = "begin" ∨ a = "end" ∨ a = "skip" ∨ a = "remove" := by simpa [catNames] using ha
      rcases cs with rfl | rfl | rfl | rfl | rfl | rfl
      · rw [if_pos e]
        simp only [padMeans_ok, ih, String.reduceEq, if_true, if_false, lastMeans_cons, List.nil_append]
        constructor
        · rintro ⟨u, h0, h1, h2, h3, h4, h5⟩
          exact ⟨h1, ⟨u, h0, h2⟩, h3, h4, h5⟩
        · rintro ⟨h1, ⟨u, h0, h2⟩, h3, h4, h5⟩
          exact ⟨u, h0, h1, h2, h3, h4, h5⟩
      · rw [if_neg (D _ (by decide) (by decide)), if_pos e]
        simp only [bind_ok_iff, ih, String.reduceEq, if_true, if_false, List.cons_append, List.nil_append, sets_cons_ok]
        constructor
        · rintro ⟨u, h0, h1, h2, h3, h4, h5⟩
          exact ⟨h1, h2, ⟨u, h0, h3⟩, h4, h5⟩
        · rintro ⟨h1, h2, ⟨u, h0, h3⟩, h4, h5⟩
          exact ⟨u, h0, h1, h2, h3, h4, h5⟩
      · rw [if_neg (D _ (by decide) (by decide)), if_neg (D _ (by decide) (by decide)), if_pos e]
        simp only [bind_ok_iff, ih, String.reduceEq, if_true, if_false, List.cons_append, List.nil_append, sets_cons_ok]
        constructor
        · rintro ⟨u, h0, h1, h2, h3, h4, h5⟩
          exact ⟨h1, h2, ⟨u, h0, h3⟩, h4, h5⟩
        · rintro ⟨h1, h2, ⟨u, h0, h3⟩, h4, h5⟩
          exact ⟨u, h0, h1, h2, h3, h4, h5⟩
      · rw [if_neg (D _ (by decide) (by decide)), if_neg (D _ (by decide) (by decide)), if_neg (D _ (by decide) (by decide)), if_pos e]
        simp only [bind_ok_iff, ih, String.reduceEq, if_true, if_false, List.cons_append, List.nil_append, sets_cons_ok]
        constructor
        · rintro ⟨u, h0, h1, h2, h3, h4, h5⟩
          exact ⟨h1, h2, ⟨u, h0, h3⟩, h4, h5⟩
        · rintro ⟨h1, h2, ⟨u, h0, h3⟩, h4, h5⟩
          exact ⟨u, h0, h1, h2, h3, h4, h5⟩
      · rw [if_neg (D _ (by decide) (by decide)), if_neg (D _ (by decide) (by decide)), if_neg (D _ (by decide) (by decide)),
          if_neg (D _ (by decide) (by decide)), if_pos e]
        simp only [bind_ok_iff, ih, String.reduceEq, if_true, if_false, List.nil_append, map_cons_ok]
        constructor
        · rintro ⟨u, h0, h1, h2, h3, h4, h5⟩
          exact ⟨h1, h2, h3, ⟨u, h0, h4⟩, h5⟩
        · rintro ⟨h1, h2, h3, ⟨u, h0, h4⟩, h5⟩
          exact ⟨u, h0, h1, h2, h3, h4, h5⟩
      · rw [if_neg (D _ (by decide) (by decide)), if_neg (D _ (by decide) (by decide)), if_neg (D _ (by decide) (by decide)),
          if_neg (D _ (by decide) (by decide)), if_neg (D _ (by decide) (by decide)), if_pos e]
        simp only [bind_ok_iff, ih, String.reduceEq, if_true, if_false, List.nil_append, map_cons_ok]
        constructor
        · rintro ⟨u, h0, h1, h2, h3, h4, h5⟩
          exact ⟨h1, h2, h3, h4, ⟨u, h0, h5⟩⟩
        · rintro ⟨h1, h2, h3, h4, ⟨u, h0, h5⟩⟩
          exact ⟨u, h0, h1, h2, h3, h4, h5⟩
    · have D : ∀ b ∈ catNames, n ≠ ascii b := fun b hb e => hn (by rw [e]; exact List.mem_map.2 ⟨b, hb, rfl⟩)
      unfold catOptions
      rw [if_neg (D _ (by decide)), if_neg (D _ (by decide)), if_neg (D _ (by decide)), if_neg (D _ (by decide)), if_neg (D _ (by decide)),
        if_neg (D _ (by decide))]
      constructor
      · intro h
        cases h
      · intro h
        exact absurd (h.names (n, v) (by simp)) hn

/-- C201: exactly which options are accepted and what they ask for. -/
theorem C201_options (env : MEnv) (os : List (Bytes × Bytes)) (c : CatConf) :
    catOptions env {} os = .ok c ↔
      (∀ o ∈ os, o.1 ∈ catNames.map ascii) ∧
      LastMeans (fun v p => (lower v, p) ∈ padWords) (optVals "pad" os) .all c.pad ∧
      LineNumber.sets ⟨false, 0, [], false⟩ (os.filterMap numberSpec) = .ok c.num ∧
      (optVals "skip" os).map (Matcher.make env) = c.skips.map .ok ∧
      (optVals "remove" os).map (Matcher.make env) = c.removes.map .ok := by
  rw [catOptions_iff]
  constructor
  · rintro ⟨h1, h2, h3, ⟨ts, h4, h4'⟩, ⟨ts', h5, h5'⟩⟩
    simp only [List.nil_append] at h4' h5'
    rw [h4', h5']
    exact ⟨h1, h2, h3, h4, h5⟩
  · rintro ⟨h1, h2, h3, h4, h5⟩
    exact ⟨h1, h2, h3, ⟨_, h4, rfl⟩, ⟨_, h5, rfl⟩⟩

/-- The lines a list of matchers holds for. -/
def anyMatch (env : MEnv) (ts : List Matcher) (l : Bytes) : Bool := ts.any fun t => t.umatch env l == .ok true

theorem sure_any (env : MEnv) (ts : List Matcher) (h : ∀ t ∈ ts, ∀ l, ∃ b, t.umatch env l = .ok b) :
    matcherListUmatch env .or ts = sure (anyMatch env ts) := by
  funext l
  unfold matcherListUmatch sure anyMatch
  have e : ts.map (fun t => t.umatch env l) = (ts.map fun t => t.umatch env l == .ok true).map .ok := by
    rw [List.map_map]
    refine List.map_congr_left fun t ht => ?_
    obtain ⟨b, hb⟩ := h t ht l
    simp only [Function.comp, hb]
    cases b <;> rfl
  show orLoop _ = _
  rw [e, orLoop_answers]
  simp [List.any_map, Function.comp_def]

theorem setWhere_doIt (ln ln' : LineNumber) (r : List Bytes) (h : ln.setWhere r = .ok ln') : ln'.doIt = ln.doIt := by
  cases r with
  | nil => simp only [LineNumber.setWhere, Res.ok.injEq] at h; rw [← h]
  | cons t r =>
    unfold LineNumber.setWhere at h
    repeat' split at h
    all_goals cases h
    all_goals rfl

theorem sets_doIt (ss : List Bytes) : ∀ ln ln' : LineNumber, ln.sets ss = .ok ln' → (ln'.doIt = true ↔ ln.doIt = true ∨ ss ≠ []) := by
  have one : ∀ (ln ln' : LineNumber) (s : Bytes), ln.set s = .ok ln' → ln'.doIt = true := by
    intro ln ln' s h
    unfold LineNumber.set at h
    generalize sliceSplit 44 s = parts at h
    match parts, h with
    | [], h => cases h; rfl
    | [_], h => cases h; rfl
    | _ :: _ :: _, h =>
      obtain ⟨n, _, h⟩ := Res.bind_eq_ok h
      exact setWhere_doIt _ _ _ h
  induction ss with
  | nil =>
    intro ln ln' h
    simp only [LineNumber.sets, Res.ok.injEq] at h
    simp [h]
  | cons s ss ih =>
    intro ln ln' h
    obtain ⟨l, h1, h2⟩ := (sets_cons_ok _ _ _ _).1 h
    have := ih l ln' h2
    simp [one _ _ _ h1] at this
    simp [this]

/-- C201: without options about numbers and lines the files are copied (see C52). -/
theorem C201_copies (env : MEnv) (nameOk : Bytes → Bool) (m : TextMode) (mode : HeaderMode) (os : List (Bytes × Bytes)) (files : List Bytes)
    (c : CatConf) (ho : catOptions env {} os = .ok c) (hn : ∀ o ∈ os, o.1 = ascii "pad") (out : Bytes) :
    catMain env nameOk m mode os files = .ok out ↔ catFast nameOk c.pad (.fromMode mode) true files = some out := by
  have dist : ∀ b ∈ ["number", "begin", "end", "skip", "remove"], ascii "pad" ≠ ascii b := by decide
  obtain ⟨_, _, h3, h4, h5⟩ := (C201_options env os c).1 ho
  have vals : ∀ b ∈ ["number", "begin", "end", "skip", "remove"], optVals b os = [] := by
    intro b hb
    unfold optVals
    rw [List.map_eq_nil_iff, List.filter_eq_nil_iff]
    intro o ho'
    simp only [decide_eq_true_eq]
    rw [hn o ho']
    exact dist b hb
  have hs : os.filterMap numberSpec = [] := by
    rw [List.filterMap_eq_nil_iff]
    intro o ho'
    rw [numberSpec, hn o ho', if_neg (dist _ (by decide)), if_neg (dist _ (by decide)), if_neg (dist _ (by decide))]
  rw [hs] at h3
  have hd : c.num.doIt = false := by
    simp only [LineNumber.sets, Res.ok.injEq] at h3
    rw [← h3]
  rw [vals _ (by decide)] at h4 h5
  have e4 : c.skips = [] := by simpa using h4.symm
  have e5 : c.removes = [] := by simpa using h5.symm
  unfold catMain
  rw [ho, Res.bind_ok]
  have hslow : c.slow = false := by simp [CatConf.slow, hd, e4, e5]
  rw [hslow, if_neg (by simp)]
  cases catFast nameOk c.pad (.fromMode mode) true files <;> simp

/-- Full statement: with any option but `--pad` the header is written once, with the name of the number column, and then the lines of all files
that no `--remove` matches, numbered if asked for, those that a `--skip` matches without a number. -/
def C201_statement : Prop :=
  ∀ (env : MEnv) (nameOk : Bytes → Bool) (m : TextMode) (os : List (Bytes × Bytes)) (files : List Bytes) (c : CatConf) (H head : Bytes),
    catOptions env {} os = .ok c → (∃ o ∈ os, o.1 ≠ ascii "pad") → m.eol = NL →
    (H ≠ [] → (catCols c.num (headNames H m.delim)).bind columnHead = .ok head ∧ FirstLineOk nameOk .matching head) →
    (∀ f ∈ nonEmpty files, ∃ rest, readHeader m f = some (H, rest)) →
    (∀ f ∈ nonEmpty files, ∃ cols, catCols c.num (Reader.newOpenWith f 1 m).names = .ok cols) →
    (∀ t ∈ c.removes ++ c.skips, ∀ l, ∃ b, t.umatch env l = .ok b) →
    catMain env nameOk m .matching os files =
      .ok ((if H ≠ [] ∧ nonEmpty files ≠ [] then head else []) ++
        (numberedRows c.num (anyMatch env c.skips) m.delim c.num.start
          (((files.map (dataOf m)).flatten).filter fun l => !anyMatch env c.removes l.dropLast)).flatten)

/-- C201: with any other option the lines that no `--remove` matches are written, numbered if asked for, those that a `--skip` matches without
a number. In plain mode, if no file has only a header (see C93), and the matchers always have an answer. -/
theorem C201_rows_partial (env : MEnv) (nameOk : Bytes → Bool) (m : TextMode) (os : List (Bytes × Bytes)) (files : List Bytes)
    (c : CatConf) (ho : catOptions env {} os = .ok c) (hn : ∃ o ∈ os, o.1 ≠ ascii "pad") (H head : Bytes) (hm : m.col = .plain) (heol : m.eol = NL)
    (hH : H ≠ [] → (catCols c.num (headNames H m.delim)).bind columnHead = .ok head ∧ FirstLineOk nameOk .matching head)
    (hs : SameHeads m H files)
    (hcols : ∀ f ∈ nonEmpty files, ∃ cols, catCols c.num (Reader.newOpenWith f 1 m).names = .ok cols)
    (hsure : ∀ t ∈ c.removes ++ c.skips, ∀ l, ∃ b, t.umatch env l = .ok b) :
    catMain env nameOk m .matching os files =
      .ok ((if H ≠ [] ∧ nonEmpty files ≠ [] then head else []) ++
        (numberedRows c.num (anyMatch env c.skips) m.delim c.num.start
          (((files.map (dataOf m)).flatten).filter fun l => !anyMatch env c.removes l.dropLast)).flatten) := by
  obtain ⟨h1, _, h3, h4, h5⟩ := (C201_options env os c).1 ho
  have hslow : c.slow = true := by
    obtain ⟨o, ho', hne⟩ := hn
    have hmem := h1 o ho'
    have cs : o.1 = ascii "pad" ∨ o.1 = ascii "number" ∨ o.1 = ascii "begin" ∨ o.1 = ascii "end" ∨ o.1 = ascii "skip" ∨ o.1 = ascii "remove" := by
      simpa [catNames] using hmem
    have isNum : (numberSpec o).isSome = true → c.num.doIt = true := by
      intro h
      rw [sets_doIt _ _ _ h3]
      right
      intro he
      rw [List.filterMap_eq_nil_iff] at he
      rw [he o ho'] at h
      cases h
    have inVals : ∀ b, o.1 = ascii b → optVals b os ≠ [] := by
      intro b hb he
      unfold optVals at he
      rw [List.map_eq_nil_iff, List.filter_eq_nil_iff] at he
      exact he o ho' (by simp [hb])
    unfold CatConf.slow
    rcases cs with h | h | h | h | h | h
    · exact absurd h hne
    · have : c.num.doIt = true := isNum (by unfold numberSpec; rw [if_pos h]; rfl)
      simp [this]
    · have : c.num.doIt = true := isNum (by unfold numberSpec; rw [if_neg (by rw [h]; decide), if_pos h]; rfl)
      simp [this]
    · have : c.num.doIt = true := isNum (by unfold numberSpec; rw [if_neg (by rw [h]; decide), if_neg (by rw [h]; decide), if_pos h]; rfl)
      simp [this]
    · have : c.skips ≠ [] := by
        intro he
        rw [he] at h4
        exact inVals _ h (by simpa using h4)
      cases hc : c.skips with
      | nil => exact absurd hc this
      | cons _ _ => simp
    · have : c.removes ≠ [] := by
        intro he
        rw [he] at h5
        exact inVals _ h (by simpa using h5)
      cases hc : c.removes with
      | nil => exact absurd hc this
      | cons _ _ => simp
  unfold catMain
  rw [ho, Res.bind_ok, hslow, if_pos rfl, sure_any env _ fun t ht => hsure t (by simp [ht]), sure_any env _ fun t ht => hsure t (by simp [ht])]
  exact C93_numbered_partial nameOk m c.num _ _ H head files hm heol hH hs hcols

/-- A file with only a header ends the command: the third file is not read. -/
theorem C201_refuted : ¬ C201_statement := by
  intro h
  have := h MEnv.trivial (fun _ => true) .default [(ascii "number", ascii "n,1")]
    [ascii " CDX\tx\na\n", ascii " CDX\tx\n", ascii " CDX\tx\nb\n"] { num := byOne } (ascii " CDX\tx\n") (ascii " CDX\tn\tx\n")
    (by
      rw [C201_options]
      have v : ∀ b ∈ ["pad", "skip", "remove"], optVals b [(ascii "number", ascii "n,1")] = [] := by decide
      rw [v "pad" (by decide), v "skip" (by decide), v "remove" (by decide)]
      exact ⟨by decide, lastMeans_nil.2 rfl, rfl, rfl, rfl⟩) ⟨_, List.mem_singleton.2 rfl, by decide⟩ rfl
    (fun _ => ⟨by decide +kernel, by unfold FirstLineOk; decide +kernel⟩) (by
      intro f hf
      have : f = ascii " CDX\tx\na\n" ∨ f = ascii " CDX\tx\n" ∨ f = ascii " CDX\tx\nb\n" := by
        simpa [nonEmpty, ascii] using hf
      rcases this with rfl | rfl | rfl
      · exact ⟨ascii "a\n", by decide +kernel⟩
      · exact ⟨[], by decide +kernel⟩
      · exact ⟨ascii "b\n", by decide +kernel⟩) (by
      intro f hf
      have : f = ascii " CDX\tx\na\n" ∨ f = ascii " CDX\tx\n" ∨ f = ascii " CDX\tx\nb\n" := by
        simpa [nonEmpty, ascii] using hf
      rcases this with rfl | rfl | rfl <;> exact ⟨[ascii "n", ascii "x"], by decide +kernel⟩) (by simp)
  exact absurd this (by decide +kernel)

/-- Numbers at the end, a line removed and one not numbered. -/
example : catMain MEnv.trivial (fun _ => true) .default .matching
    [(ascii "remove", ascii "exact,b"), (ascii "pad", ascii "NO"), (ascii "end", []), (ascii "number", ascii "n"), (ascii "skip", ascii "exact,c")]
    [ascii " CDX\tx\na\nb", ascii " CDX\tx\nc\nd\n"] = .ok (ascii " CDX\tx\tn\na\t1\nc\t\nd\t2\n") := by decide +kernel
example : catMain MEnv.trivial (fun _ => true) .default .matching [(ascii "pad", ascii "End")]
    [ascii " CDX\tx\na\nb", ascii " CDX\tx\nc\nd\n"] = .ok (ascii " CDX\tx\na\nbc\nd\n") := by decide +kernel

/-- The hypothesis that matchers have an answer. -/
example : ∃ t, Matcher.make MEnv.trivial (ascii "exact,b") = .ok t ∧ ∀ l, ∃ b, t.umatch MEnv.trivial l = .ok b :=
  ⟨_, rfl, fun _ => ⟨_, rfl⟩⟩

end Cdx
