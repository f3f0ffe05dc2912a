import Verif.Model.VerifyMain
import Verif.Props.Verify
import Verif.Props.UniqMain

/-!
C200: the options of `verify`. C53 continued: how many failures are counted.
-/

namespace Cdx

/-! ## Specification -/

/-- The options that mean something and do not just print a list. -/
def verifyNames : List String := ["pattern", "key", "sort", "first", "last", "unique"]

/-- What `--first` and `--last` ask for. -/
def CheckMeans (v : Bytes) (c : Option CheckLine) : Prop := ∃ k, CheckLine.new v = .ok k ∧ c = some k

/-- The options that change `c` and the keys `ks` to `c'` and `ks'`. -/
structure VerifyAsks (env : MEnv) (compiles : Bytes → Bool) (c : VerifyConf) (ks : List LineCompMade) (os : List (Bytes × Bytes))
    (c' : VerifyConf) (ks' : List LineCompMade) : Prop where
  names : ∀ o ∈ os, o.1 ∈ verifyNames.map ascii
  patterns : ∃ ts, (optVals "pattern" os).map (makeLine env) = ts.map .ok ∧ c'.matchers = c.matchers ++ ts
  keys : ∃ ls, (optVals "key" os).map (makeLineComp compiles) = ls.map .ok ∧ ks' = ks ++ ls
  sort : c'.sort = true ↔ c.sort = true ∨ optVals "sort" os ≠ [] ∨ optVals "unique" os ≠ []
  unique : c'.unique = true ↔ c.unique = true ∨ optVals "unique" os ≠ []
  first : LastMeans CheckMeans (optVals "first" os) c.first c'.first
  last : LastMeans CheckMeans (optVals "last" os) c.last c'.last

/-! ## Proof -/

theorem checkMeans_ok {β : Type} (v : Bytes) (f : CheckLine → Res β) (y : β) :
    (CheckLine.new v).bind f = .ok y ↔ ∃ u, CheckMeans v u ∧ ∃ k, u = some k ∧ f k = .ok y := by
  rw [bind_ok_iff]
  unfold CheckMeans
  constructor
  · rintro ⟨k, h1, h2⟩
    exact ⟨some k, ⟨k, h1, rfl⟩, k, rfl, h2⟩
  · rintro ⟨_, ⟨k, h1, rfl⟩, k', h2, h3⟩
    cases h2
    exact ⟨k, h1, h3⟩

theorem verifyConf_eq (a b : VerifyConf) (h1 : a.matchers = b.matchers) (h2 : a.sort = true ↔ b.sort = true) (h3 : a.unique = true ↔ b.unique = true)
    (h4 : a.first = b.first) (h5 : a.last = b.last) : a = b := by
  cases a; cases b
  simp only at h1 h2 h3 h4 h5
  rw [← Bool.eq_iff_iff] at h2 h3
  simp [h1, h2, h3, h4, h5]

theorem verifyOptions_iff (env : MEnv) (compiles : Bytes → Bool) (os : List (Bytes × Bytes)) :
    ∀ (c c' : VerifyConf) (ks ks' : List LineCompMade),
      verifyOptions env compiles c ks os = .ok (some (c', ks')) ↔ VerifyAsks env compiles c ks os c' ks' := by
  induction os with
  | nil =>
    intro c c' ks ks'
    simp only [verifyOptions, Res.ok.injEq, Option.some.injEq, Prod.mk.injEq]
    constructor
    · rintro ⟨rfl, rfl⟩
      exact ⟨by simp, ⟨[], by simp [optVals], by simp⟩, ⟨[], by simp [optVals], by simp⟩, by simp [optVals], by simp [optVals],
        lastMeans_nil.2 rfl, lastMeans_nil.2 rfl⟩
    · rintro ⟨-, ⟨ts, h1, h2⟩, ⟨ls, h3, h4⟩, h5, h6, h7, h8⟩
      have e1 : ts = [] := by simpa [optVals] using h1.symm
      have e2 : ls = [] := by simpa [optVals] using h3.symm
      subst e1 e2
      refine ⟨verifyConf_eq _ _ (by simpa using h2.symm) (by simpa [optVals] using h5.symm) (by simpa [optVals] using h6.symm)
        (lastMeans_nil.1 h7).symm (lastMeans_nil.1 h8).symm, by simpa using h4.symm⟩
  | cons o os ih =>
    intro c c' ks ks'
    obtain ⟨n, v⟩ := o
    have dist : ∀ a ∈ verifyNames, ∀ b ∈ verifyNames, a ≠ b → ascii a ≠ ascii b := by decide
    by_cases hn : n ∈ verifyNames.map ascii
    · have names : (∀ o ∈ (n, v) :: os, o.1 ∈ verifyNames.map ascii) ↔ ∀ o ∈ os, o.1 ∈ verifyNames.map ascii := by
        simp only [List.forall_mem_cons, hn, true_and]
      have V : ∀ a ∈ verifyNames, ∀ b ∈ verifyNames, n = ascii a → optVals b ((n, v) :: os) = if a = b then v :: optVals b os else optVals b os := by
        intro a ha b hb e
        rw [optVals_cons, e]
        by_cases hab : a = b
        · simp [hab]
        · rw [if_neg (dist a ha b hb hab), if_neg hab]
      obtain ⟨a, ha, e⟩ := List.mem_map.1 hn
      have e := e.symm
      have v1 := V a ha "pattern" (by decide) e
      have v2 := V a ha "key" (by decide) e
      have v3 := V a ha "sort" (by decide) e
      have v4 := V a ha "first" (by decide) e
      have v5 := V a ha "last" (by decide) e
      have v6 := V a ha "unique" (by decide) e
      have conv : VerifyAsks env compiles c ks ((n, v) :: os) c' ks' ↔
          (∀ o ∈ os, o.1 ∈ verifyNames.map ascii) ∧
          (∃ ts, (if a = "pattern" then v :: optVals "pattern" os else optVals "pattern" os).map (makeLine env) = ts.map .ok ∧
            c'.matchers = c.matchers ++ ts) ∧
          (∃ ls, (if a = "key" then v :: optVals "key" os else optVals "key" os).map (makeLineComp compiles) = ls.map .ok ∧ ks' = ks ++ ls) ∧
          (c'.sort = true ↔ c.sort = true ∨ (if a = "sort" then v :: optVals "sort" os else optVals "sort" os) ≠ [] ∨
            (if a = "unique" then v :: optVals "unique" os else optVals "unique" os) ≠ []) ∧
          (c'.unique = true ↔ c.unique = true ∨ (if a = "unique" then v :: optVals "unique" os else optVals "unique" os) ≠ []) ∧
          LastMeans CheckMeans (if a = "first" then v :: optVals "first" os else optVals "first" os) c.first c'.first ∧
          LastMeans CheckMeans (if a = "last" then v :: optVals "last" os else optVals "last" os) c.last c'.last := by
        constructor
        · rintro ⟨h1, h2, h3, h4, h5, h6, h7⟩
          rw [v1] at h2; rw [v2] at h3; rw [v3, v6] at h4; rw [v6] at h5; rw [v4] at h6; rw [v5] at h7
          exact ⟨names.1 h1, h2, h3, h4, h5, h6, h7⟩
        · rintro ⟨h1, h2, h3, h4, h5, h6, h7⟩
          exact ⟨names.2 h1, by rw [v1]; exact h2, by rw [v2]; exact h3, by rw [v3, v6]; exact h4, by rw [v6]; exact h5,
            by rw [v4]; exact h6, by rw [v5]; exact h7⟩
      rw [conv]
      unfold verifyOptions
      have D : ∀ b ∈ verifyNames, a ≠ b → n ≠ ascii b := fun b hb hab => by rw [e]; exact dist a ha b hb hab
      have cs : a = "pattern" ∨ a = "key" ∨ a = "sort" ∨ a = "first" ∨ a = "last" ∨ a = "unique" := by simpa [verifyNames] using ha
      rcases cs with rfl | rfl | rfl | rfl | rfl | rfl
      · rw [if_pos e]
        simp only [bind_ok_iff, ih, String.reduceEq, if_true, if_false]
        constructor
        · rintro ⟨t, h0, ⟨h1, ⟨ts, h2, h2'⟩, h3, h4, h5, h6, h7⟩⟩
          exact ⟨h1, ⟨t :: ts, by simp [h0, h2], by simpa using h2'⟩, h3, h4, h5, h6, h7⟩
        · rintro ⟨h1, ⟨ts, h2, h2'⟩, h3, h4, h5, h6, h7⟩
          cases ts with
          | nil => simp at h2
          | cons t ts =>
            simp only [List.map_cons, List.cons.injEq] at h2
            exact ⟨t, h2.1, ⟨h1, ⟨ts, h2.2, by simpa using h2'⟩, h3, h4, h5, h6, h7⟩⟩
      · rw [if_neg (D _ (by decide) (by decide)), if_pos e]
        simp only [bind_ok_iff, ih, String.reduceEq, if_true, if_false]
        constructor
        · rintro ⟨t, h0, ⟨h1, h2, ⟨ls, h3, h3'⟩, h4, h5, h6, h7⟩⟩
          exact ⟨h1, h2, ⟨t :: ls, by simp [h0, h3], by simpa using h3'⟩, h4, h5, h6, h7⟩
        · rintro ⟨h1, h2, ⟨ls, h3, h3'⟩, h4, h5, h6, h7⟩
          cases ls with
          | nil => simp at h3
          | cons t ls =>
            simp only [List.map_cons, List.cons.injEq] at h3
            exact ⟨t, h3.1, ⟨h1, h2, ⟨ls, h3.2, by simpa using h3'⟩, h4, h5, h6, h7⟩⟩
      · rw [if_neg (D _ (by decide) (by decide)), if_neg (D _ (by decide) (by decide)), if_pos e]
        simp only [ih, String.reduceEq, if_true, if_false]
        constructor
        · rintro ⟨h1, h2, h3, h4, h5, h6, h7⟩
          exact ⟨h1, h2, h3, by simpa using h4, h5, h6, h7⟩
        · rintro ⟨h1, h2, h3, h4, h5, h6, h7⟩
          exact ⟨h1, h2, h3, by simpa using h4, h5, h6, h7⟩
      · rw [if_neg (D _ (by decide) (by decide)), if_neg (D _ (by decide) (by decide)), if_neg (D _ (by decide) (by decide)), if_pos e]
        simp only [checkMeans_ok, ih, String.reduceEq, if_true, if_false, lastMeans_cons]
        constructor
        · rintro ⟨u, h0, k, rfl, h1, h2, h3, h4, h5, h6, h7⟩
          exact ⟨h1, h2, h3, h4, h5, ⟨_, h0, h6⟩, h7⟩
        · rintro ⟨h1, h2, h3, h4, h5, ⟨u, h0, h6⟩, h7⟩
          obtain ⟨k, hk, rfl⟩ := h0
          exact ⟨_, ⟨k, hk, rfl⟩, k, rfl, ⟨h1, h2, h3, h4, h5, h6, h7⟩⟩
      · rw [if_neg (D _ (by decide) (by decide)), if_neg (D _ (by decide) (by decide)), if_neg (D _ (by decide) (by decide)),
          if_neg (D _ (by decide) (by decide)), if_pos e]
        simp only [checkMeans_ok, ih, String.reduceEq, if_true, if_false, lastMeans_cons]
        constructor
        · rintro ⟨u, h0, k, rfl, h1, h2, h3, h4, h5, h6, h7⟩
          exact ⟨h1, h2, h3, h4, h5, h6, _, h0, h7⟩
        · rintro ⟨h1, h2, h3, h4, h5, h6, u, h0, h7⟩
          obtain ⟨k, hk, rfl⟩ := h0
          exact ⟨_, ⟨k, hk, rfl⟩, k, rfl, ⟨h1, h2, h3, h4, h5, h6, h7⟩⟩
      · rw [if_neg (D _ (by decide) (by decide)), if_neg (D _ (by decide) (by decide)), if_neg (D _ (by decide) (by decide)),
          if_neg (D _ (by decide) (by decide)), if_neg (D _ (by decide) (by decide)), if_pos e]
        simp only [ih, String.reduceEq, if_true, if_false]
        constructor
        · rintro ⟨h1, h2, h3, h4, h5, h6, h7⟩
          exact ⟨h1, h2, h3, by simpa using h4, by simpa using h5, h6, h7⟩
        · rintro ⟨h1, h2, h3, h4, h5, h6, h7⟩
          exact ⟨h1, h2, h3, by simpa using h4, by simpa using h5, h6, h7⟩
    · have D : ∀ b ∈ verifyNames, n ≠ ascii b := fun b hb e => hn (by rw [e]; exact List.mem_map.2 ⟨b, hb, rfl⟩)
      unfold verifyOptions
      rw [if_neg (D _ (by decide)), if_neg (D _ (by decide)), if_neg (D _ (by decide)), if_neg (D _ (by decide)), if_neg (D _ (by decide)),
        if_neg (D _ (by decide))]
      constructor
      · intro h
        split at h
        · simp at h
        · split at h <;> simp at h
      · intro h
        exact absurd (h.names (n, v) (by simp)) hn

/-- Full statement: the declared option `--report` with a number is handled, and the command succeeds exactly if all files are as the options
ask. -/
def C200_statement : Prop :=
  ∀ (env : MEnv) (compiles : Bytes → Bool) (eval : Bytes → List Bytes → Res (Bytes → F64)) (m : TextMode) (os : List (Bytes × Bytes))
    (files : List Bytes),
    (∀ n < 2 ^ 64, verifyMain env compiles eval m os files ≠ .panic →
      verifyMain env compiles eval m ((ascii "report", decText n) :: os) files ≠ .panic) ∧
    ∀ (c : VerifyConf) (ks : List LineCompMade) (b : Bool),
      verifyOptions env compiles ⟨[], false, false, none, none⟩ [] os = .ok (some (c, ks)) → verifyMain env compiles eval m os files = .ok b →
      ∃ keys, (ks ≠ [] → keys = ks) ∧ (ks = [] → ∃ k, makeLineComp compiles [] = .ok k ∧ keys = [k]) ∧
        (b = true ↔ ∀ f ∈ files, dataOf m f ≠ [] →
          Verified env m c (fun names => resolveKeys eval names keys) (namesOf m f) (dataOf m f) (dataOf m f))

/-- C200: exactly which options are accepted and what they ask for. -/
theorem C200_options_partial (env : MEnv) (compiles : Bytes → Bool) (os : List (Bytes × Bytes)) (c : VerifyConf) (ks : List LineCompMade) :
    verifyOptions env compiles ⟨[], false, false, none, none⟩ [] os = .ok (some (c, ks)) ↔
      (∀ o ∈ os, o.1 ∈ verifyNames.map ascii) ∧
      (optVals "pattern" os).map (makeLine env) = c.matchers.map .ok ∧
      (optVals "key" os).map (makeLineComp compiles) = ks.map .ok ∧
      (c.sort = true ↔ optVals "sort" os ≠ [] ∨ optVals "unique" os ≠ []) ∧
      (c.unique = true ↔ optVals "unique" os ≠ []) ∧
      LastMeans CheckMeans (optVals "first" os) none c.first ∧ LastMeans CheckMeans (optVals "last" os) none c.last := by
  rw [verifyOptions_iff]
  constructor
  · rintro ⟨h1, ⟨ts, h2, h2'⟩, ⟨ls, h3, h3'⟩, h4, h5, h6, h7⟩
    simp only [List.nil_append] at h2' h3'
    subst h2' h3'
    exact ⟨h1, h2, h3, by simpa using h4, by simpa using h5, h6, h7⟩
  · rintro ⟨h1, h2, h3, h4, h5, h6, h7⟩
    exact ⟨h1, ⟨_, h2, rfl⟩, ⟨_, h3, rfl⟩, by simpa using h4, by simpa using h5, h6, h7⟩

/-- The declared option `--report` panics. -/
theorem C200_refuted : ¬ C200_statement := by
  intro h
  refine (h MEnv.trivial (fun _ => false) (fun _ _ => .err) .default [] []).1 3 (by decide) (by decide +kernel) ?_
  decide +kernel

theorem verifyOptions_append (env : MEnv) (compiles : Bytes → Bool) (pre post : List (Bytes × Bytes)) (c' : VerifyConf) (ks' : List LineCompMade) :
    ∀ (c : VerifyConf) (ks : List LineCompMade), verifyOptions env compiles c ks pre = .ok (some (c', ks')) →
      verifyOptions env compiles c ks (pre ++ post) = verifyOptions env compiles c' ks' post := by
  induction pre with
  | nil =>
    intro c ks h
    simp only [verifyOptions, Res.ok.injEq, Option.some.injEq, Prod.mk.injEq] at h
    rw [h.1, h.2, List.nil_append]
  | cons o os ih =>
    intro c ks h
    obtain ⟨n, v⟩ := o
    obtain ⟨R, hR⟩ : ∃ R, R = verifyOptions env compiles c' ks' post := ⟨_, rfl⟩
    rw [List.cons_append]
    rw [← hR] at ih ⊢
    unfold verifyOptions at h ⊢
    split at h
    · rename_i hn
      obtain ⟨t, h1, h2⟩ := Res.bind_eq_ok h
      rw [if_pos hn, h1, Res.bind_ok, ih _ _ h2]
    rename_i hn
    rw [if_neg hn]
    split at h
    · rename_i hn
      obtain ⟨t, h1, h2⟩ := Res.bind_eq_ok h
      rw [if_pos hn, h1, Res.bind_ok, ih _ _ h2]
    rename_i hn
    rw [if_neg hn]
    split at h
    · rename_i hn
      rw [if_pos hn, ih _ _ h]
    rename_i hn
    rw [if_neg hn]
    split at h
    · rename_i hn
      obtain ⟨t, h1, h2⟩ := Res.bind_eq_ok h
      rw [if_pos hn, h1, Res.bind_ok, ih _ _ h2]
    rename_i hn
    rw [if_neg hn]
    split at h
    · rename_i hn
      obtain ⟨t, h1, h2⟩ := Res.bind_eq_ok h
      rw [if_pos hn, h1, Res.bind_ok, ih _ _ h2]
    rename_i hn
    rw [if_neg hn]
    split at h
    · rename_i hn
      rw [if_pos hn, ih _ _ h]
    · split at h
      · simp at h
      · split at h <;> simp at h

/-- C200: after options that are accepted, the two that print a list end the command with success and whatever follows is not looked at;
`--report` and `--show-matchers` panic. -/
theorem C200_stops (env : MEnv) (compiles : Bytes → Bool) (eval : Bytes → List Bytes → Res (Bytes → F64)) (m : TextMode)
    (pre post : List (Bytes × Bytes)) (files : List Bytes) (v : Bytes) (p : VerifyConf × List LineCompMade)
    (h : verifyOptions env compiles ⟨[], false, false, none, none⟩ [] pre = .ok (some p)) :
    (∀ w ∈ ["show-const", "show-func"], verifyMain env compiles eval m (pre ++ (ascii w, v) :: post) files = .ok true) ∧
    ∀ w ∈ ["report", "show-matchers"], verifyMain env compiles eval m (pre ++ (ascii w, v) :: post) files = .panic := by
  have step : ∀ w : String, (∀ b ∈ verifyNames, ascii w ≠ ascii b) →
      verifyOptions env compiles ⟨[], false, false, none, none⟩ [] (pre ++ (ascii w, v) :: post) =
        if ascii w = ascii "show-const" then .ok none else if ascii w = ascii "show-func" then .ok none else .panic := by
    intro w D
    rw [verifyOptions_append env compiles pre _ p.1 p.2 _ _ h, verifyOptions]
    rw [if_neg (D _ (by decide)), if_neg (D _ (by decide)), if_neg (D _ (by decide)), if_neg (D _ (by decide)), if_neg (D _ (by decide)),
      if_neg (D _ (by decide))]
  constructor
  · intro w hw
    have hw : w = "show-const" ∨ w = "show-func" := by simpa using hw
    unfold verifyMain
    rcases hw with rfl | rfl
    · rw [step _ (by decide), if_pos rfl]; rfl
    · rw [step _ (by decide), if_neg (by decide), if_pos rfl]; rfl
  · intro w hw
    have hw : w = "report" ∨ w = "show-matchers" := by simpa using hw
    unfold verifyMain
    rcases hw with rfl | rfl
    · rw [step _ (by decide), if_neg (by decide), if_neg (by decide)]; rfl
    · rw [step _ (by decide), if_neg (by decide), if_neg (by decide)]; rfl

/-- C200: the whole command succeeds exactly if all files are as the options ask, except that nothing is asked of the columns of the last
line of each file (see C53). -/
theorem C200_verified_partial (env : MEnv) (compiles : Bytes → Bool) (eval : Bytes → List Bytes → Res (Bytes → F64)) (m : TextMode)
    (os : List (Bytes × Bytes)) (files : List Bytes) (b : Bool) (c : VerifyConf) (ks : List LineCompMade)
    (ho : verifyOptions env compiles ⟨[], false, false, none, none⟩ [] os = .ok (some (c, ks)))
    (h : verifyMain env compiles eval m os files = .ok b) :
    ∃ keys, (ks ≠ [] → keys = ks) ∧ (ks = [] → ∃ k, makeLineComp compiles [] = .ok k ∧ keys = [k]) ∧
      (b = true ↔ ∀ f ∈ files, dataOf m f ≠ [] →
        Verified env m c (fun names => resolveKeys eval names keys) (namesOf m f) (dataOf m f).dropLast (dataOf m f)) := by
  unfold verifyMain at h
  rw [ho] at h
  simp only [Res.bind_ok] at h
  obtain ⟨keys, hk, h⟩ := (bind_ok_iff _ _ _).1 h
  refine ⟨keys, ?_, ?_, verifyFiles_spec env m c _ files b h⟩
  · intro hne
    unfold verifyKeys at hk
    rw [if_neg hne] at hk
    simpa using hk.symm
  · intro he
    unfold verifyKeys at hk
    rw [if_pos he] at hk
    obtain ⟨k, h1, h2⟩ := (bind_ok_iff _ _ _).1 hk
    exact ⟨k, h1, by simpa using h2.symm⟩

/-! ## C53: the number of failures -/

/-- Two adjacent lines are in order. -/
def PairOk (cmp : Bytes → Bytes → Ordering) (u : Bool) (x y : Bytes) : Prop := cmp x y = .lt ∨ u = false ∧ cmp x y = .eq

open Classical in
/-- How many lines before the last are bad or not in order with the next. -/
noncomputable def badCount (env : MEnv) (m : TextMode) (conf : VerifyConf) (cs : List LineComp) (ts : List LineTest) (nc : Nat) (D : List Bytes) : Nat :=
  (D.zip D.tail).countP fun p =>
    decide ¬ (LineGood env m ts nc p.1 ∧ (conf.sort = true → PairOk (cmpRaw env.toF64 m cs) conf.unique p.1 p.2))

open Classical in
/-- 1 if the first or last line fails its check. -/
noncomputable def endCount (env : MEnv) (m : TextMode) (cs : List LineComp) (c : Option CheckLine) (x : Option Bytes) : Nat :=
  if EndGood env m cs c x then 0 else 1

theorem compCheck_pair (cmp : Bytes → Bytes → Ordering) (u : Bool) (x y : Bytes) : compCheck (cmp x y) u = false ↔ PairOk cmp u x y := by
  unfold compCheck PairOk
  cases cmp x y <;> simp

theorem checkOne_count (env : MEnv) (m : TextMode) (cs : List LineComp) (c : Option CheckLine) (x : Bytes) (fails n : Nat)
    (h : checkOne env.toF64 cs c (decoded m x) fails = .ok n) : n = fails + endCount env m cs c (some x) := by
  obtain ⟨h1, h2⟩ := checkOne_spec env cs c x fails n h
  unfold endCount
  split
  · rename_i hg
    exact h2.2 hg
  · rename_i hg
    have hne : n ≠ fails := fun e => hg (h2.1 e)
    unfold checkOne at h
    cases c with
    | none => simp at h; omega
    | some k =>
      obtain ⟨b, _, h⟩ := Res.bind_eq_ok h
      simp only [Res.ok.injEq] at h
      cases b <;> simp at h <;> omega

theorem verifyLoop_count (env : MEnv) (m : TextMode) (conf : VerifyConf) (cs : List LineComp) (ts : List LineTest) (nc : Nat) (ls : List Bytes) :
    ∀ (fuel : Nat) (r : Reader) (d : Bytes) (o : TextLine) (fails n : Nat),
      View m true (decoded m d) o ls r → (m.col = .plain → o.orig = []) → fails < 5 →
      verifyLoop env conf cs ts nc fuel r fails = .ok n →
      (fails + badCount env m conf cs ts nc (d :: ls) < 5 ∧
        n = fails + badCount env m conf cs ts nc (d :: ls) + endCount env m cs conf.last (d :: ls).getLast?) ∨
      (5 ≤ fails + badCount env m conf cs ts nc (d :: ls) ∧ n = 5) := by
  induction ls with
  | nil =>
    intro fuel r d o fails n hv _ hf h
    cases fuel with
    | zero => simp [verifyLoop] at h
    | succ fuel =>
      unfold verifyLoop at h
      obtain ⟨ok, _, h⟩ := Res.bind_eq_ok h
      simp only [hv.end_.2, hv.end_.1, if_true] at h
      have := checkOne_count env m cs conf.last d fails n h
      left
      simp [badCount, this]
      omega
  | cons l ls ih =>
    intro fuel r d o fails n hv ho hf h
    cases fuel with
    | zero => simp [verifyLoop] at h
    | succ fuel =>
      have hn := hv.next
      rw [putLine_decoded o l ho] at hn
      unfold verifyLoop at h
      obtain ⟨ok, hok, h⟩ := Res.bind_eq_ok h
      rw [hv.cur] at hok h
      simp only [hn.prev, hn.more, hn.cur, Bool.false_eq_true, if_false] at h
      have hok' := andVerbose_true _ _ _ hok
      have ec : compColsList env.toF64 cs (decoded m d) (decoded m l) = cmpRaw env.toF64 m cs d l := rfl
      rw [ec] at h
      have hlast : (d :: l :: ls).getLast? = (l :: ls).getLast? := by simp [List.getLast?_cons_cons]
      rw [hlast]
      have hbad : (LineGood env m ts nc d ∧ (conf.sort = true → PairOk (cmpRaw env.toF64 m cs) conf.unique d l)) ↔
          ((decoded m d).len != nc || !ok || (conf.sort && compCheck (cmpRaw env.toF64 m cs d l) conf.unique)) = false := by
        have hg : LineGood env m ts nc d ↔ ((decoded m d).len != nc || !ok) = false := by
          unfold LineGood
          have : (ok = true) ↔ ∀ t ∈ ts, t.ok env (decoded m d) = .ok true := by
            rw [hok']
            simp
          rw [← this]
          simp
        rw [hg, ← compCheck_pair]
        cases conf.sort <;> cases ((decoded m d).len != nc || !ok) <;> simp
      have hcount : badCount env m conf cs ts nc (d :: l :: ls) =
          badCount env m conf cs ts nc (l :: ls) +
            if ((decoded m d).len != nc || !ok || (conf.sort && compCheck (cmpRaw env.toF64 m cs d l) conf.unique)) = true then 1 else 0 := by
        unfold badCount
        simp only [List.tail_cons, List.zip_cons_cons, List.countP_cons]
        congr 1
        simp only [decide_eq_true_eq, hbad, Bool.not_eq_false]
      rw [hcount]
      cases hb : ((decoded m d).len != nc || !ok || (conf.sort && compCheck (cmpRaw env.toF64 m cs d l) conf.unique)) with
      | true =>
        rw [hb] at h
        simp only [if_true] at h ⊢
        split at h
        · rename_i h5
          simp only [Res.ok.injEq] at h
          have : 5 ≤ fails + 1 := h5
          right
          omega
        · rename_i h5
          have h5 : ¬ 5 ≤ fails + 1 := h5
          have := ih fuel _ l _ _ n hn (decoded_orig d) (by omega) h
          omega
      | false =>
        rw [hb] at h
        simp only [Bool.false_eq_true, if_false] at h ⊢
        have := ih fuel _ l _ _ n hn (decoded_orig d) hf h
        omega

/-- C53: the failures of a file are counted up to five: one for the first line, one for each line before the last that is bad or not in order with
the next, and one for the last line if it is reached. -/
theorem C53_count (env : MEnv) (m : TextMode) (conf : VerifyConf) (look : List Bytes → Res (List LineComp)) (f : Bytes) (n : Nat)
    (ts : List LineTest) (cs : List LineComp) (hts : lookupAll env (namesOf m f) conf.matchers = .ok ts) (hcs : look (namesOf m f) = .ok cs)
    (hne : dataOf m f ≠ []) (h : verifyFile env m conf look f 0 = .ok n) :
    let a := endCount env m cs conf.first (dataOf m f).head? + badCount env m conf cs ts (namesOf m f).length (dataOf m f)
    (a < 5 → n = a + endCount env m cs conf.last (dataOf m f).getLast?) ∧ (5 ≤ a → n = 5) := by
  have hdone : ((Reader.newWith 1 m).open_ f).isDone = (dataOf m f).isEmpty := newOpen_done m f
  unfold verifyFile at h
  simp only at h
  cases hD : dataOf m f with
  | nil => exact absurd hD hne
  | cons d D =>
    rw [hD] at hdone
    cases hh : readHeader m f with
    | none => simp [dataOf, hh] at hD
    | some p =>
      obtain ⟨hd, rest⟩ := p
      have hD' : readLines m.col m.eol rest = d :: D := by simpa [dataOf, hh] using hD
      have hv := view_open m f hd rest d D hh hD'
      have hne : ((Reader.newWith 1 m).open_ f).isEmpty = false := by
        have := (newOpen_fields m f hd rest hh (by rw [hD']; simp)).1
        exact this
      rw [hne] at h
      simp only [Bool.false_eq_true, if_false] at h
      obtain ⟨ts', hts', h⟩ := Res.bind_eq_ok h
      obtain ⟨cs', hcs', h⟩ := Res.bind_eq_ok h
      unfold namesOf at hts hcs
      rw [hts, Res.ok.injEq] at hts'
      rw [hcs, Res.ok.injEq] at hcs'
      subst hts' hcs'
      rw [hdone] at h
      simp only [List.isEmpty_cons, Bool.false_eq_true, if_false] at h
      obtain ⟨n', hn', h⟩ := Res.bind_eq_ok h
      rw [hv.cur] at hn'
      have e := checkOne_count env m cs conf.first d 0 n' hn'
      have hlt : n' < 5 := by
        rw [e]
        unfold endCount
        split <;> omega
      have := verifyLoop_count env m conf cs ts _ D _ _ d _ n' n hv (fun _ => rfl) hlt h
      simp only [List.head?_cons, namesOf]
      omega

example : verifyMain MEnv.trivial (fun _ => false) (fun _ _ => .err) .default
    [(ascii "unique", []), (ascii "key", ascii "b"), (ascii "first", ascii "GT,a"), (ascii "first", ascii "LT,9")]
    [ascii " CDX\ta\tb\n2\t1\n1\t2\n"] = .ok true := by decide +kernel
example : verifyMain MEnv.trivial (fun _ => false) (fun _ _ => .err) .default [(ascii "unique", []), (ascii "key", ascii "b")]
    [ascii " CDX\ta\tb\n2\t1\n1\t1\n"] = .ok false := by decide +kernel

/-- Six lines out of order count five failures, two lines two. -/
example : verifyFile MEnv.trivial .default { bareConf with sort := true } (fun names => lookupKeys names wholeKeys)
    (ascii "g\nf\ne\nd\nc\nb\na\n") 0 = .ok 5 ∧
  verifyFile MEnv.trivial .default { bareConf with sort := true } (fun names => lookupKeys names wholeKeys)
    (ascii "c\nb\na\n") 0 = .ok 2 := by decide +kernel

end Cdx
