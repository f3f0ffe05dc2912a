import Verif.Props.PipesUniq

/-!
C210: `verify` of tables by keys, and of what `sort` writes.
-/

namespace Cdx

/-- Options that ask `verify` for the order of these keys. -/
structure VerifyFits (names : List Bytes) (ks : List TabKey) (os : List (Bytes × Bytes)) : Prop where
  suits : ∀ k ∈ ks, k.Suits names
  some : ks ≠ []
  known : ∀ o ∈ os, o.1 = ascii "key" ∨ o.1 = ascii "sort" ∨ o.1 = ascii "unique"
  keys : (optVals "key" os).length = ks.length ∧ ∀ x ∈ ks.zip (optVals "key" os), x.1.Text names x.2

/-- What is asked of two rows, the first of which comes earlier. -/
def OrderAsked (os : List (Bytes × Bytes)) (o : Ordering) : Prop :=
  if optVals "unique" os ≠ [] then o = .lt else if optVals "sort" os ≠ [] then o ≠ .gt else True

theorem verifyLoop_total (env : MEnv) (m : TextMode) (conf : VerifyConf) (hl : conf.last = none) (cs : List LineComp) (nc : Nat) (ls : List Bytes) :
    ∀ (fuel : Nat) (r : Reader) (d : Bytes) (o : TextLine) (fails : Nat),
      View m true (decoded m d) o ls r → (m.col = .plain → o.orig = []) → ls.length < fuel →
      ∃ n, verifyLoop env conf cs [] nc fuel r fails = .ok n := by
  induction ls with
  | nil =>
    intro fuel r d o fails hv _ hf
    cases fuel with
    | zero => omega
    | succ fuel =>
      unfold verifyLoop
      simp only [lineListVerbose, List.map_nil, andVerbose, Res.bind_ok, hv.end_.2, hv.end_.1, if_true, checkOne, hl]
      exact ⟨_, rfl⟩
  | cons l ls ih =>
    intro fuel r d o fails hv ho hf
    cases fuel with
    | zero => omega
    | succ fuel =>
      have hn := hv.next
      rw [putLine_decoded o l ho] at hn
      have ih := fun f => ih fuel _ l _ f hn (decoded_orig d) (by simp only [List.length_cons] at hf; omega)
      unfold verifyLoop
      simp only [lineListVerbose, List.map_nil, andVerbose, Res.bind_ok, hn.prev, hn.more, Bool.false_eq_true, if_false]
      split
      · split
        · exact ⟨_, rfl⟩
        · exact ih _
      · exact ih _

theorem verifyFile_total (env : MEnv) (m : TextMode) (conf : VerifyConf) (hm : conf.matchers = []) (hf : conf.first = none) (hl : conf.last = none)
    (look : List Bytes → Res (List LineComp)) (f : Bytes) (cs : List LineComp) (hlook : look (namesOf m f) = .ok cs) (fails : Nat) :
    ∃ n, verifyFile env m conf look f fails = .ok n := by
  have hdone : ((Reader.newWith 1 m).open_ f).isDone = (dataOf m f).isEmpty := newOpen_done m f
  unfold namesOf at hlook
  unfold verifyFile
  simp only [hm, lookupAll, Res.bind_ok, hlook, hf, checkOne]
  split
  · exact ⟨_, rfl⟩
  · rw [hdone]
    cases hD : dataOf m f with
    | nil => exact ⟨_, rfl⟩
    | cons d D =>
      cases hh : readHeader m f with
      | none => simp [dataOf, hh] at hD
      | some p =>
        obtain ⟨hd, rest⟩ := p
        have hD' : readLines m.col m.eol rest = d :: D := by simpa [dataOf, hh] using hD
        have hv := view_open m f hd rest d D hh hD'
        have := readLines_length m.col m.eol ((Reader.newWith 1 m).open_ f).file
        rw [hv.file] at this
        simp only [List.isEmpty_cons, Bool.false_eq_true, if_false]
        exact verifyLoop_total env m conf hl cs _ D _ _ d _ fails hv (fun _ => rfl) (by omega)

theorem verifyFiles_total (env : MEnv) (m : TextMode) (conf : VerifyConf) (hm : conf.matchers = []) (hf : conf.first = none) (hl : conf.last = none)
    (look : List Bytes → Res (List LineComp)) (files : List Bytes) (h : ∀ f ∈ files, ∃ cs, look (namesOf m f) = .ok cs) :
    ∀ fails, ∃ b, verifyFiles env m conf look fails files = .ok b := by
  induction files with
  | nil => exact fun _ => ⟨_, rfl⟩
  | cons f fs ih =>
    intro fails
    obtain ⟨cs, hcs⟩ := h f (by simp)
    obtain ⟨n, hn⟩ := verifyFile_total env m conf hm hf hl look f cs hcs fails
    unfold verifyFiles
    rw [hn, Res.bind_ok]
    split
    · exact ⟨_, rfl⟩
    · exact ih (fun f hf => h f (by simp [hf])) _

theorem inOrder_map {α β : Type} (f : α → β) (cmp : β → β → Ordering) (cmp' : α → α → Ordering) (u : Bool) (l : List α)
    (h : ∀ a ∈ l, ∀ b ∈ l, cmp (f a) (f b) = cmp' a b) : InOrder cmp u (l.map f) ↔ InOrder cmp' u l := by
  induction l with
  | nil => simp [inOrder_nil]
  | cons x l ih =>
    cases l with
    | nil => simp [inOrder_single]
    | cons y l =>
      have ih := ih fun a ha b hb => h a (by simp [List.mem_cons.1 ha]) b (by simp [List.mem_cons.1 hb])
      rw [List.map_cons] at ih
      rw [List.map_cons, List.map_cons, inOrder_cons, inOrder_cons, ih, h x (by simp) y (by simp)]

/-- C210: `verify` of tables by keys finds out whether the rows of each are in the order asked for. -/
theorem C210_verify (env : MEnv) (compiles : Bytes → Bool) (eval : Bytes → List Bytes → Res (Bytes → F64)) (names : List Bytes)
    (tables : List (List (List Bytes))) (ks : List TabKey) (os : List (Bytes × Bytes)) (htn : tables ≠ [])
    (hg : ∀ rows ∈ tables, GoodTable names rows) (h : VerifyFits names ks os) :
    ∃ b, verifyMain env compiles eval .default os (tables.map fun rows => sepHead TAB names ++ sepText TAB rows) = .ok b ∧
      (b = true ↔ ∀ rows ∈ tables, rows.Pairwise fun x y => OrderAsked os (tabCmp names ks x y)) := by
  obtain ⟨t0, ht0⟩ := List.exists_mem_of_ne_nil _ htn
  obtain ⟨g1, g2, g3, g4, -⟩ := hg t0 ht0
  have hsn : SepNames TAB names := ⟨g1, fun n hn => name_free (d := TAB) (by decide) (by decide) (g2 n hn)⟩
  obtain ⟨ms, k1, k2⟩ := tabKeys_made compiles eval g2 g4 ks _ h.suits h.keys.1 h.keys.2
  have hms : ms ≠ [] := by
    rintro rfl
    have := congrArg List.length k1
    simp only [List.length_map, List.length_nil] at this
    rw [h.keys.1] at this
    exact h.some (List.length_eq_zero_iff.1 this)
  have nv : ∀ n : String, ascii n ≠ ascii "key" → ascii n ≠ ascii "sort" → ascii n ≠ ascii "unique" → optVals n os = [] := by
    intro n h1 h2 h3
    unfold optVals
    rw [List.map_eq_nil_iff, List.filter_eq_nil_iff]
    intro o ho
    rcases h.known o ho with e | e | e
    · rw [e]; simpa using fun e => h1 e.symm
    · rw [e]; simpa using fun e => h2 e.symm
    · rw [e]; simpa using fun e => h3 e.symm
  have dk : ascii "key" ∈ verifyNames.map ascii ∧ ascii "sort" ∈ verifyNames.map ascii ∧ ascii "unique" ∈ verifyNames.map ascii := by decide
  have ho : verifyOptions env compiles ⟨[], false, false, none, none⟩ [] os =
      .ok (some (⟨[], decide (optVals "sort" os ≠ [] ∨ optVals "unique" os ≠ []), decide (optVals "unique" os ≠ []), none, none⟩, ms)) := by
    rw [C200_options_partial]
    refine ⟨fun o ho => ?_, ?_, k1, by simp, by simp, ?_, ?_⟩
    · rcases h.known o ho with e | e | e
      · rw [e]; exact dk.1
      · rw [e]; exact dk.2.1
      · rw [e]; exact dk.2.2
    · rw [nv "pattern" (by decide) (by decide) (by decide)]; rfl
    · rw [nv "first" (by decide) (by decide) (by decide)]; exact lastMeans_nil.2 rfl
    · rw [nv "last" (by decide) (by decide) (by decide)]; exact lastMeans_nil.2 rfl
  have em : sepMode TAB = .default := rfl
  have read : ∀ rows ∈ tables, namesOf .default (sepHead TAB names ++ sepText TAB rows) = names ∧
      dataOf .default (sepHead TAB names ++ sepText TAB rows) = rows.map tabLine := by
    intro rows hr
    obtain ⟨-, r2, r3, -⟩ := table_read TAB (by decide) names hsn rows (hg rows hr).2.2.2.2
    exact ⟨r2, r3⟩
  obtain ⟨b, hb⟩ := verifyFiles_total env .default
    ⟨[], decide (optVals "sort" os ≠ [] ∨ optVals "unique" os ≠ []), decide (optVals "unique" os ≠ []), none, none⟩ rfl rfl rfl
    (fun names => resolveKeys eval names ms) (tables.map fun rows => sepHead TAB names ++ sepText TAB rows) (by
      intro f hf
      obtain ⟨rows, hr, rfl⟩ := List.mem_map.1 hf
      rw [(read rows hr).1]
      exact ⟨_, k2⟩) 0
  refine ⟨b, ?_, ?_⟩
  · unfold verifyMain
    simp only [ho, Res.bind_ok, verifyKeys, if_neg hms, hb]
  · rw [verifyFiles_spec _ _ _ _ _ _ hb, List.forall_mem_map]
    refine forall_congr' fun rows => forall_congr' fun hr => ?_
    rw [(read rows hr).1, (read rows hr).2]
    have hne := table_rows (hg rows hr)
    have hp := tabCmp_preorder names ks
    have ho1 : ∀ u, InOrder (cmpRaw env.toF64 .default (ks.map fun k => k.at names)) u (rows.map tabLine) ↔ LinesInOrder (tabCmp names ks) u rows := by
      intro u
      rw [← C54_sorted (S := fun _ => True) ⟨fun a _ => hp.refl a, fun a b _ _ => hp.swap a b, fun a b c _ _ _ => hp.trans a b c⟩ u rows (by simp)]
      apply inOrder_map
      intro x hx y hy
      exact tabCmp_cols env.toF64 names ks (fun k hk => (h.suits k hk).2) x y (hne x hx) (hne y hy)
    have good : ∀ x ∈ rows, LineGood env .default [] names.length (tabLine x) := by
      intro x hx
      refine ⟨?_, by simp⟩
      have := congrArg List.length (row_vec TAB (by decide) x (hne x hx).1 (hne x hx).2)
      rw [TextLine.vec, List.length_map, ((hg rows hr).2.2.2.2 x hx).1] at this
      exact this
    have all : (rows.map tabLine ≠ [] → Verified env .default
        ⟨[], decide (optVals "sort" os ≠ [] ∨ optVals "unique" os ≠ []), decide (optVals "unique" os ≠ []), none, none⟩
        (fun names => resolveKeys eval names ms) names (rows.map tabLine).dropLast (rows.map tabLine)) ↔
      (optVals "sort" os ≠ [] ∨ optVals "unique" os ≠ [] → LinesInOrder (tabCmp names ks) (decide (optVals "unique" os ≠ [])) rows) := by
      constructor
      · intro hv hs
        by_cases he : rows = []
        · subst he
          rw [← ho1]
          exact inOrder_nil _ _
        · obtain ⟨ts, cs, -, hcs, -, h1, -⟩ := (hv (by simpa using he)).good
          simp only [k2, Res.ok.injEq] at hcs
          subst hcs
          rw [← ho1]
          exact h1 (by simpa using hs)
      · intro hv _
        refine ⟨[], _, rfl, k2, ?_, fun hs => (ho1 _).2 (hv (by simpa using hs)), by simp [EndGood], by simp [EndGood]⟩
        intro x hx
        obtain ⟨r, hr', rfl⟩ := List.mem_map.1 ((List.dropLast_sublist _).subset hx)
        exact good r hr'
    rw [all]
    unfold LinesInOrder SortedBy OrderAsked
    by_cases hu : optVals "unique" os = []
    · by_cases hs : optVals "sort" os = []
      · simp only [hu, hs, ne_eq, not_true_eq_false, or_self, false_implies, if_false, true_iff]
        exact List.pairwise_of_forall fun _ _ => trivial
      · simp [hu, hs]
    · simp [hu]

/-- C210: what `sort` writes is found in order, and what `sort --unique` writes is found in order without repeated keys. -/
theorem C210_sorted (toF64 : Bytes → F64) (nameOk : Bytes → Bool) (pick : Nat → List (Nat × Bytes) → Nat) (rd : Nat → Nat → Nat) (cap : Nat)
    (m : TextMode) (env : MEnv) (compiles : Bytes → Bool) (eval : Bytes → List Bytes → Res (Bytes → F64)) (names : List Bytes)
    (tables : List (List (List Bytes))) (ks : List TabKey) (os : List SortOpt) (vs : List (Bytes × Bytes))
    (hg : GoodTable names tables.flatten) (fs : SortFits names ks os) (fv : VerifyFits names ks vs)
    (hok : ∀ n ∈ names, nameOk n = true) (htn : tables ≠ [])
    (hz : ∀ r ∈ tables.flatten, ∀ c ∈ r, 0 ∉ c) (hcap : 8 < cap) (hfit : (sepText TAB tables.flatten).length < cap) :
    ∃ sorted, sortMain toF64 nameOk pick rd cap m os (tables.map fun rows => sepHead TAB names ++ sepText TAB rows) = .ok sorted ∧
      (SortOpt.unique ∈ os ∨ optVals "unique" vs = [] → verifyMain env compiles eval .default vs [sorted] = .ok true) ∧
      (SortOpt.unique ∉ os → optVals "unique" vs ≠ [] →
        ∃ b, verifyMain env compiles eval .default vs [sorted] = .ok b ∧
          (b = true ↔ tables.flatten.Pairwise fun x y => tabCmp names ks x y ≠ .eq)) := by
  have hp := tabCmp_preorder names ks
  obtain ⟨out, s1, s2, s3⟩ := sort_tables toF64 nameOk pick rd cap m fs hg hok htn hz hcap hfit
  have good : GoodTable names out := by
    by_cases hu : SortOpt.unique ∈ os
    · refine ⟨hg.1, hg.2.1, hg.2.2.1, hg.2.2.2.1, fun r hr => hg.2.2.2.2 r ?_⟩
      have : r ∈ classOf (tabCmp names ks) r out := List.mem_filter.2 ⟨hr, by simp [hp.refl r]⟩
      rw [(s3 hu).first] at this
      exact (List.mem_filter.1 (List.mem_of_mem_take this)).1
    · exact goodTable_perm (s2 hu).perm hg
  obtain ⟨b, b1, b2⟩ := C210_verify env compiles eval names [out] ks vs (by simp) (by simpa using good) fv
  refine ⟨_, s1, ?_, ?_⟩
  · intro h
    rw [← b2.2 ?_]
    · exact b1
    · simp only [List.mem_singleton, forall_eq]
      unfold OrderAsked
      by_cases hu : SortOpt.unique ∈ os
      · refine (s3 hu).strict.imp fun {x y} e => ?_
        rw [e]
        simp
      · have hv : optVals "unique" vs = [] := h.resolve_left hu
        refine (s2 hu).sorted.imp fun {x y} e => ?_
        simp [hv, e]
  · intro hu hv
    refine ⟨b, b1, b2.trans ?_⟩
    simp only [List.mem_singleton, forall_eq, OrderAsked, if_pos hv]
    have hs := s2 hu
    have sym : ∀ {x y : List Bytes}, tabCmp names ks x y ≠ .eq → tabCmp names ks y x ≠ .eq := by
      intro x y h e
      rw [hp.swap, e] at h
      exact h rfl
    rw [← hs.perm.pairwise_iff sym]
    constructor
    · exact fun h => h.imp fun e => by rw [e]; simp
    · intro h
      refine (hs.sorted.and h).imp fun {x y} e => ?_
      revert e
      cases tabCmp names ks x y <;> simp

theorem verifyFits_example : VerifyFits [ascii "a", ascii "b"] [⟨ascii "b", .length, true⟩, ⟨ascii "a", .plain, true⟩]
    [(ascii "key", ascii "2,len.rev"), (ascii "unique", []), (ascii "key", ascii "a,rev"), (ascii "sort", [])] := by
  obtain ⟨h1, h3, h2, -⟩ := sortFits_example
  refine ⟨h1, h3, by decide +kernel, ?_⟩
  have : optVals "key" [(ascii "key", ascii "2,len.rev"), (ascii "unique", []), (ascii "key", ascii "a,rev"), (ascii "sort", [])] =
      sortSpecs [.key (ascii "2,len.rev"), .altSort, .key (ascii "a,rev")] := by decide +kernel
  rw [this]
  exact h2

/-- The same options for the table sorted by them. -/
example : ∃ sorted b, sortMain (fun _ => 0) (fun _ => true) (fun _ _ => 0) (fun _ _ => 0) 100 .default
      [.key (ascii "2,len.rev"), .altSort, .key (ascii "a,rev")]
      [sepHead TAB [ascii "a", ascii "b"] ++ sepText TAB [[ascii "x", ascii "1"], [ascii "y", ascii "22"], [ascii "x", ascii "3"], [ascii "y", ascii "44"]]] =
        .ok sorted ∧
    verifyMain MEnv.trivial (fun _ => false) (fun _ _ => .err) .default
      [(ascii "key", ascii "2,len.rev"), (ascii "unique", []), (ascii "key", ascii "a,rev"), (ascii "sort", [])] [sorted] = .ok b ∧ b ≠ true := by
  obtain ⟨sorted, h1, -, h2⟩ := C210_sorted (fun _ => 0) (fun _ => true) (fun _ _ => 0) (fun _ _ => 0) 100 .default MEnv.trivial (fun _ => false)
    (fun _ _ => .err) [ascii "a", ascii "b"] [[[ascii "x", ascii "1"], [ascii "y", ascii "22"], [ascii "x", ascii "3"], [ascii "y", ascii "44"]]] _ _ _
    goodTable_example sortFits_example verifyFits_example (by simp) (by simp) (by decide +kernel) (by decide) (by decide +kernel)
  obtain ⟨b, h3, h4⟩ := h2 (by simp) (by decide +kernel)
  refine ⟨sorted, b, h1, h3, ?_⟩
  rw [ne_eq, h4]
  decide +kernel

end Cdx
