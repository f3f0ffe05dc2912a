import Verif.Lemmas.Join
import Verif.Props.Merge
import Verif.Lemmas.SortFiles

/-!
C31, C66, C67: quick join.
-/

namespace Cdx

/-- The lines of a file and the number of the file. -/
abbrev fileLines (content : Bytes) : List Bytes := (openReader content).lines

/-- The lines are in key order, the file being number `f` of the join. -/
def KeySorted (toF64 : Bytes → F64) (cs : List LineComp) (f : Nat) (content : Bytes) : Prop :=
  SortedBy (fun x y => joinComp toF64 cs (f, x) (f, y)) (fileLines content)

/-- The lines are in key order and no key occurs twice. -/
def KeyStrict (toF64 : Bytes → F64) (cs : List LineComp) (f : Nat) (content : Bytes) : Prop :=
  (fileLines content).Pairwise fun x y => joinComp toF64 cs (f, x) (f, y) = .lt

/-- Same key, the first line from file 0 and the second from file 1. -/
def sameKey (toF64 : Bytes → F64) (cs : List LineComp) (a b : Bytes) : Bool :=
  joinComp toF64 cs (0, a) (1, b) == .eq

/-- The columns asked for, of one line of each file, put together. -/
def combined (delim : UInt8) (out : List (Nat × Nat)) (m : Bytes × Bytes) : Bytes :=
  List.intercalate [delim] (out.map fun c => (mergeLine (if c.1 = 0 then m.1 else m.2)).get c.2) ++ [NL]

/-- The lines of the first two files. -/
def InFiles (as bs : List Bytes) (p : Nat × Bytes) : Prop := (p.1 = 0 ∧ p.2 ∈ as) ∨ (p.1 = 1 ∧ p.2 ∈ bs)

theorem joinComp_on {S : Nat × Bytes → Prop} (toF64 : Bytes → F64) (cs : List LineComp)
    (h : ∀ c ∈ cs, PreorderOn S fun (x y : Nat × Bytes) => c.compColsN toF64 x.1 y.1 (mergeLine x.2) (mergeLine y.2)) :
    PreorderOn S (joinComp toF64 cs) := by
  induction cs with
  | nil => exact ⟨fun _ _ => rfl, fun _ _ _ _ => rfl, fun _ _ _ _ _ _ _ h => h⟩
  | cons c cs ih =>
    have h1 := (h c (by simp)).then (ih fun d hd => h d (by simp [hd]))
    have e : joinComp toF64 (c :: cs) = fun x y =>
        (c.compColsN toF64 x.1 y.1 (mergeLine x.2) (mergeLine y.2)).then (joinComp toF64 cs x y) := by
      funext x y
      unfold joinComp
      rw [compColsListN]
      cases c.compColsN toF64 x.1 y.1 (mergeLine x.2) (mergeLine y.2) <;> simp
    rw [e]
    exact h1

/-- The comparison of a join orders the lines of all files together, when the keys are as `KeyOk` says and no
expression is NaN. -/
theorem C31_preorder {S : Nat × Bytes → Prop} (toF64 : Bytes → F64) (cs : List LineComp)
    (h : ∀ c ∈ cs, ∀ p, S p → match c.kind with
      | .whole k => KeyOk toF64 k p.2
      | .col k num => KeyOk toF64 k ((mergeLine p.2).get (num p.1))
      | .expr eval => (eval p.1 p.2).isNaN = false) : PreorderOn S (joinComp toF64 cs) := by
  apply joinComp_on
  intro c hc
  have h := h c hc
  unfold LineComp.compColsN
  apply PreorderOn.rev
  cases hk : c.kind with
  | whole k =>
    rw [hk] at h
    exact ((compK_on toF64 k).comap fun x : Nat × Bytes => (mergeLine x.2).text).mono h
  | col k n =>
    rw [hk] at h
    exact ((compK_on toF64 k).comap fun x : Nat × Bytes => (mergeLine x.2).get (n x.1)).mono h
  | expr e =>
    rw [hk] at h
    refine ((preorder_int.comap fun x : Nat × Bytes => (e x.1 (mergeLine x.2).text).scaled).on S).congr ?_
    intro a b ha hb
    exact fcmp_eq (h a ha) (h b hb)

/-- The lines that take part are all the lines after the header. -/
theorem fileLines_eq (content : Bytes) : fileLines content = dataLines content := by
  unfold fileLines openReader dataLines openMerge
  cases readHeader .default content with
  | none => rfl
  | some p =>
    obtain ⟨h, rest⟩ := p
    simp only
    by_cases hh : h = []
    · simp only [hh, ne_eq, not_true_eq_false, if_false]
      cases readLines .plain NL rest <;> rfl
    · simp only [hh, ne_eq, not_false_eq_true, if_true]

/-- The output columns when none are asked for: all of file 0, then those of file 1 that are not keys. -/
theorem C31_default_columns (used : Nat → List Nat) (a b : Opened) :
    defaultOut used [a, b] = (List.range a.names.length).map (fun x => (0, x)) ++
      ((List.range b.names.length).filter fun x => x ∉ used 1).map fun x => (1, x) := by
  simp only [defaultOut, List.zipIdx_cons, List.zipIdx_nil, List.flatMap_cons, List.flatMap_nil, List.append_nil]
  congr 1
  · congr 1
    exact List.filter_eq_self.2 (by simp)
  · congr 1
    apply List.filter_congr
    simp

theorem joinOut_files (used : Nat → List Nat) (specs : List (Nat × Nat)) (files : List Opened) (out : List (Nat × Nat))
    (h : joinOut used specs files = some out) : ∀ c ∈ out, c.1 < files.length := by
  unfold joinOut at h
  by_cases h1 : specs = []
  · rw [if_pos h1] at h
    by_cases h2 : defaultOut used files = []
    · rw [if_pos h2] at h; exact absurd h (by simp)
    · rw [if_neg h2] at h
      obtain rfl := Option.some.inj h
      intro c hc
      simp only [defaultOut, List.mem_flatMap, List.mem_map] at hc
      obtain ⟨p, hp, x, _, rfl⟩ := hc
      have := List.mem_zipIdx hp
      simp only
      omega
  · rw [if_neg h1] at h
    by_cases h2 : (specs.any fun s => decide (s.1 ≥ files.length)) = true
    · rw [if_pos h2] at h; exact absurd h (by simp)
    · rw [if_neg h2] at h
      obtain rfl := Option.some.inj h
      intro c hc
      simp only [List.any_eq_true, decide_eq_true_eq, not_exists, not_and] at h2
      have := h2 c hc
      omega

/-- The join of two sorted files, the second without repeated keys. -/
theorem C31_join (toF64 : Bytes → F64) (exprCols : (Nat → Bytes → F64) → Nat → List Nat) (cs : List LineComp)
    (specs out : List (Nat × Nat)) (delim : UInt8) (also : List Nat) (A B : Bytes)
    (hc : PreorderOn (InFiles (fileLines A) (fileLines B)) (joinComp toF64 cs)) (hA : KeySorted toF64 cs 0 A)
    (hB : KeyStrict toF64 cs 1 B)
    (halso : alsoOk 2 also = true) (hout : joinOut (usedCols exprCols cs) specs [openReader A, openReader B] = some out) :
    joinFiles toF64 exprCols cs specs delim also [A, B] = .ok
      (joinHeader delim out [openReader A, openReader B] ++
        (matchPairs (sameKey toF64 cs) (fileLines A) (fileLines B)).flatMap (combined delim out),
       [if 1 ∈ also then some ((openReader A).header ++
          (unmatchedLeft (sameKey toF64 cs) (fileLines A) (fileLines B)).flatten) else none,
        if 2 ∈ also then some ((openReader B).header ++
          (unmatchedRight (sameKey toF64 cs) (fileLines A) (fileLines B)).flatten) else none]) := by
  have hB' : SortedBy (fun x y => joinComp toF64 cs (1, x) (1, y)) (fileLines B) :=
    hB.imp fun h => by simp [h]
  have h1 := joinLoop_on hc (fun a => (0, a)) (fun b => (1, b)) ((fileLines A).length + (fileLines B).length + 1)
    (fileLines A) (fileLines B) (fun a ha => .inl ⟨rfl, ha⟩) (fun b hb => .inr ⟨rfl, hb⟩) hA hB' (by omega)
  have h2 := h1.2.2 hB
  have hrow : joinRow delim out [openReader A, openReader B] = combined delim out := by
    funext m
    unfold joinRow combined
    congr 2
    apply List.map_congr_left
    intro c hc
    have := joinOut_files _ _ _ _ hout c hc
    simp only [List.length_cons, List.length_nil] at this
    unfold currLines
    by_cases h0 : c.1 = 0
    · simp [h0]
    · have : c.1 = 1 := by omega
      simp [this]
  simp only [joinFiles, List.length_cons, List.length_nil, Nat.zero_add, Nat.reduceAdd, Nat.lt_irrefl, if_false, halso,
    Bool.true_eq_false, List.map_cons, List.map_nil, hout, List.getD_cons_zero, List.getD_cons_succ, List.zipIdx_cons,
    List.zipIdx_nil, if_true, Nat.one_ne_zero, List.contains_iff_mem, h1.1, h1.2.1, h2, hrow]
  rfl

theorem readUntil_line (b : UInt8) (a rest : Bytes) (h : b ∉ a) : readUntil b (a ++ b :: rest) = (a ++ [b], rest) := by
  induction a with
  | nil => simp [readUntil]
  | cons x xs ih =>
    simp only [List.mem_cons, not_or] at h
    simp [readUntil, Ne.symm h.1, ih h.2]

/-- What opening a file with header gives: its names and its lines. -/
theorem openReader_names (names : List Bytes) (rest : Bytes) (h : ∀ n ∈ names, TAB ∉ n ∧ NL ∉ n) :
    openReader (List.intercalate [TAB] (cdxTag :: names) ++ NL :: rest)
      = ⟨List.intercalate [TAB] (cdxTag :: names) ++ [NL], true, names, readLines .plain NL rest⟩ := by
  have hnl : NL ∉ List.intercalate [TAB] (cdxTag :: names) := by
    intro hm
    rcases mem_intercalate hm with h1 | ⟨c, hc, hx⟩
    · exact absurd h1 (by decide)
    · rcases List.mem_cons.1 hc with rfl | hc
      · revert hx; decide
      · exact (h c hc).2 hx
  have hpre : ∃ t, List.intercalate [TAB] (cdxTag :: names) = cdxTag ++ t := by
    cases names with
    | nil => exact ⟨[], by simp [intercalate_singleton]⟩
    | cons n ns => exact ⟨[TAB] ++ List.intercalate [TAB] (n :: ns), by rw [intercalate_cons_cons, List.append_assoc]⟩
  obtain ⟨t, ht⟩ := hpre
  have hcdx : ∀ u, isCdx (List.intercalate [TAB] (cdxTag :: names) ++ u) = true := by
    intro u
    rw [ht]
    simp [isCdx, cdxTag, List.isPrefixOf]
  have hne : ∀ u, List.intercalate [TAB] (cdxTag :: names) ++ u ≠ [] := by
    intro u
    rw [ht]
    simp [cdxTag]
  have hread : readHeader .default (List.intercalate [TAB] (cdxTag :: names) ++ NL :: rest)
      = some (List.intercalate [TAB] (cdxTag :: names) ++ [NL], rest) := by
    simp [readHeader, TextMode.default, hcdx, hne, readLine, readUntil_line NL _ rest hnl, ensureEof]
  have hv := plainLine_vec TAB (List.intercalate [TAB] (cdxTag :: names)) (by decide)
  rw [sliceSplit_intercalate TAB _ (by simp) (by
    intro c hc
    rcases List.mem_cons.1 hc with rfl | hc
    · decide
    · exact (h c hc).1)] at hv
  have hn : headNames (List.intercalate [TAB] (cdxTag :: names) ++ [NL]) = names := by
    unfold headNames
    rw [show ((TextLine.ofRaw (List.intercalate [TAB] (cdxTag :: names) ++ [NL])).split .plain TAB).vec = cdxTag :: names
      from hv]
    simp [hcdx]
  simp [openReader, hread, hn]

/-- The header of the joined file: the names of the output columns, if the first file has a header. -/
theorem C31_header (delim : UInt8) (out : List (Nat × Nat)) (namesA namesB : List Bytes) (restA restB : Bytes)
    (hA : ∀ n ∈ namesA, TAB ∉ n ∧ NL ∉ n) (hB : ∀ n ∈ namesB, TAB ∉ n ∧ NL ∉ n) (h : ∀ c ∈ out, c.1 < 2) :
    joinHeader delim out [openReader (List.intercalate [TAB] (cdxTag :: namesA) ++ NL :: restA),
        openReader (List.intercalate [TAB] (cdxTag :: namesB) ++ NL :: restB)]
      = List.intercalate [delim] (cdxTag :: out.map fun c => (if c.1 = 0 then namesA else namesB).getD c.2 []) ++ [NL] := by
  rw [openReader_names _ _ hA, openReader_names _ _ hB]
  have key : ∀ (t : Bytes) (o : List Bytes), List.intercalate [delim] (t :: o) = t ++ o.flatMap (delim :: ·) := by
    intro t o
    induction o generalizing t with
    | nil => simp
    | cons x xs ih => rw [intercalate_cons_cons, ih]; simp
  rw [key, List.flatMap_map]
  simp only [joinHeader, List.map_cons, List.map_nil, List.headD_cons, if_true]
  congr 2
  rw [List.flatMap_def, List.flatMap_def]
  congr 1
  apply List.map_congr_left
  intro c hc
  have := h c hc
  by_cases h0 : c.1 = 0
  · simp [h0]
  · have : c.1 = 1 := by omega
    simp [this]

/-- What is refused: fewer than two files; an unmatched output for a file that does not exist, or two for one file; an
output column of a file that does not exist. -/
theorem C31_refused (toF64 : Bytes → F64) (exprCols : (Nat → Bytes → F64) → Nat → List Nat) (cs : List LineComp)
    (specs : List (Nat × Nat)) (delim : UInt8) (also : List Nat) (contents : List Bytes)
    (h : contents.length < 2 ∨ 0 ∈ also ∨ (∃ k ∈ also, contents.length < k) ∨ ¬ also.Nodup ∨
      ∃ c ∈ specs, contents.length ≤ c.1) :
    joinFiles toF64 exprCols cs specs delim also contents = .err := by
  unfold joinFiles
  by_cases h1 : contents.length < 2
  · simp [h1]
  · by_cases h2 : alsoOk contents.length also = false
    · simp [h1, h2]
    · have h3 : ∃ c ∈ specs, contents.length ≤ c.1 := by
        simp only [Bool.not_eq_false, alsoOk, Bool.and_eq_true, List.all_eq_true, decide_eq_true_eq] at h2
        rcases h with h | h | ⟨k, hk, h⟩ | h | h
        · exact absurd h h1
        · have := h2.1 0 h; omega
        · have := h2.1 k hk; omega
        · exact absurd h2.2 h
        · exact h
      obtain ⟨c, hc, hl⟩ := h3
      have hne : specs ≠ [] := by intro e; simp [e] at hc
      have hany : (specs.any fun s => decide (s.1 ≥ (contents.map openReader).length)) = true := by
        simp only [List.any_eq_true, decide_eq_true_eq, List.length_map]
        exact ⟨c, hc, hl⟩
      simp only [h1, h2, joinOut, hne, if_false, hany, if_true, ite_self]

/-- Files with headers: " CDX\tk\tv\nb\t1\nb\t2\nc\t3\nd\t4\n" and " CDX\tk\tw\na\t5\nb\t6\nd\t7\n". -/
abbrev joinA : Bytes := [32, 67, 68, 88, 9, 107, 9, 118, 10, 98, 9, 49, 10, 98, 9, 50, 10, 99, 9, 51, 10, 100, 9, 52, 10]
abbrev joinB : Bytes := [32, 67, 68, 88, 9, 107, 9, 119, 10, 97, 9, 53, 10, 98, 9, 54, 10, 100, 9, 55, 10]

theorem firstCol_join_preorder (toF64 : Bytes → F64) (S : Nat × Bytes → Prop) :
    PreorderOn S (joinComp toF64 [firstCol]) :=
  C31_preorder toF64 [firstCol] (by simp [KeyOk])

/-- Output " CDX\tk\tv\tw\nb\t1\t6\nb\t2\t6\nd\t4\t7\n", unmatched " CDX\tk\tv\nc\t3\n" and
" CDX\tk\tw\na\t5\n". -/
example : joinFiles (fun _ => 0) (fun _ _ => []) [firstCol] [] TAB [1, 2] [joinA, joinB] = .ok
    ([32, 67, 68, 88, 9, 107, 9, 118, 9, 119, 10, 98, 9, 49, 9, 54, 10, 98, 9, 50, 9, 54, 10, 100, 9, 52, 9, 55, 10],
     [some [32, 67, 68, 88, 9, 107, 9, 118, 10, 99, 9, 51, 10], some [32, 67, 68, 88, 9, 107, 9, 119, 10, 97, 9, 53, 10]]) := by
  decide +kernel

/-- The hypotheses of `C31_join` hold for these files. -/
example : PreorderOn (InFiles (fileLines joinA) (fileLines joinB)) (joinComp (fun _ => 0) [firstCol]) ∧ KeySorted (fun _ => 0) [firstCol] 0 joinA ∧
    KeyStrict (fun _ => 0) [firstCol] 1 joinB ∧ alsoOk 2 [1, 2] = true ∧
    joinOut (usedCols (fun _ _ => []) [firstCol]) [] [openReader joinA, openReader joinB]
      = some [(0, 0), (0, 1), (1, 1)] := by
  have eA : fileLines joinA = [[98, 9, 49, 10], [98, 9, 50, 10], [99, 9, 51, 10], [100, 9, 52, 10]] := by decide +kernel
  have eB : fileLines joinB = [[97, 9, 53, 10], [98, 9, 54, 10], [100, 9, 55, 10]] := by decide +kernel
  refine ⟨firstCol_join_preorder _ _, ?_, ?_, by decide, by decide +kernel⟩
  · unfold KeySorted SortedBy
    rw [eA]
    simp only [List.pairwise_cons, List.mem_cons, List.not_mem_nil, or_false, forall_eq, forall_eq_or_imp, false_implies,
      implies_true, List.Pairwise.nil, and_true, ne_eq]
    decide +kernel
  · unfold KeyStrict
    rw [eB]
    simp only [List.pairwise_cons, List.mem_cons, List.not_mem_nil, or_false, forall_eq, forall_eq_or_imp, false_implies,
      implies_true, List.Pairwise.nil, and_true]
    decide +kernel

/-- When keys are repeated in the second file (it is still sorted): the first line with the key is used, and the
unmatched lines of the first file are still the right ones. -/
theorem C31_repeated_keys (toF64 : Bytes → F64) (cs : List LineComp) (as bs : List Bytes)
    (hc : PreorderOn (InFiles as bs) (joinComp toF64 cs)) (hA : SortedBy (fun x y => joinComp toF64 cs (0, x) (0, y)) as)
    (hB : SortedBy (fun x y => joinComp toF64 cs (1, x) (1, y)) bs) (fuel : Nat) (hf : as.length + bs.length < fuel) :
    (joinLoop (fun a b => joinComp toF64 cs (0, a) (1, b)) fuel as bs).yes = matchPairs (sameKey toF64 cs) as bs ∧
    (joinLoop (fun a b => joinComp toF64 cs (0, a) (1, b)) fuel as bs).no0 = unmatchedLeft (sameKey toF64 cs) as bs :=
  let h := joinLoop_on hc (fun a => (0, a)) (fun b => (1, b)) fuel as bs (fun a ha => .inl ⟨rfl, ha⟩)
    (fun b hb => .inr ⟨rfl, hb⟩) hA hB hf
  ⟨h.1, h.2.1⟩

/-- The second line of file 1 with the same key is reported as unmatched. -/
example : (joinLoop (fun a b => joinComp (fun _ => 0) [firstCol] (0, a) (1, b)) 4 [[97, 10]]
    [[97, 9, 49, 10], [97, 9, 50, 10]]) = ⟨[([97, 10], [97, 9, 49, 10])], [], [[97, 9, 50, 10]]⟩ := by decide +kernel

/-! ## C66: the unmatched outputs -/

/-- The unmatched output of a file: the header of the file, if it has one, then its unmatched lines. -/
def C66_statement : Prop :=
  ∀ (toF64 : Bytes → F64) (exprCols : (Nat → Bytes → F64) → Nat → List Nat) (cs : List LineComp)
    (specs : List (Nat × Nat)) (delim : UInt8) (also : List Nat) (A B yes no0 : Bytes) (rest : List (Option Bytes)),
    PreorderOn (InFiles (fileLines A) (fileLines B)) (joinComp toF64 cs) → KeySorted toF64 cs 0 A → KeyStrict toF64 cs 1 B →
    joinFiles toF64 exprCols cs specs delim also [A, B] = .ok (yes, some no0 :: rest) →
    no0 = (openMerge A).1 ++ (unmatchedLeft (sameKey toF64 cs) (dataLines A) (dataLines B)).flatten

/-- A file without header gets the line "c1" in its unmatched output: joining "a\n" with "b\n". -/
theorem C66_refuted : ¬ C66_statement := by
  intro h
  have eA : fileLines [97, 10] = [[97, 10]] := by decide +kernel
  have eB : fileLines [98, 10] = [[98, 10]] := by decide +kernel
  have := h (fun _ => 0) (fun _ _ => []) [firstCol] [] TAB [1] [97, 10] [98, 10] [] [99, 49, 10, 97, 10] [none]
    (firstCol_join_preorder _ _) (by unfold KeySorted SortedBy; rw [eA]; simp)
    (by unfold KeyStrict; rw [eB]; simp) (by decide +kernel)
  revert this
  decide +kernel

theorem openReader_header (content : Bytes) (h : (openReader content).hasHeader = true ∨ content = []) :
    (openReader content).header = (openMerge content).1 := by
  rcases h with h | rfl
  · revert h
    unfold openReader openMerge
    cases readHeader .default content with
    | none => simp
    | some p =>
      obtain ⟨h, rest⟩ := p
      simp only
      by_cases hh : h = []
      · simp only [hh, ne_eq, not_true_eq_false, if_false]
        cases readLines .plain NL rest <;> simp
      · simp only [hh, ne_eq, not_false_eq_true, if_true, implies_true]
  · rfl

/-- It holds for files that have a header (and for empty ones). Missing: files without header. -/
theorem C66_with_header_partial (toF64 : Bytes → F64) (exprCols : (Nat → Bytes → F64) → Nat → List Nat)
    (cs : List LineComp) (specs : List (Nat × Nat)) (delim : UInt8) (also : List Nat) (A B : Bytes)
    (hc : PreorderOn (InFiles (fileLines A) (fileLines B)) (joinComp toF64 cs)) (hA : KeySorted toF64 cs 0 A)
    (hB : KeyStrict toF64 cs 1 B)
    (hhA : (openReader A).hasHeader = true ∨ A = []) (hhB : (openReader B).hasHeader = true ∨ B = [])
    (yes : Bytes) (nos : List (Option Bytes))
    (h : joinFiles toF64 exprCols cs specs delim also [A, B] = .ok (yes, nos)) :
    nos = [if 1 ∈ also then some ((openMerge A).1 ++
          (unmatchedLeft (sameKey toF64 cs) (dataLines A) (dataLines B)).flatten) else none,
        if 2 ∈ also then some ((openMerge B).1 ++
          (unmatchedRight (sameKey toF64 cs) (dataLines A) (dataLines B)).flatten) else none] := by
  cases ha : alsoOk 2 also with
  | false => simp [joinFiles, ha] at h
  | true =>
    cases ho : joinOut (usedCols exprCols cs) specs [openReader A, openReader B] with
    | none => simp [joinFiles, ha, ho] at h
    | some out =>
      rw [C31_join toF64 exprCols cs specs out delim also A B hc hA hB ha ho] at h
      simp only [Res.ok.injEq, Prod.mk.injEq] at h
      rw [← h.2, openReader_header A hhA, openReader_header B hhB, fileLines_eq, fileLines_eq]

example : (openReader joinA).hasHeader = true := by decide +kernel

/-! ## C67: unsorted input -/

/-- "Normally join fails if input file is not sorted" (`src/join.rs` 86). -/
def C67_statement : Prop :=
  ∀ (toF64 : Bytes → F64) (exprCols : (Nat → Bytes → F64) → Nat → List Nat) (cs : List LineComp)
    (specs : List (Nat × Nat)) (delim : UInt8) (also : List Nat) (A B : Bytes),
    PreorderOn (fun _ => True) (joinComp toF64 cs) → (¬ KeySorted toF64 cs 0 A ∨ ¬ KeySorted toF64 cs 1 B) →
    joinFiles toF64 exprCols cs specs delim also [A, B] = .err

/-- Joining "b\na\n" with "a\nb\n" succeeds, with "b\n" only. -/
theorem C67_refuted : ¬ C67_statement := by
  intro h
  have eA : fileLines [98, 10, 97, 10] = [[98, 10], [97, 10]] := by decide +kernel
  have := h (fun _ => 0) (fun _ _ => []) [firstCol] [] TAB [] [98, 10, 97, 10] [97, 10, 98, 10]
    (firstCol_join_preorder _ _) (.inl (by
      unfold KeySorted SortedBy
      rw [eA]
      simp only [List.pairwise_cons, List.mem_cons, List.not_mem_nil, or_false, forall_eq, false_implies,
        implies_true, List.Pairwise.nil, and_true, ne_eq]
      decide +kernel))
  revert this
  decide +kernel

/-- What holds for unsorted files too: every row joins two lines with the same key; every line of the first file goes
to exactly one place, in order; every line of the second file is used or reported. Missing: the failure. -/
theorem C67_routing_partial (toF64 : Bytes → F64) (cs : List LineComp) (as bs : List Bytes) (fuel : Nat)
    (hf : as.length + bs.length < fuel) :
    JoinRouted (fun a b => joinComp toF64 cs (0, a) (1, b)) as bs
      (joinLoop (fun a b => joinComp toF64 cs (0, a) (1, b)) fuel as bs) :=
  joinLoop_routed _ fuel as bs hf

/-! ## C68: more than two files -/

/-- The lines of three files with the same key (`i`, `j`, `k` are the numbers of the files). -/
def tripleRows (toF64 : Bytes → F64) (cs : List LineComp) (delim : UInt8) (out : List (Nat × Nat)) (as bs ds : List Bytes) :
    Bytes :=
  as.flatMap fun a => bs.flatMap fun b => ds.flatMap fun d =>
    if joinComp toF64 cs (0, a) (1, b) = .eq ∧ joinComp toF64 cs (0, a) (2, d) = .eq then
      List.intercalate [delim] (out.map fun c => (mergeLine (if c.1 = 0 then a else if c.1 = 1 then b else d)).get c.2) ++ [NL]
    else []

/-- Joining three sorted files, the last two with distinct keys, combines the lines of the three with the same key. -/
def C68_statement : Prop :=
  ∀ (toF64 : Bytes → F64) (exprCols : (Nat → Bytes → F64) → Nat → List Nat) (cs : List LineComp)
    (specs out : List (Nat × Nat)) (delim : UInt8) (also : List Nat) (A B D : Bytes),
    PreorderOn (fun _ => True) (joinComp toF64 cs) → KeySorted toF64 cs 0 A → KeyStrict toF64 cs 1 B → KeyStrict toF64 cs 2 D →
    alsoOk 3 also = true →
    joinOut (usedCols exprCols cs) specs [openReader A, openReader B, openReader D] = some out →
    ∃ nos, joinFiles toF64 exprCols cs specs delim also [A, B, D] = .ok
      (joinHeader delim out [openReader A, openReader B, openReader D] ++
        tripleRows toF64 cs delim out (fileLines A) (fileLines B) (fileLines D), nos)

/-- Joining "b\n", "b\n" and "a\t1\nb\t2\n" gives "b\t1\n": the first line of the third file whatever the key. -/
theorem C68_refuted : ¬ C68_statement := by
  intro h
  have eA : fileLines [98, 10] = [[98, 10]] := by decide +kernel
  have eD : fileLines [97, 9, 49, 10, 98, 9, 50, 10] = [[97, 9, 49, 10], [98, 9, 50, 10]] := by decide +kernel
  obtain ⟨nos, h⟩ := h (fun _ => 0) (fun _ _ => []) [firstCol] [] [(0, 0), (2, 1)] TAB [] [98, 10] [98, 10]
    [97, 9, 49, 10, 98, 9, 50, 10] (firstCol_join_preorder _ _) (by unfold KeySorted SortedBy; rw [eA]; simp)
    (by unfold KeyStrict; rw [eA]; simp) (by
      unfold KeyStrict
      rw [eD]
      simp only [List.pairwise_cons, List.mem_cons, List.not_mem_nil, or_false, forall_eq, false_implies,
        implies_true, List.Pairwise.nil, and_true]
      decide +kernel) (by decide +kernel) (by decide +kernel)
  have e1 : joinFiles (fun _ => 0) (fun _ _ => []) [firstCol] [] TAB [] [[98, 10], [98, 10], [97, 9, 49, 10, 98, 9, 50, 10]]
      = .ok ([98, 9, 49, 10], [none, none, none]) := by decide +kernel
  have e2 : joinHeader TAB [(0, 0), (2, 1)] [openReader [98, 10], openReader [98, 10],
        openReader [97, 9, 49, 10, 98, 9, 50, 10]] ++
        tripleRows (fun _ => 0) [firstCol] TAB [(0, 0), (2, 1)] (fileLines [98, 10]) (fileLines [98, 10])
          (fileLines [97, 9, 49, 10, 98, 9, 50, 10]) = [98, 9, 50, 10] := by decide +kernel
  rw [e1, e2] at h
  simp at h

/-- The columns asked for, those of the third and further files from the first line of that file. -/
def combinedFirst (delim : UInt8) (out : List (Nat × Nat)) (more : List (List Bytes)) (m : Bytes × Bytes) : Bytes :=
  List.intercalate [delim] (out.map fun c =>
    if c.1 = 0 then (mergeLine m.1).get c.2
    else if c.1 = 1 then (mergeLine m.2).get c.2
    else (mergeLine ((more.getD (c.1 - 2) []).headD [])).get c.2) ++ [NL]

/-- With more than two files, the rows are those of the first two files; a column of a further file is that of its
first line. Missing: the lines of the further files with the same key. -/
theorem C68_first_two_partial (toF64 : Bytes → F64) (exprCols : (Nat → Bytes → F64) → Nat → List Nat)
    (cs : List LineComp) (specs out : List (Nat × Nat)) (delim : UInt8) (also : List Nat) (A B : Bytes)
    (more : List Bytes) (hc : PreorderOn (InFiles (fileLines A) (fileLines B)) (joinComp toF64 cs))
    (hA : KeySorted toF64 cs 0 A) (hB : KeySorted toF64 cs 1 B) (halso : alsoOk (more.length + 2) also = true)
    (hout : joinOut (usedCols exprCols cs) specs (openReader A :: openReader B :: more.map openReader) = some out) :
    (joinFiles toF64 exprCols cs specs delim also (A :: B :: more)).map' (·.1) = .ok
      (joinHeader delim out (openReader A :: openReader B :: more.map openReader) ++
        (matchPairs (sameKey toF64 cs) (fileLines A) (fileLines B)).flatMap
          (combinedFirst delim out (more.map fileLines))) := by
  have h1 := joinLoop_on hc (fun a => (0, a)) (fun b => (1, b)) ((fileLines A).length + (fileLines B).length + 1)
    (fileLines A) (fileLines B) (fun a ha => .inl ⟨rfl, ha⟩) (fun b hb => .inr ⟨rfl, hb⟩) hA hB (by omega)
  have hrow : joinRow delim out (openReader A :: openReader B :: more.map openReader)
      = combinedFirst delim out (more.map fileLines) := by
    funext m
    unfold joinRow combinedFirst
    congr 2
    apply List.map_congr_left
    intro c _
    unfold currLines
    by_cases h0 : c.1 = 0
    · simp [h0]
    · by_cases h1 : c.1 = 1
      · simp [h1]
      · obtain ⟨k, hk⟩ : ∃ k, c.1 = k + 2 := ⟨c.1 - 2, by omega⟩
        have e0 : ¬ k + 2 = 0 := by omega
        have e1 : ¬ k + 2 = 1 := by omega
        simp only [hk, e0, e1, if_false, List.map_cons, List.getD_cons_succ, Nat.add_sub_cancel, List.map_map]
        have : more.map ((fun x : Opened => x.lines) ∘ openReader) = more.map fileLines := rfl
        rw [this]
        cases (more.map fileLines).getD k [] <;> rfl
  have hlen : ¬ more.length + 1 + 1 < 2 := by omega
  simp only [joinFiles, List.length_cons, hlen, if_false, halso, Bool.true_eq_false, List.map_cons, hout,
    List.getD_cons_zero, List.getD_cons_succ, h1.1, hrow, Res.map']
  rfl

end Cdx
