import Verif.Model.Cgrep
import Verif.Spec.NamePattern
import Verif.Props.Details

/-! Columns chosen by patterns (C192). -/

namespace Cdx

/-- Columns chosen by patterns and names, separated by commas: the columns each pattern accepts, one after the other. -/
def C192_statement : Prop :=
  ∀ (env : MEnv) (names : List Bytes) (qs : List NamePat), qs ≠ [] → (∀ q ∈ qs, q.WF) →
    ∃ c cols, ColumnSet.fromSpec env (List.intercalate [44] (qs.map NamePat.text)) = .ok c ∧ c.lookup (nameTest env) names = .ok cols ∧
      ∃ parts : List (List Nat), cols.map (·.num) = parts.flatten ∧ parts.length = qs.length ∧
        ∀ x ∈ qs.zip parts, PositionsOf names x.1.accepts x.2

def samplePat (neg : Bool) (arg : String) : NamePat := ⟨(ascii "exact", fun p n => n = p), neg, ascii arg⟩

/-- `not` has no effect on names. -/
theorem C192_refuted : ¬ C192_statement := by
  intro h
  obtain ⟨c, cols, h1, h2, parts, h3, h4, h5⟩ := h MEnv.trivial [ascii "a", ascii "b"] [samplePat true "a"] (by simp)
    (by simp [samplePat, NamePat.WF, nameMethods]; decide)
  have e1 : ColumnSet.fromSpec MEnv.trivial (List.intercalate [44] ([samplePat true "a"].map NamePat.text)) =
      .ok ⟨[⟨ascii "(not.exact,a)", none⟩], [], [], []⟩ := by decide +kernel
  rw [e1] at h1
  cases h1
  have e2 : (ColumnSet.lookup (nameTest MEnv.trivial) ⟨[⟨ascii "(not.exact,a)", none⟩], [], [], []⟩ [ascii "a", ascii "b"]) =
      .ok [⟨0, [], none⟩] := by rfl
  rw [e2] at h2
  cases h2
  obtain ⟨p, rfl⟩ : ∃ p, parts = [p] := List.length_eq_one_iff.1 h4
  simp only [List.map_cons, List.map_nil, List.flatten_singleton] at h3
  subst h3
  have := ((h5 (samplePat true "a", [0]) (by simp)).2 0).1 (by simp)
  obtain ⟨n, hn, hx⟩ := this
  simp at hn
  subst hn
  exact hx rfl

/-- After a pattern no comma may follow, and a pattern that is not at the beginning is cut at its comma. -/
theorem C192_comma (env : MEnv) :
    ((ColumnSet.fromSpec env (ascii "(exact,a),(exact,b)")).bind fun c => c.lookup (nameTest env) [ascii "a", ascii "b"]) = .err ∧
    ((ColumnSet.fromSpec env (ascii "~(exact,a)")).bind fun c => c.lookup (nameTest env) [ascii "a", ascii "b"]) = .err := by
  constructor <;> rfl

/-! ### Patterns written one after the other -/

theorem nameMethods_free : ∀ m ∈ nameMethods, ∀ x ∈ m.1, x ≠ 40 ∧ x ≠ 41 ∧ x ≠ 43 ∧ x ≠ 58 ∧ x ≠ 44 ∧ x < 128 := by
  intro m hm
  simp only [nameMethods, List.mem_cons, List.not_mem_nil, or_false] at hm
  rcases hm with rfl | rfl | rfl | rfl <;> decide

theorem inner_free (q : NamePat) (h : q.WF) : 40 ∉ q.inner ∧ 41 ∉ q.inner ∧ 43 ∉ q.inner ∧ 58 ∉ q.inner := by
  obtain ⟨h1, h2, h3, h4, h5⟩ := h
  have hf := nameMethods_free _ h1
  have hn : ∀ x : UInt8, (x = 40 ∨ x = 41 ∨ x = 43 ∨ x = 58) → x ∉ q.arg → x ∉ q.inner := by
    intro x hx ha hm
    simp only [NamePat.inner, List.mem_append, List.mem_cons] at hm
    rcases hm with (hm | hm) | hm | hm
    · split at hm
      · rcases hx with rfl | rfl | rfl | rfl <;> exact absurd hm (by decide)
      · simp at hm
    · have := hf x hm
      rcases hx with rfl | rfl | rfl | rfl <;> simp at this
    · subst hm; revert hx; decide
    · exact ha hm
  exact ⟨hn _ (by simp) h2, hn _ (by simp) h3, hn _ (by simp) h4, hn _ (by simp) h5⟩

theorem findCloseLoop_pat (t rest : Bytes) (i : Nat) (h1 : 40 ∉ t) (h2 : 41 ∉ t) :
    findCloseLoop 40 41 (t ++ 41 :: rest) i 1 = some (i + t.length + 1) := by
  induction t generalizing i with
  | nil => simp [findCloseLoop]
  | cons x t ih =>
    simp only [List.mem_cons, not_or] at h1 h2
    simp only [List.cons_append, findCloseLoop, Ne.symm h1.1, Ne.symm h2.1, if_false]
    rw [if_neg (by decide), ih (i + 1) h1.2 h2.2]
    simp; omega

theorem findClose_text (q : NamePat) (h : q.WF) (rest : Bytes) : findClose (q.text ++ rest) = some q.text.length := by
  obtain ⟨h1, h2, -, -⟩ := inner_free q h
  have : findClose (q.text ++ rest) = findCloseLoop 40 41 (q.text ++ rest) 0 0 := rfl
  rw [this]
  show findCloseLoop 40 41 (40 :: (q.inner ++ [41] ++ rest)) 0 0 = _
  simp only [findCloseLoop, if_true]
  rw [if_neg (by decide), List.append_assoc, List.singleton_append, Int.zero_add, findCloseLoop_pat _ _ _ h1 h2]
  simp [NamePat.text]; omega

theorem findTransLoop_noPlus (s seen : Bytes) (h : 43 ∉ s) : findTransLoop seen false s = none := by
  induction s generalizing seen with
  | nil => rfl
  | cons x s ih =>
    simp only [List.mem_cons, not_or] at h
    have : (x == 43) = false := by simpa using Ne.symm h.1
    simp only [findTransLoop, this]
    exact ih _ h.2

theorem addLoop_pats (qs : List NamePat) (h : ∀ q ∈ qs, q.WF) (q : NamePat) (hq : q.WF) (fuel : Nat) (hf : (qs.flatMap NamePat.text).length < fuel)
    (c : ColumnSet) : ColumnSet.addLoop false none (fuel + 1) c (q.text ++ qs.flatMap NamePat.text) =
      .ok { c with pos := c.pos ++ ((q :: qs).map fun q => ⟨q.text, none⟩) } := by
  induction qs generalizing q c fuel with
  | nil =>
    have := findClose_text q hq []
    rw [List.append_nil] at this
    simp only [List.flatMap_nil, List.append_nil]
    unfold ColumnSet.addLoop
    show (if (40 : UInt8) = 40 then _ else _) = _
    rw [if_pos rfl, this]
    simp only [List.take_length, List.drop_length, if_true]
    rfl
  | cons r qs ih =>
    obtain ⟨g, rfl⟩ : ∃ g, fuel = g + 1 := ⟨fuel - 1, by omega⟩
    have hr := h r (by simp)
    have ih' := ih (fun x hx => h x (by simp [hx])) r hr g
      (by simp only [List.flatMap_cons, List.length_append] at hf
          have : 0 < r.text.length := by simp [NamePat.text]
          omega)
      (c.addOne q.text false none)
    have hfc := findClose_text q hq ((r :: qs).flatMap NamePat.text)
    unfold ColumnSet.addLoop
    show (if (40 : UInt8) = 40 then _ else _) = _
    rw [if_pos rfl, hfc]
    simp only [List.take_left', List.drop_left']
    rw [if_neg (by simp [NamePat.text])]
    rw [List.flatMap_cons, ih']
    simp [ColumnSet.addOne, NamePat.text]

theorem nameTest_pat (env : MEnv) (q : NamePat) (h : q.WF) :
    ∃ t, nameTest env q.inner = .ok t ∧ ∀ n, t n = true ↔ q.entry.2 q.arg n := by
  obtain ⟨e, neg, p⟩ := q
  have hm := h.1
  have hc : 44 ∉ (if neg then ascii "not." else []) ++ e.1 := by
    intro hx
    rcases List.mem_append.1 hx with hx | hx
    · cases neg
      · simp at hx
      · exact absurd hx (by decide)
    · exact (nameMethods_free _ hm _ hx).2.2.2.2.1 rfl
  unfold nameTest Matcher.make
  rw [NamePat.inner, splitOnce_some 44 _ _ hc]
  simp only [nameMethods, List.mem_cons, List.not_mem_nil, or_false] at hm
  rcases hm with rfl | rfl | rfl | rfl
  · refine ⟨fun n => p == n, ?_, fun n => (beq_iff_eq (a := p) (b := n)).trans eq_comm⟩
    cases neg <;>
    · show Res.ok (fun s => (Res.ok (p == s) : Res Bool) == .ok true) = _
      congr 1; funext n; cases p == n <;> rfl
  · refine ⟨fun n => p.isPrefixOf n, ?_, fun n => by simp⟩
    cases neg <;>
    · show Res.ok (fun s => (Res.ok (p.isPrefixOf s) : Res Bool) == .ok true) = _
      congr 1; funext n; cases p.isPrefixOf n <;> rfl
  · refine ⟨fun n => p.isSuffixOf n, ?_, fun n => by simp⟩
    cases neg <;>
    · show Res.ok (fun s => (Res.ok (p.isSuffixOf s) : Res Bool) == .ok true) = _
      congr 1; funext n; cases p.isSuffixOf n <;> rfl
  · refine ⟨fun n => hasInfix p n, ?_, fun n => by simp [hasInfix_iff]⟩
    cases neg <;>
    · show Res.ok (fun s => (Res.ok (hasInfix p s) : Res Bool) == .ok true) = _
      congr 1; funext n; cases hasInfix p n <;> rfl

/-- The positions a test accepts. -/
theorem positions_filter (names : List Bytes) (t : Bytes → Bool) (ok : Bytes → Prop) (h : ∀ n, t n = true ↔ ok n) :
    PositionsOf names ok ((names.zipIdx.filter fun f => t f.1).map (·.2)) := by
  constructor
  · rw [List.pairwise_map]
    refine List.Pairwise.filter _ ?_
    have := List.pairwise_lt_range' (s := 0) (n := names.length)
    rw [← List.zipIdx_map_snd 0 names, List.pairwise_map] at this
    exact this
  · intro i
    simp only [List.mem_map, List.mem_filter, Prod.exists, exists_and_right, exists_eq_right]
    constructor
    · rintro ⟨n, hn, ht⟩
      exact ⟨n, (List.mem_zipIdx_iff_getElem?).1 hn, (h n).1 ht⟩
    · rintro ⟨n, hn, ho⟩
      exact ⟨n, (List.mem_zipIdx_iff_getElem?).2 hn, (h n).2 ho⟩

theorem range_pat (env : MEnv) (names : List Bytes) (q : NamePat) (h : q.WF) :
    ∃ is, range (nameTest env) names q.text = .ok (toOutcols is []) ∧ PositionsOf names (q.entry.2 q.arg) is := by
  obtain ⟨t, ht, hk⟩ := nameTest_pat env q h
  refine ⟨_, ?_, positions_filter names t _ hk⟩
  have h58 : 58 ∉ q.text := by
    have := (inner_free q h).2.2.2
    simp [NamePat.text, this]
  have hs : nameSplit q.text = ([], q.text) := by
    unfold nameSplit
    rw [splitOnce_none 58 _ h58]
    rfl
  unfold range
  rw [if_neg (by simp [NamePat.text]), hs]
  show (if (40 : UInt8) = 40 then _ else _) = _
  rw [if_pos rfl, show List.append q.inner [41] = q.inner ++ [41] from rfl]
  have e : (q.inner ++ [41] : Bytes) ≠ [] := by simp
  have hcut : cutsChar (q.inner ++ [41]) ((q.inner ++ [41] : Bytes).length - 1) = false := by
    simp [cutsChar, isCont]
  rw [if_neg e, hcut, if_neg (by decide), List.dropLast_concat, matchRange, ht]
  rfl

/-- Patterns written directly one after the other choose the columns each of them accepts; `not` has no effect. Missing from the
statement: commas between the patterns, and `not`. -/
theorem C192_partial (env : MEnv) (names : List Bytes) (qs : List NamePat) (h0 : qs ≠ []) (h : ∀ q ∈ qs, q.WF) :
    ∃ c cols, ColumnSet.fromSpec env (qs.flatMap NamePat.text) = .ok c ∧ c.lookup (nameTest env) names = .ok cols ∧
      ∃ parts : List (List Nat), cols.map (·.num) = parts.flatten ∧ parts.length = qs.length ∧
        ∀ x ∈ qs.zip parts, PositionsOf names (x.1.entry.2 x.1.arg) x.2 := by
  obtain ⟨q, qs, rfl⟩ := List.exists_cons_of_ne_nil h0
  have hadd : ColumnSet.fromSpec env ((q :: qs).flatMap NamePat.text) = .ok ⟨(q :: qs).map fun q => ⟨q.text, none⟩, [], [], []⟩ := by
    unfold ColumnSet.fromSpec ColumnSet.add findTrans
    have h43 : 43 ∉ (q :: qs).flatMap NamePat.text := by
      intro hm
      obtain ⟨r, hr, hx⟩ := List.mem_flatMap.1 hm
      have := (inner_free r (h r hr)).2.2.1
      simp [NamePat.text, this] at hx
    rw [findTransLoop_noPlus _ _ h43]
    simp only
    rw [List.flatMap_cons, addLoop_pats qs (fun x hx => h x (by simp [hx])) q (h q (by simp))]
    · rfl
    · have : 0 < q.text.length := by simp [NamePat.text]
      simp only [List.length_append]
      omega
  refine ⟨⟨(q :: qs).map fun q => ⟨q.text, none⟩, [], [], []⟩, ?_⟩
  have hy : ∀ rs : List NamePat, (∀ q ∈ rs, q.WF) → ∃ cols, yesCols (nameTest env) names [] (rs.map fun q => ⟨q.text, none⟩) = .ok cols ∧
      ∃ parts : List (List Nat), cols.map (·.num) = parts.flatten ∧ parts.length = rs.length ∧
        ∀ x ∈ rs.zip parts, PositionsOf names (x.1.entry.2 x.1.arg) x.2 := by
    intro rs hrs
    induction rs with
    | nil => exact ⟨[], rfl, [], rfl, rfl, by simp⟩
    | cons r rs ih =>
      obtain ⟨cols, h1, parts, h2, h3, h4⟩ := ih fun x hx => hrs x (by simp [hx])
      obtain ⟨is, h5, h6⟩ := range_pat env names r (hrs r (by simp))
      refine ⟨(((toOutcols is []).filter fun x => !([] : List Nat).contains x.num).map fun x => { x with trans := none }) ++ cols, ?_,
        is :: parts, ?_, by simp [h3], ?_⟩
      · simp only [List.map_cons, yesCols, h5, h1, Res.bind_ok]
      · rw [List.map_append, h2]
        have : ∀ l : List OutCol, l.filter (fun x => !([] : List Nat).contains x.num) = l := fun l => List.filter_eq_self.2 (by simp)
        rw [this]
        simp [toOutcols, Function.comp_def]
      · intro x hx
        simp only [List.zip_cons_cons, List.mem_cons] at hx
        rcases hx with rfl | hx
        · exact h6
        · exact h4 x hx
  obtain ⟨cols, h1, h2⟩ := hy (q :: qs) h
  exact ⟨cols, hadd, h1, h2⟩

example : (samplePat false "a").WF := by
  refine ⟨?_, ?_⟩
  · simp [samplePat, nameMethods]
  · decide

end Cdx
