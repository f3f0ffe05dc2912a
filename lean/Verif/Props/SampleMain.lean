import Verif.Model.SampleMain
import Verif.Props.Sample
import Verif.Props.UniqMain

/-!
C203: the options of `sample`.
-/

namespace Cdx

/-- What `--for` asks for: one, two or three numbers, none of them 0. -/
def ForMeans (v : Bytes) (g : ForLoop) : Prop :=
  v ≠ [] ∧ g.by_ ≠ 0 ∧ g.from_ ≠ 0 ∧ g.to ≠ 0 ∧ ∃ ps : List Bytes, v = List.intercalate [44] ps ∧ (∀ p ∈ ps, (44 : UInt8) ∉ p) ∧
    ∃ ns : List Nat, ps.map toUsizeWhole = ns.map .ok ∧
      (ns = [g.by_] ∧ g.from_ = 1 ∧ g.to = usizeMax ∨ ns = [g.by_, g.from_] ∧ g.to = usizeMax ∨ ns = [g.by_, g.from_, g.to])

/-- What one option asks for. -/
def SampleMeans (o : Bytes × Bytes) (mode : SampleMode) : Prop :=
  (o.1 = ascii "for" ∧ ∃ g, ForMeans o.2 g ∧ mode = .loop g) ∨
  (o.1 = ascii "range" ∧ ∃ rs, (sliceSplit 44 o.2).map rangeParse = rs.map .ok ∧ mode = .range rs) ∨
  (o.1 = ascii "sample" ∧ ∃ n, toUsizeWhole o.2 = .ok n ∧ mode = .sample n)

theorem forMeans_iff (v : Bytes) (g : ForLoop) : ForLoop.parse v = .ok g ↔ ForMeans v g := by
  unfold ForLoop.parse ForMeans
  by_cases hv : v = []
  · simp [hv]
  rw [if_neg hv]
  have hsp : ∀ Q : List Bytes → Prop, (∃ ps : List Bytes, v = List.intercalate [44] ps ∧ (∀ p ∈ ps, (44 : UInt8) ∉ p) ∧ Q ps) ↔ Q (sliceSplit 44 v) := by
    intro Q
    constructor
    · rintro ⟨ps, h1, h2, h3⟩
      have hne : ps ≠ [] := by rintro rfl; exact hv h1
      rw [h1, sliceSplit_intercalate 44 ps hne h2]
      exact h3
    · intro h
      exact ⟨_, (intercalate_sliceSplit 44 v).symm, not_mem_sliceSplit 44 v, h⟩
  rw [hsp]
  generalize sliceSplit 44 v = ps
  simp only [ne_eq, hv, not_false_eq_true, true_and]
  match ps with
  | [] => simp
  | [a] =>
    simp only [bind_ok_iff, Res.ok.injEq, List.map_cons, List.map_nil]
    constructor
    · rintro ⟨f, ⟨x, h1, rfl⟩, h2⟩
      split at h2
      · cases h2
      · rename_i h
        cases h2
        exact ⟨fun e => h (.inl e), by simp, fun e => h (.inr (.inr e)), [x], by simp [h1], .inl ⟨rfl, rfl, rfl⟩⟩
    · rintro ⟨h1, h2, h3, ns, h4, ⟨rfl, h5, h6⟩ | ⟨rfl, h5⟩ | rfl⟩
      · refine ⟨g, ⟨g.by_, by simpa using h4, ?_⟩, by simp [h1, h2, h3]⟩
        cases g; simp_all
      · simp at h4
      · simp at h4
  | [a, b] =>
    simp only [bind_ok_iff, Res.ok.injEq, List.map_cons, List.map_nil]
    constructor
    · rintro ⟨f, ⟨x, h1, y, h2, rfl⟩, h3⟩
      split at h3
      · cases h3
      · rename_i h
        cases h3
        exact ⟨fun e => h (.inl e), fun e => h (.inr (.inl e)), fun e => h (.inr (.inr e)), [x, y], by simp [h1, h2], .inr (.inl ⟨rfl, rfl⟩)⟩
    · rintro ⟨h1, h2, h3, ns, h4, ⟨rfl, h5, h6⟩ | ⟨rfl, h5⟩ | rfl⟩
      · simp at h4
      · have h4 : toUsizeWhole a = .ok g.by_ ∧ toUsizeWhole b = .ok g.from_ := by simpa using h4
        refine ⟨g, ⟨g.by_, h4.1, g.from_, h4.2, ?_⟩, by simp [h1, h2, h3]⟩
        cases g; simp_all
      · simp at h4
  | a :: b :: c :: rest =>
    simp only [bind_ok_iff, List.map_cons]
    constructor
    · rintro ⟨f, ⟨x, h1, y, h2, z, h3, h4⟩, h5⟩
      split at h4
      · rename_i hr
        cases h4
        split at h5
        · cases h5
        · rename_i h
          cases h5
          exact ⟨fun e => h (.inl e), fun e => h (.inr (.inl e)), fun e => h (.inr (.inr e)), [x, y, z], by simp [h1, h2, h3, hr],
            .inr (.inr rfl)⟩
      · cases h4
    · rintro ⟨h1, h2, h3, ns, h4, ⟨rfl, h5, h6⟩ | ⟨rfl, h5⟩ | rfl⟩
      · simp at h4
      · simp at h4
      · have h4 : toUsizeWhole a = .ok g.by_ ∧ toUsizeWhole b = .ok g.from_ ∧ toUsizeWhole c = .ok g.to ∧ rest = [] := by simpa using h4
        exact ⟨g, ⟨g.by_, h4.1, g.from_, h4.2.1, g.to, h4.2.2.1, by rw [if_pos h4.2.2.2]⟩, by simp [h1, h2, h3]⟩

theorem rangesParse_map (ts : List Bytes) : ∀ rs : List (Nat × Nat), rangesParse ts = .ok rs ↔ ts.map rangeParse = rs.map .ok := by
  induction ts with
  | nil =>
    intro rs
    simp only [rangesParse, Res.ok.injEq, List.map_nil]
    constructor
    · rintro rfl; rfl
    · intro h; simpa using h
  | cons t ts ih =>
    intro rs
    simp only [rangesParse, bind_ok_iff, ih, Res.ok.injEq, List.map_cons]
    constructor
    · rintro ⟨r, h1, rs', h2, rfl⟩
      simp [h1, h2]
    · intro h
      cases rs with
      | nil => simp at h
      | cons r rs' =>
        simp only [List.map_cons, List.cons.injEq] at h
        exact ⟨r, h.1, rs', h.2, rfl⟩

theorem sampleOptions_seen (mode : SampleMode) (os : List (Bytes × Bytes)) (r : Option SampleMode) :
    sampleOptions (some mode) os = .ok r ↔ os = [] ∧ r = some mode := by
  cases os with
  | nil =>
    simp only [sampleOptions, Res.ok.injEq, true_and]
    exact eq_comm
  | cons o os =>
    simp only [sampleOptions, Option.isSome_some, if_true, reduceCtorEq, false_and, iff_false]
    repeat' split
    all_goals simp

/-- C203: at most one option can be given; without any, as many lines are sampled as the screen is high. -/
theorem C203_options (os : List (Bytes × Bytes)) (r : Option SampleMode) :
    sampleOptions none os = .ok r ↔ (os = [] ∧ r = none) ∨ ∃ o mode, os = [o] ∧ r = some mode ∧ SampleMeans o mode := by
  cases os with
  | nil =>
    simp only [sampleOptions, Res.ok.injEq, true_and, List.nil_eq, reduceCtorEq, false_and, exists_false, or_false]
    exact eq_comm
  | cons o os =>
    obtain ⟨n, v⟩ := o
    have d : ascii "for" ≠ ascii "range" ∧ ascii "for" ≠ ascii "sample" ∧ ascii "range" ≠ ascii "sample" := by decide
    have rhs : ((n, v) :: os = [] ∧ r = none ∨ ∃ o mode, (n, v) :: os = [o] ∧ r = some mode ∧ SampleMeans o mode) ↔
        ∃ mode, SampleMeans (n, v) mode ∧ os = [] ∧ r = some mode := by
      simp only [reduceCtorEq, false_and, false_or, List.cons.injEq]
      constructor
      · rintro ⟨o, mode, ⟨rfl, h1⟩, h2, h3⟩
        exact ⟨mode, h3, h1, h2⟩
      · rintro ⟨mode, h3, h1, h2⟩
        exact ⟨_, mode, ⟨rfl, h1⟩, h2, h3⟩
    rw [rhs]
    unfold sampleOptions SampleMeans
    by_cases h1 : n = ascii "for"
    · simp only [h1, if_true, Option.isSome_none, Bool.false_eq_true, if_false, bind_ok_iff, sampleOptions_seen, forMeans_iff, d.1, d.2.1, true_and,
        false_and, or_false]
      constructor
      · rintro ⟨g, h2, h3, h4⟩
        exact ⟨_, ⟨g, h2, rfl⟩, h3, h4⟩
      · rintro ⟨_, ⟨g, h2, rfl⟩, h3, h4⟩
        exact ⟨g, h2, h3, h4⟩
    by_cases h2 : n = ascii "range"
    · simp only [h2, d.1.symm, d.2.2, if_true, Option.isSome_none, Bool.false_eq_true, if_false, bind_ok_iff, sampleOptions_seen, rangesParse_map, true_and,
        false_and, or_false, false_or]
      constructor
      · rintro ⟨g, h2, h3, h4⟩
        exact ⟨_, ⟨g, h2, rfl⟩, h3, h4⟩
      · rintro ⟨_, ⟨g, h2, rfl⟩, h3, h4⟩
        exact ⟨g, h2, h3, h4⟩
    by_cases h3 : n = ascii "sample"
    · simp only [h3, d.2.1.symm, d.2.2.symm, if_true, Option.isSome_none, Bool.false_eq_true, if_false, bind_ok_iff, sampleOptions_seen, true_and,
        false_and, false_or]
      constructor
      · rintro ⟨g, h2, h3, h4⟩
        exact ⟨_, ⟨g, h2, rfl⟩, h3, h4⟩
      · rintro ⟨_, ⟨g, h2, rfl⟩, h3, h4⟩
        exact ⟨g, h2, h3, h4⟩
    simp [h1, h2, h3]

/-- C203: a second option is an error, whatever the first one was. -/
theorem C203_once (o o' : Bytes × Bytes) (os : List (Bytes × Bytes)) (mode : SampleMode) (h : SampleMeans o mode)
    (ho : o'.1 ∈ ["for", "range", "sample"].map ascii) : sampleOptions none (o :: o' :: os) = .err := by
  have key : ∀ n v mode, sampleOptions none [(n, v)] = .ok (some mode) → sampleOptions none ((n, v) :: o' :: os) = sampleOptions (some mode) (o' :: os) := by
    intro n v mode h
    obtain ⟨R, hR⟩ : ∃ R : List (Bytes × Bytes), R = o' :: os := ⟨_, rfl⟩
    rw [← hR]
    rw [sampleOptions] at h ⊢
    simp only [Option.isSome_none, Bool.false_eq_true, if_false] at h ⊢
    split at h
    · rename_i hn
      obtain ⟨g, h1, h2⟩ := Res.bind_eq_ok h
      simp only [sampleOptions, Res.ok.injEq, Option.some.injEq] at h2
      rw [if_pos hn, h1, Res.bind_ok, h2]
    rename_i hn
    rw [if_neg hn]
    split at h
    · rename_i hn
      obtain ⟨g, h1, h2⟩ := Res.bind_eq_ok h
      simp only [sampleOptions, Res.ok.injEq, Option.some.injEq] at h2
      rw [if_pos hn, h1, Res.bind_ok, h2]
    rename_i hn
    rw [if_neg hn]
    split at h
    · rename_i hn
      obtain ⟨g, h1, h2⟩ := Res.bind_eq_ok h
      simp only [sampleOptions, Res.ok.injEq, Option.some.injEq] at h2
      rw [if_pos hn, h1, Res.bind_ok, h2]
    · cases h
  obtain ⟨n, v⟩ := o
  rw [key n v mode ((C203_options _ _).2 (.inr ⟨_, _, rfl, rfl, h⟩))]
  obtain ⟨n', v'⟩ := o'
  have : n' = ascii "for" ∨ n' = ascii "range" ∨ n' = ascii "sample" := by simpa using ho
  have d : ascii "for" ≠ ascii "range" ∧ ascii "for" ≠ ascii "sample" ∧ ascii "range" ≠ ascii "sample" := by decide
  simp only [sampleOptions, Option.isSome_some, if_true]
  rcases this with rfl | rfl | rfl
  · rw [if_pos rfl]
  · rw [if_neg d.1.symm, if_pos rfl]
  · rw [if_neg d.2.1.symm, if_neg d.2.2.symm, if_pos rfl]

/-- C203: the lines written for `--range`, `--for` and `--sample`, in plain mode, if no file has only a header (see C59, C96, C97). -/
theorem C203_lines_partial (nameOk : Bytes → Bool) (height : Nat) (m : TextMode) (hm : m.col = .plain) (o : Bytes × Bytes) (mode : SampleMode)
    (ho : SampleMeans o mode) (H : Bytes) (files : List Bytes) (hH : FirstLineOk nameOk .matching (headLine H)) (hs : SameHeads m H files) :
    match mode with
    | .range rs => ∃ out, sampleMain nameOk height m [o] files = .ok out ∧ sampled m (.range rs) 0 H files out
    | .loop g => LoopFits m files (.loop g) → ∃ out, sampleMain nameOk height m [o] files = .ok out ∧ sampled m (.loop g) 0 H files out
    | .sample n => 3 ≤ n → n ≤ 2 ^ 24 → ∃ S : Bytes → List Bytes, (∀ f ∈ nonEmpty files, EvenSample n (dataOf m f) (S f)) ∧
      sampleMain nameOk height m [o] files =
        .ok ((if nonEmpty files ≠ [] then H else []) ++ ((nonEmpty files).map fun f => (S f).flatten).flatten) := by
  have e : sampleMain nameOk height m [o] files = sampleFiles nameOk m mode (.fromMode .matching) files := by
    unfold sampleMain
    rw [(C203_options [o] (some mode)).2 (.inr ⟨_, _, rfl, rfl, ho⟩), Res.bind_ok]
    rfl
  rw [e]
  cases mode with
  | range rs => exact C59_range_partial nameOk m hm rs H files hH hs
  | loop g => exact fun h => C96_for_partial nameOk m hm g H files hH hs h
  | sample n => exact fun h3 h4 => C97_sample_partial nameOk m hm n h3 h4 H files hH hs

/-- C203: without options. -/
theorem C203_default_partial (nameOk : Bytes → Bool) (height : Nat) (h3 : 3 ≤ height) (h4 : height ≤ 2 ^ 24) (m : TextMode) (hm : m.col = .plain)
    (H : Bytes) (files : List Bytes) (hH : FirstLineOk nameOk .matching (headLine H)) (hs : SameHeads m H files) :
    ∃ S : Bytes → List Bytes, (∀ f ∈ nonEmpty files, EvenSample height (dataOf m f) (S f)) ∧
      sampleMain nameOk height m [] files =
        .ok ((if nonEmpty files ≠ [] then H else []) ++ ((nonEmpty files).map fun f => (S f).flatten).flatten) :=
  C97_sample_partial nameOk m hm height h3 h4 H files hH hs

example : sampleMain (fun _ => true) 10 .default [(ascii "range", ascii "0-1,3")]
    [ascii " CDX\ta\n0\n1\n2\n3\n4\n", [], ascii " CDX\ta\n5\n6\n7\n"] = .ok (ascii " CDX\ta\n0\n1\n3\n5\n6\n") := by decide +kernel
example : sampleMain (fun _ => true) 10 .default [(ascii "for", ascii "2")] [ascii "a\nb\nc\nd\n"] = .ok (ascii "b\nd\n") := by decide +kernel
example : ForMeans (ascii "2,1k") ⟨2, 1000, usizeMax⟩ := (forMeans_iff _ _).1 (by decide +kernel)
example : sampleMain (fun _ => true) 3 .default [] [ascii "a\nb\nc\nd\n"] = sampleMain (fun _ => true) 10 .default [(ascii "sample", ascii "3")]
  [ascii "a\nb\nc\nd\n"] := by decide +kernel

end Cdx
