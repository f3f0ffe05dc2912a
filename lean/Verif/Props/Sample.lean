import Verif.Model.Sample
import Verif.Props.Paste
import Verif.Props.Sampler
import Verif.Props.ColumnOut
import Verif.Props.Parts

/-!
C59: ranges of lines. C96: lines at regular distances. C97: sampling several files. C98: texts of ranges.
-/

namespace Cdx

variable {m : TextMode}

/-- The lines with the wanted numbers, the first one having the number `k`. -/
def pickFrom (p : Nat → Bool) : (k : Nat) → List Bytes → List Bytes
  | _, [] => []
  | k, l :: ls => if p k then l :: pickFrom p (k + 1) ls else pickFrom p (k + 1) ls

/-- The number is in one of the ranges. -/
def inRanges (rs : List (Nat × Nat)) (i : Nat) : Bool := decide (∃ x ∈ rs, x.1 ≤ i ∧ i ≤ x.2)

/-- The number is one of `from`, `from + by` and so on, up to `to`. -/
def inLoop (f : ForLoop) (i : Nat) : Bool := decide (f.from_ ≤ i ∧ i ≤ f.to ∧ (i - f.from_) % f.by_ = 0)

theorem pickFrom_none (p : Nat → Bool) (L : List Bytes) : ∀ k, (∀ i, k ≤ i → p i = false) → pickFrom p k L = [] := by
  induction L with
  | nil => intro k _; rfl
  | cons l L ih =>
    intro k h
    rw [pickFrom, h k (Nat.le_refl _)]
    simp only [Bool.false_eq_true, if_false]
    exact ih (k + 1) fun i hi => h i (by omega)

/-- Line `k + i` is picked exactly if it is wanted. -/
theorem pickFrom_eq (p : Nat → Bool) (L : List Bytes) : ∀ k,
    pickFrom p k L = ((List.range L.length).filter fun i => p (k + i)).map fun i => L.getD i [] := by
  induction L with
  | nil => intro k; rfl
  | cons l L ih =>
    intro k
    have h := ih (k + 1)
    rw [List.length_cons, List.range_succ_eq_map, List.filter_cons, List.filter_map]
    have e : (fun i => p (k + i)) ∘ Nat.succ = fun i => p (k + 1 + i) := by
      funext i; simp only [Function.comp]; congr 1; omega
    rw [e, pickFrom]
    by_cases hp : p k = true
    · simp [hp, h, Function.comp_def]
    · simp [hp, h, Function.comp_def]

theorem getline_line (r : Reader) : r.getline.locLine = r.locLine + 1 := by
  unfold Reader.getline
  simp only
  split <;> rfl

theorem rangesMax_spec (rs : List (Nat × Nat)) : ∀ x ∈ rs, x.2 ≤ rangesMax rs := by
  have key : ∀ (rs : List (Nat × Nat)) (a : Nat), a ≤ rs.foldl (fun ret x => max ret x.2) a ∧
      ∀ x ∈ rs, x.2 ≤ rs.foldl (fun ret x => max ret x.2) a := by
    intro rs
    induction rs with
    | nil => intro a; simp
    | cons r rs ih =>
      intro a
      obtain ⟨h1, h2⟩ := ih (max a r.2)
      rw [List.foldl_cons]
      refine ⟨by omega, ?_⟩
      intro x hx
      rcases List.mem_cons.1 hx with rfl | hx
      · omega
      · exact h2 x hx
  exact (key rs 0).2

theorem rangesContains_spec (rs : List (Nat × Nat)) (i : Nat) : rangesContains rs i = inRanges rs i := by
  unfold rangesContains inRanges
  rw [Bool.eq_iff_iff]
  simp

theorem rangeLoop_spec (hm : m.col = .plain) (rs : List (Nat × Nat)) (L : List Bytes) :
    ∀ (fuel : Nat) (r : Reader) (t o : TextLine) (x : Bytes), L.length < fuel → View m false t o L r → Shows m false t x →
      o.orig = [] →
      rangeLoop rs (rangesMax rs) fuel r = .ok (pickFrom (inRanges rs) r.locLine (x :: L)).flatten := by
  induction L with
  | nil =>
    intro fuel r t o x hf hv ht ho
    obtain ⟨fuel, rfl⟩ : ∃ k, fuel = k + 1 := ⟨fuel - 1, by simp at hf; omega⟩
    unfold rangeLoop
    by_cases hl : r.locLine ≤ rangesMax rs
    · simp only [hl, if_true, hv.end_.1, hv.cur, ht.text, rangesContains_spec, pickFrom]
      cases inRanges rs r.locLine <;> simp
    · simp only [hl, if_false]
      rw [pickFrom_none]
      · rfl
      · intro i hi
        unfold inRanges
        simp only [decide_eq_false_iff_not, not_exists]
        intro y ⟨hy, h1, h2⟩
        have := rangesMax_spec rs y hy
        omega
  | cons l L ih =>
    intro fuel r t o x hf hv ht ho
    obtain ⟨fuel, rfl⟩ : ∃ k, fuel = k + 1 := ⟨fuel - 1, by simp at hf; omega⟩
    unfold rangeLoop
    by_cases hl : r.locLine ≤ rangesMax rs
    · have := ih fuel r.getline _ _ l (by simp at hf; omega) hv.next (putLine_shows (b := false) hm o ho l) ht.orig
      simp only [hl, if_true, hv.next.more, hv.cur, ht.text, rangesContains_spec, Bool.false_eq_true, if_false, this,
        Res.bind_ok, getline_line]
      rw [pickFrom.eq_2 (inRanges rs) r.locLine x]
      cases inRanges rs r.locLine <;> simp
    · simp only [hl, if_false]
      rw [pickFrom_none]
      · rfl
      · intro i hi
        unfold inRanges
        simp only [decide_eq_false_iff_not, not_exists]
        intro y ⟨hy, h1, h2⟩
        have := rangesMax_spec rs y hy
        omega

/-- The number that comes next, when the line `k` is looked at. -/
def IsNext (f : ForLoop) (k next : Nat) : Prop :=
  f.from_ ≤ next ∧ (next - f.from_) % f.by_ = 0 ∧ (k ≤ next) ∧ ∀ i, k ≤ i → i < next → ¬ (f.from_ ≤ i ∧ (i - f.from_) % f.by_ = 0)

theorem IsNext.pick {f : ForLoop} {k next : Nat} (h : IsNext f k next) (hk : k ≤ f.to) :
    inLoop f k = decide (k = next) := by
  obtain ⟨h1, h2, h3, h4⟩ := h
  unfold inLoop
  by_cases he : k = next
  · subst he; simp [h1, h2, hk]
  · have := h4 k (Nat.le_refl _) (by omega)
    simp only [he, decide_false, decide_eq_false_iff_not]
    rintro ⟨a, _, b⟩
    exact this ⟨a, b⟩

theorem IsNext.step {f : ForLoop} (hb : f.by_ ≠ 0) {k next : Nat} (h : IsNext f k next) :
    IsNext f (k + 1) (if k = next then next + f.by_ else next) := by
  obtain ⟨h1, h2, h3, h4⟩ := h
  by_cases he : k = next
  · subst he
    rw [if_pos rfl]
    refine ⟨by omega, ?_, by omega, ?_⟩
    · have : k + f.by_ - f.from_ = (k - f.from_) + f.by_ := by omega
      rw [this, Nat.add_mod_right, h2]
    · rintro i hi1 hi2 ⟨_, hi3⟩
      have e : i - f.from_ = (k - f.from_) + (i - k) := by omega
      rw [e, Nat.add_mod, h2, Nat.zero_add, Nat.mod_mod, Nat.mod_eq_of_lt (by omega)] at hi3
      omega
  · rw [if_neg he]
    exact ⟨h1, h2, by omega, fun i hi1 hi2 => h4 i (by omega) hi2⟩

theorem forLoop_spec (hm : m.col = .plain) (f : ForLoop) (hb : f.by_ ≠ 0) (L : List Bytes) :
    ∀ (fuel : Nat) (r : Reader) (t o : TextLine) (x : Bytes) (next : Nat), L.length < fuel → View m false t o L r →
      Shows m false t x → o.orig = [] → r.locLine + L.length + f.by_ ≤ usizeMax → IsNext f r.locLine next →
      forLoop f fuel next r = .ok (pickFrom (inLoop f) r.locLine (x :: L)).flatten := by
  have hbeyond : ∀ (k : Nat) (L : List Bytes), ¬ k ≤ f.to → pickFrom (inLoop f) k L = [] := by
    intro k L hk
    apply pickFrom_none
    intro i hi
    unfold inLoop
    simp only [decide_eq_false_iff_not]
    omega
  induction L with
  | nil =>
    intro fuel r t o x next hf hv ht ho hu hn
    obtain ⟨fuel, rfl⟩ : ∃ k, fuel = k + 1 := ⟨fuel - 1, by simp at hf; omega⟩
    unfold forLoop
    simp only [List.length_nil] at hu
    by_cases hl : r.locLine ≤ f.to
    · rw [if_pos hl, if_neg (by rintro ⟨h, h'⟩; omega)]
      simp only [hv.end_.1, if_true, hv.cur, ht.text, pickFrom, hn.pick hl]
      by_cases he : r.locLine = next <;> simp [he]
    · rw [if_neg hl, hbeyond _ _ hl]
      rfl
  | cons l L ih =>
    intro fuel r t o x next hf hv ht ho hu hn
    obtain ⟨fuel, rfl⟩ : ∃ k, fuel = k + 1 := ⟨fuel - 1, by simp at hf; omega⟩
    unfold forLoop
    simp only [List.length_cons] at hu
    by_cases hl : r.locLine ≤ f.to
    · have := ih fuel r.getline _ _ l (if r.locLine = next then next + f.by_ else next) (by simp at hf; omega) hv.next
        (putLine_shows (b := false) hm o ho l) ht.orig (by rw [getline_line]; omega) (by rw [getline_line]; exact hn.step hb)
      rw [if_pos hl, if_neg (by rintro ⟨h, h'⟩; omega)]
      simp only [hv.next.more, hv.cur, ht.text, Bool.false_eq_true, if_false, this, Res.bind_ok, getline_line]
      rw [pickFrom.eq_2 (inLoop f) r.locLine x, hn.pick hl]
      by_cases he : r.locLine = next <;> simp [he]
    · rw [if_neg hl, hbeyond _ _ hl]
      rfl

theorem smoothLoop_spec (hm : m.col = .plain) (L : List Bytes) :
    ∀ (fuel : Nat) (r : Reader) (t o : TextLine) (x : Bytes) (s : Smooth Bytes), L.length < fuel → View m false t o L r →
      Shows m false t x → o.orig = [] → smoothLoop fuel s r = Smooth.addAll (x :: L) s := by
  induction L with
  | nil =>
    intro fuel r t o x s hf hv ht ho
    obtain ⟨fuel, rfl⟩ : ∃ k, fuel = k + 1 := ⟨fuel - 1, by simp at hf; omega⟩
    unfold smoothLoop
    simp only [hv.end_.1, if_true, hv.cur, ht.text, Smooth.addAll]
  | cons l L ih =>
    intro fuel r t o x s hf hv ht ho
    obtain ⟨fuel, rfl⟩ : ∃ k, fuel = k + 1 := ⟨fuel - 1, by simp at hf; omega⟩
    have := fun s => ih fuel r.getline _ _ l s (by simp at hf; omega) hv.next (putLine_shows (b := false) hm o ho l) ht.orig
    unfold smoothLoop
    rw [Smooth.addAll]
    simp only [hv.next.more, hv.cur, ht.text, Bool.false_eq_true, if_false, this]

/-- The lines wanted of a file with the data lines `D`, the first of them having the number `k`. -/
def wanted (mode : SampleMode) (k : Nat) (D : List Bytes) : Res (List Bytes) :=
  match mode with
  | .sample n => smooth [] n D
  | .loop f => .ok (pickFrom (inLoop f) k D)
  | .range rs => .ok (pickFrom (inRanges rs) k D)

/-- A loop that cannot run over: the step is not zero, and the step and the number of lines fit into a machine word. -/
def LoopFits (m : TextMode) (files : List Bytes) : SampleMode → Prop
  | .loop f => f.by_ ≠ 0 ∧ ∀ g ∈ files, (dataOf m g).length + f.by_ ≤ usizeMax
  | _ => True

theorem open_line (f : Bytes) : ((Reader.newWith 1 m).open_ f).locLine = 0 := by
  unfold Reader.open_
  split
  · rfl
  · simp only
    split <;> rfl

theorem sampleFile_spec (hm : m.col = .plain) (mode : SampleMode) (f d : Bytes) (D : List Bytes) (hD : dataOf m f = d :: D)
    (hfit : LoopFits m [f] mode) :
    sampleFile mode ((Reader.newWith 1 m).open_ f) = (wanted mode 0 (dataOf m f)).bind fun l => .ok l.flatten := by
  cases hh : readHeader m f with
  | none => simp [dataOf, hh] at hD
  | some p =>
    obtain ⟨hd, rest⟩ := p
    have hD' : readLines m.col m.eol rest = d :: D := by simpa [dataOf, hh] using hD
    have hv0 := view_open m f hd rest d D hh hD'
    have hv := hv0.setSplit false
    have hlen : D.length < ((Reader.newWith 1 m).open_ f).file.length + 1 := by
      have := readLines_length m.col m.eol ((Reader.newWith 1 m).open_ f).file
      rw [hv0.file] at this
      omega
    have hloc : (((Reader.newWith 1 m).open_ f).setSplit false).locLine = 0 := open_line f
    have hfile : (((Reader.newWith 1 m).open_ f).setSplit false).file = ((Reader.newWith 1 m).open_ f).file := rfl
    unfold sampleFile wanted
    rw [hD]
    cases mode with
    | sample n =>
      simp only [hfile]
      rw [smoothLoop_spec hm D _ _ _ _ d _ hlen hv (decoded_shows hm d) rfl]
      unfold smooth
      cases Smooth.addAll (d :: D) (Smooth.new [] n) with
      | err => rfl
      | panic => rfl
      | ok s =>
        simp only [Res.bind_ok]
        cases s.collapse with
        | err => rfl
        | panic => rfl
        | ok s =>
          simp only [Res.bind_ok]
          split <;> rfl
    | loop g =>
      obtain ⟨h1, h2⟩ := hfit
      have h2 := h2 f (by simp)
      rw [hD] at h2
      simp only [hfile, Res.bind_ok]
      rw [forLoop_spec hm g h1 D _ _ _ _ d g.from_ hlen hv (decoded_shows hm d) rfl (by
        rw [hloc]
        simp only [List.length_cons] at h2
        omega) ⟨Nat.le_refl _, by simp, by rw [hloc]; omega, fun i _ h h' => by omega⟩, hloc]
    | range rs =>
      simp only [hfile, Res.bind_ok]
      rw [rangeLoop_spec hm rs D _ _ _ _ d hlen hv (decoded_shows hm d) rfl, hloc]

/-- What the checker is given for a file with the header `H`. -/
def headLine (H : Bytes) : Bytes := if H = [] then ascii "fake" else H

theorem sampleFiles_spec (nameOk : Bytes → Bool) (hm : m.col = .plain) (mode : SampleMode) (H : Bytes)
    (hH : FirstLineOk nameOk .matching (headLine H)) (S : Bytes → List Bytes) (files : List Bytes) (hs : SameHeads m H files)
    (hfit : LoopFits m files mode) (hS : ∀ f ∈ nonEmpty files, wanted mode 0 (dataOf m f) = .ok (S f)) :
    ∀ (chk : HeaderChecker), chk = .fromMode .matching ∨ chk = ⟨.matching, if isCdx (headLine H) then H else [], true⟩ →
      sampleFiles nameOk m mode chk files =
        .ok ((if chk.sawOne = false ∧ nonEmpty files ≠ [] then H else []) ++ ((nonEmpty files).map fun f => (S f).flatten).flatten) := by
  induction files with
  | nil => intro chk _; simp [sampleFiles, nonEmpty]
  | cons f fs ih =>
    intro chk hchk
    have hfit' : LoopFits m fs mode := by
      cases mode with
      | loop g => exact ⟨hfit.1, fun x hx => hfit.2 x (by simp [hx])⟩
      | sample => trivial
      | range => trivial
    by_cases hf : f = []
    · subst hf
      have e1 : nonEmpty ([] :: fs) = nonEmpty fs := by simp [nonEmpty]
      have e3 : ((Reader.newWith 1 m).open_ []).isEmpty = true := by simp [Reader.open_, readHeader]
      rw [sampleFiles]
      simp only [e3, if_true]
      rw [e1] at hS ⊢
      exact ih (by unfold SameHeads at hs ⊢; rwa [e1] at hs) hfit' hS chk hchk
    · have e1 : nonEmpty (f :: fs) = f :: nonEmpty fs := by simp [nonEmpty, hf]
      have hs' : SameHeads m H fs := by
        intro g hg
        exact hs g (by rw [e1]; simp [hg])
      rw [e1] at hS
      have ih := ih hs' hfit' fun g hg => hS g (by simp [hg])
      obtain ⟨rest, h1, h2⟩ := hs f (by rw [e1]; simp)
      obtain ⟨d, D, hD⟩ : ∃ d D, readLines m.col m.eol rest = d :: D := by
        cases hx : readLines m.col m.eol rest with
        | nil => exact absurd hx h2
        | cons d D => exact ⟨d, D, rfl⟩
      have hdata : dataOf m f = d :: D := by simp [dataOf, h1, hD]
      obtain ⟨f1, f2, f3, f4⟩ : ((Reader.newWith 1 m).open_ f).isEmpty = false ∧ ((Reader.newWith 1 m).open_ f).header = H ∧
          ((Reader.newWith 1 m).open_ f).hasHeader = !H.isEmpty ∧ ((Reader.newWith 1 m).open_ f).isDone = false :=
        newOpen_fields m f H rest h1 h2
      have hfile := sampleFile_spec hm mode f d D hdata (by
        cases mode with
        | loop g => exact ⟨hfit.1, fun x hx => hfit.2 x (by simp at hx; simp [hx])⟩
        | sample => trivial
        | range => trivial)
      rw [hS f (by simp)] at hfile
      simp only [Res.bind_ok] at hfile
      have hin : (if (!H.isEmpty) = true then H else [102, 97, 107, 101]) = headLine H := by
        unfold headLine
        cases H with
        | nil => rfl
        | cons _ _ => rfl
      have hchk' : chk.checkFile nameOk ((Reader.newWith 1 m).open_ f) =
          some (⟨.matching, if isCdx (headLine H) then H else [], true⟩, !H.isEmpty && !chk.sawOne) := by
        unfold HeaderChecker.checkFile
        rw [f2, f3, hin]
        have hc : isCdx (headLine H) = true → headLine H = H ∧ H ≠ [] := by
          unfold headLine
          split
          · intro h; exact absurd h (by decide)
          · intro _; exact ⟨rfl, by assumption⟩
        rcases hchk with rfl | rfl
        · rw [check_first hH]
          by_cases h : isCdx (headLine H) = true
          · obtain ⟨a, b⟩ := hc h
            rw [a] at h
            simp [a, h, b]
          · simp [h]
        · rw [check_later rfl hH]
          by_cases h : isCdx (headLine H) = true
          · obtain ⟨a, b⟩ := hc h
            rw [a] at h
            simp [a, h, b]
          · simp [h]
      rw [sampleFiles]
      simp only [f1, Bool.false_eq_true, if_false, hchk', f4, hfile, Res.bind_ok, f2]
      rw [ih _ (Or.inr rfl), e1]
      cases chk.sawOne <;> cases H <;> simp

/-- The header of the files, and the wanted lines of each, the first data line having the number `k`. -/
def sampled (m : TextMode) (mode : SampleMode) (k : Nat) (H : Bytes) (files : List Bytes) (out : Bytes) : Prop :=
  ∃ S : Bytes → List Bytes, (∀ f ∈ nonEmpty files, wanted mode k (dataOf m f) = .ok (S f)) ∧
    out = (if nonEmpty files ≠ [] then H else []) ++ ((nonEmpty files).map fun f => (S f).flatten).flatten

/-- Full statement: the lines of all files in the ranges are written, lines being counted from 1. -/
def C59_statement : Prop :=
  ∀ (nameOk : Bytes → Bool) (m : TextMode) (rs : List (Nat × Nat)) (H : Bytes) (files : List Bytes),
    FirstLineOk nameOk .matching (headLine H) → (∀ f ∈ nonEmpty files, ∃ rest, readHeader m f = some (H, rest)) →
    ∃ out, sampleFiles nameOk m (.range rs) (.fromMode .matching) files = .ok out ∧ sampled m (.range rs) 1 H files out

/-- Holds in plain mode with lines counted from 0, if no file has only a header. -/
theorem C59_range_partial (nameOk : Bytes → Bool) (m : TextMode) (hm : m.col = .plain) (rs : List (Nat × Nat)) (H : Bytes)
    (files : List Bytes) (hH : FirstLineOk nameOk .matching (headLine H)) (hs : SameHeads m H files) :
    ∃ out, sampleFiles nameOk m (.range rs) (.fromMode .matching) files = .ok out ∧ sampled m (.range rs) 0 H files out := by
  refine ⟨_, sampleFiles_spec nameOk hm (.range rs) H hH (fun f => pickFrom (inRanges rs) 0 (dataOf m f)) files hs trivial
    (fun _ _ => rfl) _ (Or.inl rfl), _, fun _ _ => rfl, ?_⟩
  simp [HeaderChecker.fromMode]

/-- Line 1 is the second line. -/
theorem C59_refuted : ¬ C59_statement := by
  intro h
  obtain ⟨out, h1, S, h2, h3⟩ := h (fun _ => true) .default [(1, 1)] [] [ascii "a\nb\n"] (by unfold FirstLineOk; decide +kernel)
    (by intro f hf
        have : f = ascii "a\nb\n" := by
          have hx : f ∈ nonEmpty [ascii "a\nb\n"] := hf
          revert hx
          simp +decide [nonEmpty]
        subst this
        exact ⟨_, rfl⟩)
  have e1 : sampleFiles (fun _ => true) .default (.range [(1, 1)]) (.fromMode .matching) [ascii "a\nb\n"] = .ok (ascii "b\n") := by
    decide +kernel
  rw [e1] at h1
  have hne : nonEmpty [ascii "a\nb\n"] = [ascii "a\nb\n"] := by decide +kernel
  rw [hne] at h2 h3
  have := h2 _ (List.mem_singleton.2 rfl)
  have e2 : wanted (.range [(1, 1)]) 1 (dataOf .default (ascii "a\nb\n")) = .ok [ascii "a\n"] := by decide +kernel
  rw [e2] at this
  have hS : S (ascii "a\nb\n") = [ascii "a\n"] := (Res.ok.inj this).symm
  rw [← Res.ok.inj h1] at h3
  simp only [List.map_cons, List.map_nil, hS] at h3
  exact absurd h3 (by decide +kernel)

/-- A file with a header only ends the command. -/
theorem C59_refuted_header :
    sampleFiles (fun _ => true) .default (.range [(0, 9)]) (.fromMode .matching) [ascii " CDX\ta\n", ascii " CDX\ta\n1\n"] =
      .ok (ascii " CDX\ta\n") := by decide +kernel

/-- In quoted mode the lines are not split any more, and old ones are written. -/
theorem C59_refuted_quote :
    sampleFiles (fun _ => true) { TextMode.default with col := .quote } (.range [(0, 9)]) (.fromMode .matching)
      [ascii "1\n2\n3\n"] = .ok (ascii "1\n2\n1\n") := by decide +kernel

/-- Exactly the lines in the ranges are picked, in order. -/
theorem C59_picked (rs : List (Nat × Nat)) (D : List Bytes) :
    pickFrom (inRanges rs) 0 D =
      ((List.range D.length).filter fun i => decide (∃ x ∈ rs, x.1 ≤ i ∧ i ≤ x.2)).map fun i => D.getD i [] := by
  rw [pickFrom_eq]
  simp only [inRanges, Nat.zero_add]

example : sampleFiles (fun _ => true) .default (.range [(0, 1), (3, 3)]) (.fromMode .matching)
    [ascii " CDX\ta\n0\n1\n2\n3\n4\n", [], ascii " CDX\ta\n5\n6\n7\n"] =
      .ok (ascii " CDX\ta\n0\n1\n3\n5\n6\n") := by decide +kernel

/-- Full statement: the wanted lines of all files are written, lines being counted from 1. -/
def C96_statement : Prop :=
  ∀ (nameOk : Bytes → Bool) (m : TextMode) (g : ForLoop) (H : Bytes) (files : List Bytes), g.by_ ≠ 0 →
    FirstLineOk nameOk .matching (headLine H) → (∀ f ∈ nonEmpty files, ∃ rest, readHeader m f = some (H, rest)) →
    ∃ out, sampleFiles nameOk m (.loop g) (.fromMode .matching) files = .ok out ∧ sampled m (.loop g) 1 H files out

/-- Holds in plain mode with lines counted from 0, if no file has only a header and the step is not huge. -/
theorem C96_for_partial (nameOk : Bytes → Bool) (m : TextMode) (hm : m.col = .plain) (g : ForLoop) (H : Bytes)
    (files : List Bytes) (hH : FirstLineOk nameOk .matching (headLine H)) (hs : SameHeads m H files)
    (hfit : LoopFits m files (.loop g)) :
    ∃ out, sampleFiles nameOk m (.loop g) (.fromMode .matching) files = .ok out ∧ sampled m (.loop g) 0 H files out := by
  refine ⟨_, sampleFiles_spec nameOk hm (.loop g) H hH (fun f => pickFrom (inLoop g) 0 (dataOf m f)) files hs hfit
    (fun _ _ => rfl) _ (Or.inl rfl), _, fun _ _ => rfl, ?_⟩
  simp [HeaderChecker.fromMode]

/-- Line 1 is the second line. -/
theorem C96_refuted : ¬ C96_statement := by
  intro h
  obtain ⟨out, h1, S, h2, h3⟩ := h (fun _ => true) .default ⟨1, 1, 1⟩ [] [ascii "a\nb\n"] (by decide)
    (by unfold FirstLineOk; decide +kernel)
    (by intro f hf
        have : f = ascii "a\nb\n" := by
          have hx : f ∈ nonEmpty [ascii "a\nb\n"] := hf
          revert hx
          simp +decide [nonEmpty]
        subst this
        exact ⟨_, rfl⟩)
  have e1 : sampleFiles (fun _ => true) .default (.loop ⟨1, 1, 1⟩) (.fromMode .matching) [ascii "a\nb\n"] = .ok (ascii "b\n") := by
    decide +kernel
  rw [e1] at h1
  have hne : nonEmpty [ascii "a\nb\n"] = [ascii "a\nb\n"] := by decide +kernel
  rw [hne] at h2 h3
  have := h2 _ (List.mem_singleton.2 rfl)
  have e2 : wanted (.loop ⟨1, 1, 1⟩) 1 (dataOf .default (ascii "a\nb\n")) = .ok [ascii "a\n"] := by decide +kernel
  rw [e2] at this
  have hS : S (ascii "a\nb\n") = [ascii "a\n"] := (Res.ok.inj this).symm
  rw [← Res.ok.inj h1] at h3
  simp only [List.map_cons, List.map_nil, hS] at h3
  exact absurd h3 (by decide +kernel)

/-- A huge step makes the number of the next line overflow. -/
theorem C96_refuted_overflow :
    sampleFiles (fun _ => true) .default (.loop ⟨usizeMax, 1, usizeMax⟩) (.fromMode .matching) [ascii "a\nb\nc\n"] = .panic := by
  decide +kernel

/-- A loop read from the command line has no zero in it, so the very first line is never written. -/
theorem C96_never_first (spec : Bytes) (g : ForLoop) (h : ForLoop.parse spec = .ok g) : g.by_ ≠ 0 ∧ inLoop g 0 = false := by
  have hg : g.by_ ≠ 0 ∧ g.from_ ≠ 0 := by
    unfold ForLoop.parse at h
    split at h
    · cases h
    · obtain ⟨f, _, h⟩ := Res.bind_eq_ok h
      split at h
      · cases h
      · cases h
        omega
  refine ⟨hg.1, ?_⟩
  have : ¬ g.from_ ≤ 0 := by omega
  simp [inLoop, this]

example : ForLoop.parse (ascii "2,1,5") = .ok ⟨2, 1, 5⟩ := by decide +kernel
example : sampleFiles (fun _ => true) .default (.loop ⟨2, 1, 5⟩) (.fromMode .matching)
    [ascii " CDX\ta\n0\n1\n2\n3\n4\n", [], ascii " CDX\ta\n5\n6\n7\n"] =
      .ok (ascii " CDX\ta\n1\n3\n6\n") := by decide +kernel

/-- What is asked of a sample of at most `n` lines of one file. -/
def EvenSample (n : Nat) (D out : List Bytes) : Prop :=
  out.Sublist D ∧ out.length = min n D.length ∧ out.head? = D.head? ∧ out.getLast? = D.getLast? ∧ (D.length ≤ n → out = D)

/-- Full statement: the output is the header, and a sample of the given size from each file. -/
def C97_statement : Prop :=
  ∀ (nameOk : Bytes → Bool) (m : TextMode) (n : Nat) (H : Bytes) (files : List Bytes),
    FirstLineOk nameOk .matching (headLine H) → (∀ f ∈ nonEmpty files, ∃ rest, readHeader m f = some (H, rest)) →
    ∃ S : Bytes → List Bytes, (∀ f ∈ nonEmpty files, EvenSample n (dataOf m f) (S f)) ∧
      sampleFiles nameOk m (.sample n) (.fromMode .matching) files =
        .ok ((if nonEmpty files ≠ [] then H else []) ++ ((nonEmpty files).map fun f => (S f).flatten).flatten)

/-- Holds in plain mode for sizes from 3 to 2^24, if no file has only a header. -/
theorem C97_sample_partial (nameOk : Bytes → Bool) (m : TextMode) (hm : m.col = .plain) (n : Nat) (h3 : 3 ≤ n) (h4 : n ≤ 2 ^ 24)
    (H : Bytes) (files : List Bytes) (hH : FirstLineOk nameOk .matching (headLine H)) (hs : SameHeads m H files) :
    ∃ S : Bytes → List Bytes, (∀ f ∈ nonEmpty files, EvenSample n (dataOf m f) (S f)) ∧
      sampleFiles nameOk m (.sample n) (.fromMode .matching) files =
        .ok ((if nonEmpty files ≠ [] then H else []) ++ ((nonEmpty files).map fun f => (S f).flatten).flatten) := by
  have key : ∀ f : Bytes, ∃ out, smooth [] n (dataOf m f) = .ok out ∧ EvenSample n (dataOf m f) out := fun f => by
    obtain ⟨out, h, h'⟩ := C32_smooth_partial ([] : Bytes) n h3 h4 (dataOf m f)
    exact ⟨out, h, h'⟩
  refine ⟨fun f => (key f).choose, fun f _ => (key f).choose_spec.2, ?_⟩
  have := sampleFiles_spec nameOk hm (.sample n) H hH (fun f => (key f).choose) files hs trivial
    (fun f _ => (key f).choose_spec.1) (.fromMode .matching) (Or.inl rfl)
  simpa [HeaderChecker.fromMode] using this

/-- The file after one with a header only is not looked at. -/
theorem C97_refuted : ¬ C97_statement := by
  intro h
  obtain ⟨S, h1, h2⟩ := h (fun _ => true) .default 3 (ascii " CDX\ta\n") [ascii " CDX\ta\n", ascii " CDX\ta\n1\n"]
    (by unfold FirstLineOk; decide +kernel)
    (by intro f hf
        have hne : nonEmpty [ascii " CDX\ta\n", ascii " CDX\ta\n1\n"] = [ascii " CDX\ta\n", ascii " CDX\ta\n1\n"] := by decide +kernel
        rw [hne] at hf
        rcases List.mem_cons.1 hf with rfl | hf
        · exact ⟨[], by decide +kernel⟩
        · rcases List.mem_singleton.1 hf with rfl
          exact ⟨ascii "1\n", by decide +kernel⟩)
  have hne : nonEmpty [ascii " CDX\ta\n", ascii " CDX\ta\n1\n"] = [ascii " CDX\ta\n", ascii " CDX\ta\n1\n"] := by decide +kernel
  rw [hne] at h1 h2
  have e := (h1 (ascii " CDX\ta\n1\n") (by simp)).2.1
  have e' : (dataOf .default (ascii " CDX\ta\n1\n")) = [ascii "1\n"] := by decide +kernel
  have e2 := (h1 (ascii " CDX\ta\n1\n") (by simp)).2.2.2.2
  rw [e'] at e2
  have e2 := e2 (by decide)
  have e1 : sampleFiles (fun _ => true) .default (.sample 3) (.fromMode .matching) [ascii " CDX\ta\n", ascii " CDX\ta\n1\n"] =
      .ok (ascii " CDX\ta\n") := by decide +kernel
  rw [e1] at h2
  have h2 := congrArg List.length (Res.ok.inj h2)
  simp only [List.map_cons, List.map_nil, e2, List.length_append, List.flatten_cons, List.flatten_nil] at h2
  have l1 : (ascii " CDX\ta\n").length = 7 := by decide +kernel
  have l2 : (ascii "1\n").length = 2 := by decide +kernel
  simp [l1, l2] at h2

example : sampleFiles (fun _ => true) .default (.sample 3) (.fromMode .matching)
    [ascii " CDX\ta\n0\n1\n2\n3\n4\n", ascii " CDX\ta\n5\n6\n"] =
      .ok (ascii " CDX\ta\n0\n3\n4\n5\n6\n") := by decide +kernel

/-- A number is written with digits, and fits into a machine word. -/
def IsLineNumber (t : Bytes) (n : Nat) : Prop := t ≠ [] ∧ (∀ c ∈ t, Digit c) ∧ decVal t = n ∧ n < 2 ^ 64

/-- A range is written as one number, or as two with a dash in between. -/
inductive RangeText : Bytes → Nat × Nat → Prop
  | one {t : Bytes} {n : Nat} : IsLineNumber t n → RangeText t (n, n)
  | two {s t : Bytes} {a b : Nat} : IsLineNumber s a → IsLineNumber t b → RangeText (s ++ 45 :: t) (a, b)

/-- Ranges are written one by one, with commas in between. -/
inductive RangeTexts : List Bytes → List (Nat × Nat) → Prop
  | nil : RangeTexts [] []
  | cons {t : Bytes} {r : Nat × Nat} {ts : List Bytes} {rs : List (Nat × Nat)} :
      RangeText t r → RangeTexts ts rs → RangeTexts (t :: ts) (r :: rs)

/-- Full statement: exactly the texts of ranges are accepted. -/
def C98_statement : Prop :=
  ∀ (ts : List Bytes) (rs : List (Nat × Nat)), ts ≠ [] → (∀ t ∈ ts, 44 ∉ t) →
    (rangesParse (sliceSplit 44 (List.intercalate [44] ts)) = .ok rs ↔ RangeTexts ts rs)

theorem IsLineNumber.free {t : Bytes} {n : Nat} (h : IsLineNumber t n) (d : UInt8) (hd : ¬ Digit d) : d ∉ t := fun hm => hd (h.2.1 d hm)

theorem rangeParse_text {t : Bytes} {r : Nat × Nat} (h : RangeText t r) : rangeParse t = .ok r := by
  cases h with
  | one h =>
    obtain ⟨h1, h2, h3, h4⟩ := h
    unfold rangeParse
    rw [splitOnce_none 45 t fun hm => absurd (h2 _ hm) (by unfold Digit; decide)]
    simp only
    rw [digits_whole t h1 h2 (by omega), h3]
    rfl
  | @two s t a b hs ht =>
    obtain ⟨h1, h2, h3, h4⟩ := hs
    obtain ⟨k1, k2, k3, k4⟩ := ht
    unfold rangeParse
    rw [splitOnce_some 45 s t fun hm => absurd (h2 _ hm) (by unfold Digit; decide)]
    simp only
    rw [digits_whole s h1 h2 (by omega), digits_whole t k1 k2 (by omega), h3, k3]
    rfl

theorem rangesParse_texts {ts : List Bytes} {rs : List (Nat × Nat)} (h : RangeTexts ts rs) : rangesParse ts = .ok rs := by
  induction h with
  | nil => rfl
  | cons h _ ih => simp [rangesParse, rangeParse_text h, ih]

theorem RangeText.free {t : Bytes} {r : Nat × Nat} (h : RangeText t r) : 44 ∉ t := by
  cases h with
  | one h => exact h.free 44 (by unfold Digit; decide)
  | two hs ht =>
    have h1 := hs.free 44 (by unfold Digit; decide)
    have h2 := ht.free 44 (by unfold Digit; decide)
    simp [h1, h2]

theorem RangeTexts.free {ts : List Bytes} {rs : List (Nat × Nat)} (h : RangeTexts ts rs) : ∀ t ∈ ts, 44 ∉ t := by
  induction h with
  | nil => simp
  | cons h _ ih =>
    intro t ht
    rcases List.mem_cons.1 ht with rfl | ht
    · exact h.free
    · exact ih t ht

/-- Texts of ranges are read back. -/
theorem C98_read_partial {ts : List Bytes} {rs : List (Nat × Nat)} (hne : ts ≠ []) (h : RangeTexts ts rs) :
    rangesParse (sliceSplit 44 (List.intercalate [44] ts)) = .ok rs := by
  rw [sliceSplit_intercalate 44 ts hne h.free]
  exact rangesParse_texts h

/-- Every list of ranges can be written and read back. -/
theorem C98_round (rs : List (Nat × Nat)) (hne : rs ≠ []) (hr : ∀ r ∈ rs, r.1 < 2 ^ 64 ∧ r.2 < 2 ^ 64) :
    rangesParse (sliceSplit 44 (List.intercalate [44] (rs.map fun r => decText r.1 ++ 45 :: decText r.2))) = .ok rs := by
  apply C98_read_partial (by simpa using hne)
  have num : ∀ n, n < 2 ^ 64 → IsLineNumber (decText n) n := fun n h =>
    ⟨decText_ne_nil n, decText_digits n, decVal_decText n, h⟩
  clear hne
  induction rs with
  | nil => exact .nil
  | cons r rs ih =>
    exact .cons (.two (num _ (hr r (by simp)).1) (num _ (hr r (by simp)).2)) (ih fun x hx => hr x (by simp [hx]))

/-- The empty text is accepted too. -/
theorem C98_refuted : ¬ C98_statement := by
  intro h
  have := (h [[]] [(0, 0)] (by simp) (by simp)).1 (by decide +kernel)
  cases this with
  | cons h _ =>
    generalize ht : ([] : Bytes) = t at h
    cases h with
    | one h => exact h.1 ht.symm
    | two _ _ => simp at ht

/-- And so is a dash. -/
theorem C98_refuted_dash : rangeParse (ascii "-") = .ok (0, 0) := by decide +kernel

example : RangeTexts [ascii "1-5", ascii "42"] [(1, 5), (42, 42)] :=
  .cons (.two (s := ascii "1") (t := ascii "5") (by unfold IsLineNumber Digit; decide +kernel) (by unfold IsLineNumber Digit; decide +kernel))
    (.cons (.one (by unfold IsLineNumber Digit; decide +kernel)) .nil)
example : rangesParse (sliceSplit 44 (ascii "1-5,42")) = .ok [(1, 5), (42, 42)] := by decide +kernel

end Cdx
