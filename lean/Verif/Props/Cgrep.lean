import Verif.Model.Cgrep
import Verif.Props.MatchSpec

/-!
C56: `cgrep` partitions the data lines.
-/

namespace Cdx

/-- The lists together are the list: each element is in exactly one of them, and the order is kept. -/
inductive Shuffle {α : Type} : List α → List α → List α → Prop
  | nil : Shuffle [] [] []
  | left (x : α) (a b l : List α) : Shuffle a b l → Shuffle (x :: a) b (x :: l)
  | right (x : α) (a b l : List α) : Shuffle a b l → Shuffle a (x :: b) (x :: l)

theorem Shuffle.perm {α : Type} {a b l : List α} (h : Shuffle a b l) :
    (a ++ b).Perm l ∧ a.Sublist l ∧ b.Sublist l := by
  induction h with
  | nil => simp
  | left x a b l _ ih => exact ⟨ih.1.cons x, ih.2.1.cons_cons x, ih.2.2.cons x⟩
  | right x a b l _ ih =>
    refine ⟨?_, ih.2.1.cons x, ih.2.2.cons_cons x⟩
    exact (List.perm_middle).trans (ih.1.cons x)

theorem grepLoop_spec (env : MEnv) (c : Combiner) (ts : List LineTest) (ls : List Bytes) (answer : Bytes → Bool)
    (h : ∀ l ∈ ls, lineListOk env c ts (mergeLine l) = .ok (answer l)) (r : Bool) :
    grepLoop env c ts r ls = .ok (ls.filter fun l => answer l ^^ r) := by
  induction ls with
  | nil => rfl
  | cons l ls ih =>
    rw [grepLoop, h l List.mem_cons_self, ih fun l' hl => h l' (List.mem_cons_of_mem _ hl)]
    simp only [Res.bind_ok, List.filter_cons]

/-- Two runs of the loop, with and without inversion, give the same failure, or share the lines between them. -/
theorem grepLoop_shuffle (env : MEnv) (c : Combiner) (ts : List LineTest) (ls : List Bytes) :
    (∃ a b, grepLoop env c ts false ls = .ok a ∧ grepLoop env c ts true ls = .ok b ∧ Shuffle a b ls ∧
      (∀ l, l ∈ a ↔ l ∈ ls ∧ lineListOk env c ts (mergeLine l) = .ok true) ∧
      (∀ l, l ∈ b ↔ l ∈ ls ∧ lineListOk env c ts (mergeLine l) = .ok false)) ∨
    (grepLoop env c ts false ls = .err ∧ grepLoop env c ts true ls = .err) ∨
    (grepLoop env c ts false ls = .panic ∧ grepLoop env c ts true ls = .panic) := by
  induction ls with
  | nil => exact .inl ⟨[], [], rfl, rfl, .nil, by simp, by simp⟩
  | cons l ls ih =>
    cases h : lineListOk env c ts (mergeLine l) with
    | err => exact .inr (.inl ⟨by rw [grepLoop, h]; rfl, by rw [grepLoop, h]; rfl⟩)
    | panic => exact .inr (.inr ⟨by rw [grepLoop, h]; rfl, by rw [grepLoop, h]; rfl⟩)
    | ok ans =>
      rcases ih with ⟨a, b, h1, h2, h3, h4, h5⟩ | ⟨h1, h2⟩ | ⟨h1, h2⟩
      · left
        cases ans with
        | true =>
          refine ⟨l :: a, b, by rw [grepLoop, h, h1]; rfl, by rw [grepLoop, h, h2]; rfl, .left _ _ _ _ h3, ?_, ?_⟩
          · intro l'
            simp only [List.mem_cons, h4]
            constructor
            · rintro (rfl | ⟨h6, h7⟩)
              · exact ⟨.inl rfl, h⟩
              · exact ⟨.inr h6, h7⟩
            · rintro ⟨rfl | h6, h7⟩
              · exact .inl rfl
              · exact .inr ⟨h6, h7⟩
          · intro l'
            simp only [List.mem_cons, h5]
            constructor
            · rintro ⟨h6, h7⟩
              exact ⟨.inr h6, h7⟩
            · rintro ⟨rfl | h6, h7⟩
              · rw [h] at h7; simp at h7
              · exact ⟨h6, h7⟩
        | false =>
          refine ⟨a, l :: b, by rw [grepLoop, h, h1]; rfl, by rw [grepLoop, h, h2]; rfl, .right _ _ _ _ h3, ?_, ?_⟩
          · intro l'
            simp only [List.mem_cons, h4]
            constructor
            · rintro ⟨h6, h7⟩
              exact ⟨.inr h6, h7⟩
            · rintro ⟨rfl | h6, h7⟩
              · rw [h] at h7; simp at h7
              · exact ⟨h6, h7⟩
          · intro l'
            simp only [List.mem_cons, h5]
            constructor
            · rintro (rfl | ⟨h6, h7⟩)
              · exact ⟨.inl rfl, h⟩
              · exact ⟨.inr h6, h7⟩
            · rintro ⟨rfl | h6, h7⟩
              · exact .inl rfl
              · exact .inr ⟨h6, h7⟩
      · exact .inr (.inl ⟨by rw [grepLoop, h, h1]; rfl, by rw [grepLoop, h, h2]; rfl⟩)
      · exact .inr (.inr ⟨by rw [grepLoop, h, h1]; rfl, by rw [grepLoop, h, h2]; rfl⟩)

/-- The data lines of a file: all of them, or all but the first if that is a header. -/
def fileData (f : Bytes) : List Bytes := readLines .plain NL (if isCdx f then (readUntil NL f).2 else f)

/-- What two complementary runs write for one file: the same header, and the data lines shared between them. -/
def Complementary (f : Bytes) (x y : Bytes × List Bytes) : Prop := x.1 = y.1 ∧ Shuffle x.2 y.2 (fileData f)

theorem grepFiles_shuffle (env : MEnv) (nameOk : Bytes → Bool) (c : Combiner) (ms : List LineMatcher)
    (chk : HeaderChecker) (files : List Bytes) :
    (∃ a b, grepFiles env nameOk c ms false chk files = .ok a ∧ grepFiles env nameOk c ms true chk files = .ok b ∧
      a.length = (files.filter (· ≠ [])).length ∧ b.length = (files.filter (· ≠ [])).length ∧
      ∀ (i : Nat) f x y, (files.filter (· ≠ []))[i]? = some f → a[i]? = some x → b[i]? = some y → Complementary f x y) ∨
    (grepFiles env nameOk c ms false chk files = .err ∧ grepFiles env nameOk c ms true chk files = .err) ∨
    (grepFiles env nameOk c ms false chk files = .panic ∧ grepFiles env nameOk c ms true chk files = .panic) := by
  induction files generalizing chk with
  | nil => exact .inl ⟨[], [], rfl, rfl, rfl, rfl, by simp⟩
  | cons f fs ih =>
    by_cases hf : f = []
    · have hfl : ((f :: fs).filter (· ≠ [])) = fs.filter (· ≠ []) := by simp [hf]
      rw [hfl]
      have e : ∀ r, grepFiles env nameOk c ms r chk (f :: fs) = grepFiles env nameOk c ms r chk fs := by
        intro r
        rw [grepFiles, if_pos hf]
      rw [e, e]
      exact ih chk
    · have hfl : ((f :: fs).filter (· ≠ [])) = f :: fs.filter (· ≠ []) := by simp [hf]
      rw [hfl]
      simp only [grepFiles, if_neg hf]
      cases h1 : lookupAll env (openReader f).names ms with
      | err => exact .inr (.inl ⟨rfl, rfl⟩)
      | panic => exact .inr (.inr ⟨rfl, rfl⟩)
      | ok ts =>
        cases h2 : grepHeader nameOk chk (openReader f) with
        | err => exact .inr (.inl ⟨rfl, rfl⟩)
        | panic => exact .inr (.inr ⟨rfl, rfl⟩)
        | ok h =>
          simp only [Res.bind_ok]
          rcases grepLoop_shuffle env c ts (openReader f).lines with ⟨a, b, g1, g2, g3, -, -⟩ | ⟨g1, g2⟩ | ⟨g1, g2⟩
          · rw [g1, g2]
            simp only [Res.bind_ok]
            rcases ih h.1 with ⟨a', b', k1, k2, k3, k4, k5⟩ | ⟨k1, k2⟩ | ⟨k1, k2⟩
            · rw [k1, k2]
              refine .inl ⟨_, _, rfl, rfl, by simp [k3], by simp [k4], ?_⟩
              intro i f' x y e1 e2 e3
              cases i with
              | zero =>
                simp only [List.getElem?_cons_zero, Option.some.injEq] at e1 e2 e3
                subst e1 e2 e3
                refine ⟨rfl, ?_⟩
                rw [fileData, ← openReader_lines]
                exact g3
              | succ i =>
                simp only [List.getElem?_cons_succ] at e1 e2 e3
                exact k5 i f' x y e1 e2 e3
            · rw [k1, k2]; exact .inr (.inl ⟨rfl, rfl⟩)
            · rw [k1, k2]; exact .inr (.inr ⟨rfl, rfl⟩)
          · rw [g1, g2]; exact .inr (.inl ⟨rfl, rfl⟩)
          · rw [g1, g2]; exact .inr (.inr ⟨rfl, rfl⟩)

/-- `cgrep` and `cgrep --invert` fail in the same way, or write, for each file that is not empty, the same header, and data
lines such that every data line of the file is in exactly one of the two outputs, in input order. -/
theorem C56_partition (env : MEnv) (nameOk : Bytes → Bool) (mode : HeaderMode) (c : Combiner) (ms : List LineMatcher)
    (files : List Bytes) :
    (∃ a b : List (Bytes × List Bytes),
      cgrep env nameOk mode c ms false files = .ok (a.map fun x => x.1 ++ x.2.flatten).flatten ∧
      cgrep env nameOk mode c ms true files = .ok (b.map fun x => x.1 ++ x.2.flatten).flatten ∧
      a.length = (files.filter (· ≠ [])).length ∧ b.length = (files.filter (· ≠ [])).length ∧
      ∀ (i : Nat) f x y, (files.filter (· ≠ []))[i]? = some f → a[i]? = some x → b[i]? = some y → Complementary f x y) ∨
    (cgrep env nameOk mode c ms false files = cgrep env nameOk mode c ms true files ∧
      ∀ out, cgrep env nameOk mode c ms true files ≠ .ok out) := by
  unfold cgrep
  rcases grepFiles_shuffle env nameOk c ms (.fromMode mode) files with ⟨a, b, h1, h2, h3⟩ | ⟨h1, h2⟩ | ⟨h1, h2⟩
  · rw [h1, h2]
    exact .inl ⟨a, b, rfl, rfl, h3⟩
  · rw [h1, h2]
    exact .inr ⟨rfl, by simp⟩
  · rw [h1, h2]
    exact .inr ⟨rfl, by simp⟩

/-- All or some of the answers. -/
def Combined (c : Combiner) (answers : List Bool) : Bool :=
  match c with
  | .and => answers.all id
  | .or => answers.any id

/-- On one file without a header: the lines written are those that all matchers accept (with `--or`, some matcher), and
with `--invert` the others. -/
theorem C56_selects (env : MEnv) (nameOk : Bytes → Bool) (mode : HeaderMode) (c : Combiner) (ms : List LineMatcher)
    (f : Bytes) (ts : List LineTest) (answer : LineTest → Bytes → Bool) (hf : f ≠ []) (hc : isCdx f = false)
    (hts : lookupAll env (openReader f).names ms = .ok ts)
    (hn : ∃ h, ((⟨[], .fail, []⟩ : ColumnHeader).pushAll (openReader f).names) = .ok h)
    (hans : ∀ t ∈ ts, ∀ l ∈ readLines .plain NL f, t.ok env (mergeLine l) = .ok (answer t l)) (reverse : Bool) :
    cgrep env nameOk mode c ms reverse [f] = .ok ((readLines .plain NL f).filter fun l =>
      Combined c (ts.map fun t => answer t l) ^^ reverse).flatten := by
  obtain ⟨h, hh⟩ := hn
  have hl : (openReader f).lines = readLines .plain NL f := openReader_plain f hc
  have hhead : (openReader f).hasHeader = false := by
    unfold openReader
    simp only [readHeader, hf, if_false, TextMode.default, hc, Bool.false_eq_true]
    cases readLines .plain NL f <;> rfl
  have hgh : grepHeader nameOk (.fromMode mode) (openReader f) = .ok (.fromMode mode, []) := by
    unfold grepHeader
    rw [hh, hhead]
    simp only [Res.bind_ok, Bool.false_eq_true, if_false]
    have : isValidCdx nameOk mode [] = some false := by
      unfold isValidCdx
      split
      · rfl
      · rfl
    simp [HeaderChecker.check, HeaderChecker.fromMode, this]
  have hloop := grepLoop_spec env c ts (readLines .plain NL f)
    (fun l => Combined c (ts.map fun t => answer t l)) (by
      intro l hl
      have e : ts.map (LineTest.ok env (mergeLine l)) = (ts.map fun t => answer t l).map .ok := by
        rw [List.map_map]
        exact List.map_congr_left fun t ht => hans t ht l hl
      unfold lineListOk
      rw [e]
      cases c with
      | and => rw [Combiner.loop, andLoop_answers]; rfl
      | or => rw [Combiner.loop, orLoop_answers]; rfl) reverse
  unfold cgrep
  simp only [grepFiles, if_neg hf, hts, Res.bind_ok, hgh, hl, hloop]
  simp

example : cgrep MEnv.trivial (fun _ => true) .matching .and [.col ⟨.default, .one (.exact (ascii "x"))⟩ ⟨[], 0⟩] false
    [ascii "x\t1\ny\t2\nx\t3"] = .ok (ascii "x\t1\nx\t3\n") ∧
    cgrep MEnv.trivial (fun _ => true) .matching .and [.col ⟨.default, .one (.exact (ascii "x"))⟩ ⟨[], 0⟩] true
    [ascii "x\t1\ny\t2\nx\t3"] = .ok (ascii "y\t2\n") := by
  decide +kernel

end Cdx
