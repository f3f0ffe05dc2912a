import Verif.Props.SortAlt
import Verif.Props.Sort
import Verif.Props.CutTable
import Verif.Props.UniqAgg
import Verif.Lemmas.PreorderOn

/-!
C137: the alternate sort on the items of the sorter. C139: the options of the `sort` command. C140: sorting tables by named columns.
-/

namespace Cdx

variable {α : Type}

/-! ## Comparisons that are orders on the items only -/

theorem merge_congr {le le' : α → α → Bool} (l r : List α) (h : ∀ a ∈ l, ∀ b ∈ r, le a b = le' a b) : l.merge r le = l.merge r le' := by
  induction l generalizing r with
  | nil => simp
  | cons a l ihl =>
    induction r with
    | nil => simp
    | cons b r ihr =>
      rw [List.cons_merge_cons, List.cons_merge_cons, h a (by simp) b (by simp),
        ihl (b :: r) fun x hx y hy => h x (by simp [hx]) y hy, ihr fun x hx y hy => h x hx y (by simp [hy])]

theorem Merged.congr {cmp cmp' : α → α → Ordering} {l l' : List α} (hm : Merged cmp l l')
    (h : ∀ a ∈ l, ∀ b ∈ l, cmp a b = cmp' a b) : Merged cmp' l l' := by
  induction hm with
  | one a => exact .one a
  | @two l l' r r' m1 m2 h1 h2 =>
    rw [merge_congr (le := leOf cmp) (le' := leOf cmp') l' r' (by
      intro a ha b hb
      simp only [leOf, h a (by simp [m1.perm.mem_iff.1 ha]) b (by simp [m2.perm.mem_iff.1 hb])])]
    exact .two (h1 fun a ha b hb => h a (by simp [ha]) b (by simp [hb])) (h2 fun a ha b hb => h a (by simp [ha]) b (by simp [hb]))

theorem stableSort_congr {le le' : α → α → Bool} (l : List α) (h : ∀ a ∈ l, ∀ b ∈ l, le a b = le' a b) :
    stableSort le l = stableSort le' l := by
  simpa using stableSort_map le le' id l h

/-- For a comparison that is an order on the items at hand. -/
theorem C137_alt_sort_on {S : α → Prop} {cmp : α → α → Ordering} (hc : PreorderOn S cmp) (d : α) (items : List α)
    (hS : ∀ x ∈ items, S x) : doSortLines cmp d items = some (stableSort (fun a b => decide (cmp a b ≠ .gt)) items) := by
  obtain ⟨cmp', ht, hag⟩ := hc.extend
  have hcg : ∀ a ∈ items, ∀ b ∈ items, cmp a b = cmp' a b := fun a ha b hb => (hag a b (hS a ha) (hS b hb)).symm
  by_cases hne : items = []
  · subst hne; rfl
  · obtain ⟨out, e, m⟩ := doSortLines_merged cmp d items hne
    rw [e, stableSort_congr (le' := leOf cmp') items (fun a ha b hb => by simp only [leOf, hcg a ha b hb])]
    exact congrArg some (((m.congr hcg).stable ht).unique ht (stableSort_stable ht items))

/-- The alternate sort of the items of a block of lines, with the same keys, gives the items the default sort gives: the two
configurations of `do_sort` agree, with and without unique. -/
theorem C137_do_sort (toF64 : Bytes → F64) (cs : List LineComp) (hk : GoodKeys cs) (unique am : Bool) (base : Bytes)
    (hb : 8 < base.length) (raw : List Item) (hraw : ∀ i ∈ raw, i.complete = false) (hz : ∀ i ∈ raw, CleanLine (i.get base)) :
    doSortConf ⟨true, am⟩ toF64 cs unique base (raw.map fun i => fillCacheList toF64 cs i base) =
      some (doSort toF64 cs unique base (raw.map fun i => fillCacheList toF64 cs i base)) ∧
    doSortConf ⟨false, am⟩ toF64 cs unique base (raw.map fun i => fillCacheList toF64 cs i base) =
      some (doSort toF64 cs unique base (raw.map fun i => fillCacheList toF64 cs i base)) := by
  have hag := (goodKeys_items toF64 cs hk).comp
  have hc := lineCmp_preorder toF64 cs hk.ordered
  refine ⟨?_, rfl⟩
  have hp : PreorderOn (fun x => ∃ i ∈ raw, x = fillCacheList toF64 cs i base) (compItemsList toF64 cs base) := by
    refine ⟨?_, ?_, ?_⟩
    · rintro _ ⟨i, hi, rfl⟩
      rw [hag base i i hb (hraw i hi) (hraw i hi) (hz i hi) (hz i hi)]
      exact hc.refl _
    · rintro _ _ ⟨i, hi, rfl⟩ ⟨j, hj, rfl⟩
      rw [hag base i j hb (hraw i hi) (hraw j hj) (hz i hi) (hz j hj), hag base j i hb (hraw j hj) (hraw i hi) (hz j hj) (hz i hi)]
      exact hc.swap _ _
    · rintro _ _ _ ⟨i, hi, rfl⟩ ⟨j, hj, rfl⟩ ⟨k, hk, rfl⟩
      rw [hag base i j hb (hraw i hi) (hraw j hj) (hz i hi) (hz j hj), hag base j k hb (hraw j hj) (hraw k hk) (hz j hj) (hz k hk),
        hag base i k hb (hraw i hi) (hraw k hk) (hz i hi) (hz k hk)]
      exact hc.trans _ _ _
  simp only [doSortConf, if_true]
  rw [C137_alt_sort_on hp Item.dflt _ (by
    intro x hx
    obtain ⟨i, hi, rfl⟩ := List.mem_map.1 hx
    exact ⟨i, hi, rfl⟩)]
  rfl

/-! ## Resolving the keys -/

theorem check_flags (nameOk : Bytes → Bool) (c c' : HeaderChecker) (l : Bytes) (b : Bool) (h : c.check nameOk l = some (c', b))
    (hl : l ≠ []) (hm : c.mode = .matching) : c'.mode = .matching ∧ c'.sawOne = true ∧ (c.sawOne = false → b = true) := by
  unfold HeaderChecker.check at h
  cases hv : isValidCdx nameOk c.mode l with
  | none => simp [hv] at h
  | some cdx =>
    simp only [hv, hl, if_false, hm] at h
    cases hs : c.sawOne <;> cases cdx <;> grind

theorem addLoop_cs (toF64 : Bytes → F64) (cap : Nat) (unique : Bool) (rd : Nat → Nat) (fuel i : Nat) (s s' : Sorter) (file : Bytes)
    (h : Sorter.addLoop toF64 cap unique rd fuel i s file = .ok s') : s'.cs = s.cs := by
  induction fuel generalizing i s file with
  | zero => simp [Sorter.addLoop] at h
  | succ fuel ih =>
    have hp : (s.prepare cap (16 * 1024)).1.cs = s.cs := rfl
    unfold Sorter.addLoop at h
    simp only at h
    split at h
    · simp at h
    · split at h
      · split at h <;> · cases h; exact hp
      · rw [ih _ _ _ h]
        split
        · exact hp
        · exact hp

theorem addFile_cs (toF64 : Bytes → F64) (nameOk : Bytes → Bool) (cap : Nat) (unique : Bool) (rd : Nat → Nat) (s s' : Sorter)
    (file : Bytes) (h : s.addFile toF64 nameOk sortLookup cap unique rd file = .ok s') : s'.cs = s.cs := by
  unfold Sorter.addFile at h
  simp only at h
  split at h
  · cases h; rfl
  · split at h
    · simp at h
    · rename_i ck b _
      cases b with
      | false =>
        simp only [Bool.false_eq_true, if_false, Res.bind_ok] at h
        have := addLoop_cs _ _ _ _ _ _ _ _ _ h
        exact this
      | true =>
        simp only [if_true, sortLookup, Res.bind_ok] at h
        split at h
        · simp only [Res.bind_ok] at h
          have := addLoop_cs _ _ _ _ _ _ _ _ _ h
          exact this
        · unfold Sorter.addData at h
          simp only at h
          split at h
          · simp at h
          · simp only [Res.bind_ok] at h
            have := addLoop_cs _ _ _ _ _ _ _ _ _ h
            exact this

theorem addFile_lookup (toF64 : Bytes → F64) (nameOk : Bytes → Bool) (lookup : List LineComp → Bytes → Res (List LineComp))
    (cap : Nat) (unique : Bool) (rd : Nat → Nat) (s : Sorter) (f : Bytes) (hl : lookup s.cs (readUntil NL f).1 = .ok s.cs) :
    s.addFile toF64 nameOk lookup cap unique rd f = s.addFile toF64 nameOk sortLookup cap unique rd f := by
  simp only [Sorter.addFile, sortLookup, hl]

theorem addFiles_lookup (toF64 : Bytes → F64) (nameOk : Bytes → Bool) (lookup : List LineComp → Bytes → Res (List LineComp))
    (cap : Nat) (unique : Bool) (rd : Nat → Nat → Nat) (cs : List LineComp) (files : List Bytes)
    (hl : ∀ f ∈ files, f ≠ [] → ∀ c, lookup c (readUntil NL f).1 = .ok cs) (i : Nat) (s : Sorter) (hs : s.cs = cs) :
    Sorter.addFiles toF64 nameOk lookup cap unique rd i s files = Sorter.addFiles toF64 nameOk sortLookup cap unique rd i s files := by
  induction files generalizing i s with
  | nil => rfl
  | cons f fs ih =>
    have e : s.addFile toF64 nameOk lookup cap unique (rd i) f = s.addFile toF64 nameOk sortLookup cap unique (rd i) f := by
      by_cases hf : f = []
      · subst hf; rfl
      · exact addFile_lookup _ _ _ _ _ _ _ _ (by rw [hs]; exact hl f (by simp) hf cs)
    simp only [Sorter.addFiles, e]
    cases h : s.addFile toF64 nameOk sortLookup cap unique (rd i) f with
    | err => rfl
    | panic => rfl
    | ok s1 =>
      simp only [Res.bind_ok]
      exact ih (fun g hg => hl g (by simp [hg])) (i + 1) s1 ((addFile_cs _ _ _ _ _ _ _ _ h).trans hs)

theorem addFile_first (toF64 : Bytes → F64) (nameOk : Bytes → Bool) (lookup : List LineComp → Bytes → Res (List LineComp))
    (cap : Nat) (unique : Bool) (rd : Nat → Nat) (c cs : List LineComp) (f : Bytes) (hf : f ≠ [])
    (hl : lookup c (readUntil NL f).1 = .ok cs) :
    (Sorter.new c).addFile toF64 nameOk lookup cap unique rd f = (Sorter.new cs).addFile toF64 nameOk sortLookup cap unique rd f := by
  have hne : (readUntil NL f).1 ≠ [] := by
    cases f with
    | nil => exact absurd rfl hf
    | cons x f => simp only [readUntil]; split <;> simp
  unfold Sorter.addFile
  simp only [hne, if_false]
  cases h : (Sorter.new c).checker.check nameOk (readUntil NL f).1 with
  | none =>
    have h' : (Sorter.new cs).checker.check nameOk (readUntil NL f).1 = Option.none := h
    rw [h']
  | some x =>
    obtain ⟨ck, b⟩ := x
    have h' : (Sorter.new cs).checker.check nameOk (readUntil NL f).1 = some (ck, b) := h
    rw [h']
    have hb := (check_flags nameOk _ ck _ b h hne rfl).2.2 rfl
    subst hb
    have hl' : lookup (Sorter.new c).cs (readUntil NL f).1 = .ok cs := hl
    simp only [if_true, hl', Res.bind_ok, sortLookup]
    rfl

/-- Keys that the first line of every file resolves to the same ones: as if these had been given. -/
theorem sortFiles_lookup (toF64 : Bytes → F64) (nameOk : Bytes → Bool) (lookup : List LineComp → Bytes → Res (List LineComp))
    (pick : Nat → List (Nat × Bytes) → Nat) (rd : Nat → Nat → Nat) (cap : Nat) (unique : Bool) (c cs : List LineComp)
    (files : List Bytes) (hl : ∀ f ∈ files, f ≠ [] → ∀ c, lookup c (readUntil NL f).1 = .ok cs) :
    sortFiles toF64 nameOk lookup pick rd cap unique c files = sortCmd toF64 nameOk pick rd cap unique cs files := by
  unfold sortFiles
  suffices ∀ (files : List Bytes) (i : Nat), (∀ f ∈ files, f ≠ [] → ∀ c, lookup c (readUntil NL f).1 = .ok cs) →
      ((Sorter.addFiles toF64 nameOk lookup cap unique rd i (Sorter.new c) files).bind fun s => Res.ok (s.finalize toF64 pick unique))
        = (Sorter.addFiles toF64 nameOk sortLookup cap unique rd i (Sorter.new cs) files).bind fun s =>
            Res.ok (s.finalize toF64 pick unique) from this files 0 hl
  intro files
  induction files with
  | nil =>
    intro i _
    simp only [Sorter.addFiles, Res.bind_ok, Res.ok.injEq]
    cases unique <;> rfl
  | cons f fs ih =>
    intro i hl
    by_cases hf : f = []
    · subst hf
      have e : ∀ (lk) (c : List LineComp), (Sorter.new c).addFile toF64 nameOk lk cap unique (rd i) [] = .ok (Sorter.new c) := fun _ _ => rfl
      simp only [Sorter.addFiles, e, Res.bind_ok]
      exact ih (i + 1) fun g hg => hl g (by simp [hg])
    · simp only [Sorter.addFiles, addFile_first toF64 nameOk lookup cap unique (rd i) c cs f hf (hl f (by simp) hf c)]
      cases h : (Sorter.new cs).addFile toF64 nameOk sortLookup cap unique (rd i) f with
      | err => rfl
      | panic => rfl
      | ok s1 =>
        simp only [Res.bind_ok]
        rw [addFiles_lookup toF64 nameOk lookup cap unique rd cs fs (fun g hg => hl g (by simp [hg])) (i + 1) s1
          (addFile_cs _ _ _ _ _ _ _ _ h)]

/-! ## The options -/

/-- The keys asked for, in their order; `none` if one is refused. -/
def keysAsked : List SortOpt → Option (List Key)
  | [] => some []
  | .key spec :: os => match keyOfSpec spec with
    | .ok k => (keysAsked os).map (k :: ·)
    | _ => none
  | _ :: os => keysAsked os

/-- The options that ask for a check. -/
def SortOpt.isCheck : SortOpt → Bool
  | .check => true
  | .checkN _ => true
  | _ => false

/-- How many reports such an option asks for. -/
def SortOpt.reports : SortOpt → Option Nat
  | .checkN v => match toUsizeWhole v with
    | .ok n => some n
    | _ => none
  | _ => some 1

/-- How many reports the check is to make: what the last `--check` or `--Check` says. -/
def reportsAsked (os : List SortOpt) : Option Nat := (os.reverse.find? (·.isCheck)).bind (·.reports)

theorem addAll_spec (os : List SortOpt) (o o' : SortOpts) (h : o.addAll os = .ok o') :
    (∃ ks, keysAsked os = some ks ∧ o'.keys = o.keys ++ ks) ∧ o'.unique = (o.unique || decide (SortOpt.unique ∈ os)) ∧
      o'.merge = (o.merge || decide (SortOpt.merge ∈ os)) ∧ o'.check = (o.check || os.any (·.isCheck)) ∧
      o'.conf.altSort = (o.conf.altSort || decide (SortOpt.altSort ∈ os)) ∧ o'.conf.altMerge = (o.conf.altMerge || decide (SortOpt.altMerge ∈ os)) ∧
      (os.any (·.isCheck) = false → o'.numChecks = o.numChecks) ∧
      (os.any (·.isCheck) = true → reportsAsked os = some o'.numChecks) := by
  induction os generalizing o with
  | nil =>
    simp only [SortOpts.addAll, Res.ok.injEq] at h
    subst h
    simp [keysAsked]
  | cons x os ih =>
    simp only [SortOpts.addAll] at h
    cases hx : o.add x with
    | err => simp [hx] at h
    | panic => simp [hx] at h
    | ok o1 =>
      simp only [hx, Res.bind_ok] at h
      obtain ⟨⟨ks, k1, k2⟩, h1, h2, h3, h4, h5, h6, h7⟩ := ih o1 h
      have hrep : os.any (·.isCheck) = true → reportsAsked (x :: os) = reportsAsked os := by
        intro hc
        obtain ⟨y, hy, hyc⟩ := List.any_eq_true.1 hc
        unfold reportsAsked
        simp only [List.reverse_cons, List.find?_append]
        cases hh : os.reverse.find? (·.isCheck) with
        | none =>
          have := List.find?_eq_none.1 hh y (by simpa using hy)
          exact absurd hyc this
        | some z => rfl
      have hrep2 : os.any (·.isCheck) = false → x.isCheck = true → reportsAsked (x :: os) = x.reports := by
        intro hc hx
        have hh : os.reverse.find? (·.isCheck) = none := by
          rw [List.find?_eq_none]
          intro y hy hyc
          have := List.any_eq_true.2 ⟨y, List.mem_reverse.1 hy, hyc⟩
          rw [hc] at this
          exact absurd this (by simp)
        unfold reportsAsked
        simp only [List.reverse_cons, List.find?_append, hh, List.find?_cons, hx]
        rfl
      cases x with
      | key spec =>
        have hic : (SortOpt.key spec).isCheck = false := rfl
        simp only [SortOpts.add] at hx
        cases hk : keyOfSpec spec with
        | err => simp [hk] at hx
        | panic => simp [hk] at hx
        | ok k =>
          simp only [hk, Res.bind_ok, Res.ok.injEq] at hx
          subst hx
          refine ⟨⟨k :: ks, by simp [keysAsked, hk, k1], by simp [k2]⟩, ?_⟩
          simp only [List.any_cons, hic, Bool.false_or]
          refine ⟨by simp [h1], by simp [h2], h3, by simp [h4], by simp [h5], h6, ?_⟩
          intro hc
          rw [hrep hc]
          exact h7 hc
      | checkN v =>
        have hic : (SortOpt.checkN v).isCheck = true := rfl
        simp only [SortOpts.add] at hx
        cases hk : toUsizeWhole v with
        | err => simp [hk] at hx
        | panic => simp [hk] at hx
        | ok n =>
          simp only [hk, Res.bind_ok, Res.ok.injEq] at hx
          subst hx
          refine ⟨⟨ks, by simp [keysAsked, k1], by simp [k2]⟩, ?_⟩
          simp only [List.any_cons, hic, Bool.true_or, Bool.or_true]
          refine ⟨by simp [h1], by simp [h2], by simp [h3], by simp [h4], by simp [h5], by simp, ?_⟩
          intro _
          by_cases hc : os.any (·.isCheck) = true
          · rw [hrep hc]; exact h7 hc
          · rw [hrep2 (by simpa using hc) hic, h6 (by simpa using hc)]
            simp [SortOpt.reports, hk]
      | check =>
        have hic : SortOpt.check.isCheck = true := rfl
        simp only [SortOpts.add, Res.ok.injEq] at hx
        subst hx
        refine ⟨⟨ks, by simp [keysAsked, k1], by simp [k2]⟩, ?_⟩
        simp only [List.any_cons, hic, Bool.true_or, Bool.or_true]
        refine ⟨by simp [h1], by simp [h2], by simp [h3], by simp [h4], by simp [h5], by simp, ?_⟩
        intro _
        by_cases hc : os.any (·.isCheck) = true
        · rw [hrep hc]; exact h7 hc
        · rw [hrep2 (by simpa using hc) hic, h6 (by simpa using hc)]
          rfl
      | unique =>
        have hic : SortOpt.unique.isCheck = false := rfl
        simp only [SortOpts.add, Res.ok.injEq] at hx
        subst hx
        refine ⟨⟨ks, by simp [keysAsked, k1], by simp [k2]⟩, ?_⟩
        simp only [List.any_cons, hic, Bool.false_or]
        refine ⟨by simp [h1], by simp [h2], h3, by simp [h4], by simp [h5], h6, ?_⟩
        intro hc
        rw [hrep hc]
        exact h7 hc
      | merge =>
        have hic : SortOpt.merge.isCheck = false := rfl
        simp only [SortOpts.add, Res.ok.injEq] at hx
        subst hx
        refine ⟨⟨ks, by simp [keysAsked, k1], by simp [k2]⟩, ?_⟩
        simp only [List.any_cons, hic, Bool.false_or]
        refine ⟨by simp [h1], by simp [h2], h3, by simp [h4], by simp [h5], h6, ?_⟩
        intro hc
        rw [hrep hc]
        exact h7 hc
      | altSort =>
        have hic : SortOpt.altSort.isCheck = false := rfl
        simp only [SortOpts.add, Res.ok.injEq] at hx
        subst hx
        refine ⟨⟨ks, by simp [keysAsked, k1], by simp [k2]⟩, ?_⟩
        simp only [List.any_cons, hic, Bool.false_or]
        refine ⟨by simp [h1], by simp [h2], h3, by simp [h4], by simp [h5], h6, ?_⟩
        intro hc
        rw [hrep hc]
        exact h7 hc
      | altMerge =>
        have hic : SortOpt.altMerge.isCheck = false := rfl
        simp only [SortOpts.add, Res.ok.injEq] at hx
        subst hx
        refine ⟨⟨ks, by simp [keysAsked, k1], by simp [k2]⟩, ?_⟩
        simp only [List.any_cons, hic, Bool.false_or]
        refine ⟨by simp [h1], by simp [h2], h3, by simp [h4], by simp [h5], h6, ?_⟩
        intro hc
        rw [hrep hc]
        exact h7 hc

/-- What the options of `sort` mean: the keys in their order; flags given anywhere; the last `--check` or `--Check` says how many
reports to make. -/
theorem C139_options (os : List SortOpt) (o : SortOpts) (h : SortOpts.addAll {} os = .ok o) :
    keysAsked os = some o.keys ∧ o.unique = decide (SortOpt.unique ∈ os) ∧ o.merge = decide (SortOpt.merge ∈ os) ∧
      o.check = os.any (·.isCheck) ∧ o.conf = ⟨decide (SortOpt.altSort ∈ os), decide (SortOpt.altMerge ∈ os)⟩ ∧
      (o.check = true → reportsAsked os = some o.numChecks) := by
  obtain ⟨⟨ks, k1, k2⟩, h1, h2, h3, h4, h5, _, h7⟩ := addAll_spec os {} o h
  simp only [List.nil_append, Bool.false_or] at *
  refine ⟨by rw [k1, k2], h1, h2, h3, ?_, fun hc => h7 (by rw [← h3]; exact hc)⟩
  rw [← h4, ← h5]

example : SortOpts.addAll {} [.checkN (ascii "3"), .key (ascii "b,len"), .unique, .check] =
    .ok { keys := [.col .length ⟨ascii "b", 0⟩ false], unique := true, check := true } := by decide +kernel

/-- Checking and merging do not go together. -/
theorem C139_check_merge (toF64 : Bytes → F64) (nameOk : Bytes → Bool) (pick : Nat → List (Nat × Bytes) → Nat)
    (rd : Nat → Nat → Nat) (cap : Nat) (m : TextMode) (os : List SortOpt) (files : List Bytes) (o : SortOpts)
    (h : SortOpts.addAll {} os = .ok o) (h1 : SortOpt.merge ∈ os) (h2 : ∃ x ∈ os, x.isCheck = true) :
    sortMain toF64 nameOk pick rd cap m os files = .fail .other := by
  obtain ⟨_, _, hm, hc, _⟩ := C139_options os o h
  have e1 : o.merge = true := by rw [hm]; simpa using h1
  have e2 : o.check = true := by rw [hc]; exact List.any_eq_true.2 h2
  simp [sortMain, h, Res.run, Run.bind, SortOpts.run, e1, e2]

example : (∃ o, SortOpts.addAll {} [.merge, .unique, .checkN (ascii "2")] = .ok o) ∧
    SortOpt.merge ∈ [SortOpt.merge, .unique, .checkN (ascii "2")] :=
  ⟨⟨{ unique := true, merge := true, check := true, numChecks := 2 }, by decide +kernel⟩, by simp⟩

theorem addAll_filter (os : List SortOpt) (o : SortOpts) (b : Bool) :
    (SortOpts.addAll { o with conf := { o.conf with altSort := b } } (os.filter (· ≠ .altSort))) =
      (o.addAll os).bind fun o' => .ok { o' with conf := { o'.conf with altSort := b } } := by
  induction os generalizing o with
  | nil => rfl
  | cons x os ih =>
    cases x with
    | altSort => simpa [SortOpts.addAll, SortOpts.add] using ih { o with conf := { o.conf with altSort := true } }
    | key spec =>
      rw [List.filter_cons_of_pos (by simp), SortOpts.addAll, SortOpts.addAll]
      simp only [SortOpts.add]
      cases keyOfSpec spec with
      | err => rfl
      | panic => rfl
      | ok k => exact ih { o with keys := o.keys ++ [k] }
    | checkN v =>
      rw [List.filter_cons_of_pos (by simp), SortOpts.addAll, SortOpts.addAll]
      simp only [SortOpts.add]
      cases toUsizeWhole v with
      | err => rfl
      | panic => rfl
      | ok n => exact ih { o with check := true, numChecks := n }
    | unique => exact ih { o with unique := true }
    | merge => exact ih { o with merge := true }
    | check => exact ih { o with check := true, numChecks := 1 }
    | altMerge => exact ih { o with conf := { o.conf with altMerge := true } }

/-- `--alt-sort` never changes anything: neither the output nor whether there is an error. -/
theorem C139_alt_sort (toF64 : Bytes → F64) (nameOk : Bytes → Bool) (pick : Nat → List (Nat × Bytes) → Nat)
    (rd : Nat → Nat → Nat) (cap : Nat) (m : TextMode) (os : List SortOpt) (files : List Bytes) :
    sortMain toF64 nameOk pick rd cap m (os.filter (· ≠ .altSort)) files = sortMain toF64 nameOk pick rd cap m os files := by
  have := addAll_filter os {} false
  unfold sortMain
  rw [show ({} : SortOpts) = { ({} : SortOpts) with conf := { ({} : SortOpts).conf with altSort := false } } from rfl, this]
  cases h : SortOpts.addAll {} os with
  | err => rfl
  | panic => rfl
  | ok o => rfl

end Cdx
