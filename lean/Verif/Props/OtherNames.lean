import Verif.Props.Methods
import Verif.Model.FloatOps
import Verif.Lemmas.FloatInt
import Verif.Props.GrepMain

/-!
More about functions of doubles (C73), names of methods (C76) and places of lines (C151).
-/

namespace Cdx

/-! ## Doubles -/

/-- C73: the greater of two doubles is one of them and not less than either; a value that is not a number is passed over. -/
theorem C73_fmax (x y : F64) : (x.isNaN = true → F64.fmax x y = y) ∧ (y.isNaN = true → x.isNaN = false → F64.fmax x y = x) ∧
    (x.isNaN = false → y.isNaN = false → (F64.fmax x y = x ∨ F64.fmax x y = y) ∧ x.scaled ≤ (F64.fmax x y).scaled ∧
      y.scaled ≤ (F64.fmax x y).scaled) := by
  refine ⟨fun h => by simp [F64.fmax, h], fun h h' => by simp [F64.fmax, h, h'], fun hx hy => ?_⟩
  simp only [F64.fmax, F64.gt, hx, hy, Bool.false_eq_true, if_false, Bool.not_false, Bool.and_self, Bool.true_and, decide_eq_true_eq]
  split
  · exact ⟨.inl rfl, by omega, by omega⟩
  · exact ⟨.inr rfl, by omega, by omega⟩

/-- C73: the lesser of two doubles. -/
theorem C73_fmin (x y : F64) : (x.isNaN = true → F64.fmin x y = y) ∧ (y.isNaN = true → x.isNaN = false → F64.fmin x y = x) ∧
    (x.isNaN = false → y.isNaN = false → (F64.fmin x y = x ∨ F64.fmin x y = y) ∧ (F64.fmin x y).scaled ≤ x.scaled ∧
      (F64.fmin x y).scaled ≤ y.scaled) := by
  refine ⟨fun h => by simp [F64.fmin, h], fun h h' => by simp [F64.fmin, h, h'], fun hx hy => ?_⟩
  simp only [F64.fmin, F64.gt, hx, hy, Bool.false_eq_true, if_false, Bool.not_false, Bool.and_self, Bool.true_and, decide_eq_true_eq]
  split
  · exact ⟨.inl rfl, by omega, by omega⟩
  · exact ⟨.inr rfl, by omega, by omega⟩

/-- C73: `copysign` has the sign of the second and all other bits of the first. -/
theorem C73_copysign (x y : F64) : (F64.copysign x y).isNeg = y.isNeg ∧ (F64.copysign x y).toNat % 2 ^ 63 = x.toNat % 2 ^ 63 := by
  unfold F64.copysign
  split
  · rename_i h
    exact ⟨h, rfl⟩
  · rename_i h
    refine ⟨?_, negate_mod x⟩
    rw [negate_isNeg]
    cases hx : x.isNeg <;> cases hy : y.isNeg <;> simp_all

example : F64.copysign (F64.ofNat 3) (F64.ofNat 2).negate = (F64.ofNat 3).negate ∧ F64.fmin F64.nan (F64.ofNat 2) = F64.ofNat 2 ∧
    F64.fmax (F64.ofNat 3) (F64.ofNat 5) = F64.ofNat 5 := by decide +kernel

/-! ## Names of methods -/

/-- Other names of methods. -/
def otherNames : List (Bytes × Bytes) :=
  [(ascii "substr", ascii "infix"), (ascii "substring", ascii "infix"), (ascii "fileexact", ascii "file-exact")]

/-- Words that do not name a method. -/
def flagWords : List Bytes := [ascii "utf8", ascii "not", ascii "trim", ascii "null", ascii "case", ascii "and", ascii "or"]

theorem modify_flag {w : Bytes} (h : lower w ∈ flagWords) (f : MFlags) (c : Bytes) : MFlags.modify { f with ctype := c } w = { f.modify w with ctype := c } := by
  have e : ∀ x : Bytes, lower x = x → eqIgnoreCase w x = (lower w == x) := by
    intro x hx
    unfold eqIgnoreCase
    rw [hx]
  unfold MFlags.modify
  rw [e _ (by decide +kernel), e _ (by decide +kernel), e _ (by decide +kernel), e _ (by decide +kernel), e _ (by decide +kernel), e _ (by decide +kernel),
    e _ (by decide +kernel)]
  simp only [flagWords, List.mem_cons, List.not_mem_nil, or_false] at h
  rcases h with h | h | h | h | h | h | h <;> rw [h] <;> (repeat' split) <;> first | rfl | (exfalso; simp_all +decide)

theorem foldl_flags {r : List Bytes} (h : ∀ w ∈ r, lower w ∈ flagWords) (f : MFlags) (c : Bytes) :
    r.foldl MFlags.modify { f with ctype := c } = { r.foldl MFlags.modify f with ctype := c } := by
  induction r generalizing f with
  | nil => rfl
  | cons w r ih =>
    rw [List.foldl_cons, modify_flag (h w (by simp)), ih fun x hx => h x (by simp [hx])]
    rfl

theorem modify_name {p : Bytes × Bytes} (h : p ∈ otherNames) (f : MFlags) : f.modify p.1 = { f with ctype := p.1 } ∧ f.modify p.2 = { f with ctype := p.2 } := by
  simp only [otherNames, List.mem_cons, List.not_mem_nil, or_false] at h
  rcases h with rfl | rfl | rfl <;> exact ⟨rfl, rfl⟩

/-- C76: the other names of methods, with any other words around them, mean the same, whatever the pattern. -/
theorem C76_other_names (env : MEnv) (p : Bytes × Bytes) (h : p ∈ otherNames) (l r : List Bytes) (hr : ∀ w ∈ r, lower w ∈ flagWords) (M M' : Bytes)
    (hM : methodWords M = l ++ p.1 :: r) (hM' : methodWords M' = l ++ p.2 :: r) (pattern : Bytes) :
    Matcher.make2 env M pattern = Matcher.make2 env M' pattern := by
  have e : MFlags.ofMethod M = MFlags.ofMethod M' := by
    have e1 : matchAlias p.1 = matchAlias p.2 := by
      simp only [otherNames, List.mem_cons, List.not_mem_nil, or_false] at h
      rcases h with rfl | rfl | rfl <;> decide +kernel
    have a1 : (l ++ p.1 :: r).foldl MFlags.modify .default = { r.foldl MFlags.modify (l.foldl MFlags.modify .default) with ctype := p.1 } := by
      rw [List.foldl_append, List.foldl_cons, (modify_name h _).1, foldl_flags hr]
    have a2 : (l ++ p.2 :: r).foldl MFlags.modify .default = { r.foldl MFlags.modify (l.foldl MFlags.modify .default) with ctype := p.2 } := by
      rw [List.foldl_append, List.foldl_cons, (modify_name h _).2, foldl_flags hr]
    rw [ofMethod_words, ofMethod_words, hM, hM', a1, a2]
    dsimp only
    rw [e1]
  unfold Matcher.make2
  rw [e]

/-- C78: so `fileexact`, too, accepts the non-empty lines of the file. -/
theorem C78_fileexact_partial (env : MEnv) (name t : Bytes) (h : env.file name = .ok t) :
    Decides env (ascii "fileexact") name fun v => v ≠ [] ∧ v ∈ sliceSplit NL (if isCdx t then (readUntil NL t).2 else t) := by
  have := C78_file_exact_partial env name t h
  unfold Decides at this ⊢
  rwa [C76_other_names env (ascii "fileexact", ascii "file-exact") (by simp [otherNames]) [] [] (by simp) (ascii "fileexact") (ascii "file-exact")
    (by decide +kernel) (by decide +kernel) name]

example (env : MEnv) (p : Bytes) : Matcher.make2 env (ascii "not.substr.case") p = Matcher.make2 env (ascii "not.infix.case") p :=
  C76_other_names env (ascii "substr", ascii "infix") (by simp [otherNames]) [ascii "not"] [ascii "case"] (by decide +kernel) _ _ (by decide +kernel)
    (by decide +kernel) p

/-! ## Places of lines -/

theorem split_each (d : UInt8) (l : List Bytes) (h : ∀ x ∈ l, d ∉ x) : sliceSplit d (l.flatMap fun x => x ++ [d]) = l ++ [[]] := by
  induction l with
  | nil => rfl
  | cons x l ih =>
    rw [List.flatMap_cons, sliceSplit_join, sliceSplit_free d x (h x (by simp)), ih fun y hy => h y (by simp [hy])]
    rfl

/-- C151: the names of the places, cut at the delimiter, are the names that were asked for, in order, and there are as many of them as values. -/
theorem C151_names (v : List FileLoc) (delim : UInt8) (loc : LocData) (hn : ∀ x ∈ v, delim ∉ x.colName) (hd : ∀ x ∈ v, delim ∉ x.item.write loc) :
    sliceSplit delim (locNames v delim) = v.map (·.colName) ++ [[]] ∧ sliceSplit delim (locData v delim loc) = v.map (·.item.write loc) ++ [[]] := by
  have e1 : locNames v delim = (v.map (·.colName)).flatMap fun x => x ++ [delim] := by
    unfold locNames
    rw [List.flatMap_map]
  have e2 : locData v delim loc = (v.map (·.item.write loc)).flatMap fun x => x ++ [delim] := by
    unfold locData
    rw [List.flatMap_map]
  rw [e1, e2]
  exact ⟨split_each _ _ (by simpa using hn), split_each _ _ (by simpa using hd)⟩

end Cdx
