import Verif.Model.Registry
import Verif.Model.Match

/-!
# C109: tables of makers

What a name means after any calls of `push` and `add_alias`.
-/

namespace Cdx

variable {M : Type}

/-- The maker this call gives the name. -/
def RegOp.makes (mods : List Bytes) (tag : Bytes) : RegOp M → Option M
  | .push t m => if t = tag ∧ t ∉ mods then some m else none
  | .alias _ _ => none

/-- What this call makes the name stand for. -/
def RegOp.means (mods : List Bytes) (name : Bytes) : RegOp M → Option Bytes
  | .push _ _ => none
  | .alias o n => if n = name ∧ n ∉ mods then some o else none

/-- The last of the answers. -/
def lastOf {α β : Type} (f : α → Option β) : List α → Option β
  | [] => none
  | x :: xs => (lastOf f xs).or (f x)

/-- Full statement: what was pushed last under a name is what the name makes; and an alias makes what its name makes. -/
def C109_statement : Prop :=
  ∀ (mods : List Bytes) (ops : List (RegOp Nat)),
    (∀ tag m, tag ∉ mods → (Registry.run mods (ops ++ [.push tag m])).find tag = some m) ∧
    ∀ old new, new ∉ mods →
      (Registry.run mods (ops ++ [.alias old new])).find new = (Registry.run mods (ops ++ [.alias old new])).find old

theorem getEntry_put {α : Type} (k k' : Bytes) (v : α) (l : List (Bytes × α)) :
    getEntry k (putEntry k' v l) = if k' = k then some v else getEntry k l := by
  induction l with
  | nil => simp [putEntry, getEntry]
  | cons e es ih =>
    rw [putEntry]
    by_cases h : e.1 = k'
    · rw [if_pos h]
      by_cases hk : k' = k
      · simp [getEntry, hk]
      · have : e.1 ≠ k := fun x => hk (h.symm.trans x)
        simp [getEntry, hk, this]
    · rw [if_neg h]
      by_cases hk : k' = k
      · have : e.1 ≠ k := fun x => h (x.trans hk.symm)
        rw [getEntry, if_neg this, ih, if_pos hk, if_pos hk]
      · simp only [getEntry, ih, if_neg hk]

theorem step_items (mods : List Bytes) (r : Registry M) (op : RegOp M) (tag : Bytes) :
    getEntry tag (r.step mods op).items = (op.makes mods tag).or (getEntry tag r.items) := by
  cases op with
  | push t m =>
    simp only [Registry.step, Registry.doPush, RegOp.makes, List.contains_eq_mem, decide_eq_true_eq]
    by_cases h : t ∈ mods
    · simp [h]
    · simp only [h, if_false, getEntry_put, not_false_eq_true, and_true]
      by_cases ht : t = tag <;> simp [ht]
  | alias o n =>
    simp only [Registry.step, Registry.doAddAlias, RegOp.makes, List.contains_eq_mem, decide_eq_true_eq]
    by_cases h : n ∈ mods <;> simp [h]

theorem step_aliases (mods : List Bytes) (r : Registry M) (op : RegOp M) (name : Bytes) :
    getEntry name (r.step mods op).aliases = (op.means mods name).or (getEntry name r.aliases) := by
  cases op with
  | push t m =>
    simp only [Registry.step, Registry.doPush, RegOp.means, List.contains_eq_mem, decide_eq_true_eq]
    by_cases h : t ∈ mods <;> simp [h]
  | alias o n =>
    simp only [Registry.step, Registry.doAddAlias, RegOp.means, List.contains_eq_mem, decide_eq_true_eq]
    by_cases h : n ∈ mods
    · simp [h]
    · simp only [h, if_false, getEntry_put, not_false_eq_true, and_true]
      by_cases ht : n = name <;> simp [ht]

theorem run_items (mods : List Bytes) (ops : List (RegOp M)) (tag : Bytes) : ∀ r : Registry M,
    getEntry tag (ops.foldl (Registry.step mods) r).items = (lastOf (RegOp.makes mods tag) ops).or (getEntry tag r.items) := by
  induction ops with
  | nil => intro r; simp [lastOf]
  | cons op ops ih =>
    intro r
    rw [List.foldl_cons, ih, step_items, lastOf, Option.or_assoc]

theorem run_aliases (mods : List Bytes) (ops : List (RegOp M)) (name : Bytes) : ∀ r : Registry M,
    getEntry name (ops.foldl (Registry.step mods) r).aliases = (lastOf (RegOp.means mods name) ops).or (getEntry name r.aliases) := by
  induction ops with
  | nil => intro r; simp [lastOf]
  | cons op ops ih =>
    intro r
    rw [List.foldl_cons, ih, step_aliases, lastOf, Option.or_assoc]

/-- C109: a name makes what was pushed last under the name it stands for, and an alias is followed once. -/
theorem C109_find (mods : List Bytes) (ops : List (RegOp M)) (name : Bytes) :
    (Registry.run mods ops).find name =
      lastOf (RegOp.makes mods ((lastOf (RegOp.means mods name) ops).getD name)) ops := by
  unfold Registry.find Registry.resolve Registry.run
  rw [run_aliases, run_items]
  simp [getEntry]

theorem lastOf_snoc {α β : Type} (f : α → Option β) (l : List α) (x : α) : lastOf f (l ++ [x]) = (f x).or (lastOf f l) := by
  induction l with
  | nil => simp [lastOf]
  | cons y ys ih => rw [List.cons_append, lastOf, lastOf, ih, Option.or_assoc]

/-- What is pushed last is made, if its name is no alias. -/
theorem C109_push_partial (mods : List Bytes) (ops : List (RegOp M)) (tag : Bytes) (m : M) (hm : tag ∉ mods)
    (ha : lastOf (RegOp.means mods tag) ops = none) : (Registry.run mods (ops ++ [.push tag m])).find tag = some m := by
  rw [C109_find, lastOf_snoc, lastOf_snoc]
  simp [RegOp.means, RegOp.makes, ha, hm]

/-- A new alias makes what its name makes, if that is not an alias itself. -/
theorem C109_alias_partial (mods : List Bytes) (ops : List (RegOp M)) (old new : Bytes) (hm : new ∉ mods) (hne : old ≠ new)
    (ha : lastOf (RegOp.means mods old) ops = none) :
    (Registry.run mods (ops ++ [.alias old new])).find new = (Registry.run mods (ops ++ [.alias old new])).find old := by
  rw [C109_find, C109_find, lastOf_snoc, lastOf_snoc, lastOf_snoc, lastOf_snoc]
  simp [RegOp.means, RegOp.makes, ha, hm, hne.symm]

/-- A name that is a modifier is refused, and nothing changes. -/
theorem C109_modifier (mods : List Bytes) (ops : List (RegOp M)) (op : RegOp M)
    (h : (match op with
      | .push t _ => t
      | .alias _ n => n) ∈ mods) : Registry.run mods (ops ++ [op]) = Registry.run mods ops := by
  unfold Registry.run
  rw [List.foldl_append, List.foldl_cons, List.foldl_nil]
  cases op <;> simp [Registry.step, Registry.doPush, Registry.doAddAlias, h]

theorem putEntry_keys {α : Type} (k : Bytes) (v : α) (l : List (Bytes × α)) :
    (putEntry k v l).map Prod.fst = if k ∈ l.map Prod.fst then l.map Prod.fst else l.map Prod.fst ++ [k] := by
  induction l with
  | nil => simp [putEntry]
  | cons e es ih =>
    rw [putEntry]
    by_cases h : e.1 = k
    · simp [h]
    · rw [if_neg h, List.map_cons, ih, List.map_cons]
      have h' : ¬ k = e.1 := fun x => h x.symm
      by_cases hk : k ∈ es.map Prod.fst
      · simp [hk]
      · simp [hk, h']

/-- The help lists each name once, in the order in which they were pushed first. -/
theorem C109_order (mods : List Bytes) (ops : List (RegOp M)) (op : RegOp M) :
    (Registry.run mods (ops ++ [op])).items.map Prod.fst =
      match op with
      | .push t _ => if t ∈ mods ∨ t ∈ (Registry.run mods ops).items.map Prod.fst then (Registry.run mods ops).items.map Prod.fst
        else (Registry.run mods ops).items.map Prod.fst ++ [t]
      | .alias _ _ => (Registry.run mods ops).items.map Prod.fst := by
  unfold Registry.run
  rw [List.foldl_append, List.foldl_cons, List.foldl_nil]
  cases op with
  | push t m =>
    simp only [Registry.step, Registry.doPush, List.contains_eq_mem, decide_eq_true_eq]
    by_cases h : t ∈ mods
    · simp [h]
    · simp only [h, if_false, false_or]
      exact putEntry_keys _ _ _
  | alias o n =>
    simp only [Registry.step, Registry.doAddAlias, List.contains_eq_mem, decide_eq_true_eq]
    by_cases h : n ∈ mods <;> simp [h]

theorem step_nodup (mods : List Bytes) (op : RegOp M) (r : Registry M) (h : (r.items.map Prod.fst).Nodup) :
    ((r.step mods op).items.map Prod.fst).Nodup := by
  cases op with
  | push t m =>
    simp only [Registry.step, Registry.doPush, List.contains_eq_mem, decide_eq_true_eq]
    by_cases hm : t ∈ mods
    · simpa [hm] using h
    · simp only [hm, if_false, putEntry_keys]
      by_cases hk : t ∈ r.items.map Prod.fst
      · rw [if_pos hk]; exact h
      · rw [if_neg hk, List.nodup_append]
        refine ⟨h, by simp, ?_⟩
        rintro a ha b hb rfl
        simp only [List.mem_singleton] at hb
        exact hk (hb ▸ ha)
  | alias o n =>
    simp only [Registry.step, Registry.doAddAlias, List.contains_eq_mem, decide_eq_true_eq]
    by_cases hm : n ∈ mods <;> simpa [hm] using h

/-- No name is listed twice. -/
theorem C109_unique (mods : List Bytes) (ops : List (RegOp M)) : ((Registry.run mods ops).items.map Prod.fst).Nodup := by
  have : ∀ r : Registry M, (r.items.map Prod.fst).Nodup → ((ops.foldl (Registry.step mods) r).items.map Prod.fst).Nodup := by
    induction ops with
    | nil => intro r h; exact h
    | cons op ops ih => intro r h; exact ih _ (step_nodup mods op r h)
  exact this _ (by simp)

/-- An alias of an alias makes nothing. -/
theorem C109_refuted_alias : let ops : List (RegOp Nat) := [.push (ascii "grid") 1, .alias (ascii "grid") (ascii "g"), .alias (ascii "g") (ascii "h")]
    (Registry.run [] ops).find (ascii "g") = some 1 ∧ (Registry.run [] ops).find (ascii "h") = none := by decide +kernel

/-- A maker pushed under a name that is an alias cannot be reached. -/
theorem C109_refuted_push : let ops : List (RegOp Nat) := [.push (ascii "grid") 1, .alias (ascii "grid") (ascii "g"), .push (ascii "g") 2]
    (Registry.run [] ops).find (ascii "g") = some 1 := by decide +kernel

theorem C109_refuted : ¬ C109_statement := by
  intro h
  have := (h [] [.push (ascii "grid") 1, .alias (ascii "grid") (ascii "g")]).1 (ascii "g") 2 (by simp)
  have h2 := C109_refuted_push
  rw [show ([.push (ascii "grid") 1, .alias (ascii "grid") (ascii "g")] ++ [.push (ascii "g") 2] : List (RegOp Nat)) =
    [.push (ascii "grid") 1, .alias (ascii "grid") (ascii "g"), .push (ascii "g") 2] from rfl] at this
  rw [h2] at this
  simp at this

example : let ops : List (RegOp Nat) := [.push (ascii "a") 1, .push (ascii "b") 2, .push (ascii "a") 3, .push (ascii "rev") 4, .alias (ascii "a") (ascii "c")]
    (Registry.run [ascii "rev"] ops).items = [(ascii "a", 3), (ascii "b", 2)] ∧ (Registry.run [ascii "rev"] ops).find (ascii "c") = some 3 := by
  decide +kernel

end Cdx
