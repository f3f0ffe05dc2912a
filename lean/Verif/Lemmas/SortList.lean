import Verif.Spec.Sort
import Verif.Model.Sort
import Verif.Lemmas.Comp

/-!
Stable sorting, merging and removal of duplicates of lists.
-/

namespace Cdx

variable {α : Type} {cmp : α → α → Ordering}

/-- The test a sort uses. -/
abbrev leOf (cmp : α → α → Ordering) (a b : α) : Bool := decide (cmp a b ≠ .gt)

theorem TotalPreorder.le_total (h : TotalPreorder cmp) (a b : α) : (leOf cmp a b || leOf cmp b a) = true := by
  have := h.swap a b
  cases h2 : cmp a b <;> simp_all [leOf]

theorem TotalPreorder.le_trans (h : TotalPreorder cmp) (a b c : α) (h1 : leOf cmp a b = true) (h2 : leOf cmp b c = true) :
    leOf cmp a c = true := by
  simp only [leOf, decide_eq_true_eq] at *
  exact h.trans a b c h1 h2

theorem TotalPreorder.eq_symm (h : TotalPreorder cmp) {a b : α} (e : cmp a b = .eq) : cmp b a = .eq := by
  rw [h.swap a b, e]; rfl

theorem TotalPreorder.gt_iff (h : TotalPreorder cmp) {a b : α} : cmp a b = .gt ↔ cmp b a = .lt := by
  rw [h.swap a b]
  cases cmp a b <;> simp

theorem TotalPreorder.eq_iff (h : TotalPreorder cmp) {a b : α} : cmp a b = .eq ↔ cmp a b ≠ .gt ∧ cmp b a ≠ .gt := by
  rw [h.swap a b]
  cases cmp a b <;> simp

theorem TotalPreorder.eq_trans (h : TotalPreorder cmp) {a b c : α} (e1 : cmp a b = .eq) (e2 : cmp b c = .eq) :
    cmp a c = .eq := by
  rw [h.eq_iff] at *
  exact ⟨h.trans _ _ _ e1.1 e2.1, h.trans _ _ _ e2.2 e1.2⟩

theorem TotalPreorder.lt_of_lt_of_le (h : TotalPreorder cmp) {a b c : α} (e1 : cmp a b = .lt) (e2 : cmp b c ≠ .gt) :
    cmp a c = .lt := by
  have h1 : cmp a c ≠ .gt := h.trans _ _ _ (by simp [e1]) e2
  cases h2 : cmp a c with
  | lt => rfl
  | gt => exact absurd h2 h1
  | eq =>
    have h3 : cmp c a ≠ .gt := by rw [h.eq_symm h2]; decide
    have h4 := h.trans _ _ _ e2 h3
    rw [h.swap a b, e1] at h4
    exact absurd rfl h4

theorem TotalPreorder.lt_of_le_of_lt (h : TotalPreorder cmp) {a b c : α} (e1 : cmp a b ≠ .gt) (e2 : cmp b c = .lt) :
    cmp a c = .lt := by
  have h1 : cmp a c ≠ .gt := h.trans _ _ _ e1 (by simp [e2])
  cases h2 : cmp a c with
  | lt => rfl
  | gt => exact absurd h2 h1
  | eq =>
    have h3 : cmp c a ≠ .gt := by rw [h.eq_symm h2]; decide
    have h4 := h.trans _ _ _ h3 e1
    rw [h.swap b c, e2] at h4
    exact absurd rfl h4

/-- Equal elements compare alike with anything. -/
theorem TotalPreorder.eq_left (h : TotalPreorder cmp) {a b : α} (e : cmp a b = .eq) (c : α) : cmp a c = cmp b c := by
  cases hc : cmp b c with
  | lt => exact h.lt_of_le_of_lt (by simp [e]) hc
  | eq => exact h.eq_trans e hc
  | gt =>
    rw [h.gt_iff] at hc ⊢
    exact h.lt_of_lt_of_le hc (by simp [h.eq_symm e])

theorem TotalPreorder.eq_right (h : TotalPreorder cmp) {a b : α} (e : cmp a b = .eq) (c : α) : cmp c a = cmp c b := by
  rw [h.swap a c, h.swap b c, h.eq_left e]

/-! ## Stable sort -/

theorem insertLe_perm (le : α → α → Bool) (x : α) (l : List α) : (insertLe le x l).Perm (x :: l) := by
  induction l with
  | nil => exact List.Perm.refl _
  | cons y ys ih =>
    unfold insertLe
    split
    · exact List.Perm.refl _
    · exact (ih.cons y).trans (List.Perm.swap x y ys)

theorem stableSort_perm (le : α → α → Bool) (l : List α) : (stableSort le l).Perm l := by
  induction l with
  | nil => exact List.Perm.refl _
  | cons x xs ih => exact (insertLe_perm le x _).trans (ih.cons x)

theorem mem_stableSort {le : α → α → Bool} {l : List α} {x : α} : x ∈ stableSort le l ↔ x ∈ l :=
  (stableSort_perm le l).mem_iff

theorem insertLe_map {β : Type} (le : α → α → Bool) (le' : β → β → Bool) (f : α → β) (x : α) (l : List α)
    (h : ∀ b ∈ l, le x b = le' (f x) (f b)) : (insertLe le x l).map f = insertLe le' (f x) (l.map f) := by
  induction l with
  | nil => rfl
  | cons y ys ih =>
    simp only [insertLe, List.map_cons]
    rw [← h y (by simp)]
    split
    · rfl
    · rw [List.map_cons, ih fun b hb => h b (by simp [hb])]

theorem stableSort_map {β : Type} (le : α → α → Bool) (le' : β → β → Bool) (f : α → β) (l : List α)
    (h : ∀ a ∈ l, ∀ b ∈ l, le a b = le' (f a) (f b)) : (stableSort le l).map f = stableSort le' (l.map f) := by
  induction l with
  | nil => rfl
  | cons x xs ih =>
    simp only [stableSort, List.map_cons]
    rw [insertLe_map le le' f x _ fun b hb => h x (by simp) b (by simp [mem_stableSort.1 hb]),
      ih fun a ha b hb => h a (by simp [ha]) b (by simp [hb])]

theorem insertLe_sorted (h : TotalPreorder cmp) (x : α) (l : List α) (hs : SortedBy cmp l) :
    SortedBy cmp (insertLe (leOf cmp) x l) := by
  induction l with
  | nil => simp [insertLe, SortedBy]
  | cons y ys ih =>
    unfold insertLe
    split
    · rename_i hle
      have hle : cmp x y ≠ .gt := of_decide_eq_true hle
      refine List.pairwise_cons.2 ⟨?_, hs⟩
      intro z hz
      rcases List.mem_cons.1 hz with rfl | hz
      · exact hle
      · exact h.trans x y z hle ((List.pairwise_cons.1 hs).1 z hz)
    · rename_i hle
      have hgt : cmp x y = .gt := by simpa using hle
      refine List.pairwise_cons.2 ⟨?_, ih (List.pairwise_cons.1 hs).2⟩
      intro z hz
      rcases List.mem_cons.1 ((insertLe_perm _ x ys).mem_iff.1 hz) with rfl | hz
      · rw [h.swap z y, hgt]; decide
      · exact (List.pairwise_cons.1 hs).1 z hz

theorem insertLe_class (h : TotalPreorder cmp) (x z : α) (l : List α) :
    classOf cmp z (insertLe (leOf cmp) x l) = classOf cmp z (x :: l) := by
  induction l with
  | nil => rfl
  | cons y ys ih =>
    unfold insertLe
    split
    · rfl
    · rename_i hle
      have hgt : cmp x y = .gt := by simpa using hle
      unfold classOf at ih ⊢
      rw [List.filter_cons, ih, List.filter_cons, List.filter_cons (x := x), List.filter_cons (x := y)]
      by_cases h1 : cmp z x = .eq
      · have h2 : cmp z y ≠ .eq := by
          intro h2
          rw [h.eq_trans (h.eq_symm h1) h2] at hgt
          simp at hgt
        simp [h1, h2]
      · simp [h1]

theorem stableSort_stable (h : TotalPreorder cmp) (l : List α) : StableSort cmp l (stableSort (leOf cmp) l) := by
  refine ⟨stableSort_perm _ l, ?_, ?_⟩
  · induction l with
    | nil => exact List.Pairwise.nil
    | cons x xs ih => exact insertLe_sorted h x _ ih
  · intro z
    induction l with
    | nil => rfl
    | cons x xs ih =>
      rw [stableSort, insertLe_class h]
      unfold classOf at ih ⊢
      rw [List.filter_cons, List.filter_cons, ih]

theorem SortedBy.tail {x : α} {l : List α} (h : SortedBy cmp (x :: l)) : SortedBy cmp l := by
  unfold SortedBy at *
  exact (List.pairwise_cons.1 h).2

theorem SortedBy.head {x : α} {l : List α} (h : SortedBy cmp (x :: l)) : ∀ y ∈ l, cmp x y ≠ .gt := by
  unfold SortedBy at *
  exact (List.pairwise_cons.1 h).1

theorem classOf_cons (x y : α) (l : List α) :
    classOf cmp x (y :: l) = if cmp x y = .eq then y :: classOf cmp x l else classOf cmp x l := by
  simp [classOf, List.filter_cons]

theorem classOf_append (x : α) (l r : List α) : classOf cmp x (l ++ r) = classOf cmp x l ++ classOf cmp x r := by
  simp [classOf]

theorem classOf_eq_nil_of_lt (h : TotalPreorder cmp) {x y : α} {l : List α} (hs : SortedBy cmp (y :: l))
    (hlt : cmp x y = .lt) : classOf cmp x (y :: l) = [] := by
  unfold classOf
  rw [List.filter_eq_nil_iff]
  intro z hz
  have : cmp x z = .lt := by
    rcases List.mem_cons.1 hz with rfl | hz
    · exact hlt
    · exact h.lt_of_lt_of_le hlt (hs.head z hz)
  simp [this]

/-- Merging keeps the elements of the left list before equal ones of the right list. -/
theorem merge_stable (h : TotalPreorder cmp) (l r : List α) (hl : SortedBy cmp l) (hr : SortedBy cmp r) :
    StableSort cmp (l ++ r) (l.merge r (leOf cmp)) := by
  refine ⟨List.merge_perm_append _, ?_, ?_⟩
  · have := List.pairwise_merge (le := leOf cmp) h.le_trans h.le_total l r (hl.imp (by simp)) (hr.imp (by simp))
    exact this.imp (by simp)
  · intro x
    induction l generalizing r with
    | nil => simp [List.nil_merge]
    | cons a l ihl =>
      induction r with
      | nil => simp
      | cons b r ihr =>
        rw [List.cons_merge_cons]
        by_cases hab : cmp a b = .gt
        · have : ¬ leOf cmp a b = true := by simp [leOf, hab]
          rw [if_neg this, classOf_cons, ihr hr.tail]
          by_cases hx : cmp x b = .eq
          · have hba : cmp b a = .lt := by rwa [← h.gt_iff]
            have hxa : cmp x a = .lt := h.lt_of_le_of_lt (by simp [hx]) hba
            rw [if_pos hx, classOf_append, classOf_append, classOf_cons x b, if_pos hx,
              classOf_eq_nil_of_lt h hl hxa]
            rfl
          · rw [if_neg hx, classOf_append, classOf_append, classOf_cons x b, if_neg hx]
        · have : leOf cmp a b = true := by simp [leOf, hab]
          rw [if_pos this, classOf_cons, ihl (b :: r) hl.tail hr, List.cons_append, classOf_cons]

/-- The stable sort is unique. -/
theorem StableSort.unique (h : TotalPreorder cmp) {inp a b : List α} (ha : StableSort cmp inp a)
    (hb : StableSort cmp inp b) : a = b := by
  have key : ∀ (a b : List α), SortedBy cmp a → SortedBy cmp b → (∀ x, classOf cmp x a = classOf cmp x b) → a = b := by
    intro a
    induction a with
    | nil =>
      intro b _ _ he
      cases b with
      | nil => rfl
      | cons y b =>
        have := he y
        rw [classOf_cons, if_pos (h.refl y)] at this
        simp [classOf] at this
    | cons x a ih =>
      intro b hsa hsb he
      cases b with
      | nil =>
        have := he x
        rw [classOf_cons, if_pos (h.refl x)] at this
        simp [classOf] at this
      | cons y b =>
        have hxy : cmp x y = .eq := by
          cases hc : cmp x y with
          | eq => rfl
          | lt =>
            have h1 := he x
            rw [classOf_eq_nil_of_lt h hsb hc, classOf_cons, if_pos (h.refl x)] at h1
            simp at h1
          | gt =>
            have h1 := he y
            rw [classOf_eq_nil_of_lt h hsa (h.gt_iff.1 hc), classOf_cons, if_pos (h.refl y)] at h1
            simp at h1
        have h1 := he x
        rw [classOf_cons, if_pos (h.refl x), classOf_cons, if_pos hxy] at h1
        obtain ⟨rfl, _⟩ := List.cons.inj h1
        congr 1
        apply ih b hsa.tail hsb.tail
        intro z
        have h2 := he z
        rw [classOf_cons, classOf_cons] at h2
        by_cases hz : cmp z x = .eq
        · rw [if_pos hz, if_pos hz] at h2
          exact (List.cons.inj h2).2
        · rwa [if_neg hz, if_neg hz] at h2
  exact key a b ha.sorted hb.sorted fun x => (ha.stable x).trans (hb.stable x).symm

theorem StableSort.trans {a b c : List α} (h1 : StableSort cmp a b) (h2 : StableSort cmp b c) : StableSort cmp a c :=
  ⟨h2.perm.trans h1.perm, h2.sorted, fun x => (h2.stable x).trans (h1.stable x)⟩

/-! ## Duplicates -/

/-- Keep an element if it differs from the last one kept. -/
def keepNew (eq : α → α → Bool) (last : α) : List α → List α
  | [] => []
  | x :: xs => if eq last x then keepNew eq last xs else x :: keepNew eq x xs

theorem keepNew_mem {eq : α → α → Bool} {last : α} {l : List α} : ∀ y ∈ keepNew eq last l, y ∈ l := by
  induction l generalizing last with
  | nil => simp [keepNew]
  | cons x xs ih =>
    intro y hy
    unfold keepNew at hy
    by_cases hx : eq last x = true
    · rw [if_pos hx] at hy
      exact List.mem_cons_of_mem _ (ih y hy)
    · rw [if_neg hx] at hy
      rcases List.mem_cons.1 hy with rfl | hy
      · simp
      · exact List.mem_cons_of_mem _ (ih y hy)

theorem keepNew_spec (h : TotalPreorder cmp) (x : α) (l : List α) (hs : SortedBy cmp (x :: l)) :
    UniqueSort cmp (x :: l) (x :: keepNew (fun a b => cmp a b == .eq) x l) := by
  induction l generalizing x with
  | nil =>
    refine ⟨by simp [keepNew], fun z => ?_⟩
    simp only [keepNew, classOf_cons]
    split <;> simp [classOf]
  | cons y l ih =>
    by_cases hxy : cmp x y = .eq
    · have hs2 : SortedBy cmp (x :: l) := by
        unfold SortedBy at *
        simp only [List.pairwise_cons, List.mem_cons, forall_eq_or_imp] at *
        exact ⟨hs.1.2, hs.2.2⟩
      have := ih x hs2
      simp only [keepNew, hxy, beq_self_eq_true, if_true]
      refine ⟨this.strict, fun z => ?_⟩
      rw [this.first z, classOf_cons, classOf_cons, classOf_cons]
      by_cases hz : cmp z x = .eq
      · have := h.eq_trans hz hxy
        simp [hz]
      · have : ¬ cmp z y = .eq := fun e => hz (h.eq_trans e (h.eq_symm hxy))
        simp [hz, this]
    · have hlt : cmp x y = .lt := by
        have := hs.head y (by simp)
        cases hc : cmp x y <;> simp_all
      have := ih y hs.tail
      simp only [keepNew, hlt, show ((Ordering.lt == Ordering.eq) = true) = False by simp, if_false]
      refine ⟨?_, fun z => ?_⟩
      · rw [List.pairwise_cons]
        refine ⟨fun z hz => ?_, this.strict⟩
        have hz : z ∈ y :: l := by
          rcases List.mem_cons.1 hz with rfl | hz
          · simp
          · exact List.mem_cons_of_mem _ (keepNew_mem z hz)
        rcases List.mem_cons.1 hz with rfl | hz
        · exact hlt
        · exact h.lt_of_lt_of_le hlt (hs.tail.head z hz)
      · rw [classOf_cons (x := z) (y := x), this.first z, classOf_cons z x]
        by_cases hz : cmp z x = .eq
        · rw [if_pos hz, if_pos hz, classOf_eq_nil_of_lt h hs.tail (h.lt_of_le_of_lt (by simp [hz]) hlt)]
          rfl
        · rw [if_neg hz, if_neg hz]

/-- Removal of duplicates, starting with nothing kept. -/
def uniq (eq : α → α → Bool) : List α → List α
  | [] => []
  | x :: xs => x :: keepNew eq x xs

theorem uniq_spec (h : TotalPreorder cmp) {l : List α} (hs : SortedBy cmp l) :
    UniqueSort cmp l (uniq (fun a b => cmp a b == .eq) l) := by
  cases l with
  | nil => exact ⟨by simp [uniq], fun x => by simp [uniq, classOf]⟩
  | cons x l => exact keepNew_spec h x l hs

theorem UniqueSort.of_stable {inp s out : List α} (h1 : StableSort cmp inp s) (h2 : UniqueSort cmp s out) :
    UniqueSort cmp inp out :=
  ⟨h2.strict, fun x => by rw [h2.first, h1.stable]⟩

theorem UniqueSort.mem (h : TotalPreorder cmp) {inp out : List α} (hu : UniqueSort cmp inp out) : ∀ y ∈ out, y ∈ inp := by
  intro y hy
  have h1 : y ∈ classOf cmp y out := by simp [classOf, hy, h.refl]
  rw [hu.first] at h1
  have := List.mem_of_mem_take h1
  simp only [classOf, List.mem_filter] at this
  exact this.1

theorem UniqueSort.some (h : TotalPreorder cmp) {inp out : List α} (hu : UniqueSort cmp inp out) :
    SomeUniqueSort cmp inp out := by
  refine ⟨hu.strict, hu.mem h, fun x hx => ?_⟩
  have h1 : x ∈ classOf cmp x inp := by simp [classOf, hx, h.refl]
  have h2 : classOf cmp x out ≠ [] := by
    rw [hu.first]
    cases hc : classOf cmp x inp with
    | nil => simp [hc] at h1
    | cons => simp
  obtain ⟨y, hy⟩ := List.exists_mem_of_ne_nil _ h2
  simp only [classOf, List.mem_filter, beq_iff_eq] at hy
  exact ⟨y, hy⟩

theorem SomeUniqueSort.of_mem {a b out : List α} (h : SomeUniqueSort cmp a out) (hab : ∀ x, x ∈ a ↔ x ∈ b) :
    SomeUniqueSort cmp b out :=
  ⟨h.strict, fun y hy => (hab y).1 (h.sub y hy), fun x hx => h.covers x ((hab x).2 hx)⟩

/-- Reducing each part first makes no difference. -/
theorem SomeUniqueSort.of_parts (h : TotalPreorder cmp) {parts : List (List α)} {f : List α → List α} {out : List α}
    (hp : ∀ p ∈ parts, SomeUniqueSort cmp p (f p)) (ho : SomeUniqueSort cmp (parts.map f).flatten out) :
    SomeUniqueSort cmp parts.flatten out := by
  refine ⟨ho.strict, fun y hy => ?_, fun x hx => ?_⟩
  · have := ho.sub y hy
    simp only [List.mem_flatten, List.mem_map] at *
    obtain ⟨_, ⟨p, hpm, rfl⟩, hy2⟩ := this
    exact ⟨p, hpm, (hp p hpm).sub y hy2⟩
  · obtain ⟨p, hpm, hx⟩ := List.mem_flatten.1 hx
    obtain ⟨y, hy, e⟩ := (hp p hpm).covers x hx
    obtain ⟨z, hz, e2⟩ := ho.covers y (List.mem_flatten.2 ⟨f p, List.mem_map.2 ⟨p, hpm, rfl⟩, hy⟩)
    exact ⟨z, hz, h.eq_trans e e2⟩

theorem skipWritten_eq (eq : Bytes → Bytes → Bool) (p : Bytes) (l : List Bytes) :
    skipWritten eq p l = keepNew eq p l := by
  induction l generalizing p with
  | nil => rfl
  | cons x l ih =>
    unfold skipWritten keepNew
    rw [ih, ih]
    cases eq p x <;> rfl

theorem uniqueWritten_eq (eq : Bytes → Bytes → Bool) (l : List Bytes) : uniqueWritten eq l = uniq eq l := by
  cases l with
  | nil => rfl
  | cons x l => simp [uniqueWritten, uniq, skipWritten_eq]

/-- Comparing with the previous element instead of the last one kept makes no difference. -/
theorem skipPrev_eq {cmp : Bytes → Bytes → Ordering} (h : TotalPreorder cmp) (p q : Bytes) (hpq : cmp p q = .eq)
    (l : List Bytes) :
    skipPrev (fun a b => cmp a b == .eq) p l = keepNew (fun a b => cmp a b == .eq) q l := by
  induction l generalizing p q with
  | nil => rfl
  | cons x l ih =>
    unfold skipPrev keepNew
    rw [h.eq_left hpq]
    by_cases hx : cmp q x = .eq
    · simp only [hx, beq_self_eq_true, Bool.not_true, if_true]
      rw [ih x q (h.eq_symm hx)]
      rfl
    · have : (cmp q x == .eq) = false := by simp [hx]
      simp only [this, Bool.not_false, if_true]
      rw [ih x x (h.refl x)]
      rfl

theorem uniquePrev_eq {cmp : Bytes → Bytes → Ordering} (h : TotalPreorder cmp) (l : List Bytes) :
    uniquePrev (fun a b => cmp a b == .eq) l = uniq (fun a b => cmp a b == .eq) l := by
  cases l with
  | nil => rfl
  | cons x l => simp [uniquePrev, uniq, skipPrev_eq h x x (h.refl x)]

end Cdx
