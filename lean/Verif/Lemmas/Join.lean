import Verif.Model.Join
import Verif.Spec.Join
import Verif.Lemmas.SortList
import Verif.Lemmas.PreorderOn

/-!
The join loop.
-/

namespace Cdx

variable {α β γ : Type}


theorem cross_up {c : γ → γ → Ordering} (hc : TotalPreorder c) {x y z : γ} (h : c x y ≠ .gt) (h2 : c x z = .gt) :
    c y z = .gt := by
  rw [hc.gt_iff] at *
  exact hc.lt_of_lt_of_le h2 h

theorem cross_notlt {c : γ → γ → Ordering} (hc : TotalPreorder c) {x y z : γ} (h : c x y ≠ .gt) (h2 : c x z ≠ .lt) :
    c y z ≠ .lt := by
  intro e
  exact h2 (hc.lt_of_le_of_lt h e)

/-- The main output, for sorted files. -/
theorem joinLoop_yes {c : γ → γ → Ordering} (hc : TotalPreorder c) (i : α → γ) (j : β → γ) (fuel : Nat) (as : List α)
    (bs : List β) (ha : SortedBy (fun x y => c (i x) (i y)) as) (hb : SortedBy (fun x y => c (j x) (j y)) bs)
    (hf : as.length + bs.length < fuel) :
    (joinLoop (fun a b => c (i a) (j b)) fuel as bs).yes = matchPairs (fun a b => c (i a) (j b) == .eq) as bs ∧
    (joinLoop (fun a b => c (i a) (j b)) fuel as bs).no0 = unmatchedLeft (fun a b => c (i a) (j b) == .eq) as bs := by
  induction fuel generalizing as bs with
  | zero => omega
  | succ fuel ih =>
    cases as with
    | nil => simp [joinLoop, matchPairs, unmatchedLeft]
    | cons a as =>
      cases bs with
      | nil =>
        have : ((a :: as).filter fun _ => true) = a :: as := List.filter_eq_self.2 (by simp)
        simpa [joinLoop, matchPairs, unmatchedLeft] using this.symm
      | cons b bs =>
        simp only [List.length_cons] at hf
        have ha' := (List.pairwise_cons.1 ha).2
        have ha0 := (List.pairwise_cons.1 ha).1
        have hb' := (List.pairwise_cons.1 hb).2
        have hb0 := (List.pairwise_cons.1 hb).1
        -- a line of file 1 that nothing equals can be passed over
        have skipb : ∀ as' : List α, (∀ x ∈ as', c (i x) (j b) ≠ .eq) →
            matchPairs (fun a b => c (i a) (j b) == .eq) as' (b :: bs)
              = matchPairs (fun a b => c (i a) (j b) == .eq) as' bs ∧
            unmatchedLeft (fun a b => c (i a) (j b) == .eq) as' (b :: bs)
              = unmatchedLeft (fun a b => c (i a) (j b) == .eq) as' bs := by
          intro as' h
          constructor
          · unfold matchPairs
            clear ih ha hf ha' ha0
            induction as' with
            | nil => rfl
            | cons x xs ihx =>
              simp only [List.filterMap_cons]
              rw [List.find?_cons_of_neg (by simp [h x (by simp)]), ihx fun y hy => h y (by simp [hy])]
          · unfold unmatchedLeft
            apply List.filter_congr
            intro x hx
            simp [h x hx]
        cases h : c (i a) (j b) with
        | eq =>
          have hm : matchPairs (fun a b => c (i a) (j b) == .eq) (a :: as) (b :: bs)
              = (a, b) :: matchPairs (fun a b => c (i a) (j b) == .eq) as (b :: bs) := by
            simp [matchPairs, h]
          have hu : unmatchedLeft (fun a b => c (i a) (j b) == .eq) (a :: as) (b :: bs)
              = unmatchedLeft (fun a b => c (i a) (j b) == .eq) as (b :: bs) := by
            simp [unmatchedLeft, h]
          rw [hm, hu]
          cases as with
          | nil =>
            simp [joinLoop, h, matchPairs, unmatchedLeft]
          | cons a' as' =>
            simp only [joinLoop, h]
            by_cases h2 : c (i a') (j b) = .eq
            · have := ih (a' :: as') (b :: bs) ha' hb (by simp at hf ⊢; omega)
              simp only [h2, ne_eq, not_true_eq_false, if_false]
              exact ⟨by rw [this.1], this.2⟩
            · have := ih (a' :: as') bs ha' hb' (by simp at hf ⊢; omega)
              simp only [h2, ne_eq, not_false_eq_true, if_true]
              have hgt : c (i a') (j b) = .gt := by
                have := cross_notlt hc (ha0 a' (by simp)) (z := j b) (by simp [h])
                cases h3 : c (i a') (j b) <;> simp_all
              have hall : ∀ x ∈ a' :: as', c (i x) (j b) ≠ .eq := by
                intro x hx
                rcases List.mem_cons.1 hx with rfl | hx
                · exact h2
                · have := cross_up hc ((List.pairwise_cons.1 ha').1 x hx) hgt
                  simp [this]
              rw [(skipb _ hall).1, (skipb _ hall).2]
              exact ⟨by rw [this.1], this.2⟩
        | lt =>
          have hall : ∀ y ∈ b :: bs, c (i a) (j y) = .lt := by
            intro y hy
            rcases List.mem_cons.1 hy with rfl | hy
            · exact h
            · exact hc.lt_of_lt_of_le h (hb0 y hy)
          have := ih as (b :: bs) ha' hb (by simp; omega)
          simp only [joinLoop, h]
          have h1 : (b :: bs).find? (fun y => c (i a) (j y) == .eq) = none := by
            rw [List.find?_eq_none]
            intro y hy
            simp [hall y hy]
          have h2 : (b :: bs).any (fun y => c (i a) (j y) == .eq) = false := by
            rw [List.any_eq_false]
            intro y hy
            simp [hall y hy]
          constructor
          · rw [this.1]
            simp only [matchPairs, List.filterMap_cons, h1, Option.map_none]
          · rw [this.2]
            simp only [unmatchedLeft, List.filter_cons, h2, Bool.not_false, if_true]
        | gt =>
          have hall : ∀ x ∈ a :: as, c (i x) (j b) ≠ .eq := by
            intro x hx
            rcases List.mem_cons.1 hx with rfl | hx
            · simp [h]
            · have := cross_up hc (ha0 x hx) h
              simp [this]
          have := ih (a :: as) bs ha hb' (by simp; omega)
          simp only [joinLoop, h]
          rw [(skipb _ hall).1, (skipb _ hall).2]
          exact this

/-- The unmatched lines of the second file, when its keys are distinct. -/
theorem joinLoop_no1 {c : γ → γ → Ordering} (hc : TotalPreorder c) (i : α → γ) (j : β → γ) (fuel : Nat) (as : List α)
    (bs : List β) (ha : SortedBy (fun x y => c (i x) (i y)) as) (hb : bs.Pairwise fun x y => c (j x) (j y) = .lt)
    (hf : as.length + bs.length < fuel) :
    (joinLoop (fun a b => c (i a) (j b)) fuel as bs).no1 = unmatchedRight (fun a b => c (i a) (j b) == .eq) as bs := by
  induction fuel generalizing as bs with
  | zero => omega
  | succ fuel ih =>
    cases as with
    | nil =>
      have : (bs.filter fun _ => true) = bs := List.filter_eq_self.2 (by simp)
      simpa [joinLoop, unmatchedRight] using this.symm
    | cons a as =>
      cases bs with
      | nil => simp [joinLoop, unmatchedRight]
      | cons b bs =>
        simp only [List.length_cons] at hf
        have ha' := (List.pairwise_cons.1 ha).2
        have ha0 := (List.pairwise_cons.1 ha).1
        have hb' := (List.pairwise_cons.1 hb).2
        have hb0 := (List.pairwise_cons.1 hb).1
        -- a line of file 0 that equals none can be passed over
        have skipa : ∀ bs' : List β, (∀ y ∈ bs', c (i a) (j y) ≠ .eq) →
            unmatchedRight (fun a b => c (i a) (j b) == .eq) (a :: as) bs'
              = unmatchedRight (fun a b => c (i a) (j b) == .eq) as bs' := by
          intro bs' h
          unfold unmatchedRight
          apply List.filter_congr
          intro y hy
          simp [h y hy]
        cases h : c (i a) (j b) with
        | eq =>
          have hne : ∀ y ∈ bs, c (i a) (j y) ≠ .eq := by
            intro y hy
            rw [hc.lt_of_le_of_lt (by simp [h]) (hb0 y hy)]
            simp
          have hu : unmatchedRight (fun a b => c (i a) (j b) == .eq) (a :: as) (b :: bs)
              = unmatchedRight (fun a b => c (i a) (j b) == .eq) as bs := by
            rw [← skipa bs hne]
            simp [unmatchedRight, h]
          rw [hu]
          cases as with
          | nil =>
            have : (bs.filter fun _ => true) = bs := List.filter_eq_self.2 (by simp)
            simpa [joinLoop, h, unmatchedRight] using this.symm
          | cons a' as' =>
            simp only [joinLoop, h]
            by_cases h2 : c (i a') (j b) = .eq
            · simp only [h2, ne_eq, not_true_eq_false, if_false]
              rw [ih (a' :: as') (b :: bs) ha' hb (by simp at hf ⊢; omega)]
              simp [unmatchedRight, h2]
            · simp only [h2, ne_eq, not_false_eq_true, if_true]
              exact ih (a' :: as') bs ha' hb' (by simp at hf ⊢; omega)
        | lt =>
          simp only [joinLoop, h]
          rw [ih as (b :: bs) ha' hb (by simp; omega)]
          refine (skipa _ ?_).symm
          intro y hy
          rcases List.mem_cons.1 hy with rfl | hy
          · simp [h]
          · have := hb0 y hy
            rw [hc.lt_of_lt_of_le h (by simp [this])]
            simp
        | gt =>
          simp only [joinLoop, h]
          rw [ih (a :: as) bs ha hb' (by simp; omega)]
          have : (a :: as).any (fun x => c (i x) (j b) == .eq) = false := by
            rw [List.any_eq_false]
            intro x hx
            rcases List.mem_cons.1 hx with rfl | hx
            · simp [h]
            · have := cross_up hc (ha0 x hx) h
              simp [this]
          simp only [unmatchedRight, List.filter_cons, this, Bool.not_false, if_true]

theorem joinLoop_congr (cmp cmp' : α → β → Ordering) (fuel : Nat) (as : List α) (bs : List β)
    (h : ∀ a ∈ as, ∀ b ∈ bs, cmp a b = cmp' a b) : joinLoop cmp fuel as bs = joinLoop cmp' fuel as bs := by
  induction fuel generalizing as bs with
  | zero => rfl
  | succ fuel ih =>
    cases as with
    | nil => rfl
    | cons a as =>
      cases bs with
      | nil => rfl
      | cons b bs =>
        have h1 := ih as bs fun x hx y hy => h x (by simp [hx]) y (by simp [hy])
        have h2 := ih as (b :: bs) fun x hx y hy => h x (by simp [hx]) y hy
        have h3 := ih (a :: as) bs fun x hx y hy => h x hx y (by simp [hy])
        simp only [joinLoop, h a (by simp) b (by simp), h2, h3]
        cases as with
        | nil => rfl
        | cons a' as' => simp only [h1, h a' (by simp) b (by simp)]

theorem any_congr' {l : List α} {p q : α → Bool} (h : ∀ x ∈ l, p x = q x) : l.any p = l.any q := by
  induction l with
  | nil => rfl
  | cons x xs ih => simp only [List.any_cons, h x (by simp), ih fun y hy => h y (by simp [hy])]

theorem find_congr' {l : List α} {p q : α → Bool} (h : ∀ x ∈ l, p x = q x) : l.find? p = l.find? q := by
  induction l with
  | nil => rfl
  | cons x xs ih => simp only [List.find?_cons, h x (by simp), ih fun y hy => h y (by simp [hy])]

theorem matchPairs_congr {same same' : α → β → Bool} {as : List α} {bs : List β}
    (h : ∀ a ∈ as, ∀ b ∈ bs, same a b = same' a b) : matchPairs same as bs = matchPairs same' as bs := by
  unfold matchPairs
  induction as with
  | nil => rfl
  | cons a as ih =>
    simp only [List.filterMap_cons, find_congr' (h a (by simp)), ih fun x hx => h x (by simp [hx])]

theorem unmatchedLeft_congr {same same' : α → β → Bool} {as : List α} {bs : List β}
    (h : ∀ a ∈ as, ∀ b ∈ bs, same a b = same' a b) : unmatchedLeft same as bs = unmatchedLeft same' as bs := by
  unfold unmatchedLeft
  apply List.filter_congr
  intro a ha
  rw [any_congr' (h a ha)]

theorem unmatchedRight_congr {same same' : α → β → Bool} {as : List α} {bs : List β}
    (h : ∀ a ∈ as, ∀ b ∈ bs, same a b = same' a b) : unmatchedRight same as bs = unmatchedRight same' as bs := by
  unfold unmatchedRight
  apply List.filter_congr
  intro b hb
  rw [any_congr' fun a ha => h a ha b hb]

/-- The main output and the unmatched lines when the comparison is an ordering on the lines of the files. -/
theorem joinLoop_on {S : γ → Prop} {c : γ → γ → Ordering} (hc : PreorderOn S c) (i : α → γ) (j : β → γ) (fuel : Nat)
    (as : List α) (bs : List β) (hi : ∀ a ∈ as, S (i a)) (hj : ∀ b ∈ bs, S (j b))
    (ha : SortedBy (fun x y => c (i x) (i y)) as) (hb : SortedBy (fun x y => c (j x) (j y)) bs)
    (hf : as.length + bs.length < fuel) :
    (joinLoop (fun a b => c (i a) (j b)) fuel as bs).yes = matchPairs (fun a b => c (i a) (j b) == .eq) as bs ∧
    (joinLoop (fun a b => c (i a) (j b)) fuel as bs).no0 = unmatchedLeft (fun a b => c (i a) (j b) == .eq) as bs ∧
    ((bs.Pairwise fun x y => c (j x) (j y) = .lt) →
      (joinLoop (fun a b => c (i a) (j b)) fuel as bs).no1
        = unmatchedRight (fun a b => c (i a) (j b) == .eq) as bs) := by
  obtain ⟨d, hd, he⟩ := hc.extend
  have e1 : ∀ a ∈ as, ∀ b ∈ bs, c (i a) (j b) = d (i a) (j b) := fun a ha b hb => (he _ _ (hi a ha) (hj b hb)).symm
  have e2 : ∀ a ∈ as, ∀ b ∈ bs, (c (i a) (j b) == .eq) = (d (i a) (j b) == .eq) := fun a ha b hb => by rw [e1 a ha b hb]
  have sa : SortedBy (fun x y => d (i x) (i y)) as := by
    refine List.Pairwise.imp_of_mem ?_ ha
    intro x y hx hy h
    show d (i x) (i y) ≠ .gt
    rw [he _ _ (hi x hx) (hi y hy)]
    exact h
  have sb : SortedBy (fun x y => d (j x) (j y)) bs := by
    refine List.Pairwise.imp_of_mem ?_ hb
    intro x y hx hy h
    show d (j x) (j y) ≠ .gt
    rw [he _ _ (hj x hx) (hj y hy)]
    exact h
  rw [joinLoop_congr _ _ fuel as bs e1, matchPairs_congr e2, unmatchedLeft_congr e2, unmatchedRight_congr e2]
  refine ⟨(joinLoop_yes hd i j fuel as bs sa sb hf).1, (joinLoop_yes hd i j fuel as bs sa sb hf).2, ?_⟩
  intro hs
  refine joinLoop_no1 hd i j fuel as bs sa ?_ hf
  refine List.Pairwise.imp_of_mem ?_ hs
  intro x y hx hy h
  rw [he _ _ (hj x hx) (hj y hy)]
  exact h

/-- Whatever the order of the files: what is written where. -/
structure JoinRouted (cmp : α → β → Ordering) (as : List α) (bs : List β) (r : Joined α β) : Prop where
  equal : ∀ p ∈ r.yes, cmp p.1 p.2 = .eq
  perm : (r.yes.map (·.1) ++ r.no0).Perm as
  inOrder : (r.yes.map (·.1)).Sublist as
  no0Order : r.no0.Sublist as
  right : ∀ p ∈ r.yes, p.2 ∈ bs
  no1Order : r.no1.Sublist bs
  lost : ∀ y ∈ bs, y ∈ r.no1 ∨ y ∈ r.yes.map (·.2)

theorem joinLoop_routed (cmp : α → β → Ordering) (fuel : Nat) (as : List α) (bs : List β)
    (hf : as.length + bs.length < fuel) : JoinRouted cmp as bs (joinLoop cmp fuel as bs) := by
  induction fuel generalizing as bs with
  | zero => omega
  | succ fuel ih =>
    cases as with
    | nil => constructor <;> simp [joinLoop]
    | cons a as =>
      cases bs with
      | nil => constructor <;> simp [joinLoop]
      | cons b bs =>
        simp only [List.length_cons] at hf
        cases h : cmp a b with
        | eq =>
          have key : ∀ r : Joined α β, JoinRouted cmp as bs r ∨ JoinRouted cmp as (b :: bs) r →
              JoinRouted cmp (a :: as) (b :: bs) { r with yes := (a, b) :: r.yes } := by
            intro r hr
            have hp : (r.yes.map (·.1) ++ r.no0).Perm as := hr.elim (·.perm) (·.perm)
            have ho : (r.yes.map (·.1)).Sublist as := hr.elim (·.inOrder) (·.inOrder)
            have hn : r.no0.Sublist as := hr.elim (·.no0Order) (·.no0Order)
            refine ⟨?_, ?_, ?_, ?_, ?_, ?_, ?_⟩
            · intro p hp
              rcases List.mem_cons.1 hp with rfl | hp
              · exact h
              · exact hr.elim (·.equal p hp) (·.equal p hp)
            · simpa using hp
            · simpa using ho
            · exact hn.cons _
            · intro p hp
              rcases List.mem_cons.1 hp with rfl | hp
              · simp
              · exact hr.elim (fun h => List.mem_cons_of_mem _ (h.right p hp)) (·.right p hp)
            · exact hr.elim (fun h => h.no1Order.cons _) (·.no1Order)
            · intro y hy
              rcases List.mem_cons.1 hy with rfl | hy
              · right; simp
              · rcases hr.elim (fun h => h.lost y hy) (fun h => h.lost y (by simp [hy])) with h | h
                · exact .inl h
                · exact .inr (by simp only [List.map_cons, List.mem_cons]; exact .inr h)
          simp only [joinLoop, h]
          apply key
          cases as with
          | nil => exact .inl (by simpa [joinLoop] using ih [] bs (by simp at hf ⊢; omega))
          | cons a' as' =>
            simp only [List.length_cons] at hf
            by_cases h2 : cmp a' b = .eq
            · simp only [h2, ne_eq, not_true_eq_false, if_false]
              exact .inr (ih _ _ (by simp; omega))
            · simp only [h2, ne_eq, not_false_eq_true, if_true]
              exact .inl (ih _ _ (by simp; omega))
        | lt =>
          simp only [joinLoop, h]
          have := ih as (b :: bs) (by simp; omega)
          exact ⟨this.equal, List.perm_middle.trans (this.perm.cons a), this.inOrder.cons _, this.no0Order.cons_cons _,
            this.right, this.no1Order, this.lost⟩
        | gt =>
          simp only [joinLoop, h]
          have := ih (a :: as) bs (by simp; omega)
          refine ⟨this.equal, this.perm, this.inOrder, this.no0Order, fun p hp => List.mem_cons_of_mem _ (this.right p hp),
            this.no1Order.cons_cons _, ?_⟩
          intro y hy
          rcases List.mem_cons.1 hy with rfl | hy
          · left; simp
          · rcases this.lost y hy with h | h
            · exact .inl (List.mem_cons_of_mem _ h)
            · exact .inr h

end Cdx
