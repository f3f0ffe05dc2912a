import Verif.Model.SortAlt
import Verif.Lemmas.SortList

/-!
C137: the alternate sort. C138: with any comparison.
-/

namespace Cdx

variable {α : Type}

/-- What merging single elements and merged lists gives, the left one first in doubt. -/
inductive Merged (cmp : α → α → Ordering) : List α → List α → Prop
  | one (a : α) : Merged cmp [a] [a]
  | two {l l' r r' : List α} : Merged cmp l l' → Merged cmp r r' → Merged cmp (l ++ r) (l'.merge r' (leOf cmp))

theorem Merged.perm {cmp : α → α → Ordering} {l l' : List α} (h : Merged cmp l l') : l'.Perm l := by
  induction h with
  | one => exact List.Perm.refl _
  | two _ _ h1 h2 => exact (List.merge_perm_append _).trans (h1.append h2)

theorem Merged.length {cmp : α → α → Ordering} {l l' : List α} (h : Merged cmp l l') : l'.length = l.length :=
  h.perm.length_eq

theorem Merged.pair (cmp : α → α → Ordering) (a b : α) : Merged cmp [a, b] (if cmp a b = .gt then [b, a] else [a, b]) := by
  have := Merged.two (Merged.one (cmp := cmp) a) (Merged.one b)
  by_cases h : cmp a b = .gt
  · simpa [List.merge, leOf, h] using this
  · simpa [List.merge, leOf, h] using this

theorem Merged.stable {cmp : α → α → Ordering} (hc : TotalPreorder cmp) {l l' : List α} (h : Merged cmp l l') :
    StableSort cmp l l' := by
  induction h with
  | one a => exact ⟨List.Perm.refl _, by simp [SortedBy], fun _ => rfl⟩
  | @two l l' r r' _ _ h1 h2 =>
    have := merge_stable hc l' r' h1.sorted h2.sorted
    refine ⟨this.perm.trans (h1.perm.append h2.perm), this.sorted, fun x => ?_⟩
    rw [this.stable x, classOf, classOf, List.filter_append, List.filter_append]
    have e1 := h1.stable x
    have e2 := h2.stable x
    simp only [classOf] at e1 e2
    rw [e1, e2]

/-! ## Merging in place -/

theorem copyLow_spec (a mid low z : List α) (h : mid.length = low.length) :
    copyLow (a ++ mid ++ z) a.length low = some (a ++ low ++ z) := by
  induction low generalizing a mid with
  | nil =>
    have : mid = [] := List.length_eq_zero_iff.1 (by simpa using h)
    simp [copyLow, this]
  | cons x low ih =>
    cases mid with
    | nil => simp at h
    | cons y mid =>
      have := ih (a ++ [x]) mid (by simpa using h)
      simp only [copyLow, put, List.append_assoc, List.length_append, List.length_cons]
      rw [if_pos (by omega), Option.bind_some]
      rw [List.set_append_right _ _ (Nat.le_refl _)]
      simpa using this

theorem mergeLinesLoop_spec (cmp : α → α → Ordering) (fuel : Nat) (a gap hi z low : List α) (hg : gap.length = low.length)
    (hl : low ≠ []) (hh : hi ≠ []) (hf : low.length + hi.length ≤ fuel) :
    mergeLinesLoop cmp fuel (a ++ gap ++ hi ++ z) a.length low (a.length + low.length) (a.length + low.length + hi.length)
      = some (a ++ low.merge hi (leOf cmp) ++ z) := by
  induction fuel generalizing a gap hi low with
  | zero =>
    cases low with
    | nil => exact absurd rfl hl
    | cons x low => simp at hf
  | succ fuel ih =>
    cases low with
    | nil => exact absurd rfl hl
    | cons x low =>
      cases hi with
      | nil => exact absurd rfl hh
      | cons y hi =>
        cases gap with
        | nil => simp at hg
        | cons g gap =>
          have hg' : gap.length = low.length := by simpa using hg
          have e1 : (a ++ g :: gap ++ y :: hi ++ z)[a.length + (x :: low).length]? = some y := by
            rw [List.append_assoc, List.getElem?_append_right (by simp [hg'])]
            simp [hg']
          have e2 : ∀ w, put (a ++ g :: gap ++ y :: hi ++ z) a.length w = some (a ++ [w] ++ gap ++ y :: hi ++ z) := by
            intro w
            simp only [put, List.append_assoc]
            rw [if_pos (by simp), List.set_append_right _ _ (Nat.le_refl _)]
            simp
          unfold mergeLinesLoop
          simp only [e1]
          by_cases h : cmp x y = .gt
          · simp only [h, ne_eq, not_true_eq_false, if_false, e2, Option.bind_some]
            have e3 : (x :: low).merge (y :: hi) (leOf cmp) = y :: (x :: low).merge hi (leOf cmp) := by
              simp [List.merge, leOf, h]
            rw [e3]
            cases hi with
            | nil =>
              have := copyLow_spec (a ++ [y]) (gap ++ [y]) (x :: low) z (by simp [hg'])
              simp only [List.length_cons, List.length_nil, Nat.zero_add, if_true]
              simpa using this
            | cons y2 hi =>
              rw [if_neg (by simp only [List.length_cons]; omega)]
              have := ih (a ++ [y]) (gap ++ [y]) (y2 :: hi) (x :: low) (by simp [hg']) (by simp) (by simp)
                (by simp only [List.length_cons] at hf ⊢; omega)
              have e4 : a.length + (x :: low).length + 1 = (a ++ [y]).length + (x :: low).length := by simp; omega
              have e5 : a.length + (x :: low).length + (y :: y2 :: hi).length
                = (a ++ [y]).length + (x :: low).length + (y2 :: hi).length := by simp; omega
              rw [e4, e5, show a.length + 1 = (a ++ [y]).length by simp]
              simpa using this
          · simp only [h, ne_eq, not_false_eq_true, if_true, e2, Option.bind_some]
            have e3 : (x :: low).merge (y :: hi) (leOf cmp) = x :: low.merge (y :: hi) (leOf cmp) := by
              simp [List.merge, leOf, h]
            rw [e3]
            cases low with
            | nil =>
              have : gap = [] := List.length_eq_zero_iff.1 hg'
              simp [this, List.merge]
            | cons x2 low =>
              rw [if_neg (by simp)]
              have := ih (a ++ [x]) gap (y :: hi) (x2 :: low) hg' (by simp) (by simp)
                (by simp only [List.length_cons] at hf ⊢; omega)
              have e4 : a.length + (x :: x2 :: low).length = (a ++ [x]).length + (x2 :: low).length := by simp; omega
              rw [e4, show a.length + 1 = (a ++ [x]).length by simp]
              simpa using this

theorem mergeLines_spec (cmp : α → α → Ordering) (gap hi z low : List α) (hg : gap.length = low.length)
    (hl : low ≠ []) (hh : hi ≠ []) :
    mergeLines cmp (gap ++ hi ++ z) low low.length (low.length + hi.length) = some (low.merge hi (leOf cmp) ++ z) := by
  have := mergeLinesLoop_spec cmp ((gap ++ hi ++ z).length + low.length + 1) [] gap hi z low hg hl hh
    (by simp only [List.length_append]; omega)
  simpa [mergeLines] using this

/-! ## The recursion -/

theorem sortLines_else (cmp : α → α → Ordering) (fuel : Nat) (items temp : List α) (h : items.length ≠ 2) :
    sortLines cmp (fuel + 1) items temp =
      ((sortLines cmp fuel (items.drop (items.length / 2)) temp).bind fun p =>
        let low := items.length / 2
        let items := items.take low ++ p.1
        (if low = 1 then (items[0]?).bind fun x => (put p.2 0 x).map fun temp => (items, temp)
          else (sortLinesTemp cmp fuel (items.take low) p.2).map fun q => (q.1 ++ items.drop low, q.2)).bind fun q =>
            if low ≤ q.2.length then
              (mergeLines cmp q.1 (q.2.take low) low q.1.length).map fun items => (items, q.2)
            else none) := by
  match items with
  | [] => simp [sortLines]
  | [_] => simp [sortLines]
  | [_, _] => simp at h
  | _ :: _ :: _ :: _ => simp only [sortLines]

theorem sortLinesTemp_else (cmp : α → α → Ordering) (fuel : Nat) (items temp : List α) (h : items.length ≠ 2) :
    sortLinesTemp cmp (fuel + 1) items temp =
      if items.length ≤ temp.length then
        (sortLinesTemp cmp fuel (items.drop (items.length / 2)) ((temp.take items.length).drop (items.length / 2))).bind fun p =>
          let low := items.length / 2
          let len := items.length
          let items := items.take low ++ p.1
          let temp := temp.take low ++ p.2 ++ temp.drop len
          (if low > 1 then (sortLines cmp fuel (items.take low) temp).map fun q => (q.1 ++ items.drop low, q.2)
            else some (items, temp)).bind fun q =>
              (mergeLines cmp q.2 (q.1.take low) low len).map fun temp => (q.1, temp)
      else none := by
  match items with
  | [] => simp [sortLinesTemp]
  | [_] => simp [sortLinesTemp]
  | [_, _] => simp at h
  | _ :: _ :: _ :: _ => simp only [sortLinesTemp]

theorem sortLines_spec (cmp : α → α → Ordering) (fuel : Nat) :
    (∀ items temp : List α, 2 ≤ items.length → items.length ≤ fuel → items.length / 2 ≤ temp.length →
      ∃ out temp', sortLines cmp fuel items temp = some (out, temp') ∧ Merged cmp items out ∧ temp'.length = temp.length ∧
        temp'.drop (items.length / 2) = temp.drop (items.length / 2)) ∧
    (∀ items temp : List α, 2 ≤ items.length → items.length ≤ fuel → items.length ≤ temp.length →
      ∃ out items', sortLinesTemp cmp fuel items temp = some (items', out ++ temp.drop items.length) ∧ Merged cmp items out ∧
        items'.length = items.length) := by
  induction fuel with
  | zero => exact ⟨fun _ _ h1 h2 => by omega, fun _ _ h1 h2 => by omega⟩
  | succ fuel ih =>
    refine ⟨fun items temp h1 h2 h3 => ?_, fun items temp h1 h2 h3 => ?_⟩
    · by_cases hn : items.length = 2
      · match items, hn with
        | [a, b], _ => exact ⟨_, _, rfl, Merged.pair cmp a b, rfl, rfl⟩
      · rw [sortLines_else _ _ _ _ hn]
        obtain ⟨low, hlow⟩ : ∃ low, low = items.length / 2 := ⟨_, rfl⟩
        rw [← hlow] at h3 ⊢
        have hlt : (items.take low).length = low := by simp; omega
        have hld : (items.drop low).length = items.length - low := by simp
        obtain ⟨hi, t1, e1, m1, l1, d1⟩ := ih.1 (items.drop low) temp (by omega) (by omega) (by omega)
        have hhi : hi.length = items.length - low := by rw [m1.length, hld]
        have hne : hi ≠ [] := by
          intro h
          simp [h] at hhi
          omega
        have hsplit : items = items.take low ++ items.drop low := (List.take_append_drop low items).symm
        have tk : (items.take low ++ hi).take low = items.take low := by
          rw [List.take_append_of_le_length (by omega), List.take_of_length_le (by omega)]
        have dr : (items.take low ++ hi).drop low = hi := by
          rw [List.drop_append_of_le_length (by omega), List.drop_of_length_le (by omega), List.nil_append]
        have fin : ∀ (g lo t2 : List α), g.length = low → lo.length = low → Merged cmp (items.take low) lo →
            t2.take low = lo → t2.length = temp.length → t2.drop low = temp.drop low →
            ∃ out temp', (if low ≤ t2.length then
                (mergeLines cmp (g ++ hi) (t2.take low) low (g ++ hi).length).map fun items => (items, t2)
              else none) = some (out, temp') ∧ Merged cmp items out ∧ temp'.length = temp.length ∧
              temp'.drop low = temp.drop low := by
          intro g lo t2 hg hlo hm ht hl2 hd2
          have hm2 := mergeLines_spec cmp g hi [] lo (by omega) (by intro h; simp [h] at hlo; omega) hne
          simp only [List.append_nil] at hm2
          refine ⟨lo.merge hi (leOf cmp), t2, ?_, ?_, hl2, hd2⟩
          · rw [if_pos (by omega), ht, show (g ++ hi).length = lo.length + hi.length by simp; omega, ← hlo, hm2]
            rfl
          · rw [hsplit]
            exact Merged.two hm m1
        rw [e1, Option.bind_some]
        simp only [tk, dr]
        by_cases hl : low = 1
        · rw [if_pos hl]
          have hx : ∃ x, items.take low = [x] := by
            match hh : items.take low, hlt with
            | [x], _ => exact ⟨x, rfl⟩
            | [], h => simp at h; omega
            | _ :: _ :: _, h => simp at h; omega
          obtain ⟨x, hx⟩ := hx
          have ht : 0 < t1.length := by omega
          simp only [hx, List.cons_append, List.nil_append, List.getElem?_cons_zero, Option.bind_some, put, if_pos ht,
            Option.map_some]
          obtain ⟨b, t1', rfl⟩ : ∃ b t1', t1 = b :: t1' := by
            cases t1 with
            | nil => simp at ht
            | cons b t1 => exact ⟨b, t1, rfl⟩
          have := fin [x] [x] (x :: t1') (by simp [hl]) (by simp [hl]) (by rw [hx]; exact Merged.one x) (by simp [hl])
            (by simpa using l1) (by
              rw [hld] at d1
              have d2 := congrArg (List.drop (low - (items.length - low) / 2)) d1
              rw [List.drop_drop, List.drop_drop, show (items.length - low) / 2 + (low - (items.length - low) / 2) = low by omega] at d2
              rw [← d2, hl]
              simp)
          exact this
        · rw [if_neg hl]
          obtain ⟨lo, it', e2, m2, l2⟩ := ih.2 (items.take low) t1 (by omega) (by omega) (by omega)
          rw [e2, Option.map_some, Option.bind_some]
          rw [hlt] at l2 ⊢
          have hlo : lo.length = low := by rw [m2.length, hlt]
          refine fin it' lo (lo ++ t1.drop low) (by omega) hlo m2 (by simp [hlo]) (by simp; omega) ?_
          rw [List.drop_append_of_le_length (by omega), List.drop_of_length_le (by omega), List.nil_append]
          rw [hld] at d1
          have d2 := congrArg (List.drop (low - (items.length - low) / 2)) d1
          rwa [List.drop_drop, List.drop_drop, show (items.length - low) / 2 + (low - (items.length - low) / 2) = low by omega] at d2
    · by_cases hn : items.length = 2
      · match items, temp, hn, h3 with
        | [a, b], x :: y :: temp, _, _ =>
          refine ⟨_, [a, b], ?_, Merged.pair cmp a b, rfl⟩
          by_cases h : cmp a b = .gt <;> simp [sortLinesTemp, h, put]
      · rw [sortLinesTemp_else _ _ _ _ hn, if_pos h3]
        obtain ⟨low, hlow⟩ : ∃ low, low = items.length / 2 := ⟨_, rfl⟩
        rw [← hlow]
        have hlt : (items.take low).length = low := by simp; omega
        have hld : (items.drop low).length = items.length - low := by simp
        have htl : ((temp.take items.length).drop low).length = items.length - low := by simp; omega
        obtain ⟨hi, it1, e1, m1, l1⟩ := ih.2 (items.drop low) ((temp.take items.length).drop low) (by omega) (by omega) (by omega)
        rw [hld, List.drop_of_length_le (l := List.drop low _) (by omega), List.append_nil] at e1
        have hhi : hi.length = items.length - low := by rw [m1.length, hld]
        have hne : hi ≠ [] := by
          intro h
          simp [h] at hhi
          omega
        have hsplit : items = items.take low ++ items.drop low := (List.take_append_drop low items).symm
        have tk : (items.take low ++ it1).take low = items.take low := by
          rw [List.take_append_of_le_length (by omega), List.take_of_length_le (by omega)]
        have dr : (items.take low ++ it1).drop low = it1 := by
          rw [List.drop_append_of_le_length (by omega), List.drop_of_length_le (by omega), List.nil_append]
        have fin : ∀ (g lo : List α), g.length = low → lo.length = low → Merged cmp (items.take low) lo →
            ∃ out items', (mergeLines cmp (g ++ hi ++ temp.drop items.length) ((lo ++ it1).take low) low items.length).map
                (fun temp => (lo ++ it1, temp)) = some (items', out ++ temp.drop items.length) ∧ Merged cmp items out ∧
              items'.length = items.length := by
          intro g lo hg hlo hm
          have hm2 := mergeLines_spec cmp g hi (temp.drop items.length) lo (by omega) (by intro h; simp [h] at hlo; omega) hne
          refine ⟨lo.merge hi (leOf cmp), lo ++ it1, ?_, ?_, by simp; omega⟩
          · have e5 : (lo ++ it1).take low = lo := by
              rw [List.take_append_of_le_length (by omega), List.take_of_length_le (by omega)]
            have e6 : items.length = lo.length + hi.length := by omega
            rw [e5]
            have : mergeLines cmp (g ++ hi ++ temp.drop items.length) lo low items.length
              = some (lo.merge hi (leOf cmp) ++ temp.drop items.length) := by
              rw [← hm2, hlo]
              congr 1
              omega
            rw [this]
            rfl
          · rw [hsplit]
            exact Merged.two hm m1
        rw [e1, Option.bind_some]
        simp only [tk, dr]
        by_cases hl : low > 1
        · rw [if_pos hl]
          obtain ⟨lo, t2, e2, m2, l2, d2⟩ := ih.1 (items.take low) (temp.take low ++ hi ++ temp.drop items.length) (by omega)
            (by omega) (by simp; omega)
          rw [e2, Option.map_some, Option.bind_some]
          have hlo : lo.length = low := by rw [m2.length, hlt]
          have ht2 : t2 = t2.take low ++ hi ++ temp.drop items.length := by
            rw [hlt] at d2
            have d3 := congrArg (List.drop (low - low / 2)) d2
            rw [List.drop_drop, List.drop_drop, show low / 2 + (low - low / 2) = low by omega, List.append_assoc,
              List.drop_append_of_le_length (by simp; omega), List.drop_of_length_le (l := List.take low temp) (by simp; omega),
              List.nil_append] at d3
            rw [List.append_assoc, ← d3, List.take_append_drop]
          rw [ht2]
          exact fin (t2.take low) lo (by rw [List.length_take, l2]; simp; omega) hlo m2
        · rw [if_neg hl, Option.bind_some]
          have hx : ∃ x, items.take low = [x] := by
            match hh : items.take low, hlt with
            | [x], _ => exact ⟨x, rfl⟩
            | [], h => simp at h; omega
            | _ :: _ :: _, h => simp at h; omega
          obtain ⟨x, hx⟩ := hx
          exact fin (temp.take low) (items.take low) (by simp; omega) hlt (by rw [hx]; exact Merged.one x)

theorem doSortLines_merged (cmp : α → α → Ordering) (d : α) (items : List α) (h : items ≠ []) :
    ∃ out, doSortLines cmp d items = some out ∧ Merged cmp items out := by
  by_cases h1 : items.length > 1
  · obtain ⟨out, t, e, m, _⟩ := (sortLines_spec cmp items.length).1 items (List.replicate (items.length / 2 + 1) d)
      (by omega) (Nat.le_refl _) (by simp)
    exact ⟨out, by simp [doSortLines, h1, e], m⟩
  · match items, h, h1 with
    | [a], _, _ => exact ⟨[a], rfl, Merged.one a⟩
    | [], h, _ => exact absurd rfl h
    | _ :: _ :: _, _, h => simp at h

/-- The alternate sort gives the stable sort, as the default one does. -/
theorem C137_alt_sort (cmp : α → α → Ordering) (hc : TotalPreorder cmp) (d : α) (items : List α) :
    ∃ out, doSortLines cmp d items = some out ∧ StableSort cmp items out ∧ out = stableSort (leOf cmp) items := by
  by_cases h : items = []
  · subst h
    exact ⟨[], rfl, ⟨List.Perm.refl _, by simp [SortedBy], fun _ => rfl⟩, rfl⟩
  · obtain ⟨out, e, m⟩ := doSortLines_merged cmp d items h
    exact ⟨out, e, m.stable hc, (m.stable hc).unique hc (stableSort_stable hc items)⟩

/-- With any comparison, even one that is no order: no panic, an end, and the same items. -/
theorem C138_any_comparison (cmp : α → α → Ordering) (d : α) (items : List α) :
    ∃ out, doSortLines cmp d items = some out ∧ out.Perm items := by
  by_cases h : items = []
  · subst h
    exact ⟨[], rfl, List.Perm.refl _⟩
  · obtain ⟨out, e, m⟩ := doSortLines_merged cmp d items h
    exact ⟨out, e, m.perm⟩

example : doSortLines (fun a b : Nat × Nat => compare a.1 b.1) (0, 0) [(2, 1), (1, 2), (2, 3), (1, 4), (0, 5)] =
    some [(0, 5), (1, 2), (1, 4), (2, 1), (2, 3)] := by decide +kernel

end Cdx
