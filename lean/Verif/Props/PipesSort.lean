import Verif.Props.PipesGrep

/-!
C216: sorting what is sorted.
-/

namespace Cdx

/-! ## Sorting twice -/

/-- Sorting by one order what is sorted by another is sorting by both. -/
theorem stableSort_then {α : Type} {p q : α → α → Ordering} (hp : TotalPreorder p) {inp mid out : List α} (h1 : StableSort q inp mid)
    (h2 : StableSort p mid out) : StableSort (fun x y => (p x y).then (q x y)) inp out := by
  have hclass : ∀ x (l : List α), classOf (fun x y => (p x y).then (q x y)) x l = classOf q x (classOf p x l) := by
    intro x l
    unfold classOf
    rw [List.filter_filter]
    congr 1
    funext y
    show ((p x y).then (q x y) == .eq) = _
    cases p x y <;> cases q x y <;> rfl
  have hcomm : ∀ x (l : List α), classOf q x (classOf p x l) = classOf p x (classOf q x l) := by
    intro x l
    unfold classOf
    rw [List.filter_filter, List.filter_filter]
    congr 1
    funext y
    exact Bool.and_comm _ _
  refine ⟨h2.perm.trans h1.perm, ?_, fun x => ?_⟩
  · rw [SortedBy, List.pairwise_iff_forall_sublist]
    intro a b hab
    have hpab : p a b ≠ .gt := List.pairwise_iff_forall_sublist.1 h2.sorted hab
    cases e : p a b with
    | gt => exact absurd e hpab
    | lt => simp [Ordering.then]
    | eq =>
      have hs : [a, b].Sublist (classOf p a out) := by
        have := hab.filter (fun y => p a y == .eq)
        rwa [List.filter_cons_of_pos (by simp [hp.refl a]), List.filter_cons_of_pos (by simp [e]), List.filter_nil] at this
      rw [h2.stable a] at hs
      have := List.pairwise_iff_forall_sublist.1 h1.sorted (hs.trans List.filter_sublist)
      simpa [Ordering.then] using this
  · rw [hclass, hclass, h2.stable x, hcomm, hcomm, h1.stable x]

theorem tabCmp_append (names : List Bytes) (js ks : List TabKey) (x y : List Bytes) :
    tabCmp names (js ++ ks) x y = (tabCmp names js x y).then (tabCmp names ks x y) := by
  induction js with
  | nil => rfl
  | cons k js ih =>
    simp only [List.cons_append, tabCmp, ih]
    generalize (if k.reverse = true then _ else _ : Ordering) = o
    cases o <;> rfl

theorem SortFits.append {names : List Bytes} {js ks : List TabKey} {as bs : List SortOpt} (h : SortFits names js as)
    (g : SortFits names ks bs) : SortFits names (js ++ ks) (as ++ bs) := by
  have e : sortSpecs (as ++ bs) = sortSpecs as ++ sortSpecs bs := by simp [sortSpecs]
  refine ⟨?_, by simp [h.some], ⟨?_, ?_⟩, ?_, ?_, ?_⟩
  · intro k hk
    exact (List.mem_append.1 hk).elim (h.suits k) (g.suits k)
  · rw [e, List.length_append, List.length_append, h.keys.1, g.keys.1]
  · intro x hx
    rw [e, List.zip_append h.keys.1.symm] at hx
    exact (List.mem_append.1 hx).elim (h.keys.2 x) (g.keys.2 x)
  · rw [List.mem_append]
    exact fun hm => hm.elim h.noMerge g.noMerge
  · intro x hx
    exact (List.mem_append.1 hx).elim (h.noCheck x) (g.noCheck x)
  · intro k hk
    cases js with
    | nil => exact absurd rfl h.some
    | cons j js => exact h.first k hk

/-- C216: sorting by some keys what was sorted by others is sorting by both lists of keys, byte for byte. -/
theorem C216_keys (toF64 : Bytes → F64) (nameOk : Bytes → Bool) (pick : Nat → List (Nat × Bytes) → Nat) (rd : Nat → Nat → Nat)
    (cap : Nat) (m : TextMode) (names : List Bytes) (tables : List (List (List Bytes))) (js ks : List TabKey) (as bs : List SortOpt)
    (ha : SortFits names js as) (hb : SortFits names ks bs) (hau : SortOpt.unique ∉ as) (hbu : SortOpt.unique ∉ bs)
    (ht : GoodTable names tables.flatten) (hok : ∀ n ∈ names, nameOk n = true) (htn : tables ≠ [])
    (hz : ∀ r ∈ tables.flatten, ∀ c ∈ r, 0 ∉ c) (hcap : 8 < cap) (hfit : (sepText TAB tables.flatten).length < cap) :
    ∃ mid out, sortMain toF64 nameOk pick rd cap m bs (tables.map fun rows => sepHead TAB names ++ sepText TAB rows) = .ok mid ∧
      sortMain toF64 nameOk pick rd cap m as [mid] = .ok out ∧
      sortMain toF64 nameOk pick rd cap m (as ++ bs) (tables.map fun rows => sepHead TAB names ++ sepText TAB rows) = .ok out := by
  obtain ⟨t1, t2, t3, t4, t5⟩ := ht
  obtain ⟨mid, m1, m2, -⟩ := sort_tables toF64 nameOk pick rd cap m hb ⟨t1, t2, t3, t4, t5⟩ hok htn hz hcap hfit
  have m2 := m2 hbu
  have hlen : (sepText TAB mid).length = (sepText TAB tables.flatten).length := (m2.perm.flatMap_right _).length_eq
  obtain ⟨out, o1, o2, -⟩ := sort_tables toF64 nameOk pick rd cap m (tables := [mid]) ha
    (by rw [List.flatten_singleton]; exact ⟨t1, t2, t3, t4, fun r hr => t5 r (m2.perm.mem_iff.1 hr)⟩) hok (by simp)
    (by rw [List.flatten_singleton]; exact fun r hr => hz r (m2.perm.mem_iff.1 hr)) hcap (by rw [List.flatten_singleton]; omega)
  rw [List.flatten_singleton] at o2
  have o2 := o2 hau
  obtain ⟨both, b1, b2, -⟩ := sort_tables toF64 nameOk pick rd cap m (ha.append hb) ⟨t1, t2, t3, t4, t5⟩ hok htn hz hcap hfit
  have b2 := b2 (by simp [hau, hbu])
  refine ⟨_, _, m1, o1, b1.trans ?_⟩
  have e : both = out := by
    refine StableSort.unique (tabCmp_preorder names (js ++ ks)) b2 ?_
    have := stableSort_then (tabCmp_preorder names js) m2 o2
    rwa [show (fun x y => (tabCmp names js x y).then (tabCmp names ks x y)) = tabCmp names (js ++ ks) from
      funext fun x => funext fun y => (tabCmp_append names js ks x y).symm] at this
  rw [e]

theorem nodup_length {α β : Type} [DecidableEq α] (f : α → List β) : ∀ {l m : List α}, l.Nodup → (∀ x ∈ l, x ∈ m) →
    (l.flatMap f).length ≤ (m.flatMap f).length
  | [], _, _, _ => by simp
  | x :: l, m, hn, hs => by
    have hx : x ∈ m := hs x (by simp)
    have hp := (List.perm_cons_erase hx).flatMap_right f
    have ih := nodup_length f (l := l) (m := m.erase x) (List.nodup_cons.1 hn).2 fun y hy =>
      (List.mem_erase_of_ne (fun e : y = x => (List.nodup_cons.1 hn).1 (by rw [e] at hy; exact hy))).2 (hs y (by simp [hy]))
    have := hp.length_eq
    simp only [List.flatMap_cons, List.length_append] at this ⊢
    omega

/-- C216: sorting again by the same keys changes nothing. -/
theorem C216_again (toF64 : Bytes → F64) (nameOk : Bytes → Bool) (pick : Nat → List (Nat × Bytes) → Nat) (rd : Nat → Nat → Nat)
    (cap : Nat) (m : TextMode) (names : List Bytes) (tables : List (List (List Bytes))) (ks : List TabKey) (os : List SortOpt)
    (h : SortFits names ks os) (ht : GoodTable names tables.flatten) (hok : ∀ n ∈ names, nameOk n = true) (htn : tables ≠ [])
    (hz : ∀ r ∈ tables.flatten, ∀ c ∈ r, 0 ∉ c) (hcap : 8 < cap) (hfit : (sepText TAB tables.flatten).length < cap) :
    ∃ out, sortMain toF64 nameOk pick rd cap m os (tables.map fun rows => sepHead TAB names ++ sepText TAB rows) = .ok out ∧
      sortMain toF64 nameOk pick rd cap m os [out] = .ok out := by
  have hp := tabCmp_preorder names ks
  obtain ⟨t1, t2, t3, t4, t5⟩ := ht
  obtain ⟨mid, m1, m2, m3⟩ := sort_tables toF64 nameOk pick rd cap m h ⟨t1, t2, t3, t4, t5⟩ hok htn hz hcap hfit
  have hmem : (∀ r ∈ mid, r ∈ tables.flatten) ∧ (sepText TAB mid).length ≤ (sepText TAB tables.flatten).length := by
    by_cases hq : SortOpt.unique ∈ os
    · refine ⟨(m3 hq).mem hp, nodup_length _ ?_ ((m3 hq).mem hp)⟩
      exact (m3 hq).strict.imp fun e he => by
        subst he
        rw [hp.refl] at e
        cases e
    · exact ⟨fun r hr => (m2 hq).perm.mem_iff.1 hr, Nat.le_of_eq ((m2 hq).perm.flatMap_right _).length_eq⟩
  obtain ⟨out, o1, o2, o3⟩ := sort_tables toF64 nameOk pick rd cap m (tables := [mid]) h
    (by rw [List.flatten_singleton]; exact ⟨t1, t2, t3, t4, fun r hr => t5 r (hmem.1 r hr)⟩) hok (by simp)
    (by rw [List.flatten_singleton]; exact fun r hr => hz r (hmem.1 r hr)) hcap (by rw [List.flatten_singleton]; omega)
  rw [List.flatten_singleton] at o2 o3
  refine ⟨_, m1, o1.trans ?_⟩
  have e : out = mid := by
    by_cases hq : SortOpt.unique ∈ os
    · refine UniqueSort.same hp (o3 hq) ⟨(m3 hq).strict, fun x => ?_⟩
      rw [(m3 hq).first x, List.take_take]
      simp
    · exact StableSort.unique hp (o2 hq) ⟨.refl _, (m2 hq).sorted, fun _ => rfl⟩
  rw [e]

/-- Sorted by the second column and then by the first, by name. -/
example : ∃ mid out, sortMain (fun _ => 0) (fun _ => true) (fun _ _ => 0) (fun _ _ => 0) 100 .default [.key (ascii "b")]
      [ascii " CDX\ta\tb\nx\t1\ny\t22\n", ascii " CDX\ta\tb\nx\t3\ny\t44\n"] = .ok mid ∧
    sortMain (fun _ => 0) (fun _ => true) (fun _ _ => 0) (fun _ _ => 0) 100 .default [.key (ascii "a")] [mid] = .ok out ∧
    sortMain (fun _ => 0) (fun _ => true) (fun _ _ => 0) (fun _ _ => 0) 100 .default [.key (ascii "a"), .key (ascii "b")]
      [ascii " CDX\ta\tb\nx\t1\ny\t22\n", ascii " CDX\ta\tb\nx\t3\ny\t44\n"] = .ok out :=
  C216_keys (fun _ => 0) (fun _ => true) (fun _ _ => 0) (fun _ _ => 0) 100 .default [ascii "a", ascii "b"]
    [[[ascii "x", ascii "1"], [ascii "y", ascii "22"]], [[ascii "x", ascii "3"], [ascii "y", ascii "44"]]] [⟨ascii "a", .plain, false⟩]
    [⟨ascii "b", .plain, false⟩] [.key (ascii "a")] [.key (ascii "b")] (sortFits_one _ _ (by decide +kernel)) (sortFits_one _ _ (by decide +kernel))
    (by simp) (by simp) goodTable_example (by simp) (by simp) (by decide +kernel) (by decide) (by decide +kernel)

example : ∃ out, sortMain (fun _ => 0) (fun _ => true) (fun _ _ => 0) (fun _ _ => 0) 100 .default [.key (ascii "b")]
      [ascii " CDX\ta\tb\nx\t1\ny\t22\n", ascii " CDX\ta\tb\nx\t3\ny\t44\n"] = .ok out ∧
    sortMain (fun _ => 0) (fun _ => true) (fun _ _ => 0) (fun _ _ => 0) 100 .default [.key (ascii "b")] [out] = .ok out :=
  C216_again (fun _ => 0) (fun _ => true) (fun _ _ => 0) (fun _ _ => 0) 100 .default [ascii "a", ascii "b"]
    [[[ascii "x", ascii "1"], [ascii "y", ascii "22"]], [[ascii "x", ascii "3"], [ascii "y", ascii "44"]]] [⟨ascii "b", .plain, false⟩]
    [.key (ascii "b")] (sortFits_one _ _ (by decide +kernel)) goodTable_example (by simp) (by simp) (by decide +kernel) (by decide) (by decide +kernel)

end Cdx
