import Verif.Model.Locks

/-!
# C168: threads that look for makers never wait for each other forever
-/

namespace Cdx

/-- The locks a thread holds. -/
def LkSys.holds (s : LkSys) (i : Nat) (l : Lk) : Prop := s.owner l = some i

/-- An order of the locks in which they are taken. -/
def Lk.rank : Lk → Nat
  | .agg => 0
  | .matcher => 0
  | .trans => 0
  | .gen => 0
  | .comp => 1
  | .counter => 1
  | .line => 1
  | .aggAlias => 1
  | .compAlias => 1
  | .matchAlias => 1
  | .transAlias => 1
  | .genAlias => 1

/-- From these locks on, a thread takes locks in this order only, and gives all of them back. -/
def Climbs : List Lk → List LkEvent → Prop
  | held, [] => held = []
  | held, .take l :: es => (∀ k ∈ held, k.rank < l.rank) ∧ Climbs (l :: held) es
  | held, .give l :: es => ∃ rest, held = l :: rest ∧ Climbs rest es

theorem climbs_append {es fs : List LkEvent} : ∀ {held : List Lk}, Climbs held es → Climbs [] fs → Climbs held (es ++ fs) := by
  induction es with
  | nil =>
    intro held h1 h2
    have : held = [] := h1
    rw [this]
    exact h2
  | cons e es ih =>
    intro held h1 h2
    cases e with
    | take l => exact ⟨h1.1, ih h1.2 h2⟩
    | give l =>
      obtain ⟨rest, h3, h4⟩ := h1
      exact ⟨rest, h3, ih h4 h2⟩

theorem climbs_flatMap {α : Type} (f : α → List LkEvent) (l : List α) (h : ∀ x ∈ l, Climbs [] (f x)) : Climbs [] (l.flatMap f) := by
  induction l with
  | nil => exact rfl
  | cons x xs ih =>
    rw [List.flatMap_cons]
    exact climbs_append (h x (by simp)) (ih fun y hy => h y (List.mem_cons_of_mem _ hy))

/-- All locks taken are of this rank or a higher one. -/
def Above (n : Nat) (es : List LkEvent) : Prop := ∀ l, LkEvent.take l ∈ es → n ≤ l.rank

/-- What climbs alone also climbs while lower locks are held. -/
theorem climbs_frame {es : List LkEvent} (k : Lk) (ha : Above (k.rank + 1) es) : ∀ {held : List Lk}, Climbs held es → ∀ fs, Climbs [k] fs →
    Climbs (held ++ [k]) (es ++ fs) := by
  induction es with
  | nil =>
    intro held h fs hf
    have : held = [] := h
    rw [this]
    exact hf
  | cons e es ih =>
    intro held h fs hf
    have ha' : Above (k.rank + 1) es := fun l hl => ha l (List.mem_cons_of_mem _ hl)
    cases e with
    | take l =>
      refine ⟨?_, ih ha' h.2 fs hf⟩
      intro x hx
      rcases List.mem_append.1 hx with hx | hx
      · exact h.1 x hx
      · rw [List.mem_singleton] at hx
        subst hx
        exact ha l (by simp)
    | give l =>
      obtain ⟨rest, h1, h2⟩ := h
      exact ⟨rest ++ [k], by simp [h1], ih ha' h2 fs hf⟩

theorem climbs_within (k : Lk) {es : List LkEvent} (h : Climbs [] es) (ha : Above (k.rank + 1) es) : Climbs [] (within k es) :=
  ⟨by simp, climbs_frame k ha h _ ⟨[], rfl, rfl⟩⟩

theorem climbs_brief (k : Lk) : Climbs [] (brief k) := climbs_within k rfl (fun l hl => by simp at hl)

theorem climbs_briefs (l : List Lk) : Climbs [] (l.flatMap brief) := climbs_flatMap _ _ fun x _ => climbs_brief x

theorem climbs_if {b : Bool} {es fs : List LkEvent} (h1 : Climbs [] es) (h2 : Climbs [] fs) : Climbs [] (if b then es else fs) := by
  cases b
  · exact h2
  · exact h1

theorem climbs_init (t : LkTable) (first : Bool) : Climbs [] (t.init first) := by
  cases t <;> exact climbs_append (climbs_brief _) (climbs_if (climbs_briefs _) rfl)

theorem climbs_makeComp (first : Bool) : Climbs [] (lkMakeComp first) :=
  climbs_append (climbs_append (climbs_init .comp first) (climbs_brief _)) (climbs_brief _)

theorem above_comps (firsts : List Bool) : Above 1 (firsts.flatMap lkMakeComp) := by
  intro l hl
  obtain ⟨b, _, hb⟩ := List.mem_flatMap.1 hl
  have key : ∀ b : Bool, (lkMakeComp b).all (fun e => match e with
      | .take l => decide (1 ≤ l.rank)
      | .give _ => true) = true := by decide
  have := List.all_eq_true.1 (key b) _ hb
  simpa using this

/-- Each call takes its locks in order and gives them back. -/
theorem climbs_call (c : LkCall) : Climbs [] c.events := by
  cases c with
  | agg first k =>
    refine climbs_append (climbs_append (climbs_init .agg first) (climbs_brief _)) ?_
    cases k with
    | plain => exact climbs_brief _
    | counter =>
      refine climbs_within _ (climbs_append (climbs_brief _) (climbs_brief _)) ?_
      intro l hl
      simp only [MakerKind.locks, lkMakeCounter, brief, within, List.nil_append, List.cons_append, List.mem_cons, LkEvent.take.injEq,
        reduceCtorEq, List.not_mem_nil, or_false, false_or] at hl
      rcases hl with rfl | rfl <;> decide
    | comps firsts => exact climbs_within _ (climbs_flatMap _ _ fun b _ => climbs_makeComp b) (above_comps firsts)
  | counter => exact climbs_append (climbs_brief _) (climbs_brief _)
  | comp first => exact climbs_makeComp first
  | lineComp first found =>
    refine climbs_append (climbs_append (climbs_append (climbs_init .comp first) (climbs_brief _)) (climbs_brief _)) ?_
    exact climbs_if rfl (climbs_brief _)
  | matcher first parts =>
    refine climbs_append (climbs_append (climbs_init .matcher first) (climbs_brief _)) (climbs_flatMap _ _ fun p _ => ?_)
    exact climbs_append (climbs_init .matcher p.1)
      (climbs_within _ (climbs_flatMap _ _ fun b _ => climbs_makeComp b) (above_comps p.2))
  | trans first => exact climbs_append (climbs_append (climbs_brief _) (climbs_init .trans first)) (climbs_brief _)
  | gen first => exact climbs_append (climbs_append (climbs_init .gen first) (climbs_brief _)) (climbs_brief _)
  | other t first ls => exact climbs_append (climbs_init t first) (climbs_briefs ls)

/-- Every thread climbs from the locks it holds. -/
def Orderly (s : LkSys) : Prop := ∃ held : Nat → List Lk, (∀ i, Climbs (held i) (s.todo i)) ∧
  (∀ i, (held i).Nodup) ∧ ∀ i l, l ∈ held i ↔ s.owner l = some i

theorem orderly_step {s s' : LkSys} {i : Nat} (h : Orderly s) (hs : s.step i = some s') : Orderly s' := by
  obtain ⟨held, h1, h2, h3⟩ := h
  unfold LkSys.step at hs
  have hc := h1 i
  cases ht : s.todo i with
  | nil => simp [ht] at hs
  | cons e es =>
    rw [ht] at hs hc
    cases e with
    | take l =>
      simp only at hs
      cases ho : s.owner l with
      | some j => simp [ho] at hs
      | none =>
        simp only [ho, Option.some.injEq] at hs
        subst hs
        have hfree : ∀ j, l ∉ held j := fun j hj => by
          have := (h3 j l).1 hj
          rw [ho] at this
          simp at this
        refine ⟨fun j => if j = i then l :: held i else held j, fun j => ?_, fun j => ?_, fun j k => ?_⟩
        · by_cases hj : j = i
          · simp only [hj, if_true]
            exact hc.2
          · simp only [hj, if_false]
            exact h1 j
        · by_cases hj : j = i
          · simp only [hj, if_true]
            exact List.nodup_cons.2 ⟨hfree i, h2 i⟩
          · simp only [hj, if_false]
            exact h2 j
        · by_cases hk : k = l
          · subst hk
            by_cases hj : j = i
            · simp [hj]
            · have : ¬ i = j := fun x => hj x.symm
              simp [hj, hfree j, this]
          · by_cases hj : j = i
            · simp [hj, hk, h3 i k]
            · simp [hj, hk, h3 j k]
    | give l =>
      simp only [Option.some.injEq] at hs
      subst hs
      obtain ⟨rest, hr, hcr⟩ := hc
      have hn := h2 i
      rw [hr] at hn
      have howner : s.owner l = some i := (h3 i l).1 (by simp [hr])
      refine ⟨fun j => if j = i then rest else held j, fun j => ?_, fun j => ?_, fun j k => ?_⟩
      · by_cases hj : j = i
        · simp only [hj, if_true]
          exact hcr
        · simp only [hj, if_false]
          exact h1 j
      · by_cases hj : j = i
        · simp only [hj, if_true]
          exact (List.nodup_cons.1 hn).2
        · simp only [hj, if_false]
          exact h2 j
      · by_cases hk : k = l
        · subst hk
          by_cases hj : j = i
          · simp [hj, (List.nodup_cons.1 hn).1]
          · have : ¬ k ∈ held j := fun x => hj (by
              have := (h3 j k).1 x
              rw [howner] at this
              exact (Option.some.inj this).symm)
            simp [hj, this]
        · by_cases hj : j = i
          · have := h3 i k
            rw [hr] at this
            simp [hj, hk, ← this]
          · simp [hj, hk, h3 j k]

theorem orderly_run (order : List Nat) : ∀ s : LkSys, Orderly s → Orderly (s.run order) := by
  induction order with
  | nil => exact fun s h => h
  | cons i order ih =>
    intro s h
    refine ih ((s.step i).getD s) ?_
    cases hs : s.step i with
    | none => exact h
    | some s' => exact orderly_step h hs

/-- While threads have something to do, one of them can go on. -/
theorem orderly_goes {s : LkSys} (h : Orderly s) (i : Nat) (hi : s.todo i ≠ []) : ∃ j, (s.step j).isSome := by
  obtain ⟨held, h1, h2, h3⟩ := h
  -- a waiting thread waits for one that waits for a higher lock
  have key : ∀ n (i : Nat), s.todo i ≠ [] → (∀ l es, s.todo i = .take l :: es → 2 ≤ n + l.rank) → ∃ j, (s.step j).isSome := by
    intro n
    induction n with
    | zero =>
      intro i hi hl
      refine ⟨i, ?_⟩
      unfold LkSys.step
      cases ht : s.todo i with
      | nil => exact absurd ht hi
      | cons e es =>
        cases e with
        | give l => rfl
        | take l =>
          have := hl l es ht
          exact absurd this (by cases l <;> decide)
    | succ n ih =>
      intro i hi hl
      cases ht : s.todo i with
      | nil => exact absurd ht hi
      | cons e es =>
        cases e with
        | give l => exact ⟨i, by simp [LkSys.step, ht]⟩
        | take l =>
          cases ho : s.owner l with
          | none => exact ⟨i, by simp [LkSys.step, ht, ho]⟩
          | some j =>
            have hj : l ∈ held j := (h3 j l).2 ho
            have hc := h1 j
            refine ih j ?_ ?_
            · intro hn
              rw [hn] at hc
              have : held j = [] := hc
              rw [this] at hj
              simp at hj
            · intro l' es' ht'
              rw [ht'] at hc
              have := hc.1 l hj
              have := hl l es ht
              omega
  exact key 2 i hi fun l es _ => by omega

/-- C168: whatever calls any number of threads make, and in whatever order they take their turns, some thread can go on as long as there
is one that is not done. -/
theorem C168_no_deadlock (prog : Nat → List LkCall) (order : List Nat) (i : Nat) (hi : ((LkSys.start prog).run order).todo i ≠ []) :
    ∃ j, (((LkSys.start prog).run order).step j).isSome := by
  refine orderly_goes (orderly_run order _ ?_) i hi
  exact ⟨fun _ => [], fun i => climbs_flatMap _ _ fun c _ => climbs_call c, by simp, by simp [LkSys.start]⟩

/-- No lock is held at the end. -/
theorem C168_all_free (prog : Nat → List LkCall) (order : List Nat) (h : ∀ i, ((LkSys.start prog).run order).todo i = []) (l : Lk) :
    ((LkSys.start prog).run order).owner l = none := by
  obtain ⟨held, h1, h2, h3⟩ := orderly_run order (LkSys.start prog)
    ⟨fun _ => [], fun i => climbs_flatMap _ _ fun c _ => climbs_call c, by simp, by simp [LkSys.start]⟩
  cases ho : ((LkSys.start prog).run order).owner l with
  | none => rfl
  | some i =>
    have hl := (h3 i l).2 ho
    have hc := h1 i
    rw [h i] at hc
    have : held i = [] := hc
    rw [this] at hl
    simp at hl

/-- If a maker of the table of aggregators called `init`, as `make_counter2` would, it would wait for itself: the comment at
`src/agg.rs` 1496 is right. -/
theorem C168_nested_init : ((⟨fun _ => none, fun i => if i = 0 then within .agg (aggInit false ++ lkMakeCounter) else []⟩ : LkSys).run
    [0]).step 0 = none := by decide +kernel

/-- Two threads that make aggregators and matchers with comparators. -/
example : (((LkSys.start fun i => if i = 0 then [.agg true (.comps [true])] else if i = 1 then [.matcher true [(false, [false, false])]] else []).run
    (List.replicate 60 0 ++ [1, 1, 1])).todo 1).length > 0 ∧
    (((LkSys.start fun i => if i = 0 then [.agg false (.comps [true])] else if i = 1 then [.agg false .counter] else []).run
    (List.replicate 8 0 ++ List.replicate 8 1)).step 1).isNone := by decide +kernel

end Cdx
