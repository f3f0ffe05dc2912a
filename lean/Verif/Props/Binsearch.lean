import Verif.Lemmas.Binsearch

/-!
Binary search: C01, C02, C03.
-/

namespace Cdx

/-- The comparator classifies line `k` by `A` and `B`. -/
def Classified (cmp : Bytes → Ordering) (ls : List Bytes) (A B : Nat) : Prop :=
  ∀ k line, ls[k]? = some line → cmp line = if k < A then .gt else if k < B then .eq else .lt

theorem Ordered.classified {cmp : Bytes → Ordering} {gs es ss : List Bytes} (h : Ordered cmp gs es ss) :
    Classified cmp (gs ++ es ++ ss) gs.length (gs.length + es.length) := by
  intro k line hk
  by_cases h1 : k < gs.length
  · rw [List.append_assoc, List.getElem?_append_left h1] at hk
    rw [h.greater _ (List.mem_of_getElem? hk), if_pos h1]
  · by_cases h2 : k < gs.length + es.length
    · rw [List.append_assoc, List.getElem?_append_right (by omega), List.getElem?_append_left (by omega)] at hk
      rw [h.equal _ (List.mem_of_getElem? hk), if_neg h1, if_pos h2]
    · rw [List.append_assoc, List.getElem?_append_right (by omega), List.getElem?_append_right (by omega)] at hk
      rw [h.less _ (List.mem_of_getElem? hk), if_neg h1, if_neg h2]

theorem slice_empty (data : Bytes) (p : Nat) (h : p ≤ data.length) : slice data p p = some [] := by
  simp [slice, h]

theorem lowerLoop_inv {cmp : Bytes → Ordering} {ls : List Bytes} (hw : WF ls) {A B : Nat} (hAB : A ≤ B)
    (hB : B ≤ ls.length) (hc : Classified cmp ls A B) (h0 : cmp [] = cmp [10]) (fuel i j : Nat) (tr : Bool)
    (h1 : i ≤ A) (h2 : A ≤ j) (h3 : A < B → A < j) (h4 : j ≤ ls.length) :
    lowerLoop ls.flatten cmp fuel (lineStart ls i) (lineStart ls j) tr = .noFuel ∨
      lowerLoop ls.flatten cmp fuel (lineStart ls i) (lineStart ls j) tr =
        .ok (lineStart ls A, lineStart ls (min (A + 1) B)) := by
  induction fuel generalizing i j tr with
  | zero => left; rfl
  | succ fuel ih =>
    unfold lowerLoop
    by_cases hij : i < j
    · rw [if_pos (lineStart_mono hw hij h4)]
      rcases pickLine_spec hw hij h4 tr with ⟨k, k1, k2, k3, hp⟩ | ⟨_, hj, hl, hp⟩
      · obtain ⟨line, hl, hs⟩ := slice_lines hw (show k < ls.length by omega)
        simp only [hp, hs]
        have := hc k line hl
        by_cases hkA : k < A
        · rw [if_pos hkA] at this
          simp only [this]
          exact ih (k + 1) j tr (by omega) (by omega) h3 h4
        · rw [if_neg hkA] at this
          by_cases hkB : k < B
          · rw [if_pos hkB] at this
            simp only [this]
            by_cases hki : k = i
            · subst hki
              have : k = A := by omega
              subst this
              right
              simp [show min (k + 1) B = k + 1 by omega]
            · rw [if_neg (fun e => hki (lineStart_inj hw (by omega) (by omega) e))]
              exact ih i (k + 1) _ h1 (by omega) (by omega) (by omega)
          · rw [if_neg hkB] at this
            simp only [this]
            exact ih i k tr h1 (by omega) (by omega) (by omega)
      · have hs := slice_empty ls.flatten (lineStart ls j) (by
          rw [← lineStart_length]; exact lineStart_le hw h4 (Nat.le_refl _))
        simp only [hp, hs, h0]
        have := hc i _ hl
        have hne : lineStart ls j ≠ lineStart ls i := by
          have := lineStart_mono hw hij h4; omega
        by_cases hiA : i < A
        · rw [if_pos hiA] at this
          simp only [this]
          exact ih j j tr (by omega) (by omega) h3 h4
        · rw [if_neg hiA] at this
          by_cases hiB : i < B
          · rw [if_pos hiB] at this
            simp only [this, hne, if_false]
            exact ih i j _ h1 h2 h3 h4
          · rw [if_neg hiB] at this
            simp only [this]
            exact ih i j tr h1 h2 h3 h4
    · have : lineStart ls j ≤ lineStart ls i := lineStart_le hw (by omega) (by omega)
      rw [if_neg (by omega)]
      right
      have hi : i = A := by omega
      have hj : j = A := by omega
      have hb : B = A := by omega
      subst hi hj hb
      simp

theorem upperLoop_inv {cmp : Bytes → Ordering} {ls : List Bytes} (hw : WF ls) {A B : Nat} (hAB : A ≤ B)
    (hB : B ≤ ls.length) (hc : Classified cmp ls A B) (h0 : cmp [] = cmp [10]) (fuel i j : Nat)
    (h1 : i ≤ B) (h2 : B ≤ j) (h4 : j ≤ ls.length) :
    upperLoop ls.flatten cmp fuel (lineStart ls i) (lineStart ls j) = .noFuel ∨
      upperLoop ls.flatten cmp fuel (lineStart ls i) (lineStart ls j) = .ok (lineStart ls B) := by
  induction fuel generalizing i j with
  | zero => left; rfl
  | succ fuel ih =>
    unfold upperLoop
    by_cases hij : i < j
    · rw [if_pos (lineStart_mono hw hij h4)]
      rcases pickLine_spec hw hij h4 false with ⟨k, k1, k2, k3, hp⟩ | ⟨_, hj, hl, hp⟩
      · obtain ⟨line, hl, hs⟩ := slice_lines hw (show k < ls.length by omega)
        simp only [hp, hs]
        have := hc k line hl
        by_cases hkB : k < B
        · have hne : cmp line ≠ .lt := by
            rw [this]; simp [hkB]; split <;> simp
          rw [if_neg hne]
          exact ih (k + 1) j (by omega) (by omega) h4
        · rw [if_neg (by omega), if_neg hkB] at this
          rw [if_pos this]
          exact ih i k h1 (by omega) (by omega)
      · have hs := slice_empty ls.flatten (lineStart ls j) (by
          rw [← lineStart_length]; exact lineStart_le hw h4 (Nat.le_refl _))
        simp only [hp, hs, h0]
        have := hc i _ hl
        by_cases hiB : i < B
        · have hne : cmp [10] ≠ .lt := by
            rw [this]; simp [hiB]; split <;> simp
          rw [if_neg hne]
          exact ih j j (by omega) (by omega) h4
        · rw [if_neg (by omega), if_neg hiB] at this
          rw [if_pos this]
          exact ih i j h1 h2 h4
    · have : lineStart ls j ≤ lineStart ls i := lineStart_le hw (by omega) (by omega)
      rw [if_neg (by omega)]
      right
      have hi : i = B := by omega
      have hj : j = B := by omega
      subst hi hj
      simp

/-! ## C01 -/

/-- What the three searches return, as offsets. -/
theorem C01_offsets (data : Bytes) (cmp : Bytes → Ordering) (gs es ss : List Bytes)
    (hl : cutLines data = gs ++ es ++ ss) (ho : Ordered cmp gs es ss) (h0 : cmp [] = cmp [10]) (fuel : Nat) :
    (lowerBoundN fuel data cmp ≠ .noFuel →
      lowerBoundN fuel data cmp = .ok (gs.flatten.length, (gs ++ es.take 1).flatten.length)) ∧
    (upperBoundN fuel data cmp ≠ .noFuel → upperBoundN fuel data cmp = .ok (gs ++ es).flatten.length) ∧
    (equalRangeN fuel data cmp ≠ .noFuel →
      equalRangeN fuel data cmp = .ok (gs.flatten.length, (gs ++ es).flatten.length)) := by
  have hw := cutLines_wf data
  have hf := cutLines_flatten data
  rw [hl] at hw hf
  have hc := ho.classified
  have e1 : lineStart (gs ++ es ++ ss) gs.length = gs.flatten.length := by simp [lineStart]
  have e2 : lineStart (gs ++ es ++ ss) (gs.length + es.length) = (gs ++ es).flatten.length := by
    simp only [lineStart, ← List.length_append, List.take_left']
  have e3 : lineStart (gs ++ es ++ ss) (min (gs.length + 1) (gs.length + es.length)) =
      (gs ++ es.take 1).flatten.length := by
    cases es with
    | nil => simp [lineStart]
    | cons x xs =>
      rw [show min (gs.length + 1) (gs.length + (x :: xs).length) = gs.length + 1 by simp]
      unfold lineStart
      congr 2
      rw [List.append_assoc, List.take_append, List.take_of_length_le (by omega)]
      simp
  have hlow : lowerBoundN fuel data cmp = .noFuel ∨
      lowerBoundN fuel data cmp = .ok (gs.flatten.length, (gs ++ es.take 1).flatten.length) := by
    have := lowerLoop_inv hw (show gs.length ≤ gs.length + es.length by omega) (by simp) hc h0 fuel 0
      (gs ++ es ++ ss).length false (by omega) (by simp) (by simp; omega) (Nat.le_refl _)
    rw [lineStart_length, lineStart_zero, hf, e1, e3] at this
    exact this
  have hup : upperBoundN fuel data cmp = .noFuel ∨
      upperBoundN fuel data cmp = .ok (gs ++ es).flatten.length := by
    have := upperLoop_inv hw (show gs.length ≤ gs.length + es.length by omega) (by simp) hc h0 fuel 0
      (gs ++ es ++ ss).length (by omega) (by simp) (Nat.le_refl _)
    rw [lineStart_length, lineStart_zero, hf, e2] at this
    exact this
  refine ⟨fun h => hlow.resolve_left h, fun h => hup.resolve_left h, ?_⟩
  intro h
  unfold equalRangeN at h ⊢
  rcases hlow with hlow | hlow
  · simp [hlow] at h
  · rw [hlow] at h ⊢
    cases es with
    | nil => simp
    | cons x xs =>
      have hx : x ≠ [] := by
        have : x ∈ cutLines data := by simp [hl]
        obtain ⟨k, hk, hkx⟩ := List.getElem_of_mem this
        obtain ⟨_, line, _, _, _, e3, _, hne, _, _⟩ := (cutLines_wf data).at hk
        rw [List.getElem?_eq_getElem hk, hkx] at e3
        simp at e3
        rw [e3]; exact hne
      have hxl := List.length_pos_iff.2 hx
      have hne : gs.flatten.length ≠ (gs ++ (x :: xs).take 1).flatten.length := by
        simp; exact hx
      simp only [hne, if_false] at h ⊢
      rcases hup with hup | hup
      · simp [hup] at h
      · simp [hup]

theorem slice_mid (a b c : Bytes) : slice (a ++ b ++ c) a.length (a ++ b).length = some b := by
  simp [slice]

/-- On an ordered buffer the searches, when they return, return exactly the lines asked for. -/
theorem C01_binsearch_exact (data : Bytes) (cmp : Bytes → Ordering) (gs es ss : List Bytes)
    (hl : cutLines data = gs ++ es ++ ss) (ho : Ordered cmp gs es ss) (h0 : cmp [] = cmp [10]) (fuel : Nat) :
    (lowerBound fuel data cmp ≠ .noFuel → lowerBound fuel data cmp = .ok (es.take 1).flatten) ∧
    (equalRange fuel data cmp ≠ .noFuel → equalRange fuel data cmp = .ok es.flatten) := by
  have h := C01_offsets data cmp gs es ss hl ho h0 fuel
  have hf : data = gs.flatten ++ es.flatten ++ ss.flatten := by
    rw [← cutLines_flatten data, hl]; simp
  have hf' : data = gs.flatten ++ (es.take 1).flatten ++ ((es.drop 1).flatten ++ ss.flatten) := by
    have : (es.take 1).flatten ++ (es.drop 1).flatten = es.flatten := by
      rw [← List.flatten_append, List.take_append_drop]
    rw [hf, ← this]; simp
  constructor
  · intro hn
    have hn' : lowerBoundN fuel data cmp ≠ .noFuel := by
      intro e; apply hn; simp [lowerBound, e]
    unfold lowerBound
    rw [h.1 hn', List.flatten_append, hf']
    simp only [slice_mid]
  · intro hn
    have hn' : equalRangeN fuel data cmp ≠ .noFuel := by
      intro e; apply hn; simp [equalRange, e]
    unfold equalRange
    rw [h.2.2 hn', List.flatten_append, hf]
    simp only [slice_mid]

/-- Compare with the line `b`, ignoring the newline. -/
def cmpB (l : Bytes) : Ordering := compare ([98] : Bytes) (l.filter (· ≠ 10))

example : Ordered cmpB [[10], [97, 10]] [[98, 10], [98, 10]] [[99]] ∧ cmpB [] = cmpB [10] ∧
    equalRange 20 [10, 97, 10, 98, 10, 98, 10, 99] cmpB = .ok [98, 10, 98, 10] :=
  ⟨⟨by decide, by decide, by decide⟩, by decide, by decide⟩

/-! ## C02 -/

/-- Full statement: every search returns, for every buffer and comparator. -/
def C02_statement : Prop :=
  ∀ (data : Bytes) (cmp : Bytes → Ordering), ∃ fuel, lowerBoundN fuel data cmp ≠ .noFuel ∧
    upperBoundN fuel data cmp ≠ .noFuel

/-- Searching for something smaller than the empty line in a buffer that is one empty line never ends. -/
theorem C02_loops (cmp : Bytes → Ordering) (h : cmp [] = .lt) (fuel : Nat) :
    lowerBoundN fuel [10] cmp = .noFuel ∧ upperBoundN fuel [10] cmp = .noFuel := by
  have hp : pickLine [10] 0 1 false = some (1, 1) := by decide
  have hs : slice [10] 1 1 = some [] := by decide
  constructor
  · unfold lowerBoundN
    simp only [List.length_singleton]
    induction fuel with
    | zero => rfl
    | succ fuel ih => simp [lowerLoop, hp, hs, h, ih]
  · unfold upperBoundN
    simp only [List.length_singleton]
    induction fuel with
    | zero => rfl
    | succ fuel ih => simp [upperLoop, hp, hs, h, ih]

theorem C02_refuted : ¬ C02_statement := by
  intro h
  obtain ⟨fuel, h1, _⟩ := h [10] (fun _ => .lt)
  exact h1 (C02_loops _ rfl fuel).1

theorem lowerLoop_term {cmp : Bytes → Ordering} {ls : List Bytes} (hw : WF ls)
    (h0 : cmp [] ≠ .lt ∨ [10] ∉ ls) (fuel i j : Nat) (tr : Bool) (hij : i ≤ j) (h4 : j ≤ ls.length)
    (hf : 2 * (j - i) + (if tr then 0 else 1) < fuel) :
    ∃ r, lowerLoop ls.flatten cmp fuel (lineStart ls i) (lineStart ls j) tr = .ok r := by
  induction fuel generalizing i j tr with
  | zero => omega
  | succ fuel ih =>
    unfold lowerLoop
    by_cases hij : i < j
    · rw [if_pos (lineStart_mono hw hij h4)]
      rcases pickLine_spec hw hij h4 tr with ⟨k, k1, k2, k3, hp⟩ | ⟨htr, hj, hl, hp⟩
      · obtain ⟨line, hl, hs⟩ := slice_lines hw (show k < ls.length by omega)
        simp only [hp, hs]
        cases cmp line with
        | lt => exact ih i k tr (by omega) (by omega) (by omega)
        | gt => exact ih (k + 1) j tr (by omega) (by omega) (by omega)
        | eq =>
          simp only
          by_cases hki : k = i
          · subst hki; simp
          · rw [if_neg (fun e => hki (lineStart_inj hw (by omega) (by omega) e))]
            apply ih i (k + 1) _ (by omega) (by omega)
            have ht : tr = false := by
              cases tr
              · rfl
              · exact absurd (k3 rfl) hki
            subst ht
            by_cases hkj : k + 1 = j
            · subst hkj; simp at hf ⊢; omega
            · have : lineStart ls (k + 1) ≠ lineStart ls j := fun e => hkj (lineStart_inj hw (by omega) h4 e)
              simp [this] at hf ⊢; omega
      · have hs := slice_empty ls.flatten (lineStart ls j) (by
          rw [← lineStart_length]; exact lineStart_le hw h4 (Nat.le_refl _))
        simp only [hp, hs]
        have h0' : cmp [] ≠ .lt := h0.resolve_right (fun hn => hn (List.mem_of_getElem? hl))
        have hne : lineStart ls j ≠ lineStart ls i := by
          have := lineStart_mono hw hij h4; omega
        subst htr
        cases hc : cmp [] with
        | lt => exact absurd hc h0'
        | gt => exact ih j j false (by omega) (by omega) (by simp at hf ⊢; omega)
        | eq =>
          simp only [hne, if_false, decide_true]
          exact ih i j true (by omega) h4 (by simp at hf ⊢; omega)
    · have : lineStart ls j ≤ lineStart ls i := lineStart_le hw (by omega) (by omega)
      rw [if_neg (by omega)]
      exact ⟨_, rfl⟩

theorem upperLoop_term {cmp : Bytes → Ordering} {ls : List Bytes} (hw : WF ls)
    (h0 : cmp [] ≠ .lt ∨ [10] ∉ ls) (fuel i j : Nat) (hij : i ≤ j) (h4 : j ≤ ls.length) (hf : j - i < fuel) :
    ∃ r, upperLoop ls.flatten cmp fuel (lineStart ls i) (lineStart ls j) = .ok r := by
  induction fuel generalizing i j with
  | zero => omega
  | succ fuel ih =>
    unfold upperLoop
    by_cases hij : i < j
    · rw [if_pos (lineStart_mono hw hij h4)]
      rcases pickLine_spec hw hij h4 false with ⟨k, k1, k2, k3, hp⟩ | ⟨htr, hj, hl, hp⟩
      · obtain ⟨line, hl, hs⟩ := slice_lines hw (show k < ls.length by omega)
        simp only [hp, hs]
        split
        · exact ih i k (by omega) (by omega) (by omega)
        · exact ih (k + 1) j (by omega) (by omega) (by omega)
      · have hs := slice_empty ls.flatten (lineStart ls j) (by
          rw [← lineStart_length]; exact lineStart_le hw h4 (Nat.le_refl _))
        have h0' : cmp [] ≠ .lt := h0.resolve_right (fun hn => hn (List.mem_of_getElem? hl))
        simp only [hp, hs, h0', if_false]
        exact ih j j (by omega) (by omega) (by omega)
    · have : i = j := by omega
      subst this
      simp

/-- For every comparator, even an inconsistent one, the searches return without panic within twice as many
steps as there are lines, provided that the value is not less than the empty slice or that the buffer
has no empty line. Missing: value less than the empty slice and an empty line present; then the search
can run for ever. -/
theorem C02_terminates_partial (data : Bytes) (cmp : Bytes → Ordering)
    (h0 : cmp [] ≠ .lt ∨ [10] ∉ cutLines data) (fuel : Nat) (hf : 2 * (cutLines data).length + 1 < fuel) :
    (∃ r, lowerBoundN fuel data cmp = .ok r) ∧ (∃ r, upperBoundN fuel data cmp = .ok r) ∧
      (∃ r, equalRangeN fuel data cmp = .ok r) := by
  have hw := cutLines_wf data
  have hfl := cutLines_flatten data
  have h1 := lowerLoop_term hw h0 fuel 0 _ false (Nat.zero_le _) (Nat.le_refl _) (by simp; omega)
  have h2 := upperLoop_term hw h0 fuel 0 _ (Nat.zero_le _) (Nat.le_refl _) (by omega)
  rw [lineStart_length, lineStart_zero, hfl] at h1 h2
  refine ⟨h1, h2, ?_⟩
  obtain ⟨⟨a, b⟩, h1⟩ := h1
  obtain ⟨u, h2⟩ := h2
  unfold equalRangeN lowerBoundN upperBoundN
  rw [h1, h2]
  simp only
  split <;> exact ⟨_, rfl⟩

example : cmpB [] ≠ .lt ∧ [10] ∉ cutLines [97, 10, 99] := by decide

/-- Full statement C01: the searches return exactly the lines asked for. -/
def C01_statement : Prop :=
  ∀ (data : Bytes) (cmp : Bytes → Ordering) (gs es ss : List Bytes), cutLines data = gs ++ es ++ ss →
    Ordered cmp gs es ss → cmp [] = cmp [10] → ∃ fuel,
      lowerBound fuel data cmp = .ok (es.take 1).flatten ∧ equalRange fuel data cmp = .ok es.flatten ∧
        upperBoundN fuel data cmp = .ok (gs ++ es).flatten.length

/-- The search for a value less than an empty line does not return. -/
theorem C01_refuted : ¬ C01_statement := by
  intro h
  obtain ⟨fuel, _, _, h3⟩ := h [10] (fun _ => .lt) [] [] [[10]] (by decide) ⟨by simp, by simp, by simp⟩ rfl
  rw [(C02_loops _ rfl fuel).2] at h3
  simp at h3

/-- The full statement, if the value is not less than an empty line or there is none. Missing: the value
is less than an empty line of the buffer; then the result is exact if the search returns
(`C01_binsearch_exact`), but it need not return. -/
theorem C01_total_partial (data : Bytes) (cmp : Bytes → Ordering) (gs es ss : List Bytes)
    (hl : cutLines data = gs ++ es ++ ss) (ho : Ordered cmp gs es ss) (h0 : cmp [] = cmp [10])
    (h1 : cmp [] ≠ .lt ∨ [10] ∉ cutLines data) (fuel : Nat) (hf : 2 * (cutLines data).length + 1 < fuel) :
    lowerBound fuel data cmp = .ok (es.take 1).flatten ∧ equalRange fuel data cmp = .ok es.flatten ∧
      upperBoundN fuel data cmp = .ok (gs ++ es).flatten.length ∧
      lowerBoundN fuel data cmp = .ok (gs.flatten.length, (gs ++ es.take 1).flatten.length) ∧
      equalRangeN fuel data cmp = .ok (gs.flatten.length, (gs ++ es).flatten.length) := by
  obtain ⟨⟨r1, t1⟩, ⟨r2, t2⟩, ⟨r3, t3⟩⟩ := C02_terminates_partial data cmp h1 fuel hf
  have o := C01_offsets data cmp gs es ss hl ho h0 fuel
  have o1 := o.1 (by simp [t1])
  have o2 := o.2.1 (by simp [t2])
  have o3 := o.2.2 (by simp [t3])
  have x := C01_binsearch_exact data cmp gs es ss hl ho h0 fuel
  refine ⟨x.1 ?_, x.2 ?_, o2, o1, o3⟩
  · unfold lowerBound; rw [o1]; simp only; split <;> simp
  · unfold equalRange; rw [o3]; simp only; split <;> simp

/-! ## C03 -/

/-- Full statement: forwards then backwards is back. -/
def C03_statement : Prop :=
  ∀ (data : Bytes) (k : Nat), k < (cutLines data).length →
    findEnd data (lineStart (cutLines data) k) = lineStart (cutLines data) (k + 1) ∧
      findPrev data (lineStart (cutLines data) (k + 1)) = some (lineStart (cutLines data) k)

/-- Going back from the end of a buffer without a final newline panics. -/
theorem C03_refuted : ¬ C03_statement := by
  intro h
  exact absurd (h [97, 98] 0 (by decide)).2 (by decide)

theorem findPrev_line {ls : List Bytes} (hw : WF ls) {k : Nat} (hk : k < ls.length)
    (hnl : k + 1 < ls.length ∨ ls.flatten.getLast? = some 10) :
    findPrev ls.flatten (lineStart ls (k + 1)) = some (lineStart ls k) := by
  obtain ⟨pre, line, post, e1, e2, e3, e4, hne, e6, e7⟩ := hw.at hk
  have hbody : ∃ body, (10 : UInt8) ∉ body ∧ line = body ++ [10] := by
    rcases e7 with h | ⟨h1, h2⟩
    · exact h
    · exfalso
      rcases hnl with hnl | hnl
      · have := lineStart_lt hw hnl
        have hle := lineStart_le hw (show k + 1 + 1 ≤ ls.length by omega) (Nat.le_refl _)
        rw [lineStart_length, e1, h2] at hle
        simp at hle; omega
      · rw [e1, h2, List.append_nil, List.getLast?_append] at hnl
        cases hg : line.getLast? with
        | none => exact hne (List.getLast?_eq_none_iff.1 hg)
        | some c => simp [hg] at hnl; subst hnl; exact h1 (List.mem_of_getLast? hg)
  obtain ⟨body, hb, rfl⟩ := hbody
  simp only [List.length_append, List.length_singleton] at e4
  unfold findPrev
  by_cases h1 : lineStart ls (k + 1) ≤ 1
  · rw [if_pos h1]; simp; omega
  · rw [if_neg h1]
    have hg : ls.flatten[lineStart ls (k + 1) - 1]? = some 10 := by
      rw [show lineStart ls (k + 1) - 1 = pre.length + body.length by omega, e1]
      simp
    simp only [hg, ne_eq, not_true_eq_false, if_false]
    by_cases hbl : body = []
    · subst hbl
      simp only [List.length_nil] at e4
      have hk0 : 0 < k := by
        cases k with
        | zero => rw [lineStart_zero] at e4; omega
        | succ k => omega
      obtain ⟨k', rfl⟩ : ∃ k', k = k' + 1 := ⟨k - 1, by omega⟩
      have := lineStart_lt hw (show k' < ls.length by omega)
      have hp : ∃ p, pre = p ++ [10] := by
        rcases e6 with rfl | h
        · simp at e2; omega
        · exact h
      obtain ⟨p, rfl⟩ := hp
      have hm : ls.flatten[lineStart ls (k' + 1 + 1) - 2]? = some 10 := by
        simp only [List.length_append, List.length_singleton] at e2
        rw [show lineStart ls (k' + 1 + 1) - 2 = p.length by omega, e1]
        simp
      rcases findStart_in hw (show k' < ls.length by omega) (m := lineStart ls (k' + 1 + 1) - 2) (by omega)
        (by omega) with ⟨_, h⟩ | ⟨h, _, h2⟩
      · exact absurd hm h
      · rw [h, h2]
    · have := List.length_pos_iff.2 hbl
      rcases findStart_in hw hk (m := lineStart ls (k + 1) - 2) (by omega)
        (by omega) with ⟨h, _⟩ | ⟨_, _, h2⟩
      · exact h
      · omega

/-- Moving forwards from line `k` reaches line `k + 1`, and moving back from there returns, unless line `k`
is the last one and has no newline. Missing: that case, where the step back panics. -/
theorem C03_stepping_partial (data : Bytes) (k : Nat) (hk : k < (cutLines data).length) :
    findEnd data (lineStart (cutLines data) k) = lineStart (cutLines data) (k + 1) ∧
      (k + 1 < (cutLines data).length ∨ data.getLast? = some 10 →
        findPrev data (lineStart (cutLines data) (k + 1)) = some (lineStart (cutLines data) k)) := by
  have hw := cutLines_wf data
  have hf := cutLines_flatten data
  constructor
  · have := findEnd_in hw hk (Nat.le_refl _) (lineStart_lt hw hk)
    rwa [hf] at this
  · intro h
    have := findPrev_line hw hk (by rw [hf]; exact h)
    rwa [hf] at this

/-- At the ends of the buffer the steps stay put. -/
theorem C03_ends (data : Bytes) : findEnd data data.length = data.length ∧ findPrev data 0 = some 0 := by
  simp [findEnd, findEndLoop, findPrev]

theorem C03_context_before {data : Bytes} (i before : Nat) (hi : i ≤ (cutLines data).length)
    (hnl : i < (cutLines data).length ∨ data = [] ∨ data.getLast? = some 10) :
    backLoop data before (lineStart (cutLines data) i) = some (lineStart (cutLines data) (i - before)) := by
  induction before generalizing i with
  | zero => simp [backLoop]
  | succ n ih =>
    unfold backLoop
    cases i with
    | zero => simp
    | succ i =>
      have hpos := lineStart_lt (cutLines_wf data) (show i < (cutLines data).length by omega)
      have hd : data ≠ [] := by rintro rfl; simp [cutLines] at hi
      rw [if_neg (by omega)]
      have := (C03_stepping_partial data i (by omega)).2 (by
        rcases hnl with h | h | h
        · exact Or.inl h
        · exact absurd h hd
        · exact Or.inr h)
      simp only [this]
      rw [ih i (by omega) (Or.inl (by omega))]
      congr 2; omega

theorem C03_context_after {data : Bytes} (j after : Nat) (hj : j ≤ (cutLines data).length) :
    forwLoop data after (lineStart (cutLines data) j) =
      lineStart (cutLines data) (min (j + after) (cutLines data).length) := by
  induction after generalizing j with
  | zero => simp [forwLoop, Nat.min_eq_left hj]
  | succ n ih =>
    unfold forwLoop
    by_cases h : j < (cutLines data).length
    · rw [(C03_stepping_partial data j h).1, ih (j + 1) (by omega)]
      congr 2; omega
    · have : j = (cutLines data).length := by omega
      subst this
      have e : lineStart (cutLines data) (cutLines data).length = data.length := by
        rw [lineStart_length, cutLines_flatten]
      have := ih (cutLines data).length (Nat.le_refl _)
      rw [e, (C03_ends data).1, ← e, this]
      congr 1; omega

/-- What `binsearch` shows with `before` and `after` lines of context around the range of lines `i` to
`j`: whole lines, exactly the neighbours that exist. `i` may be the end of the buffer only if the buffer
ends in a newline; otherwise the step back panics. -/
theorem C03_context_partial (data : Bytes) (i j before after : Nat) (hij : i ≤ j)
    (hj : j ≤ (cutLines data).length)
    (hnl : i < (cutLines data).length ∨ data = [] ∨ data.getLast? = some 10) :
    withContext data (lineStart (cutLines data) i, lineStart (cutLines data) j) before after =
      some (((cutLines data).take (j + after)).drop (i - before)).flatten := by
  unfold withContext
  simp only [C03_context_before i before (by omega) hnl, C03_context_after j after hj]
  have hw := cutLines_wf data
  have hf := cutLines_flatten data
  generalize cutLines data = ls at *
  have e : ls.take (j + after) = ls.take (min (j + after) ls.length) := by
    rw [List.take_eq_take_iff]; simp
  rw [e]
  have h1 := lineStart_le hw (show i - before ≤ min (j + after) ls.length by omega) (by omega)
  have h2 := lineStart_le hw (show min (j + after) ls.length ≤ ls.length by omega) (Nat.le_refl _)
  rw [lineStart_length, hf] at h2
  unfold slice
  rw [if_pos ⟨h1, h2⟩]
  generalize hb : min (j + after) ls.length = b at *
  congr 1
  have ha : i - before ≤ b := by omega
  generalize i - before = a at *
  have p1 : ls = ls.take a ++ ((ls.take b).drop a ++ ls.drop b) := by
    have : (ls.take b).take a = ls.take a := by rw [List.take_take, Nat.min_eq_left ha]
    rw [← this, ← List.append_assoc, List.take_append_drop, List.take_append_drop]
  have p2 : ls.take b = ls.take a ++ (ls.take b).drop a := by
    have : (ls.take b).take a = ls.take a := by rw [List.take_take, Nat.min_eq_left ha]
    rw [← this, List.take_append_drop]
  have hd : data = (ls.take a).flatten ++ (((ls.take b).drop a).flatten ++ (ls.drop b).flatten) := by
    rw [← hf]
    conv => lhs; rw [p1]
    simp
  have hl : lineStart ls b = lineStart ls a + ((ls.take b).drop a).flatten.length := by
    unfold lineStart
    conv => lhs; rw [p2]
    simp only [List.flatten_append, List.length_append]
  rw [hl, hd]
  unfold lineStart
  simp

example : withContext [97, 10, 98, 10, 99, 10] (2, 4) 1 5 = some [97, 10, 98, 10, 99, 10] := by decide
example : (1 : Nat) < (cutLines [97, 10, 98, 10, 99, 10]).length := by decide

end Cdx
