import Verif.Lemmas.View
import Verif.Lemmas.PreorderOn
import Verif.Lemmas.Sorter
import Verif.Props.ColumnOut
import Verif.Props.Transpose
import Verif.Spec.Uniq

/-!
`uniq`: one line per run of adjacent equal lines (C51), the default key (C91), the count column (C92).
-/

namespace Cdx

variable {α : Type}

/-! ## Runs -/

/-- The runs, `g` being the one so far and `x` its last element. -/
def runsFrom (eq : α → α → Bool) : (g : List α) → (x : α) → List α → List (List α)
  | g, _, [] => [g]
  | g, x, y :: ys => if eq x y then runsFrom eq (g ++ [y]) y ys else g :: runsFrom eq [y] y ys

theorem runsFrom_head (eq : α → α → Bool) (ys : List α) (g : List α) (x : α) :
    ∃ s R, runsFrom eq g x ys = (g ++ s) :: R := by
  induction ys generalizing g x with
  | nil => exact ⟨[], [], by simp [runsFrom]⟩
  | cons y ys ih =>
    simp only [runsFrom]
    split
    · obtain ⟨s, R, h⟩ := ih (g ++ [y]) y
      exact ⟨y :: s, R, by simp [h]⟩
    · exact ⟨[], runsFrom eq [y] y ys, by simp⟩

theorem runsFrom_isRuns (eq : α → α → Bool) (ys : List α) (g : List α) (x : α)
    (hin : ∀ a b u v, g ++ [x] = a ++ u :: v :: b → eq u v = true) :
    IsRuns eq (g ++ [x] ++ ys) (runsFrom eq (g ++ [x]) x ys) := by
  induction ys generalizing g x with
  | nil =>
    simp only [runsFrom]
    refine ⟨by simp, by simp, ?_, ?_⟩
    · intro g' hg'
      simp only [List.mem_singleton] at hg'
      subst hg'
      exact hin
    · intro A B g' h u v e
      have := congrArg List.length e
      simp at this
      omega
  | cons y ys ih =>
    simp only [runsFrom]
    split
    · rename_i hxy
      have := ih (g ++ [x]) y (by
        intro a b u v e
        rcases List.eq_nil_or_concat b with rfl | ⟨b', w, rfl⟩
        · have e' : g ++ [x] ++ [y] = a ++ [u] ++ [v] := by simpa using e
          obtain ⟨e1, e2⟩ := List.append_inj' e' rfl
          obtain ⟨_, e3⟩ := List.append_inj' e1 rfl
          simp only [List.cons.injEq, and_true] at e2 e3
          rw [← e2, ← e3]
          exact hxy
        · have e' : g ++ [x] ++ [y] = (a ++ u :: v :: b') ++ [w] := by simpa using e
          obtain ⟨e1, _⟩ := List.append_inj' e' rfl
          exact hin a b' u v e1)
      simpa using this
    · rename_i hxy
      have h := ih [] y (by
        intro a b u v e
        have := congrArg List.length e
        simp at this
        omega)
      simp only [List.nil_append] at h
      refine ⟨by simp [h.join], ?_, ?_, ?_⟩
      · intro g' hg'
        rcases List.mem_cons.1 hg' with rfl | hg'
        · simp
        · exact h.nonempty g' hg'
      · intro g' hg'
        rcases List.mem_cons.1 hg' with rfl | hg'
        · exact hin
        · exact h.inside g' hg'
      · intro A B g' h' u v e hu hv
        cases A with
        | nil =>
          simp only [List.nil_append, List.cons.injEq] at e
          obtain ⟨rfl, e⟩ := e
          obtain ⟨s, R, e'⟩ := runsFrom_head eq ys [y] y
          rw [e'] at e
          simp only [List.cons_append, List.nil_append, List.cons.injEq] at e
          rw [← e.1] at hv
          simp only [List.head?_cons, Option.some.injEq] at hv
          simp only [List.getLast?_append, List.getLast?_singleton, Option.some_or, Option.some.injEq] at hu
          subst hu; subst hv
          simpa using hxy
        | cons A0 A =>
          simp only [List.cons_append, List.cons.injEq] at e
          exact h.between A B g' h' u v e.2 hu hv

/-- There is only one way to divide a list into runs. -/
theorem IsRuns.unique {eq : α → α → Bool} {D : List α} {R R' : List (List α)} (h : IsRuns eq D R) (h' : IsRuns eq D R') :
    R = R' := by
  induction R generalizing D R' with
  | nil =>
    have h1 : D = [] := by simpa using h.join.symm
    cases R' with
    | nil => rfl
    | cons g R' =>
      have := h'.join
      rw [h1] at this
      simp only [List.flatten_cons, List.append_eq_nil_iff] at this
      exact absurd this.1 (h'.nonempty g (by simp))
  | cons g R ih =>
    cases R' with
    | nil =>
      have h1 : D = [] := by simpa using h'.join.symm
      have := h.join
      rw [h1] at this
      simp only [List.flatten_cons, List.append_eq_nil_iff] at this
      exact absurd this.1 (h.nonempty g (by simp))
    | cons g' R' =>
      have key : ∀ (g g' : List α) (R R' : List (List α)), IsRuns eq D (g :: R) → IsRuns eq D (g' :: R') →
          ∀ y s, g' ≠ g ++ y :: s := by
        intro g g' R R' h h' y s e
        have hj : (g ++ R.flatten) = g ++ (y :: s ++ R'.flatten) := by
          have a := h.join
          have b := h'.join
          rw [List.flatten_cons] at a b
          rw [a, ← b, e]
          simp
        have hj := List.append_cancel_left hj
        cases R with
        | nil => simp at hj
        | cons k R =>
          obtain ⟨x, hx⟩ : ∃ x, g.getLast? = some x := by
            cases hg : g.getLast? with
            | none => exact absurd (List.getLast?_eq_none_iff.1 hg) (h.nonempty g (by simp))
            | some x => exact ⟨x, rfl⟩
          obtain ⟨z, t, hk⟩ : ∃ z t, k = z :: t := by
            cases k with
            | nil => exact absurd rfl (h.nonempty [] (by simp))
            | cons z t => exact ⟨z, t, rfl⟩
          subst hk
          simp only [List.flatten_cons, List.cons_append, List.cons.injEq] at hj
          have hb := h.between [] R g (z :: t) x z rfl hx rfl
          obtain ⟨g0, hg0⟩ := List.getLast?_eq_some_iff.1 hx
          have hi := h'.inside g' (by simp) g0 s x y (by rw [e, hg0]; simp)
          rw [hj.1, hi] at hb
          simp at hb
      have hj : g ++ R.flatten = g' ++ R'.flatten := by
        have a := h.join
        have b := h'.join
        rw [List.flatten_cons] at a b
        rw [a, b]
      have hgg : g = g' := by
        rcases List.append_eq_append_iff.1 hj with ⟨s, e, _⟩ | ⟨s, e, _⟩
        · cases s with
          | nil => simpa using e.symm
          | cons y s => exact absurd e (key g g' R R' h h' y s)
        · cases s with
          | nil => simpa using e
          | cons y s => exact absurd e (key g' g R' R h' h y s)
      subst hgg
      have hD := List.append_cancel_left hj
      have sub : ∀ R, IsRuns eq D (g :: R) → IsRuns eq R.flatten R := by
        intro R h
        refine ⟨rfl, fun k hk => h.nonempty k (by simp [hk]), fun k hk => h.inside k (by simp [hk]), ?_⟩
        intro A B p q x y e
        exact h.between (g :: A) B p q x y (by simp [e])
      rw [ih (sub R h) (hD ▸ sub R' h')]

/-! ## The first smallest and the first greatest -/

theorem PreorderOn.lt_of_lt_of_le {S : α → Prop} {cmp : α → α → Ordering} (hc : PreorderOn S cmp) {x m y : α}
    (hx : S x) (hm : S m) (hy : S y) (h1 : cmp m x = .gt) (h2 : cmp m y ≠ .gt) : cmp x y = .lt := by
  have hxm : cmp x m = .lt := by rw [hc.swap m x hm hx, h1]; rfl
  have h3 := hc.trans x m y hx hm hy (by rw [hxm]; decide) h2
  cases h : cmp x y with
  | lt => rfl
  | gt => exact absurd h h3
  | eq =>
    have hyx : cmp y x = .eq := by rw [hc.swap x y hx hy, h]; rfl
    exact absurd h1 (hc.trans m y x hm hy hx h2 (by rw [hyx]; decide))

theorem PreorderOn.gt_of_gt_of_ge {S : α → Prop} {cmp : α → α → Ordering} (hc : PreorderOn S cmp) {x m y : α}
    (hx : S x) (hm : S m) (hy : S y) (h1 : cmp m x = .lt) (h2 : cmp m y ≠ .lt) : cmp x y = .gt := by
  have hym : cmp y m ≠ .gt := by
    rw [hc.swap m y hm hy]
    cases h : cmp m y <;> simp_all
  cases h : cmp x y with
  | gt => rfl
  | lt =>
    have := hc.trans x y m hx hy hm (by rw [h]; decide) hym
    rw [hc.swap m x hm hx, h1] at this
    exact absurd rfl this
  | eq =>
    have := hc.trans x y m hx hy hm (by rw [h]; decide) hym
    rw [hc.swap m x hm hx, h1] at this
    exact absurd rfl this

theorem FirstMin.push {S : α → Prop} {cmp : α → α → Ordering} (hc : PreorderOn S cmp) {g : List α} (hg : ∀ y ∈ g, S y)
    {x m : α} (hx : S x) (h : FirstMin cmp g m) : FirstMin cmp (g ++ [x]) (if cmp m x = .gt then x else m) := by
  obtain ⟨a, b, rfl, h1, h2⟩ := h
  have hm : S m := hg m (by simp)
  split
  · rename_i hgt
    refine ⟨a ++ m :: b, [], by simp, ?_, by simp⟩
    intro y hy
    refine hc.lt_of_lt_of_le hx hm (hg y hy) hgt ?_
    rcases List.mem_append.1 hy with hy | hy
    · rw [h1 y hy]; decide
    · rcases List.mem_cons.1 hy with rfl | hy
      · rw [hc.refl _ hm]; decide
      · exact h2 y hy
  · rename_i hgt
    refine ⟨a, b ++ [x], by simp, h1, ?_⟩
    intro y hy
    rcases List.mem_append.1 hy with hy | hy
    · exact h2 y hy
    · simp only [List.mem_singleton] at hy
      subst hy
      exact hgt

theorem FirstMax.push {S : α → Prop} {cmp : α → α → Ordering} (hc : PreorderOn S cmp) {g : List α} (hg : ∀ y ∈ g, S y)
    {x m : α} (hx : S x) (h : FirstMax cmp g m) : FirstMax cmp (g ++ [x]) (if cmp m x = .lt then x else m) := by
  obtain ⟨a, b, rfl, h1, h2⟩ := h
  have hm : S m := hg m (by simp)
  split
  · rename_i hgt
    refine ⟨a ++ m :: b, [], by simp, ?_, by simp⟩
    intro y hy
    refine hc.gt_of_gt_of_ge hx hm (hg y hy) hgt ?_
    rcases List.mem_append.1 hy with hy | hy
    · rw [h1 y hy]; decide
    · rcases List.mem_cons.1 hy with rfl | hy
      · rw [hc.refl _ hm]; decide
      · exact h2 y hy
  · rename_i hgt
    refine ⟨a, b ++ [x], by simp, h1, ?_⟩
    intro y hy
    rcases List.mem_append.1 hy with hy | hy
    · exact h2 y hy
    · simp only [List.mem_singleton] at hy
      subst hy
      exact hgt

/-! ## Rows -/

theorem decText_isDecimal (n : Nat) : IsDecimal n (decText n) :=
  ⟨decText_ne_nil n, fun c hc => decText_digits n c hc, fun h => by
    cases n with
    | zero => rfl
    | succ n => exact absurd h (decText_lead (n + 1) (by omega)), decVal_decText n⟩

theorem write_counted (c : Count) (n : Nat) (line : Bytes) (d : UInt8)
    (h : c.pos = .stop → ∃ body, line = body ++ [NL]) : Counted c.pos d n line (c.write n line d) := by
  unfold Counted Count.write
  cases hp : c.pos with
  | none => rfl
  | begin => exact ⟨_, decText_isDecimal n, by simp⟩
  | stop =>
    obtain ⟨body, rfl⟩ := h hp
    exact ⟨_, body, decText_isDecimal n, rfl, by simp [chompLine]⟩

/-! ## The loops -/

variable {m : TextMode} {b : Bool}

theorem uniqLast_runs (hm : m.col = .plain) (eq : TextLine → TextLine → Bool) (eqL : Bytes → Bytes → Bool)
    (heq : ∀ t u x y, Shows m b t x → Shows m b u y → eq t u = eqL x y) (c : Count) (ls : List Bytes) :
    ∀ (fuel : Nat) (r : Reader) (t o : TextLine) (g : List Bytes) (x : Bytes), ls.length < fuel → View m b t o ls r →
      Shows m b t x → o.orig = [] →
      uniqLast eq c fuel r (g ++ [x]).length =
        some ((runsFrom eqL (g ++ [x]) x ls).map fun k => c.write k.length (k.getLast?.getD []) m.delim).flatten := by
  induction ls with
  | nil =>
    intro fuel r t o g x hf hv ht ho
    obtain ⟨fuel, rfl⟩ : ∃ k, fuel = k + 1 := ⟨fuel - 1, by simp at hf; omega⟩
    obtain ⟨h1, h2⟩ := hv.end_
    simp [uniqLast, h1, h2, runsFrom, hv.mode, ht.text]
  | cons l ls ih =>
    intro fuel r t o g x hf hv ht ho
    obtain ⟨fuel, rfl⟩ : ∃ k, fuel = k + 1 := ⟨fuel - 1, by simp at hf; omega⟩
    have hv' := hv.next
    have hs := putLine_shows (b := b) hm o ho l
    have hlen : ls.length < fuel := by simp at hf; omega
    simp only [uniqLast, hv'.prev, hv'.cur, hv'.more, Option.bind_some, Bool.false_eq_true, if_false,
      heq _ _ _ _ ht hs, runsFrom]
    split
    · have := ih fuel r.getline _ _ (g ++ [x]) l hlen hv' hs ht.orig
      simp only [List.length_append, List.length_singleton] at this ⊢
      rw [this]
    · have := ih fuel r.getline _ _ [] l hlen hv' hs ht.orig
      simp only [List.nil_append, List.length_singleton] at this
      rw [this]
      simp [hv.mode, ht.text]

theorem uniqFirst_runs (hm : m.col = .plain) (eq : TextLine → TextLine → Bool) (eqL : Bytes → Bytes → Bool)
    (heq : ∀ t u x y, Shows m b t x → Shows m b u y → eq t u = eqL x y) (ls : List Bytes) :
    ∀ (fuel : Nat) (r : Reader) (t o : TextLine) (g : List Bytes) (x : Bytes), ls.length < fuel → View m b t o ls r →
      Shows m b t x → o.orig = [] →
      (uniqFirst eq fuel r).map (fun out => (g ++ [x]).headD [] ++ out) =
        some ((runsFrom eqL (g ++ [x]) x ls).map fun k => k.headD []).flatten := by
  induction ls with
  | nil =>
    intro fuel r t o g x hf hv ht ho
    obtain ⟨fuel, rfl⟩ : ∃ k, fuel = k + 1 := ⟨fuel - 1, by simp at hf; omega⟩
    obtain ⟨h1, h2⟩ := hv.end_
    simp [uniqFirst, h1, h2, runsFrom]
  | cons l ls ih =>
    intro fuel r t o g x hf hv ht ho
    obtain ⟨fuel, rfl⟩ : ∃ k, fuel = k + 1 := ⟨fuel - 1, by simp at hf; omega⟩
    have hv' := hv.next
    have hs := putLine_shows (b := b) hm o ho l
    have hlen : ls.length < fuel := by simp at hf; omega
    simp only [uniqFirst, hv'.prev, hv'.cur, hv'.more, Option.bind_some, Bool.false_eq_true, if_false,
      heq _ _ _ _ ht hs, runsFrom]
    split
    · have := ih fuel r.getline _ _ (g ++ [x]) l hlen hv' hs ht.orig
      rw [← this]
      congr 1
      funext out
      cases g <;> rfl
    · have := ih fuel r.getline _ _ [] l hlen hv' hs ht.orig
      simp only [List.nil_append, List.headD_cons] at this
      simp only [Reader.writeCurr, hv'.cur, hs.line, this, Option.map_some, List.map_cons, List.flatten_cons]

/-- The line kept for a run. -/
def keptOf (cmp : Bytes → Bytes → Ordering) (w : Which) (x : Bytes) : List Bytes → Bytes
  | [] => x
  | y :: ys => keptOf cmp w (match w with
    | .first => x
    | .last => y
    | .min => if cmp x y = .gt then y else x
    | .max => if cmp x y = .lt then y else x) ys

theorem keptOf_append (cmp : Bytes → Bytes → Ordering) (w : Which) (ys : List Bytes) (x y : Bytes) :
    keptOf cmp w x (ys ++ [y]) = keptOf cmp w (keptOf cmp w x ys) [y] := by
  induction ys generalizing x with
  | nil => rfl
  | cons z ys ih =>
    simp only [List.cons_append, keptOf]
    exact ih _

/-- The line kept for a run that is not empty. -/
def kept (cmp : Bytes → Bytes → Ordering) (w : Which) (g : List Bytes) : Bytes := keptOf cmp w (g.headD []) g.tail

theorem kept_append (cmp : Bytes → Bytes → Ordering) (w : Which) (g : List Bytes) (hg : g ≠ []) (y : Bytes) :
    kept cmp w (g ++ [y]) = keptOf cmp w (kept cmp w g) [y] := by
  cases g with
  | nil => exact absurd rfl hg
  | cons x g => exact keptOf_append cmp w g x y

theorem uniqKeep_runs (toF64 : Bytes → F64) (hm : m.col = .plain) (eq : TextLine → TextLine → Bool)
    (eqL : Bytes → Bytes → Bool) (cmp : Bytes → Bytes → Ordering)
    (heq : ∀ t u x y, Shows m b t x → Shows m b u y → eq t u = eqL x y) (c : Count)
    (hcmp : c.which = .min ∨ c.which = .max → ∀ t u x y, Shows m b t x → Shows m b u y →
      c.comp.compCols toF64 t u = cmp x y) (ls : List Bytes) :
    ∀ (fuel : Nat) (r : Reader) (t o tmp : TextLine) (g : List Bytes) (x : Bytes), ls.length < fuel →
      View m b t o ls r → Shows m b t x → o.orig = [] → Shows m b tmp (kept cmp c.which (g ++ [x])) →
      uniqKeep toF64 eq c fuel r tmp (g ++ [x]).length =
        some ((runsFrom eqL (g ++ [x]) x ls).map fun k => c.write k.length (kept cmp c.which k) m.delim).flatten := by
  induction ls with
  | nil =>
    intro fuel r t o tmp g x hf hv ht ho htmp
    obtain ⟨fuel, rfl⟩ : ∃ k, fuel = k + 1 := ⟨fuel - 1, by simp at hf; omega⟩
    obtain ⟨h1, h2⟩ := hv.end_
    simp [uniqKeep, h1, h2, runsFrom, hv.mode, htmp.text]
  | cons l ls ih =>
    intro fuel r t o tmp g x hf hv ht ho htmp
    obtain ⟨fuel, rfl⟩ : ∃ k, fuel = k + 1 := ⟨fuel - 1, by simp at hf; omega⟩
    have hv' := hv.next
    have hs := putLine_shows (b := b) hm o ho l
    have hlen : ls.length < fuel := by simp at hf; omega
    simp only [uniqKeep, hv'.prev, hv'.cur, hv'.more, Option.bind_some, Bool.false_eq_true, if_false,
      heq _ _ _ _ ht hs, runsFrom]
    split
    · have hk : Shows m b (c.assign toF64 tmp (putLine m b o l)) (kept cmp c.which (g ++ [x] ++ [l])) := by
        rw [kept_append cmp c.which (g ++ [x]) (by simp) l]
        unfold Count.assign
        cases hw : c.which with
        | first => simpa [keptOf, hw] using htmp
        | last => simpa [keptOf] using htmp.assign hs
        | min =>
          rw [hcmp (Or.inl hw) _ _ _ _ htmp hs]
          rw [hw] at htmp
          simp only [keptOf, hw]
          split
          · exact htmp.assign hs
          · exact htmp
        | max =>
          rw [hcmp (Or.inr hw) _ _ _ _ htmp hs]
          rw [hw] at htmp
          simp only [keptOf, hw]
          split
          · exact htmp.assign hs
          · exact htmp
      have := ih fuel r.getline _ _ _ (g ++ [x]) l hlen hv' hs ht.orig hk
      simp only [List.length_append, List.length_singleton] at this ⊢
      rw [this]
    · have := ih fuel r.getline _ _ (tmp.assign (putLine m b o l)) [] l hlen hv' hs ht.orig (by
        simpa [kept, keptOf] using htmp.assign hs)
      simp only [List.nil_append, List.length_singleton] at this
      rw [this]
      simp [hv.mode, htmp.text]

theorem kept_chosen {S : Bytes → Prop} (cmp : Bytes → Bytes → Ordering) (w : Which)
    (hc : w = .min ∨ w = .max → PreorderOn S cmp) (g : List Bytes) (hg : ∀ y ∈ g, S y) (hne : g ≠ []) :
    Chosen w cmp g (kept cmp w g) := by
  obtain ⟨x, ys, rfl⟩ : ∃ x ys, g = x :: ys := by
    cases g with
    | nil => exact absurd rfl hne
    | cons x ys => exact ⟨x, ys, rfl⟩
  clear hne
  generalize hn : ys.length = n
  induction n generalizing ys with
  | zero =>
    obtain rfl : ys = [] := List.length_eq_zero_iff.1 hn
    cases w with
    | first => rfl
    | last => rfl
    | min => exact ⟨[], [], rfl, by simp, by simp⟩
    | max => exact ⟨[], [], rfl, by simp, by simp⟩
  | succ n ih =>
    rcases List.eq_nil_or_concat ys with rfl | ⟨zs, y, rfl⟩
    · simp at hn
    · have hz : zs.length = n := by simp at hn; omega
      have ihz := ih zs (fun z hz => hg z (by
        simp only [List.mem_cons, List.concat_eq_append, List.mem_append] at hz ⊢
        rcases hz with h | h
        · exact Or.inl h
        · exact Or.inr (Or.inl h))) hz
      rw [List.concat_eq_append, ← List.cons_append] at hg ⊢
      rw [kept_append cmp w (x :: zs) (by simp) y]
      cases w with
      | first => simpa [Chosen, keptOf] using ihz
      | last => simp only [Chosen, keptOf, List.getLast?_append, List.getLast?_singleton, Option.some_or]
      | min =>
        exact FirstMin.push (hc (Or.inl rfl)) (fun y hy => hg y (List.mem_append_left _ hy)) (hg y (by simp)) ihz
      | max =>
        exact FirstMax.push (hc (Or.inr rfl)) (fun y hy => hg y (List.mem_append_left _ hy)) (hg y (by simp)) ihz

theorem Chosen.mem {w : Which} {cmp : α → α → Ordering} {g : List α} {x : α} (h : Chosen w cmp g x) : x ∈ g := by
  cases w with
  | first => exact List.mem_of_head? h
  | last => exact List.mem_of_getLast? h
  | min => obtain ⟨a, b, rfl, _⟩ := h; simp
  | max => obtain ⟨a, b, rfl, _⟩ := h; simp

theorem onePerRun_of (w : Which) (cmp : Bytes → Bytes → Ordering) (pos : CountPos) (d : UInt8) (f : List Bytes → Bytes)
    (R : List (List Bytes)) (h : ∀ g ∈ R, ∃ x, Chosen w cmp g x ∧ Counted pos d g.length x (f g)) :
    OnePerRun w cmp pos d R (R.map f).flatten := by
  induction R with
  | nil => exact .nil
  | cons g R ih =>
    obtain ⟨x, h1, h2⟩ := h g (by simp)
    exact .cons g R x (f g) _ h1 h2 (ih fun k hk => h k (by simp [hk]))

/-! ## C51 -/

/-- Lines compared as the command is asked to: split in the mode of the file. -/
def eqLines (toF64 : Bytes → F64) (m : TextMode) (cs : List LineComp) (x y : Bytes) : Bool :=
  equalColsList toF64 cs (decoded m x) (decoded m y)

/-- The order that decides which line is kept. -/
def cmpLines (toF64 : Bytes → F64) (m : TextMode) (c : LineComp) (x y : Bytes) : Ordering :=
  c.compCols toF64 (decoded m x) (decoded m y)

/-- Full statement: for each run of adjacent equal data lines the command writes the line asked for, with the length of
the run. -/
def C51_statement : Prop :=
  ∀ (toF64 : Bytes → F64) (m : TextMode) (cs : List LineComp) (c : Count) (content h rest : Bytes), m.eol = NL →
    readHeader m content = some (h, rest) → readLines m.col m.eol rest ≠ [] →
    (c.which = .min ∨ c.which = .max →
      PreorderOn (· ∈ readLines m.col m.eol rest) (cmpLines toF64 m c.comp)) →
    ∃ out R, uniqLines toF64 cs c ((Reader.newWith 1 m).open_ content) = some out ∧
      IsRuns (eqLines toF64 m cs) (readLines m.col m.eol rest) R ∧
      OnePerRun c.which (cmpLines toF64 m c.comp) c.pos m.delim R out

/-- In plain mode, when the comparison that chooses the line needs no columns or the key needs them too. -/
theorem C51_runs_partial (toF64 : Bytes → F64) (m : TextMode) (cs : List LineComp) (c : Count) (content h rest : Bytes)
    (hm : m.col = .plain) (heol : m.eol = NL) (hh : readHeader m content = some (h, rest))
    (hne : readLines m.col m.eol rest ≠ [])
    (hs : c.which = .min ∨ c.which = .max → c.comp.needSplit = true → needSplit cs = true)
    (hc : c.which = .min ∨ c.which = .max →
      PreorderOn (· ∈ readLines m.col m.eol rest) (cmpLines toF64 m c.comp)) :
    ∃ out R, uniqLines toF64 cs c ((Reader.newWith 1 m).open_ content) = some out ∧
      IsRuns (eqLines toF64 m cs) (readLines m.col m.eol rest) R ∧
      OnePerRun c.which (cmpLines toF64 m c.comp) c.pos m.delim R out := by
  obtain ⟨d, D, hD⟩ : ∃ d D, readLines m.col m.eol rest = d :: D := by
    cases hx : readLines m.col m.eol rest with
    | nil => exact absurd hx hne
    | cons d D => exact ⟨d, D, rfl⟩
  have hv := (view_open m content h rest d D hh hD).setSplit (needSplit cs)
  have heq : ∀ t u x y, Shows m (needSplit cs) t x → Shows m (needSplit cs) u y →
      equalColsList toF64 cs t u = eqLines toF64 m cs x y :=
    fun t u x y h1 h2 => equalCols_shows toF64 cs id h1 h2 hm
  have hlen : D.length < ((Reader.newWith 1 m).open_ content).file.length + 1 := by
    have := readLines_length m.col m.eol ((Reader.newWith 1 m).open_ content).file
    rw [(view_open m content h rest d D hh hD).file] at this
    omega
  have hR := runsFrom_isRuns (eqLines toF64 m cs) D [] d (by
    intro a b u v e
    have := congrArg List.length e
    simp at this
    omega)
  have hd := decoded_shows (b := needSplit cs) hm d
  simp only [List.nil_append, List.singleton_append, ← hD] at hR
  have hline : ∀ g ∈ runsFrom (eqLines toF64 m cs) [d] d D, ∀ x ∈ g, x ∈ readLines m.col m.eol rest := by
    intro g hg x hx
    rw [← hR.join]
    exact List.mem_flatten.2 ⟨g, hg, hx⟩
  have hbody : ∀ x ∈ readLines m.col m.eol rest, ∃ body, x = body ++ [NL] := by
    intro x hx
    rw [hm, heol] at hx
    obtain ⟨body, e, _⟩ := readLines_isLine _ x hx
    exact ⟨body, e⟩
  have hkept : ∀ g ∈ runsFrom (eqLines toF64 m cs) [d] d D,
      Chosen c.which (cmpLines toF64 m c.comp) g (kept (cmpLines toF64 m c.comp) c.which g) ∧
        kept (cmpLines toF64 m c.comp) c.which g ∈ readLines m.col m.eol rest := by
    intro g hg
    have h1 := kept_chosen (cmpLines toF64 m c.comp) c.which hc g (hline g hg) (hR.nonempty g hg)
    exact ⟨h1, hline g hg _ (Chosen.mem h1)⟩
  unfold uniqLines
  simp only
  by_cases hl : c.which = .last
  · rw [if_pos hl]
    have := uniqLast_runs hm (equalColsList toF64 cs) (eqLines toF64 m cs) heq c D _ _ _ _ [] d hlen hv hd rfl
    simp only [List.nil_append, List.length_singleton] at this
    refine ⟨_, _, this, hR, onePerRun_of _ _ _ _ _ _ fun g hg => ?_⟩
    obtain ⟨h1, h2⟩ := hkept g hg
    rw [hl] at h1 h2 ⊢
    have e : g.getLast?.getD [] = kept (cmpLines toF64 m c.comp) .last g := by
      simp only [Chosen] at h1
      rw [h1]; rfl
    rw [e]
    exact ⟨_, h1, write_counted c _ _ _ fun _ => hbody _ h2⟩
  · rw [if_neg hl]
    by_cases hf : c.which = .first ∧ c.pos = .none
    · rw [if_pos hf]
      have := uniqFirst_runs hm (equalColsList toF64 cs) (eqLines toF64 m cs) heq D _ _ _ _ [] d hlen hv hd rfl
      simp only [List.nil_append, List.headD_cons] at this
      have e : (((Reader.newWith 1 m).open_ content).setSplit (needSplit cs)).writeCurr = d := by
        rw [Reader.writeCurr, hv.cur, hd.line]
      rw [e]
      refine ⟨_, _, this, hR, onePerRun_of _ _ _ _ _ _ fun g hg => ?_⟩
      obtain ⟨h1, h2⟩ := hkept g hg
      rw [hf.1] at h1 h2 ⊢
      rw [hf.2]
      have e : g.headD [] = kept (cmpLines toF64 m c.comp) .first g := by
        simp only [Chosen] at h1
        rw [List.headD_eq_head?_getD, h1]; rfl
      rw [e]
      exact ⟨_, h1, rfl⟩
    · rw [if_neg hf, hv.cur]
      have := uniqKeep_runs toF64 hm (equalColsList toF64 cs) (eqLines toF64 m cs) (cmpLines toF64 m c.comp) heq c
        (fun hw t u x y h1 h2 => compCols_shows toF64 c.comp (hs hw) h1 h2 hm) D _ _ _ _ (decoded m d) [] d hlen hv hd rfl
        hd
      simp only [List.nil_append, List.length_singleton] at this
      refine ⟨_, _, this, hR, onePerRun_of _ _ _ _ _ _ fun g hg => ?_⟩
      obtain ⟨h1, h2⟩ := hkept g hg
      exact ⟨_, h1, write_counted c _ _ _ fun _ => hbody _ h2⟩

/-- For the whole command: the header, with the name of the count column, comes first. -/
theorem C51_command_partial (toF64 : Bytes → F64) (m : TextMode) (cs : List LineComp) (c : Count)
    (content h rest head : Bytes) (hm : m.col = .plain) (heol : m.eol = NL)
    (hh : readHeader m content = some (h, rest)) (hne : readLines m.col m.eol rest ≠ [])
    (hs : c.which = .min ∨ c.which = .max → c.comp.needSplit = true → needSplit cs = true)
    (hc : c.which = .min ∨ c.which = .max →
      PreorderOn (· ∈ readLines m.col m.eol rest) (cmpLines toF64 m c.comp))
    (hhead : if h = [] then head = [] else uniqHead c (headNames h m.delim) = .ok head) :
    ∃ out R, uniqCmd toF64 m cs c content = .ok (head ++ out) ∧
      IsRuns (eqLines toF64 m cs) (readLines m.col m.eol rest) R ∧
      OnePerRun c.which (cmpLines toF64 m c.comp) c.pos m.delim R out := by
  obtain ⟨out, R, h1, h2, h3⟩ := C51_runs_partial toF64 m cs c content h rest hm heol hh hne hs hc
  refine ⟨out, R, ?_, h2, h3⟩
  have hopen : ((Reader.newWith 1 m).open_ content).isEmpty = false ∧
      ((Reader.newWith 1 m).open_ content).header = h ∧ ((Reader.newWith 1 m).open_ content).hasHeader = !h.isEmpty ∧
      ((Reader.newWith 1 m).open_ content).isDone = false := by
    unfold Reader.open_
    have hmm : (Reader.newWith 1 m).mode = m := rfl
    simp only [hmm, hh]
    cases hr : readLine m.col m.eol rest with
    | none =>
      rw [(readLine_none_iff _ _ _).1 hr, readLines_nil] at hne
      exact absurd rfl hne
    | some p => exact ⟨rfl, rfl, rfl, rfl⟩
  obtain ⟨e1, e2, e3, e4⟩ := hopen
  unfold uniqCmd
  simp only [e1, e2, e3, e4, h1, Bool.false_eq_true, if_false]
  by_cases hx : h = []
  · subst hx
    simp only [if_true] at hhead
    simp [hhead]
  · rw [if_neg hx] at hhead
    have : (!h.isEmpty) = true := by cases h <;> simp_all
    simp [this, hhead]

/-- A file with only a header: the header is written, or the error for a name that occurs twice is reported. -/
theorem C51_header_only (toF64 : Bytes → F64) (m : TextMode) (cs : List LineComp) (c : Count) (content h : Bytes)
    (hh : readHeader m content = some (h, [])) (hne : h ≠ []) :
    uniqCmd toF64 m cs c content = uniqHead c (headNames h m.delim) := by
  have hopen : ((Reader.newWith 1 m).open_ content).isEmpty = false ∧
      ((Reader.newWith 1 m).open_ content).header = h ∧ ((Reader.newWith 1 m).open_ content).hasHeader = true ∧
      ((Reader.newWith 1 m).open_ content).isDone = true := by
    unfold Reader.open_
    have hmm : (Reader.newWith 1 m).mode = m := rfl
    have hr : readLine m.col m.eol [] = none := (readLine_none_iff _ _ _).2 rfl
    simp only [hmm, hh, hr]
    cases h with
    | nil => exact absurd rfl hne
    | cons _ _ => simp
  obtain ⟨e1, e2, e3, e4⟩ := hopen
  unfold uniqCmd
  simp only [e1, e2, e3, e4, Bool.false_eq_true, if_false, if_true]
  cases uniqHead c (headNames h m.delim) <;> rfl

/-- The counts add up to the number of lines. -/
theorem C51_counts {eq : Bytes → Bytes → Bool} {D : List Bytes} {R : List (List Bytes)} (h : IsRuns eq D R) :
    (R.map List.length).sum = D.length := by
  rw [← h.join, List.length_flatten]

/-- When the comparator is transitive and symmetric, all lines of a run are equal. -/
theorem C51_equivalence {eq : α → α → Bool} (hrefl : ∀ x, eq x x = true) (hsymm : ∀ x y, eq x y = eq y x)
    (htrans : ∀ x y z, eq x y = true → eq y z = true → eq x z = true) {D : List α} {R : List (List α)}
    (h : IsRuns eq D R) : ∀ g ∈ R, ∀ x ∈ g, ∀ y ∈ g, eq x y = true := by
  intro g hg
  have hin := h.inside g hg
  clear hg
  have step : ∀ (g : List α) (x : α), (∀ a b u v, x :: g = a ++ u :: v :: b → eq u v = true) →
      ∀ y ∈ g, eq x y = true := by
    intro g
    induction g with
    | nil => simp
    | cons z g ih =>
      intro x hx y hy
      have hxz := hx [] g x z rfl
      rcases List.mem_cons.1 hy with rfl | hy
      · exact hxz
      · exact htrans _ _ _ hxz (ih z (fun a b u v e => hx (x :: a) b u v (by simp [e])) y hy)
  cases g with
  | nil => simp
  | cons x g =>
    have hx : ∀ y ∈ x :: g, eq x y = true := by
      intro y hy
      rcases List.mem_cons.1 hy with rfl | hy
      · exact hrefl _
      · exact step g x hin y hy
    intro y hy z hz
    exact htrans _ _ _ (by rw [hsymm]; exact hx y hy) (hx z hz)

/-! ## What goes wrong -/

abbrev quoteMode : TextMode := ⟨.maybe, .quote, TAB, NL, SP⟩
abbrev lineKey : LineComp := ⟨.whole .plain, false, TAB⟩
abbrev lengthKey : LineComp := ⟨.whole .length, false, TAB⟩
abbrev secondKey : LineComp := ⟨.col .plain (fun _ => 1), false, TAB⟩

theorem onePerRun_single {w : Which} {cmp : Bytes → Bytes → Ordering} {d : UInt8} {g : List Bytes} {out : Bytes}
    (h : OnePerRun w cmp .none d [g] out) : Chosen w cmp g out := by
  cases h with
  | cons _ _ x row o h1 h2 h3 =>
    cases h3
    simp only [Counted] at h2
    subst h2
    simpa using h1

/-- With a key that needs no columns the lines are not split, but the comparison that chooses the line uses columns: of
four lines of the same length the second is taken as the smallest. -/
theorem C51_refuted : ¬ C51_statement := by
  intro hst
  have hl : readLines TextMode.default.col TextMode.default.eol (ascii "x\t3\nx\t2\nx\t1\nx\t4\n") =
      [ascii "x\t3\n", ascii "x\t2\n", ascii "x\t1\n", ascii "x\t4\n"] := by decide +kernel
  obtain ⟨out, R, h1, h2, h3⟩ := hst (fun _ => 0) .default [lengthKey] ⟨[], .none, .min, secondKey⟩
    (ascii "x\t3\nx\t2\nx\t1\nx\t4\n") [] (ascii "x\t3\nx\t2\nx\t1\nx\t4\n") rfl (by decide +kernel)
    (by rw [hl]; simp) (fun _ => by
      have hp := (PreorderOn.comap (compK_on (fun _ => 0) .plain) fun x => (decoded TextMode.default x).get 1)
      exact hp.mono fun a _ => by simp [KeyOk])
  rw [hl] at h2
  have hR : IsRuns (eqLines (fun _ => 0) .default [lengthKey])
      [ascii "x\t3\n", ascii "x\t2\n", ascii "x\t1\n", ascii "x\t4\n"]
      [[ascii "x\t3\n", ascii "x\t2\n", ascii "x\t1\n", ascii "x\t4\n"]] := by
    have := runsFrom_isRuns (eqLines (fun _ => 0) .default [lengthKey]) [ascii "x\t2\n", ascii "x\t1\n", ascii "x\t4\n"]
      [] (ascii "x\t3\n") (by
        intro a b u v e
        have := congrArg List.length e
        simp at this
        omega)
    have e : runsFrom (eqLines (fun _ => 0) .default [lengthKey]) [ascii "x\t3\n"] (ascii "x\t3\n")
        [ascii "x\t2\n", ascii "x\t1\n", ascii "x\t4\n"] =
        [[ascii "x\t3\n", ascii "x\t2\n", ascii "x\t1\n", ascii "x\t4\n"]] := by decide +kernel
    simpa [e] using this
  rw [h2.unique hR] at h3
  have hout : uniqLines (fun _ => 0) [lengthKey] ⟨[], .none, .min, secondKey⟩
      ((Reader.newWith 1 .default).open_ (ascii "x\t3\nx\t2\nx\t1\nx\t4\n")) = some (ascii "x\t2\n") := by
    decide +kernel
  rw [hout] at h1
  simp only [Option.some.injEq] at h1
  subst h1
  obtain ⟨a, b, e, h4, h5⟩ := onePerRun_single h3
  have hmem : ascii "x\t1\n" ∈ a ++ ascii "x\t2\n" :: b := by rw [← e]; simp
  have hgt : cmpLines (fun _ => 0) .default secondKey (ascii "x\t2\n") (ascii "x\t1\n") = .gt := by decide +kernel
  rcases List.mem_append.1 hmem with hx | hx
  · rw [h4 _ hx] at hgt
    simp at hgt
  · rcases List.mem_cons.1 hx with hx | hx
    · exact absurd hx (by decide +kernel)
    · exact h5 _ hx hgt

/-- In quote mode a line replaced keeps the original text of the line before: the first line is written for both runs. -/
theorem C51_refuted_quote :
    uniqLines (fun _ => 0) [lineKey] ⟨[], .begin, .first, lineKey⟩
      ((Reader.newWith 1 quoteMode).open_ (ascii "\"a\"\n\"b\"\n")) = some (ascii "1\t\"a\"\n1\t\"a\"\n") := by
  decide +kernel

/-- In quote mode, without a count, the decoded text is written, with no newline. -/
theorem C51_refuted_quote_plain :
    uniqLines (fun _ => 0) [secondKey, lineKey] ⟨[], .none, .first, lineKey⟩
      ((Reader.newWith 1 quoteMode).open_ (ascii "\"a\"\n\"b\"\n")) = some (ascii "ab") := by
  decide +kernel

/-! ## C91: no key -/

/-- Full statement: without a key whole lines are compared, as `sort` does. -/
def C91_statement : Prop :=
  ∀ (toF64 : Bytes → F64) (c : Count) (content : Bytes),
    uniqCmd toF64 .default [] c content = uniqCmd toF64 .default [lineKey] c content

/-- Two different lines, of which only the first is written. -/
theorem C91_refuted : ¬ C91_statement := by
  intro h
  have := h (fun _ => 0) ⟨[], .none, .first, lineKey⟩ (ascii "a\nb\n")
  exact absurd this (by decide +kernel)

/-- What happens instead: without a key the whole file is one run. -/
theorem C91_one_run (toF64 : Bytes → F64) (m : TextMode) (c : Count) (content h rest : Bytes)
    (hm : m.col = .plain) (heol : m.eol = NL) (hh : readHeader m content = some (h, rest))
    (hne : readLines m.col m.eol rest ≠ []) (hw : c.which = .first ∨ c.which = .last) :
    ∃ x row, uniqLines toF64 [] c ((Reader.newWith 1 m).open_ content) = some row ∧
      Counted c.pos m.delim (readLines m.col m.eol rest).length x row ∧
      (if c.which = .first then (readLines m.col m.eol rest).head? else (readLines m.col m.eol rest).getLast?) = some x := by
  have hno : ¬ (c.which = .min ∨ c.which = .max) := by
    rcases hw with hw | hw <;> simp [hw]
  obtain ⟨out, R, h1, h2, h3⟩ := C51_runs_partial toF64 m [] c content h rest hm heol hh hne
    (fun h => absurd h hno) (fun h => absurd h hno)
  have hR : IsRuns (eqLines toF64 m []) (readLines m.col m.eol rest) [readLines m.col m.eol rest] := by
    refine ⟨by simp, by simpa using hne, by simp [eqLines, equalColsList], ?_⟩
    intro A B g k x y e
    have := congrArg List.length e
    simp at this
    omega
  rw [h2.unique hR] at h3
  cases h3 with
  | cons _ _ x row o h4 h5 h6 =>
    cases h6
    refine ⟨x, row, by simpa using h1, h5, ?_⟩
    rcases hw with hw | hw
    · rw [hw] at h4
      simpa [hw, Chosen] using h4
    · rw [hw] at h4
      simpa [hw, Chosen] using h4

example : uniqLines (fun _ => 0) [] ⟨[], .stop, .last, lineKey⟩
    ((Reader.newWith 1 .default).open_ (ascii "a\nb\nb\n")) = some (ascii "b\t3\n") := by decide +kernel

/-! ## C92: the count column -/

theorem push_fail (cols : List Bytes) (name : Bytes) : (⟨cols, .fail, []⟩ : ColumnHeader).push name =
    if isValidColumnName name = true ∧ name ∉ cols then .ok ⟨cols ++ [name], .fail, []⟩ else .err := by
  unfold ColumnHeader.push ColumnHeader.contains
  cases h1 : isValidColumnName name <;> by_cases h2 : name ∈ cols <;> simp [h2]

theorem pushAll_fail (names cols : List Bytes) : (⟨cols, .fail, []⟩ : ColumnHeader).pushAll names =
    if (∀ n ∈ names, isValidColumnName n = true ∧ n ∉ cols) ∧ names.Nodup then .ok ⟨cols ++ names, .fail, []⟩ else .err := by
  induction names generalizing cols with
  | nil => simp [ColumnHeader.pushAll]
  | cons n ns ih =>
    rw [ColumnHeader.pushAll, push_fail]
    by_cases h1 : isValidColumnName n = true ∧ n ∉ cols
    · rw [if_pos h1, Res.bind_ok, ih]
      by_cases h2 : (∀ k ∈ n :: ns, isValidColumnName k = true ∧ k ∉ cols) ∧ (n :: ns).Nodup
      · rw [if_pos h2, if_pos]
        · simp
        · obtain ⟨a, b⟩ := h2
          rw [List.nodup_cons] at b
          refine ⟨fun k hk => ⟨(a k (by simp [hk])).1, ?_⟩, b.2⟩
          simp only [List.mem_append, List.mem_singleton, not_or]
          exact ⟨(a k (by simp [hk])).2, fun e => b.1 (e ▸ hk)⟩
      · rw [if_neg h2, if_neg]
        rintro ⟨a, b⟩
        refine h2 ⟨?_, ?_⟩
        · intro k hk
          rcases List.mem_cons.1 hk with rfl | hk
          · exact h1
          · have := a k hk
            simp only [List.mem_append, List.mem_singleton, not_or] at this
            exact ⟨this.1, this.2.1⟩
        · rw [List.nodup_cons]
          refine ⟨fun hn => ?_, b⟩
          have := a n hn
          simp at this
    · rw [if_neg h1, Res.bind_err, if_neg]
      rintro ⟨a, _⟩
      exact h1 (a n (by simp))

/-- A list with an element added where the count goes. -/
def addAt (pos : CountPos) (x : Bytes) (l : List Bytes) : List Bytes :=
  match pos with
  | .none => l
  | .begin => x :: l
  | .stop => l ++ [x]

/-- The count is a column of its own, the first or the last one, and its name is in the same place in the header. -/
theorem C92_count_column (c : Count) (n : Nat) (r names : List Bytes) (head : Bytes) (hne : r ≠ [])
    (hr : ∀ x ∈ r, TAB ∉ x ∧ NL ∉ x) (hhead : uniqHead c names = .ok head) :
    (mergeLine (c.write n (List.intercalate [TAB] r ++ [NL]) TAB)).vec = addAt c.pos (decText n) r ∧
      head = List.intercalate [TAB] (cdxTag :: addAt c.pos c.name names) ++ [NL] := by
  have hdec : TAB ∉ decText n ∧ NL ∉ decText n :=
    ⟨fun h => absurd (decText_digits n _ h) (by decide), fun h => absurd (decText_digits n _ h) (by decide)⟩
  constructor
  · cases hp : c.pos with
    | none => simpa [Count.write, hp, addAt] using mergeLine_row hne hr
    | begin =>
      have e : c.write n (List.intercalate [TAB] r ++ [NL]) TAB =
          List.intercalate [TAB] (decText n :: r) ++ [NL] := by
        rw [intercalate_cons_ne _ _ hne]
        simp [Count.write, hp]
      rw [e]
      refine mergeLine_row (by simp) fun x hx => ?_
      rcases List.mem_cons.1 hx with rfl | hx
      · exact hdec
      · exact hr x hx
    | stop =>
      have e : c.write n (List.intercalate [TAB] r ++ [NL]) TAB =
          List.intercalate [TAB] (r ++ [decText n]) ++ [NL] := by
        rw [intercalate_append _ _ _ hne (by simp), intercalate_singleton]
        simp [Count.write, hp, chompLine]
      rw [e]
      refine mergeLine_row (by simp) fun x hx => ?_
      rcases List.mem_append.1 hx with hx | hx
      · exact hr x hx
      · simp only [List.mem_singleton] at hx
        subst hx
        exact hdec
  · have key : ∀ (cols : List Bytes) (h : Bytes), columnHead cols = .ok h →
        h = List.intercalate [TAB] (cdxTag :: cols) ++ [NL] := by
      intro cols h e
      unfold columnHead at e
      split at e
      · simp at e
      · simpa using e.symm
    unfold uniqHead at hhead
    cases hp : c.pos with
    | none =>
      simp only [hp, reduceCtorEq, if_false, Res.bind_ok, pushAll_fail] at hhead
      split at hhead
      · simpa [addAt] using key _ _ (by simpa using hhead)
      · simp at hhead
    | begin =>
      simp only [hp, reduceCtorEq, if_false, if_true, push_fail] at hhead
      split at hhead
      · simp only [Res.bind_ok, pushAll_fail] at hhead
        split at hhead
        · exact key (c.name :: names) head (by simpa using hhead)
        · simp at hhead
      · simp at hhead
    | stop =>
      simp only [hp, reduceCtorEq, if_false, if_true, Res.bind_ok, pushAll_fail] at hhead
      split at hhead
      · simp only [Res.bind_ok, push_fail] at hhead
        split at hhead
        · simpa [addAt] using key _ _ (by simpa using hhead)
        · simp at hhead
      · simp at hhead

/-- The header is written when all names, that of the count included, are valid and different. -/
theorem C92_header_iff (c : Count) (names : List Bytes) :
    (∃ head, uniqHead c names = .ok head) ↔
      addAt c.pos c.name names ≠ [] ∧ (∀ n ∈ addAt c.pos c.name names, isValidColumnName n = true) ∧
        (addAt c.pos c.name names).Nodup := by
  unfold uniqHead
  cases hp : c.pos with
  | none =>
    simp only [reduceCtorEq, if_false, Res.bind_ok, pushAll_fail, addAt, List.not_mem_nil, not_false_eq_true, and_true,
      List.nil_append]
    split
    · rename_i h
      cases names with
      | nil => simp [columnHead]
      | cons a t => simpa [columnHead] using h
    · rename_i h
      simp only [Res.bind_err, reduceCtorEq, exists_false, false_iff]
      exact fun hh => h hh.2
  | begin =>
    simp only [reduceCtorEq, if_false, if_true, push_fail, addAt, List.not_mem_nil, not_false_eq_true, and_true]
    split
    · rename_i h1
      simp only [Res.bind_ok, pushAll_fail]
      split
      · rename_i h2
        simp only [Res.bind_ok, columnHead, List.nil_append, List.mem_cons, List.nodup_cons]
        simp only [List.nil_append, List.mem_singleton] at h2
        simp only [List.cons_append, List.nil_append, reduceCtorEq, if_false, Res.ok.injEq, exists_eq', ne_eq,
          not_false_eq_true, true_and, true_iff]
        refine ⟨?_, fun hn => (h2.1 _ hn).2 rfl, h2.2⟩
        rintro n (rfl | hn)
        · exact h1
        · exact (h2.1 n hn).1
      · rename_i h2
        simp only [Res.bind_err, reduceCtorEq, exists_false, false_iff]
        rintro ⟨_, a, b⟩
        rw [List.nodup_cons] at b
        refine h2 ⟨fun n hn => ⟨a n (by simp [hn]), ?_⟩, b.2⟩
        simp only [List.nil_append, List.mem_singleton]
        rintro rfl
        exact b.1 hn
    · rename_i h1
      simp only [Res.bind_err, reduceCtorEq, exists_false, false_iff]
      exact fun hh => h1 (hh.2.1 _ (by simp))
  | stop =>
    simp only [reduceCtorEq, if_false, if_true, Res.bind_ok, pushAll_fail, addAt, List.not_mem_nil, not_false_eq_true,
      and_true, List.nil_append]
    split
    · rename_i h1
      simp only [Res.bind_ok, push_fail]
      split
      · rename_i h2
        simp only [Res.bind_ok, columnHead, List.append_eq_nil_iff, List.cons_ne_nil, and_false, if_false, Res.ok.injEq,
          exists_eq', true_iff, ne_eq, not_false_eq_true, true_and]
        refine ⟨?_, ?_⟩
        · intro n hn
          rcases List.mem_append.1 hn with hn | hn
          · exact h1.1 n hn
          · simp only [List.mem_singleton] at hn
            subst hn
            exact h2.1
        · rw [List.nodup_append]
          refine ⟨h1.2, by simp, ?_⟩
          intro a ha b hb e
          simp only [List.mem_singleton] at hb
          subst e; subst hb
          exact h2.2 ha
      · rename_i h2
        simp only [Res.bind_err, reduceCtorEq, exists_false, false_iff]
        rintro ⟨_, a, b⟩
        rw [List.nodup_append] at b
        exact h2 ⟨a _ (by simp), fun hm => b.2.2 _ hm _ (by simp) rfl⟩
    · rename_i h1
      simp only [Res.bind_err, reduceCtorEq, exists_false, false_iff]
      rintro ⟨_, a, b⟩
      rw [List.nodup_append] at b
      exact h1 ⟨fun n hn => a n (by simp [hn]), b.1⟩

example : uniqHead ⟨ascii "count", .stop, .first, lineKey⟩ [ascii "x"] = .ok (ascii " CDX\tx\tcount\n") := by decide +kernel
example : uniqHead ⟨ascii "x", .stop, .first, lineKey⟩ [ascii "x"] = .err := by decide +kernel

example : uniqCmd (fun _ => 0) .default [lineKey] ⟨ascii "count", .begin, .first, lineKey⟩ (ascii " CDX\tx\na\na\nb") =
    .ok (ascii " CDX\tcount\tx\n2\ta\n1\tb\n") := by decide +kernel
example : readHeader .default (ascii " CDX\tx\na\na\nb") = some (ascii " CDX\tx\n", ascii "a\na\nb") := by decide +kernel

end Cdx
