import Verif.Model.Agg
import Verif.Spec.Agg
import Verif.Props.Ops
import Verif.Props.Expr

/-! C44, C45, C47, C85 to C87: aggregation of values. -/

namespace Cdx

/-- All values of a group, one after the other. -/
def Agg.addAll {F : Type} (env : AggEnv F) (a : Agg F) (vs : List Bytes) : Agg F := vs.foldl (Agg.add env) a

/-- Nothing of interest outside; numbers are whole. -/
def AggEnv.plain : AggEnv Nat :=
  ⟨natOps, fun b => b.length, fun _ => 0, fun b => b.map fun c => Char.ofNat c.toNat, Char.isWhitespace, Char.isAlphanum,
    fun _ => .ok .plain⟩

/-! ## Splitting -/

theorem sliceSplit_join (d : UInt8) (a b : Bytes) : sliceSplit d (a ++ [d] ++ b) = sliceSplit d a ++ sliceSplit d b := by
  induction a with
  | nil => simp [sliceSplit]
  | cons x a ih =>
    by_cases h : x = d
    · simp only [List.cons_append, sliceSplit, h, if_true]
      rw [← ih]
    · rw [List.cons_append, List.cons_append]
      obtain ⟨h1, t1, e1, e2⟩ : ∃ h1 t1, sliceSplit d a = h1 :: t1 ∧ sliceSplit d (x :: a) = (x :: h1) :: t1 := by
        cases e : sliceSplit d a with
        | nil => exact absurd e (sliceSplit_ne_nil d a)
        | cons h1 t1 => exact ⟨h1, t1, rfl, by simp [sliceSplit, h, e]⟩
      rw [e2]
      rw [e1] at ih
      simp only [sliceSplit, h, if_false, ih, List.cons_append]

/-! ## Prefix and suffix -/

/-- The longest common prefix of two lists. -/
def lcp : Bytes → Bytes → Bytes
  | x :: xs, y :: ys => if x = y then x :: lcp xs ys else []
  | _, _ => []

theorem prefix_lcp (q a b : Bytes) : q <+: lcp a b ↔ q <+: a ∧ q <+: b := by
  induction a generalizing b q with
  | nil => simp only [lcp, List.prefix_nil]; exact ⟨fun h => by simp [h], fun h => h.1⟩
  | cons x xs ih =>
    cases b with
    | nil => simp only [lcp, List.prefix_nil]; exact ⟨fun h => by simp [h], fun h => h.2⟩
    | cons y ys =>
      simp only [lcp]
      cases q with
      | nil => simp
      | cons z q =>
        by_cases h : x = y
        · subst h
          simp only [if_true, List.cons_prefix_cons, ih]
          exact ⟨fun ⟨a, b, c⟩ => ⟨⟨a, b⟩, a, c⟩, fun ⟨⟨a, b⟩, _, c⟩ => ⟨a, b, c⟩⟩
        · simp only [h, if_false, List.prefix_nil, List.cons_prefix_cons, reduceCtorEq, false_iff]
          rintro ⟨⟨a, _⟩, b, _⟩
          exact h (a.symm.trans b)

theorem mismatch_lcp (v d : Bytes) (i : Nat) (h : v.length ≤ d.length) :
    (match mismatch v d i with | some j => v.take (j - i) | none => v) = lcp v d ∧
      ∀ j, mismatch v d i = some j → i ≤ j := by
  induction v generalizing d i with
  | nil => cases d <;> simp [mismatch, lcp]
  | cons x xs ih =>
    cases d with
    | nil => simp at h
    | cons y ys =>
      simp only [mismatch, lcp]
      by_cases e : x = y
      · subst e
        obtain ⟨h1, h2⟩ := ih ys (i + 1) (by simpa using h)
        simp only [ne_eq, not_true_eq_false, if_false, if_true]
        constructor
        · cases hm : mismatch xs ys (i + 1) with
          | none => simp only [hm] at h1 ⊢; rw [← h1]
          | some j =>
            have := h2 j hm
            simp only [hm] at h1 ⊢
            rw [← h1, show j - i = (j - (i + 1)) + 1 by omega, List.take_succ_cons]
        · intro j hj; have := h2 j hj; omega
      · simp only [ne_eq, e, not_false_eq_true, if_true, if_false]
        exact ⟨by simp, fun j hj => by simp at hj; omega⟩

theorem lcp_take (v d : Bytes) : lcp (v.take d.length) d = lcp v d := by
  induction v generalizing d with
  | nil => simp
  | cons x xs ih =>
    cases d with
    | nil => simp [lcp]
    | cons y ys => simp only [List.length_cons, List.take_succ_cons, lcp, ih]

theorem commonPrefix_eq (val data : Bytes) : commonPrefix val data = lcp val data := by
  unfold commonPrefix
  have key : ∀ v : Bytes, v.length ≤ data.length →
      (match mismatch v data 0 with | some i => v.take i | none => v) = lcp v data := by
    intro v hv
    have := (mismatch_lcp v data 0 hv).1
    simpa using this
  by_cases h : val.length > data.length
  · simp only [h, if_true]
    rw [← lcp_take]
    exact key _ (by rw [List.length_take]; omega)
  · simp only [h, if_false]
    exact key val (by omega)

theorem okBytes_le (a b : Bytes) : okBytes a b ≤ a.length := by
  induction a generalizing b with
  | nil => simp [okBytes]
  | cons x xs ih =>
    cases b with
    | nil => simp [okBytes]
    | cons y ys =>
      simp only [okBytes]
      split
      · have := ih ys; simp; omega
      · simp

theorem lcp_okBytes (a b : Bytes) : lcp a b = a.take (okBytes a b) := by
  induction a generalizing b with
  | nil => simp [lcp]
  | cons x xs ih =>
    cases b with
    | nil => simp [lcp, okBytes]
    | cons y ys =>
      simp only [lcp, okBytes]
      split
      · simp [ih]
      · simp

theorem commonSuffix_eq (val data : Bytes) : commonSuffix val data = (lcp val.reverse data.reverse).reverse := by
  unfold commonSuffix
  rw [lcp_okBytes, List.reverse_take, List.reverse_reverse, List.length_reverse]
  have := okBytes_le val.reverse data.reverse
  rw [List.length_reverse] at this
  dsimp only
  by_cases h : okBytes val.reverse data.reverse < val.length
  · rw [if_pos h]
  · rw [if_neg h, show val.length - okBytes val.reverse data.reverse = 0 by omega]; rfl

theorem addAll_prefix {F : Type} (env : AggEnv F) (v : Bytes) (vs : List Bytes) :
    Agg.addAll env (.prefix v false) vs = .prefix (vs.foldl lcp v) false := by
  induction vs generalizing v with
  | nil => rfl
  | cons x vs ih =>
    have := ih (lcp v x)
    simp only [Agg.addAll, List.foldl_cons, Agg.add, Bool.false_eq_true, if_false, commonPrefix_eq] at this ⊢
    exact this

theorem addAll_suffix {F : Type} (env : AggEnv F) (v : Bytes) (vs : List Bytes) :
    Agg.addAll env (.suffix v false) vs = .suffix (vs.foldl (fun a b => (lcp a.reverse b.reverse).reverse) v) false := by
  induction vs generalizing v with
  | nil => rfl
  | cons x vs ih =>
    have := ih (lcp v.reverse x.reverse).reverse
    simp only [Agg.addAll, List.foldl_cons, Agg.add, Bool.false_eq_true, if_false, commonSuffix_eq] at this ⊢
    exact this

theorem foldl_lcp (q v : Bytes) (vs : List Bytes) : q <+: vs.foldl lcp v ↔ q <+: v ∧ ∀ x ∈ vs, q <+: x := by
  induction vs generalizing v with
  | nil => simp
  | cons x vs ih => simp only [List.foldl_cons, ih, prefix_lcp, List.forall_mem_cons, and_assoc]

theorem foldl_lcs (q v : Bytes) (vs : List Bytes) :
    q <:+ vs.foldl (fun a b => (lcp a.reverse b.reverse).reverse) v ↔ q <:+ v ∧ ∀ x ∈ vs, q <:+ x := by
  induction vs generalizing v with
  | nil => simp
  | cons x vs ih =>
    simp only [List.foldl_cons, ih, List.forall_mem_cons, ← and_assoc]
    have : q <:+ (lcp v.reverse x.reverse).reverse ↔ q <:+ v ∧ q <:+ x := by
      rw [← List.reverse_prefix, List.reverse_reverse, prefix_lcp, List.reverse_prefix, List.reverse_prefix]
    rw [this]

/-- C44: the prefix aggregator gives the longest common prefix of its values. -/
theorem C44_prefix {F : Type} (env : AggEnv F) (vs : List Bytes) (h : vs ≠ []) :
    ∃ p, (Agg.addAll env (.prefix [] true) vs).result env = .text p ∧ LongestPrefix vs p := by
  cases vs with
  | nil => exact absurd rfl h
  | cons v vs =>
    refine ⟨vs.foldl lcp v, ?_, ?_, ?_⟩
    · have := addAll_prefix env v vs
      simp only [Agg.addAll] at this
      simp only [Agg.addAll, List.foldl_cons, Agg.add, if_true, List.nil_append, this, Agg.result]
    · have := (foldl_lcp (vs.foldl lcp v) v vs).1 (List.prefix_refl _)
      simpa using this
    · intro q hq
      rw [foldl_lcp]
      simpa using hq

/-- C44: the suffix aggregator gives the longest common suffix of its values. -/
theorem C44_suffix {F : Type} (env : AggEnv F) (vs : List Bytes) (h : vs ≠ []) :
    ∃ p, (Agg.addAll env (.suffix [] true) vs).result env = .text p ∧ LongestSuffix vs p := by
  cases vs with
  | nil => exact absurd rfl h
  | cons v vs =>
    refine ⟨vs.foldl (fun a b => (lcp a.reverse b.reverse).reverse) v, ?_, ?_, ?_⟩
    · have := addAll_suffix env v vs
      simp only [Agg.addAll] at this
      simp only [Agg.addAll, List.foldl_cons, Agg.add, if_true, List.nil_append, this, Agg.result]
    · have := (foldl_lcs _ v vs).1 (List.suffix_refl _)
      simpa using this
    · intro q hq
      rw [foldl_lcs]
      simpa using hq

/-- C44: the order of the values does not matter. -/
theorem C44_order {F : Type} (env : AggEnv F) (vs ws : List Bytes) (h : vs.Perm ws) :
    (Agg.addAll env (.prefix [] true) vs).result env = (Agg.addAll env (.prefix [] true) ws).result env ∧
    (Agg.addAll env (.suffix [] true) vs).result env = (Agg.addAll env (.suffix [] true) ws).result env := by
  by_cases hv : vs = []
  · subst hv; rw [List.nil_perm.1 h]; exact ⟨rfl, rfl⟩
  · have hw : ws ≠ [] := fun e => hv (by rw [e] at h; exact List.perm_nil.1 h)
    have hm : ∀ x, x ∈ ws → x ∈ vs := fun x hx => h.mem_iff.2 hx
    have hm' : ∀ x, x ∈ vs → x ∈ ws := fun x hx => h.mem_iff.1 hx
    constructor
    · obtain ⟨p, e1, a1, b1⟩ := C44_prefix env vs hv
      obtain ⟨q, e2, a2, b2⟩ := C44_prefix env ws hw
      have h1 : p <+: q := b2 p fun x hx => a1 x (hm x hx)
      have h2 : q <+: p := b1 q fun x hx => a2 x (hm' x hx)
      rw [e1, e2, h1.eq_of_length_le h2.length_le]
    · obtain ⟨p, e1, a1, b1⟩ := C44_suffix env vs hv
      obtain ⟨q, e2, a2, b2⟩ := C44_suffix env ws hw
      have h1 : p <:+ q := b2 p fun x hx => a1 x (hm x hx)
      have h2 : q <:+ p := b1 q fun x hx => a2 x (hm' x hx)
      rw [e1, e2, h1.eq_of_length_le h2.length_le]

example : (Agg.addAll AggEnv.plain (.prefix [] true) [ascii "abcx", ascii "abd", ascii "abc"]).result AggEnv.plain =
    .text (ascii "ab") := by decide +kernel
example : (Agg.addAll AggEnv.plain (.suffix [] true) [ascii "xabc", ascii "abc", ascii "dbc"]).result AggEnv.plain =
    .text (ascii "bc") := by decide +kernel

/-! ## Minimum and maximum -/

theorem addAll_min {F : Type} (env : AggEnv F) (k : CompKind) (vs : List Bytes) (hk : ∀ v ∈ vs, KeyOk env.toF64 k v)
    (pre : List Bytes) (hp : ∀ v ∈ pre, KeyOk env.toF64 k v) (m : Bytes) (h : FirstMin (compK env.toF64 k) pre m) :
    ∃ m', Agg.addAll env (.min k m false) vs = .min k m' false ∧ FirstMin (compK env.toF64 k) (pre ++ vs) m' := by
  have hc := compK_on env.toF64 k
  induction vs generalizing pre m with
  | nil => exact ⟨m, rfl, by simpa using h⟩
  | cons x vs ih =>
    have hx := hk x (by simp)
    obtain ⟨a, b, e, h1, h2⟩ := h
    have hm : KeyOk env.toF64 k m := hp m (by simp [e])
    have ha : ∀ y ∈ a, KeyOk env.toF64 k y := fun y hy => hp y (by simp [e, hy])
    have hb : ∀ y ∈ b, KeyOk env.toF64 k y := fun y hy => hp y (by simp [e, hy])
    have hpx : ∀ v ∈ pre ++ [x], KeyOk env.toF64 k v := by
      intro v hv
      rcases List.mem_append.1 hv with hv | hv
      · exact hp v hv
      · simp only [List.mem_singleton] at hv; subst hv; exact hx
    by_cases hg : compK env.toF64 k m x = .gt
    · have hs : compK env.toF64 k x m = .lt := by rw [hc.swap m x hm hx, hg]; rfl
      have lt_of : ∀ y, KeyOk env.toF64 k y → compK env.toF64 k m y ≠ .gt → compK env.toF64 k x y = .lt := by
        intro y hy hmy
        obtain ⟨cmp', ht, hag⟩ := hc.extend
        rw [← hag x y hx hy]
        rw [← hag x m hx hm] at hs
        rw [← hag m y hm hy] at hmy
        exact ht.lt_of_lt_of_le hs hmy
      have hfirst : FirstMin (compK env.toF64 k) (pre ++ [x]) x := by
        refine ⟨pre, [], rfl, ?_, by simp⟩
        intro y hy
        rw [e] at hy
        rcases List.mem_append.1 hy with hy | hy
        · exact lt_of y (ha y hy) (by rw [h1 y hy]; decide)
        · rcases List.mem_cons.1 hy with rfl | hy
          · exact hs
          · exact lt_of y (hb y hy) (h2 y hy)
      obtain ⟨m', e1, e2⟩ := ih (fun v hv => hk v (List.mem_cons_of_mem _ hv)) (pre ++ [x]) hpx x hfirst
      refine ⟨m', ?_, by simpa using e2⟩
      simp only [Agg.addAll, List.foldl_cons, Agg.add, Bool.false_eq_true, if_false, hg, if_true] at e1 ⊢
      exact e1
    · have hfirst : FirstMin (compK env.toF64 k) (pre ++ [x]) m := by
        refine ⟨a, b ++ [x], by simp [e], h1, ?_⟩
        intro y hy
        rcases List.mem_append.1 hy with hy | hy
        · exact h2 y hy
        · simp only [List.mem_singleton] at hy; subst hy; exact hg
      obtain ⟨m', e1, e2⟩ := ih (fun v hv => hk v (List.mem_cons_of_mem _ hv)) (pre ++ [x]) hpx m hfirst
      refine ⟨m', ?_, by simpa using e2⟩
      simp only [Agg.addAll, List.foldl_cons, Agg.add, Bool.false_eq_true, if_false, hg] at e1 ⊢
      exact e1

theorem addAll_max {F : Type} (env : AggEnv F) (k : CompKind) (vs : List Bytes) (hk : ∀ v ∈ vs, KeyOk env.toF64 k v)
    (pre : List Bytes) (hp : ∀ v ∈ pre, KeyOk env.toF64 k v) (m : Bytes) (h : FirstMax (compK env.toF64 k) pre m) :
    ∃ m', Agg.addAll env (.max k m) vs = .max k m' ∧ FirstMax (compK env.toF64 k) (pre ++ vs) m' := by
  have hc := compK_on env.toF64 k
  induction vs generalizing pre m with
  | nil => exact ⟨m, rfl, by simpa using h⟩
  | cons x vs ih =>
    have hx := hk x (by simp)
    obtain ⟨a, b, e, h1, h2⟩ := h
    have hm : KeyOk env.toF64 k m := hp m (by simp [e])
    have ha : ∀ y ∈ a, KeyOk env.toF64 k y := fun y hy => hp y (by simp [e, hy])
    have hb : ∀ y ∈ b, KeyOk env.toF64 k y := fun y hy => hp y (by simp [e, hy])
    have hpx : ∀ v ∈ pre ++ [x], KeyOk env.toF64 k v := by
      intro v hv
      rcases List.mem_append.1 hv with hv | hv
      · exact hp v hv
      · simp only [List.mem_singleton] at hv; subst hv; exact hx
    by_cases hg : compK env.toF64 k m x = .lt
    · have hs : compK env.toF64 k x m = .gt := by rw [hc.swap m x hm hx, hg]; rfl
      have gt_of : ∀ y, KeyOk env.toF64 k y → compK env.toF64 k m y ≠ .lt → compK env.toF64 k x y = .gt := by
        intro y hy hmy
        obtain ⟨cmp', ht, hag⟩ := hc.extend
        rw [← hag x y hx hy]
        rw [← hag m x hm hx] at hg
        rw [← hag m y hm hy] at hmy
        rw [ht.gt_iff]
        refine ht.lt_of_le_of_lt (b := m) ?_ hg
        rw [ht.swap m y]
        cases h : cmp' m y <;> simp_all
      have hfirst : FirstMax (compK env.toF64 k) (pre ++ [x]) x := by
        refine ⟨pre, [], rfl, ?_, by simp⟩
        intro y hy
        rw [e] at hy
        rcases List.mem_append.1 hy with hy | hy
        · exact gt_of y (ha y hy) (by rw [h1 y hy]; decide)
        · rcases List.mem_cons.1 hy with rfl | hy
          · exact hs
          · exact gt_of y (hb y hy) (h2 y hy)
      obtain ⟨m', e1, e2⟩ := ih (fun v hv => hk v (List.mem_cons_of_mem _ hv)) (pre ++ [x]) hpx x hfirst
      refine ⟨m', ?_, by simpa using e2⟩
      simp only [Agg.addAll, List.foldl_cons, Agg.add, hg, if_true] at e1 ⊢
      exact e1
    · have hfirst : FirstMax (compK env.toF64 k) (pre ++ [x]) m := by
        refine ⟨a, b ++ [x], by simp [e], h1, ?_⟩
        intro y hy
        rcases List.mem_append.1 hy with hy | hy
        · exact h2 y hy
        · simp only [List.mem_singleton] at hy; subst hy; exact hg
      obtain ⟨m', e1, e2⟩ := ih (fun v hv => hk v (List.mem_cons_of_mem _ hv)) (pre ++ [x]) hpx m hfirst
      refine ⟨m', ?_, by simpa using e2⟩
      simp only [Agg.addAll, List.foldl_cons, Agg.add, hg, if_false] at e1 ⊢
      exact e1

/-- C45 in full: `min` gives the first smallest, `max` the first greatest value. -/
def C45_statement : Prop :=
  ∀ (F : Type) (env : AggEnv F) (k : CompKind) (vs : List Bytes), vs ≠ [] → (∀ v ∈ vs, KeyOk env.toF64 k v) →
    (∃ m, (Agg.addAll env (.min k [] true) vs).result env = .text m ∧ FirstMin (compK env.toF64 k) vs m) ∧
    (∃ m, (Agg.addAll env (.max k []) vs).result env = .text m ∧ FirstMax (compK env.toF64 k) vs m)

/-- The greatest of `-1` and `-2` is nothing: `max` starts from the empty text, which counts as zero. -/
theorem C45_refuted : ¬ C45_statement := by
  intro h
  have hk : ∀ v ∈ [ascii "-1", ascii "-2"], KeyOk AggEnv.plain.toF64 .numeric v := by
    intro v hv
    simp only [List.mem_cons, List.not_mem_nil, or_false] at hv
    rcases hv with rfl | rfl
    · exact ⟨fun _ => ⟨⟨[], true, [49]⟩, by simp +decide [IntText.WF, Blanks, DigitsCommas, IntText.value, IntText.text]⟩, by simp⟩
    · exact ⟨fun _ => ⟨⟨[], true, [50]⟩, by simp +decide [IntText.WF, Blanks, DigitsCommas, IntText.value, IntText.text]⟩, by simp⟩
  obtain ⟨m, h1, a, b, h2, -⟩ := (h Nat AggEnv.plain .numeric [ascii "-1", ascii "-2"] (by simp) hk).2
  have h3 : (Agg.addAll AggEnv.plain (.max .numeric []) [ascii "-1", ascii "-2"]).result AggEnv.plain = .text [] := by
    decide +kernel
  rw [h3] at h1
  simp only [AggOut.text.injEq] at h1
  subst h1
  have : ([] : Bytes) ∈ [ascii "-1", ascii "-2"] := by rw [h2]; simp
  exact absurd this (by decide)

/-- C45 for `min`. -/
theorem C45_min {F : Type} (env : AggEnv F) (k : CompKind) (vs : List Bytes) (h : vs ≠ [])
    (hk : ∀ v ∈ vs, KeyOk env.toF64 k v) :
    ∃ m, (Agg.addAll env (.min k [] true) vs).result env = .text m ∧ FirstMin (compK env.toF64 k) vs m := by
  cases vs with
  | nil => exact absurd rfl h
  | cons v vs =>
    obtain ⟨m, e, hm⟩ := addAll_min env k vs (fun x hx => hk x (List.mem_cons_of_mem _ hx)) [v]
      (by simpa using hk v (by simp)) v ⟨[], [], rfl, by simp, by simp⟩
    refine ⟨m, ?_, hm⟩
    simp only [Agg.addAll] at e
    simp only [Agg.addAll, List.foldl_cons, Agg.add, if_true, List.nil_append, e, Agg.result]

/-- What `max` gives: the first greatest of its values and the empty text. -/
theorem C45_max {F : Type} (env : AggEnv F) (k : CompKind) (vs : List Bytes) (h0 : KeyOk env.toF64 k [])
    (hk : ∀ v ∈ vs, KeyOk env.toF64 k v) :
    ∃ m, (Agg.addAll env (.max k []) vs).result env = .text m ∧ FirstMax (compK env.toF64 k) ([] :: vs) m := by
  obtain ⟨m, e, hm⟩ := addAll_max env k vs hk [[]] (by simpa using h0) [] ⟨[], [], rfl, by simp, by simp⟩
  exact ⟨m, by rw [e]; rfl, hm⟩

/-- C45 for `max`, if some value is greater than the empty text. -/
theorem C45_max_partial {F : Type} (env : AggEnv F) (k : CompKind) (vs : List Bytes) (h0 : KeyOk env.toF64 k [])
    (hk : ∀ v ∈ vs, KeyOk env.toF64 k v) (hg : ∃ v ∈ vs, compK env.toF64 k [] v = .lt) :
    ∃ m, (Agg.addAll env (.max k []) vs).result env = .text m ∧ FirstMax (compK env.toF64 k) vs m := by
  obtain ⟨m, e, a, b, e1, h1, h2⟩ := C45_max env k vs h0 hk
  refine ⟨m, e, ?_⟩
  cases a with
  | nil =>
    simp only [List.nil_append, List.cons.injEq] at e1
    obtain ⟨rfl, rfl⟩ := e1
    obtain ⟨v, hv, hl⟩ := hg
    exact absurd hl (h2 v hv)
  | cons y a =>
    simp only [List.cons_append, List.cons.injEq] at e1
    obtain ⟨rfl, rfl⟩ := e1
    exact ⟨a, b, rfl, fun x hx => h1 x (List.mem_cons_of_mem _ hx), h2⟩

/-- Without a comparator, `max` is always right. -/
theorem C45_max_plain {F : Type} (env : AggEnv F) (vs : List Bytes) (h : vs ≠ []) :
    ∃ m, (Agg.addAll env (.max .plain []) vs).result env = .text m ∧ m ∈ vs ∧ ∀ v ∈ vs, lexCmp m v ≠ .lt := by
  obtain ⟨m, e, a, b, e1, h1, h2⟩ := C45_max env .plain vs (by simp [KeyOk]) (by simp [KeyOk])
  refine ⟨m, e, ?_, ?_⟩
  · cases a with
    | cons y a =>
      simp only [List.cons_append, List.cons.injEq] at e1
      rw [e1.2]; simp
    | nil =>
      simp only [List.nil_append, List.cons.injEq] at e1
      obtain ⟨rfl, rfl⟩ := e1
      cases vs with
      | nil => exact absurd rfl h
      | cons v vs =>
        cases v with
        | nil => simp
        | cons c v => exact absurd rfl (h2 (c :: v) (by simp))
  · intro v hv
    have : v ∈ a ++ m :: b := by rw [← e1]; exact List.mem_cons_of_mem _ hv
    rcases List.mem_append.1 this with hv | hv
    · have := h1 v hv
      simp only [compK] at this
      rw [this]; decide
    · rcases List.mem_cons.1 hv with rfl | hv
      · rw [preorder_lex.refl]; decide
      · exact h2 v hv

example : (Agg.addAll AggEnv.plain (.min .length [] true) [ascii "bb", ascii "a", ascii "c"]).result AggEnv.plain =
    .text (ascii "a") := by decide +kernel
example : (∀ v ∈ [ascii "bb", ascii "a"], KeyOk AggEnv.plain.toF64 .length v) ∧ KeyOk AggEnv.plain.toF64 .length [] ∧
    ∃ v ∈ [ascii "bb", ascii "a"], compK AggEnv.plain.toF64 .length [] v = .lt :=
  ⟨by simp [KeyOk], by simp [KeyOk], ascii "bb", by simp, by decide⟩

/-! ## Counters -/

theorem wordLoop_acc {α : Type} (good : α → Bool) (xs : List α) (b : Bool) (n : Nat) :
    wordLoop good xs b n = n + wordLoop good xs b 0 := by
  induction xs generalizing b n with
  | nil => rfl
  | cons x xs ih =>
    simp only [wordLoop]
    split
    · split
      · rw [ih, ih false (0 + 1)]; omega
      · rw [ih]
    · rw [ih]

theorem wordLoop_in {α : Type} (good : α → Bool) (w r : List α) (h : ∀ x ∈ w, good x = true) :
    wordLoop good (w ++ r) false 0 = wordLoop good r false 0 := by
  induction w with
  | nil => rfl
  | cons x w ih =>
    simp only [List.cons_append, wordLoop, h x (by simp), if_true, Bool.false_eq_true, if_false]
    exact ih fun y hy => h y (List.mem_cons_of_mem _ hy)

theorem wordLoop_out {α : Type} (good : α → Bool) (s r : List α) (b : Bool) (h : ∀ x ∈ s, good x = false) (hs : s ≠ []) :
    wordLoop good (s ++ r) b 0 = wordLoop good r true 0 := by
  induction s generalizing b with
  | nil => exact absurd rfl hs
  | cons x s ih =>
    simp only [List.cons_append, wordLoop, h x (by simp), Bool.false_eq_true, if_false]
    cases s with
    | nil => rfl
    | cons y s => exact ih true (fun z hz => h z (List.mem_cons_of_mem _ hz)) (by simp)

theorem wordLoop_none {α : Type} (good : α → Bool) (s : List α) (b : Bool) (h : ∀ x ∈ s, good x = false) :
    wordLoop good s b 0 = 0 := by
  cases s with
  | nil => rfl
  | cons x s =>
    have := wordLoop_out good (x :: s) [] b h (by simp)
    rw [List.append_nil] at this
    rw [this]; rfl

theorem wordLoop_laid {α : Type} (good sp : α → Bool) (hsp : ∀ x, sp x = !good x) {ws : List (List α)} {xs : List α}
    (h : Laid sp ws xs) : wordLoop good xs true 0 = ws.length := by
  have word : ∀ (w r : List α), w ≠ [] → (∀ x ∈ w, sp x = false) →
      wordLoop good (w ++ r) true 0 = 1 + wordLoop good r false 0 := by
    intro w r hw h1
    cases w with
    | nil => exact absurd rfl hw
    | cons x w =>
      have hg : ∀ y ∈ x :: w, good y = true := by
        intro y hy; have := h1 y hy; rw [hsp] at this; simpa using this
      simp only [List.cons_append, wordLoop, hg x (by simp), if_true]
      rw [wordLoop_acc, wordLoop_in good w r fun y hy => hg y (List.mem_cons_of_mem _ hy)]
  have blank : ∀ s : List α, (∀ x ∈ s, sp x = true) → ∀ x ∈ s, good x = false := by
    intro s h1 y hy; have := h1 y hy; rw [hsp] at this; simpa using this
  induction h with
  | last w s hw h1 h2 => rw [word w s hw h1, wordLoop_none good s false (blank s h2)]; rfl
  | cons w s ws xs hw h1 hs h2 _ ih =>
    rw [List.append_assoc, word w _ hw h1, wordLoop_out good s xs false (blank s h2) hs, ih, List.length_cons, Nat.add_comm]

/-- C85: a counter of words counts the maximal runs of its characters. -/
theorem C85_words {α : Type} (good sp : α → Bool) (hsp : ∀ x, sp x = !good x) (lead xs : List α) (ws : List (List α))
    (hl : ∀ x ∈ lead, sp x = true) (h : Laid sp ws xs) :
    wordLoop good (lead ++ xs) true 0 = ws.length := by
  have hb : ∀ x ∈ lead, good x = false := by
    intro y hy; have := hl y hy; rw [hsp] at this; simpa using this
  by_cases e : lead = []
  · subst e; exact wordLoop_laid good sp hsp h
  · rw [wordLoop_out good lead xs true hb e]; exact wordLoop_laid good sp hsp h

/-- C85: the counters on bytes: bytes, runs of what is above a space, and runs of letters and digits. -/
theorem C85_bytes {F : Type} (env : AggEnv F) (data lead xs : Bytes) (ws : List Bytes) (e : data = lead ++ xs) :
    (Counter.mk .chars false).count env data = data.length ∧
    ((∀ x ∈ lead, x ≤ 32) → Laid (fun x : UInt8 => decide (x ≤ 32)) ws xs →
      (Counter.mk .swords false).count env data = ws.length) ∧
    ((∀ x ∈ lead, ¬ IsAlnum x) → Laid (fun x : UInt8 => !decide (IsAlnum x)) ws xs →
      (Counter.mk .awords false).count env data = ws.length) := by
  subst e
  refine ⟨rfl, fun h1 h2 => ?_, fun h1 h2 => ?_⟩
  · refine C85_words _ _ ?_ lead xs ws (by simpa using h1) h2
    intro x
    by_cases h : x > 32
    · simp [h]
    · simp [h, UInt8.not_lt.1 h]
  · refine C85_words _ _ ?_ lead xs ws (by simpa using h1) h2
    intro x
    exact byte_forall (P := fun x => (!decide (IsAlnum x)) = !isAlnumByte x) (by decide +kernel) x

/-- C85: no words in a value without such characters. -/
theorem C85_none {F : Type} (env : AggEnv F) (data : Bytes) (h : ∀ x ∈ data, x ≤ 32) :
    (Counter.mk .swords false).count env data = 0 ∧ (Counter.mk .awords false).count env data = 0 := by
  refine ⟨wordLoop_none _ data true ?_, wordLoop_none _ data true ?_⟩
  · intro x hx; have := h x hx; simp [this]
  · intro x hx
    have := byte_forall (P := fun x => x ≤ 32 → isAlnumByte x = false) (by decide +kernel) x
    exact this (h x hx)

example : (∀ x ∈ ascii " ", x ≤ 32) ∧ Laid (fun x : UInt8 => decide (x ≤ 32)) [ascii "ab", ascii "c"] (ascii "ab  c ") :=
  ⟨by decide, .cons (ascii "ab") (ascii "  ") [ascii "c"] (ascii "c ") (by decide) (by decide) (by decide) (by decide)
    (.last (ascii "c") (ascii " ") (by decide) (by decide) (by decide))⟩

/-! ## Sums, means and counts -/

section arith
variable {F : Type} (env : AggEnv F)

theorem addAll_cons (a : Agg F) (v : Bytes) (vs : List Bytes) : a.addAll env (v :: vs) = (a.add env v).addAll env vs := rfl

theorem addAll_asum (c : Counter) (n : Nat) (vs : List Bytes) :
    (Agg.asum c n).addAll env vs = .asum c (n + (vs.map (c.count env)).sum) := by
  induction vs generalizing n with
  | nil => rfl
  | cons v vs ih => rw [addAll_cons, Agg.add, ih, List.map_cons, List.sum_cons, Nat.add_assoc]

theorem addAll_amean (c : Counter) (n m : Nat) (vs : List Bytes) :
    (Agg.amean c n m).addAll env vs = .amean c (n + (vs.map (c.count env)).sum) (m + vs.length) := by
  induction vs generalizing n m with
  | nil => rfl
  | cons v vs ih =>
    rw [addAll_cons, Agg.add, ih, List.map_cons, List.sum_cons, Nat.add_assoc, List.length_cons]
    congr 1; omega

theorem addAll_sum (s : F) (vs : List Bytes) :
    (Agg.sum s).addAll env vs = .sum ((vs.map env.toF).foldl env.ops.add s) := by
  induction vs generalizing s with
  | nil => rfl
  | cons v vs ih => rw [addAll_cons, Agg.add, ih]; rfl

theorem addAll_mean (s n : F) (vs : List Bytes) :
    (Agg.mean s n).addAll env vs = .mean ((vs.map env.toF).foldl env.ops.add s)
      ((List.replicate vs.length (env.ops.ofNat 1)).foldl env.ops.add n) := by
  induction vs generalizing s n with
  | nil => rfl
  | cons v vs ih => rw [addAll_cons, Agg.add, ih]; rfl

theorem addAll_count (n i : Int) (vs : List Bytes) : (Agg.count n i : Agg F).addAll env vs = .count (n + vs.length) i := by
  induction vs generalizing n with
  | nil => simp [Agg.addAll]
  | cons v vs ih =>
    rw [addAll_cons, Agg.add, ih, List.length_cons]
    congr 1; omega

/-- C47 in full: `amean` prints the sum divided by the number of values. -/
def C47_statement : Prop :=
  ∀ (F : Type) (env : AggEnv F) (c : Counter) (vs : List Bytes), vs ≠ [] →
    ((Agg.amean c 0 0).addAll env vs).result env =
      .num (env.ops.div (env.ops.ofNat (vs.map (c.count env)).sum) (env.ops.ofNat vs.length))

/-- For `aa` and `bb` it prints 4. -/
theorem C47_refuted : ¬ C47_statement := by
  intro h
  have := h Nat AggEnv.plain ⟨.chars, false⟩ [ascii "aa", ascii "bb"] (by simp)
  exact absurd this (by decide +kernel)

/-- C47 as far as it holds: the value used by other aggregators is the mean, what is printed is the sum. -/
theorem C47_mean_partial (c : Counter) (vs : List Bytes) (h : vs ≠ []) :
    ((Agg.amean c 0 0).addAll env vs).value env =
      env.ops.div (env.ops.ofNat (vs.map (c.count env)).sum) (env.ops.ofNat vs.length) ∧
    ((Agg.amean c 0 0).addAll env vs).result env = .num (env.ops.ofNat (vs.map (c.count env)).sum) := by
  rw [addAll_amean]
  have : vs.length > 0 := List.length_pos_iff.2 h
  constructor
  · simp [Agg.value, this]
  · simp [Agg.result]

/-- C86: `sum` adds the numbers from left to right, `mean` divides their sum by a count of ones. -/
theorem C86_sum (vs : List Bytes) :
    ((Agg.sum env.ops.zero).addAll env vs).result env = .num ((vs.map env.toF).foldl env.ops.add env.ops.zero) ∧
    ((Agg.mean env.ops.zero env.ops.zero).addAll env vs).result env =
      .num (let n := (List.replicate vs.length (env.ops.ofNat 1)).foldl env.ops.add env.ops.zero
        if env.ops.gt n env.ops.zero then env.ops.div ((vs.map env.toF).foldl env.ops.add env.ops.zero) n
        else env.ops.zero) := by
  rw [addAll_sum, addAll_mean]
  exact ⟨rfl, rfl⟩

/-- C86: `asum` adds the counts, `count` counts the values from its start. -/
theorem C86_asum (c : Counter) (init : Int) (vs : List Bytes) :
    ((Agg.asum c 0).addAll env vs).result env = .num (env.ops.ofNat (vs.map (c.count env)).sum) ∧
    ((Agg.count init init : Agg F).addAll env vs).result env = .num (ofIsize env.ops (init + vs.length)) := by
  rw [addAll_asum, addAll_count]
  constructor
  · simp [Agg.result]
  · rfl

theorem addAll_amax (c : Counter) (n : Nat) (vs : List Bytes) :
    ∃ m, (Agg.amax c n).addAll env vs = .amax c m ∧ n ≤ m ∧ (∀ v ∈ vs, c.count env v ≤ m) ∧
      (m = n ∨ ∃ v ∈ vs, c.count env v = m) := by
  induction vs generalizing n with
  | nil => exact ⟨n, rfl, Nat.le_refl _, by simp, .inl rfl⟩
  | cons v vs ih =>
    obtain ⟨m, e, h1, h2, h3⟩ := ih (Nat.max n (c.count env v))
    have hl : n ≤ Nat.max n (c.count env v) := Nat.le_max_left _ _
    have hr : c.count env v ≤ Nat.max n (c.count env v) := Nat.le_max_right _ _
    refine ⟨m, by rw [addAll_cons, Agg.add, e], by omega, ?_, ?_⟩
    · intro x hx
      rcases List.mem_cons.1 hx with rfl | hx
      · omega
      · exact h2 x hx
    · rcases h3 with h3 | ⟨x, hx, h3⟩
      · rcases Nat.le_total n (c.count env v) with hle | hle
        · right; exact ⟨v, by simp, by rw [h3]; exact (Nat.max_eq_right hle).symm⟩
        · left; rw [h3]; exact Nat.max_eq_left hle
      · right; exact ⟨x, List.mem_cons_of_mem _ hx, h3⟩

theorem addAll_amin (c : Counter) (n : Nat) (vs : List Bytes) :
    ∃ m, (Agg.amin c n).addAll env vs = .amin c m ∧ m ≤ n ∧ (∀ v ∈ vs, m ≤ c.count env v) ∧
      (m = n ∨ ∃ v ∈ vs, c.count env v = m) := by
  induction vs generalizing n with
  | nil => exact ⟨n, rfl, Nat.le_refl _, by simp, .inl rfl⟩
  | cons v vs ih =>
    obtain ⟨m, e, h1, h2, h3⟩ := ih (Nat.min n (c.count env v))
    have hl : Nat.min n (c.count env v) ≤ n := Nat.min_le_left _ _
    have hr : Nat.min n (c.count env v) ≤ c.count env v := Nat.min_le_right _ _
    refine ⟨m, by rw [addAll_cons, Agg.add, e], by omega, ?_, ?_⟩
    · intro x hx
      rcases List.mem_cons.1 hx with rfl | hx
      · omega
      · exact h2 x hx
    · rcases h3 with h3 | ⟨x, hx, h3⟩
      · rcases Nat.le_total n (c.count env v) with hle | hle
        · left; rw [h3]; exact Nat.min_eq_left hle
        · right; exact ⟨v, by simp, by rw [h3]; exact (Nat.min_eq_right hle).symm⟩
      · right; exact ⟨x, List.mem_cons_of_mem _ hx, h3⟩

/-- C86: `amax` and `amin` are the greatest and smallest count among the values. -/
theorem C86_extremes (c : Counter) (vs : List Bytes) (h : vs ≠ []) (hc : ∀ v ∈ vs, c.count env v ≤ usizeMax) :
    (∃ v ∈ vs, ((Agg.amax c 0).addAll env vs).result env = .num (env.ops.ofNat (c.count env v)) ∧
      ∀ w ∈ vs, c.count env w ≤ c.count env v) ∧
    (∃ v ∈ vs, ((Agg.amin c usizeMax).addAll env vs).result env = .num (env.ops.ofNat (c.count env v)) ∧
      ∀ w ∈ vs, c.count env v ≤ c.count env w) := by
  obtain ⟨v0, hv0⟩ := List.exists_mem_of_ne_nil vs h
  constructor
  · obtain ⟨m, e, -, h2, h3⟩ := addAll_amax env c 0 vs
    have : ∃ v ∈ vs, c.count env v = m := by
      rcases h3 with h3 | h3
      · exact ⟨v0, hv0, by have := h2 v0 hv0; omega⟩
      · exact h3
    obtain ⟨v, hv, rfl⟩ := this
    exact ⟨v, hv, by rw [e]; rfl, h2⟩
  · obtain ⟨m, e, -, h2, h3⟩ := addAll_amin env c usizeMax vs
    have : ∃ v ∈ vs, c.count env v = m := by
      rcases h3 with h3 | h3
      · exact ⟨v0, hv0, by have := h2 v0 hv0; have := hc v0 hv0; omega⟩
      · exact h3
    obtain ⟨v, hv, rfl⟩ := this
    exact ⟨v, hv, by rw [e]; rfl, h2⟩

example : ∀ v ∈ [ascii "a b", ascii ""], (Counter.mk .awords false).count AggEnv.plain v ≤ usizeMax := by decide

/-! ## Reset and making -/

/-- The state a group starts with. -/
def Agg.Fresh : Agg F → Prop
  | .merge _ line => line = []
  | .min _ v e => v = [] ∧ e = true
  | .max _ v => v = []
  | .mean v c => v = env.ops.zero ∧ c = env.ops.zero
  | .sum v => v = env.ops.zero
  | .asum _ n => n = 0
  | .amin _ n => n = usizeMax
  | .amax _ n => n = 0
  | .amean _ n m => n = 0 ∧ m = 0
  | .prefix v e => v = [] ∧ e = true
  | .suffix v e => v = [] ∧ e = true
  | .count n i => n = i

theorem reset_add (a : Agg F) (v : Bytes) : (a.add env v).reset env = a.reset env := by
  cases a <;> simp only [Agg.add] <;> (repeat' split) <;> rfl

theorem reset_addAll (a : Agg F) (vs : List Bytes) : (a.addAll env vs).reset env = a.reset env := by
  induction vs generalizing a with
  | nil => rfl
  | cons v vs ih => rw [addAll_cons, ih, reset_add]

theorem reset_fresh (a : Agg F) (h : a.Fresh env) : a.reset env = a := by
  cases a <;> simp_all [Agg.Fresh, Agg.reset]

theorem aggBox_fresh (name pattern : Bytes) (a : Agg F) (h : aggBox env name pattern = .ok a) : a.Fresh env := by
  unfold aggBox at h
  have key : ∀ {β : Type} (r : Res β) (f : β → Agg F), (∀ b, (f b).Fresh env) → (r.bind fun b => .ok (f b)) = .ok a →
      a.Fresh env := by
    intro β r f hf he
    obtain ⟨b, -, hb⟩ := Res.bind_eq_ok he
    simp only [Res.ok.injEq] at hb
    subst hb; exact hf b
  have step : ∀ {c : Prop} [Decidable c] {x y : Res (Agg F)}, (x = .ok a → a.Fresh env) → (y = .ok a → a.Fresh env) →
      (if c then x else y) = .ok a → a.Fresh env := by
    intro c _ x y h1 h2 h; split at h
    · exact h1 h
    · exact h2 h
  revert h
  repeat' refine step ?_ ?_
  all_goals first
    | exact key _ _ (fun _ => by simp [Agg.Fresh])
    | (intro h; simp only [Res.ok.injEq] at h; subst h; simp [Agg.Fresh])
    | (intro h; cases h)

theorem aggMake_fresh (spec : Bytes) (a : Agg F) (h : aggMake env spec = .ok a) : a.Fresh env := by
  unfold aggMake aggMake2 at h
  repeat' split at h
  all_goals exact aggBox_fresh env _ _ a h

/-- C87: groups do not influence each other: after any values, `reset` leaves the aggregator as it was made. -/
theorem C87_reset (spec : Bytes) (a : Agg F) (h : aggMake env spec = .ok a) (vs ws : List Bytes) :
    (a.addAll env vs).reset env = a ∧
    (((a.addAll env vs).reset env).addAll env ws).result env = (a.addAll env ws).result env := by
  have : (a.addAll env vs).reset env = a := by rw [reset_addAll, reset_fresh env a (aggMake_fresh env spec a h)]
  exact ⟨this, by rw [this]⟩

end arith

end Cdx
