import Verif.Spec.Ops
import Verif.Lemmas.PreorderOn

/-!
C40 (comparison operators), C41 (`line OP value`), C42 and C43 (how many columns match), C75 (range specifications).
-/

namespace Cdx

/-! ## C40 -/

/-- An operator accepts the outcomes it says. -/
theorem C40_ord_ok (op : CompareOp) (o : Ordering) : op.ordOk o = true ↔ OpHolds op o := by
  cases op <;> cases o <;> decide

/-- On numbers an operator is the relation it is written for. -/
theorem C40_numbers (op : CompareOp) (a b : Int) : op.ordOk (compare a b) = true ↔ opRel op a b := by
  rw [C40_ord_ok, compare_int]
  cases op <;> simp only [OpHolds, opRel] <;> by_cases h : a = b <;> by_cases h2 : b < a <;>
    simp [h, h2] <;> omega

/-- Swapping the operands is inverting the operator. -/
theorem C40_invert (op : CompareOp) (o : Ordering) : op.invert.ordOk o = op.ordOk o.swap := by
  cases op <;> cases o <;> rfl

/-- Inverting twice changes nothing. -/
theorem C40_invert_twice (op : CompareOp) : op.invert.invert = op := by cases op <;> rfl

/-- Exactly one of less, equal and greater holds. -/
theorem C40_trichotomy (o : Ordering) :
    ∃ op : CompareOp, (op = .lt ∨ op = .eq ∨ op = .gt) ∧ op.ordOk o = true ∧
      ∀ op' : CompareOp, (op' = .lt ∨ op' = .eq ∨ op' = .gt) → op'.ordOk o = true → op' = op := by
  cases o
  · refine ⟨.lt, by simp, rfl, ?_⟩; rintro _ (rfl | rfl | rfl) h <;> first | rfl | exact absurd h (by decide)
  · refine ⟨.eq, by simp, rfl, ?_⟩; rintro _ (rfl | rfl | rfl) h <;> first | rfl | exact absurd h (by decide)
  · refine ⟨.gt, by simp, rfl, ?_⟩; rintro _ (rfl | rfl | rfl) h <;> first | rfl | exact absurd h (by decide)

/-- The other three are the negations. -/
theorem C40_negations (o : Ordering) :
    CompareOp.le.ordOk o = !CompareOp.gt.ordOk o ∧ CompareOp.ge.ordOk o = !CompareOp.lt.ordOk o ∧
      CompareOp.ne.ordOk o = !CompareOp.eq.ordOk o := by
  cases o <;> decide

/-- Both ways to write an operator are read back, in either case. -/
theorem C40_parse (op : CompareOp) (s : Bytes) (h : lower s = lower (nameText op) ∨ s = symText op) :
    CompareOp.parse s = .ok op := by
  rcases h with h | rfl
  · cases op <;> simp only [CompareOp.parse, opNames, List.find?_cons, eqIgnoreCase, h] <;> decide
  · cases op <;> decide

example : CompareOp.parse [108, 69] = .ok .le ∧ CompareOp.parse [62, 61] = .ok .ge ∧ CompareOp.parse [60, 62] = .err := by
  decide

/-! ## C41 -/

/-- Keys and values for which the comparator is an ordering. Whole lines are compared with their end, so they are not
among these. -/
def CheckKey (toF64 : Bytes → F64) (line : TextLine) (c : LineComp) (v : Bytes) : Prop :=
  match c.kind with
  | .whole _ => False
  | .col k num => KeyOk toF64 k v ∧ KeyOk toF64 k (line.get (num 0)) ∧ v.length < 2 ^ 32 ∧
      (line.get (num 0)).length < 2 ^ 32
  | .expr eval => (toF64 v).isNaN = false ∧ (eval 0 line.text).isNaN = false

theorem compSelfCols_swap {toF64 : Bytes → F64} {line : TextLine} {c : LineComp} {v : Bytes}
    (h : CheckKey toF64 line c v) : c.compSelfCols toF64 v line = (keyVsValue toF64 c v line).swap := by
  unfold LineComp.compSelfCols keyVsValue rev CheckKey at *
  cases hk : c.kind with
  | whole k => rw [hk] at h; exact h.elim
  | col k num =>
    rw [hk] at h
    obtain ⟨h1, h2, h3, h4⟩ := h
    simp only
    rw [C22_stored toF64 k _ _ h3 h4, (compK_on toF64 k).swap _ _ h2 h1]
    cases c.reverse <;> simp
  | expr eval =>
    rw [hk] at h
    obtain ⟨h1, h2⟩ := h
    simp only
    rw [fcmp_eq h1 h2, fcmp_eq h2 h1, preorder_int.swap]
    cases c.reverse <;> simp

theorem compSelfColsList_swap (toF64 : Bytes → F64) (line : TextLine) (cs : List LineComp) (vs : List Bytes)
    (h : ∀ p ∈ cs.zip vs, CheckKey toF64 line p.1 p.2) :
    compSelfCols toF64 cs vs line = (lineVsValues toF64 line (cs.zip vs)).swap := by
  induction cs generalizing vs with
  | nil => cases vs <;> rfl
  | cons c cs ih =>
    cases vs with
    | nil => rfl
    | cons v vs =>
      have h1 := compSelfCols_swap (h (c, v) (by simp))
      have h2 := ih vs fun p hp => h p (by simp [hp])
      simp only [compSelfCols, List.zip_cons_cons, lineVsValues, h1, h2]
      cases keyVsValue toF64 c v line <;> rfl

theorem setParts_ok {n : Nat} {value : Bytes} {d : UInt8} {vs : List Bytes} (h : setParts n value d = .ok vs) :
    (n = 1 ∧ vs = [value] ∨ n ≠ 1 ∧ vs = sliceSplit d value) ∧ vs.length = n := by
  unfold setParts at h
  split at h
  · rename_i hn
    injection h with h
    subst h
    exact ⟨.inl ⟨hn, rfl⟩, by simp [hn]⟩
  · split at h
    · exact absurd h (by simp)
    · rename_i hn hl
      injection h with h
      subst h
      exact ⟨.inr ⟨hn, rfl⟩, by omega⟩

theorem Res.bind_eq_ok {α β : Type} {r : Res α} {f : α → Res β} {b : β} (h : r.bind f = .ok b) :
    ∃ a, r = .ok a ∧ f a = .ok b := by
  cases r with
  | ok a => exact ⟨a, rfl, h⟩
  | err => exact absurd h (by simp [Res.bind])
  | panic => exact absurd h (by simp [Res.bind])

/-- A check accepts a line exactly when all its bounds hold, quietly or with a report. -/
def C41_statement : Prop :=
  ∀ (toF64 : Bytes → F64) (spec : Bytes) (r : RangeSpec) (c : CheckLine) (cs : List LineComp) (line : TextLine) (b : Bool),
    RangeSpec.new spec = .ok r → CheckLine.new spec = .ok c →
    (c.lineOk toF64 cs line = .ok b → (b = true ↔ RangeHolds toF64 cs r line)) ∧
    (c.lineOkVerbose toF64 cs line = .ok b → (b = true ↔ RangeHolds toF64 cs r line))

theorem RangeHolds.bound {toF64 : Bytes → F64} {cs : List LineComp} {r : RangeSpec} {line : TextLine} {op : CompareOp}
    {vs : List Bytes} (hop : CompareOp.parse r.op1 = .ok op) (hvs : setParts cs.length r.val1 44 = .ok vs)
    (h : r.op2 = none) : RangeHolds toF64 cs r line ↔ OpHolds op (lineVsValues toF64 line (cs.zip vs)) := by
  obtain ⟨h1, h2⟩ := setParts_ok hvs
  constructor
  · rintro ⟨⟨op', vs', ha, hb, _, hd⟩, _⟩
    rw [hop] at ha
    injection ha with ha
    subst ha
    have : vs' = vs := by
      rcases h1 with ⟨a, rfl⟩ | ⟨a, rfl⟩ <;> rcases hb with ⟨b, rfl⟩ | ⟨b, rfl⟩ <;> first | rfl | exact absurd b a |
        exact absurd a b
    rw [← this]
    exact hd
  · intro hd
    exact ⟨⟨op, vs, hop, h1, h2, hd⟩, fun o2 v2 ho => by rw [h] at ho; exact absurd ho (by simp)⟩

/-- With a report, a one-sided check of columns or expressions accepts exactly the lines it should. -/
theorem C41_verbose_partial (toF64 : Bytes → F64) (r : RangeSpec) (c : CheckLine) (cs : List LineComp) (line : TextLine)
    (b : Bool) (vs : List Bytes) (hc : CheckLine.setWith r = .ok c) (h1 : r.op2 = none) (h2 : r.val2 = none)
    (hvs : setParts cs.length r.val1 44 = .ok vs) (hk : ∀ p ∈ cs.zip vs, CheckKey toF64 line p.1 p.2)
    (hb : c.lineOkVerbose toF64 cs line = .ok b) : b = true ↔ RangeHolds toF64 cs r line := by
  unfold CheckLine.setWith at hc
  obtain ⟨op, hop, hc⟩ := Res.bind_eq_ok hc
  rw [h1, h2] at hc
  injection hc with hc
  subst hc
  rw [RangeHolds.bound hop hvs h1]
  simp only [CheckLine.lineOkVerbose, hvs, Res.bind, CompareOp.lineOkVerbose, CompareOp.lineOk,
    compSelfColsList_swap toF64 line cs vs hk] at hb
  injection hb with hb
  rw [← hb, C40_invert, Ordering.swap_swap, C40_ord_ok]

/-- Quietly, a one-sided check accepts the lines for which `value OP line`. -/
theorem C41_quiet (toF64 : Bytes → F64) (r : RangeSpec) (c : CheckLine) (cs : List LineComp) (line : TextLine)
    (b : Bool) (op : CompareOp) (vs : List Bytes) (hc : CheckLine.setWith r = .ok c) (h1 : r.op2 = none)
    (h2 : r.val2 = none) (hop : CompareOp.parse r.op1 = .ok op)
    (hvs : setParts cs.length r.val1 44 = .ok vs) (hk : ∀ p ∈ cs.zip vs, CheckKey toF64 line p.1 p.2)
    (hb : c.lineOk toF64 cs line = .ok b) : b = true ↔ OpHolds op (lineVsValues toF64 line (cs.zip vs)).swap := by
  unfold CheckLine.setWith at hc
  obtain ⟨op', hop', hc⟩ := Res.bind_eq_ok hc
  rw [hop] at hop'
  injection hop' with hop'
  subst hop'
  rw [h1, h2] at hc
  injection hc with hc
  subst hc
  simp only [CheckLine.lineOk, hvs, Res.bind, CompareOp.lineOk, compSelfColsList_swap toF64 line cs vs hk] at hb
  rw [← C40_ord_ok]
  cases h : op.ordOk (lineVsValues toF64 line (cs.zip vs)).swap <;> rw [h] at hb <;> simp at hb <;> simp [hb]

/-- So quietly it is right for equal and not equal. -/
theorem C41_quiet_equality_partial (toF64 : Bytes → F64) (r : RangeSpec) (c : CheckLine) (cs : List LineComp)
    (line : TextLine) (b : Bool) (op : CompareOp) (vs : List Bytes) (hc : CheckLine.setWith r = .ok c)
    (h1 : r.op2 = none) (h2 : r.val2 = none) (hop : CompareOp.parse r.op1 = .ok op) (he : op = .eq ∨ op = .ne)
    (hvs : setParts cs.length r.val1 44 = .ok vs) (hk : ∀ p ∈ cs.zip vs, CheckKey toF64 line p.1 p.2)
    (hb : c.lineOk toF64 cs line = .ok b) : b = true ↔ RangeHolds toF64 cs r line := by
  rw [C41_quiet toF64 r c cs line b op vs hc h1 h2 hop hvs hk hb, RangeHolds.bound hop hvs h1]
  rcases he with rfl | rfl <;> cases lineVsValues toF64 line (cs.zip vs) <;> decide

/-- The first column, compared as text. -/
def textCol0 : LineComp := ⟨.col .plain fun _ => 0, false, TAB⟩

/-- A line of one column `b`. -/
def lineB : TextLine := (TextLine.ofRaw [98, 10]).split .plain TAB

example : ∃ r c, CheckLine.setWith r = .ok c ∧ r.op2 = none ∧ r.val2 = none ∧
    setParts [textCol0].length r.val1 44 = .ok [[97]] ∧
    (∀ p ∈ [textCol0].zip [[97]], CheckKey (fun _ => 0) lineB p.1 p.2) ∧
    c.lineOkVerbose (fun _ => 0) [textCol0] lineB = .ok true ∧ c.lineOk (fun _ => 0) [textCol0] lineB = .ok false :=
  ⟨⟨[62], [97], none, none⟩, ⟨.gt, [97], none, none⟩, by decide, rfl, rfl, by decide,
    by simp [CheckKey, textCol0, KeyOk]; decide, by decide, by decide⟩

/-- `<c` refuses `b` when it is not to report. -/
theorem C41_refuted : ¬ C41_statement := by
  intro h
  have := (h (fun _ => 0) [60, 99] ⟨[60], [99], none, none⟩ ⟨.lt, [99], none, none⟩ [textCol0] lineB false
    (by decide) (by decide)).1 (by decide)
  have hb : RangeHolds (fun _ => 0) [textCol0] ⟨[60], [99], none, none⟩ lineB :=
    ⟨⟨.lt, [[99]], by decide, .inl ⟨rfl, rfl⟩, rfl, by decide⟩, fun _ _ h => absurd h (by simp)⟩
  exact absurd (this.2 hb) (by decide)

/-- With a report, the second bound is not looked at. -/
theorem C41_second_bound_ignored (toF64 : Bytes → F64) (c : CheckLine) (cs : List LineComp) (line : TextLine)
    (op2 : Option CompareOp) (val2 : Option Bytes) :
    { c with op2 := op2, val2 := val2 }.lineOkVerbose toF64 cs line = c.lineOkVerbose toF64 cs line := rfl

/-- The value of the second bound is replaced by its operator. -/
theorem C41_second_value_lost (o1 o2 v1 v2 : Bytes) (c : CheckLine)
    (h : CheckLine.setWith ⟨o1, v1, some o2, some v2⟩ = .ok c) : c.val2 = some o2 := by
  unfold CheckLine.setWith at h
  obtain ⟨op, _, h⟩ := Res.bind_eq_ok h
  obtain ⟨op2, _, h⟩ := Res.bind_eq_ok h
  injection h with h
  subst h
  rfl

example : CheckLine.setWith ⟨[62], [97], some [60], some [99]⟩ = .ok ⟨.gt, [97], some .lt, some [60]⟩ := by decide

/-- A whole line is never equal to a value written on the command line, because its end is compared too. -/
theorem C41_whole_line_end (toF64 : Bytes → F64) (d : UInt8) (v l : Bytes) (hv : NL ∉ v) :
    CompareOp.eq.lineOk toF64 [⟨.whole .plain, false, d⟩] [v] (TextLine.ofRaw (l ++ [NL])) = false := by
  have : lexCmp v (l ++ [NL]) ≠ Ordering.eq := by
    rw [ne_eq, lexCmp_eq]
    rintro rfl
    exact hv (by simp)
  simp only [CompareOp.lineOk, compSelfCols, LineComp.compSelfCols, rev, TextLine.text, TextLine.ofRaw, compSelfK]
  simp [this, CompareOp.ordOk]

example : NL ∉ ([98] : Bytes) := by decide

/-- A check of a value accepts exactly the values within all bounds. -/
theorem C41_buff_ok (toF64 : Bytes → F64) (c : CheckBuff) (right : Bytes) (hs : c.op2.isSome = c.val2.isSome)
    (hr : KeyOk toF64 c.kind right) (h1 : KeyOk toF64 c.kind c.val) (h2 : ∀ v2, c.val2 = some v2 → KeyOk toF64 c.kind v2)
    (hl : right.length < 2 ^ 32) (l1 : c.val.length < 2 ^ 32) (l2 : ∀ v2, c.val2 = some v2 → v2.length < 2 ^ 32) :
    ∃ b, c.buffOk toF64 right = .ok b ∧
      (b = true ↔ OpHolds c.op (compK toF64 c.kind right c.val) ∧
        ∀ o2 v2, c.op2 = some o2 → c.val2 = some v2 → OpHolds o2 (compK toF64 c.kind right v2)) := by
  have key : ∀ (o : CompareOp) (v : Bytes), KeyOk toF64 c.kind v → v.length < 2 ^ 32 →
      (o.invert.ordOk (compSelfK toF64 c.kind v right) = true ↔ OpHolds o (compK toF64 c.kind right v)) := by
    intro o v hv hlv
    rw [C22_stored toF64 c.kind v right hlv hl, C40_invert, ← (compK_on toF64 c.kind).swap _ _ hv hr, C40_ord_ok]
  have k1 := key c.op c.val h1 l1
  unfold CheckBuff.buffOk
  cases h : c.op.invert.ordOk (compSelfK toF64 c.kind c.val right) with
  | false =>
    refine ⟨false, by simp, ?_⟩
    rw [h] at k1
    simp only [Bool.false_eq_true, false_iff, not_and] at k1 ⊢
    exact fun h => absurd h k1
  | true =>
    rw [h] at k1
    cases ho : c.op2 with
    | none => exact ⟨true, by simp, by simp [← k1]⟩
    | some o2 =>
      cases hv : c.val2 with
      | none => rw [ho, hv] at hs; exact absurd hs (by simp)
      | some v2 =>
        refine ⟨o2.invert.ordOk (compSelfK toF64 c.kind v2 right), by simp, ?_⟩
        rw [key o2 v2 (h2 v2 hv) (l2 v2 hv)]
        simp only [true_iff] at k1
        simp [k1]

example : (⟨.le, [100], some .gt, some [97], .plain⟩ : CheckBuff).buffOk (fun _ => 0) [98] = .ok true ∧
    (⟨.le, [100], some .gt, some [97], .plain⟩ : CheckBuff).buffOk (fun _ => 0) [97] = .ok false ∧
    KeyOk (fun _ => 0) .plain [98] := by
  refine ⟨by decide, by decide, by simp [KeyOk]⟩

/-! ## C42, C43 -/

theorem count_cons_bool (b : Bool) (bs : List Bool) :
    ((b :: bs).count true = (if b then 1 else 0) + bs.count true) ∧
      ((b :: bs).count false = (if b then 0 else 1) + bs.count false) := by
  cases b <;> simp <;> omega

theorem detLoop_mid {d : Determiner} {yes no : Nat} (a b : Nat) :
    (d.matchMid yes no = .yes → d.matchFinal (yes + a) (no + b) = true) ∧
      (d.matchMid yes no = .no → d.matchFinal (yes + a) (no + b) = false) := by
  have hy : ∀ x : Bool, (Tri.yesIf x = .yes ↔ x = true) ∧ Tri.yesIf x ≠ .no := by intro x; cases x <;> decide
  have hn : ∀ x : Bool, (Tri.noIf x = .no ↔ x = true) ∧ Tri.noIf x ≠ .yes := by intro x; cases x <;> decide
  have tm : ∀ (t : Thresh) (n m tot : Nat), n ≤ m → t.atMostMid n ≠ .yes ∧
      (t.atMostMid n = .no → t.atMostFinal m tot = false ∧ t.exactly m tot = false) := by
    intro t n m tot hm
    cases t with
    | count c =>
      simp only [Thresh.atMostMid, Thresh.atMostFinal, Thresh.exactly]
      refine ⟨(hn _).2, fun h => ?_⟩
      have := (hn _).1.1 h
      simp at this ⊢
      omega
    | frac p q => simp [Thresh.atMostMid]
  have tl : ∀ (t : Thresh) (n m tot : Nat), n ≤ m → t.atLeastMid n ≠ .no ∧
      (t.atLeastMid n = .yes → t.atLeastFinal m tot = true) := by
    intro t n m tot hm
    cases t with
    | count c =>
      simp only [Thresh.atLeastMid, Thresh.atLeastFinal]
      refine ⟨(hy _).2, fun h => ?_⟩
      have := (hy _).1.1 h
      simp at this ⊢
      omega
    | frac p q => simp [Thresh.atLeastMid]
  cases d with
  | all | none | uniform =>
    refine ⟨fun h => absurd h (hn _).2, fun h => ?_⟩
    have := (hn _).1.1 h
    simp [Determiner.matchFinal] at this ⊢
    omega
  | some | notAll | mixed =>
    refine ⟨fun h => ?_, fun h => absurd h (hy _).2⟩
    have := (hy _).1.1 h
    simp [Determiner.matchFinal] at this ⊢
    omega
  | atMost t => exact ⟨fun h => absurd h (tm t yes (yes + a) 0 (by omega)).1, fun h => ((tm t yes _ _ (by omega)).2 h).1⟩
  | exactly t => exact ⟨fun h => absurd h (tm t yes (yes + a) 0 (by omega)).1, fun h => ((tm t yes _ _ (by omega)).2 h).2⟩
  | atMostNo t => exact ⟨fun h => absurd h (tm t no (no + b) 0 (by omega)).1, fun h => ((tm t no _ _ (by omega)).2 h).1⟩
  | exactlyNo t => exact ⟨fun h => absurd h (tm t no (no + b) 0 (by omega)).1, fun h => ((tm t no _ _ (by omega)).2 h).2⟩
  | atLeast t => exact ⟨fun h => (tl t yes _ _ (by omega)).2 h, fun h => absurd h (tl t yes (yes + a) 0 (by omega)).1⟩
  | atLeastNo t => exact ⟨fun h => (tl t no _ _ (by omega)).2 h, fun h => absurd h (tl t no (no + b) 0 (by omega)).1⟩

/-- Stopping early gives the answer all columns give, whatever the determiner. -/
theorem C42_early (d : Determiner) (bs : List Bool) (yes no : Nat) :
    detLoop d bs yes no = d.matchFinal (yes + bs.count true) (no + bs.count false) := by
  induction bs generalizing yes no with
  | nil => rfl
  | cons b bs ih =>
    obtain ⟨c1, c2⟩ := count_cons_bool b bs
    have key := @detLoop_mid d (if b then yes + 1 else yes) (if b then no else no + 1) (bs.count true) (bs.count false)
    have e1 : yes + (b :: bs).count true = (if b then yes + 1 else yes) + bs.count true := by
      rw [c1]; cases b <;> simp <;> omega
    have e2 : no + (b :: bs).count false = (if b then no else no + 1) + bs.count false := by
      rw [c2]; cases b <;> simp <;> omega
    rw [e1, e2]
    unfold detLoop
    simp only
    cases h : d.matchMid (if b then yes + 1 else yes) (if b then no else no + 1) with
    | yes => exact (key.1 h).symm
    | no => exact (key.2 h).symm
    | maybe => exact ih _ _

theorem count_true_false (bs : List Bool) : bs.count true + bs.count false = bs.length := by
  induction bs with
  | nil => rfl
  | cons b bs ih => cases b <;> simp <;> omega

theorem nearest_spec {p q tot : Nat} (hq : 0 < q) (n : Nat) :
    (nearest p q tot ≤ n ↔ 2 * p * tot < (2 * n + 1) * q) ∧ (n ≤ nearest p q tot ↔ 2 * n * q ≤ 2 * p * tot + q) := by
  have e : (2 * n + 1) * q = 2 * (n * q) + q := by rw [Nat.add_mul, Nat.one_mul, Nat.mul_assoc]
  have e2 : (n + 1) * (2 * q) = 2 * (n * q) + 2 * q := by
    rw [Nat.add_mul, Nat.one_mul, ← Nat.mul_assoc, Nat.mul_comm n 2, Nat.mul_assoc]
  have e3 : n * (2 * q) = 2 * (n * q) := by rw [← Nat.mul_assoc, Nat.mul_comm n 2, Nat.mul_assoc]
  constructor
  · rw [show (nearest p q tot ≤ n ↔ nearest p q tot < n + 1) by omega, nearest, Nat.div_lt_iff_lt_mul (by omega), e, e2]
    omega
  · rw [nearest, Nat.le_div_iff_mul_le (by omega), e3, Nat.mul_assoc 2 n q]

theorem fracLess_iff {p q n tot : Nat} (hq : 0 < q) : fracLess p q n tot = true ↔ nearest p q tot ≤ n := by
  rw [(nearest_spec hq n).1]
  simp only [fracLess, decide_eq_true_eq]
  constructor
  · intro h; exact_mod_cast h
  · intro h; exact_mod_cast h

theorem fracGreater_iff {p q n tot : Nat} : fracGreater p q n tot = true ↔ 2 * n * q < 2 * p * tot + q := by
  simp only [fracGreater, decide_eq_true_eq]
  rw [show ((2 * n - 1 : Int) * q) = 2 * n * q - q by rw [Int.sub_mul, Int.one_mul]]
  constructor
  · intro h; have : (2 * n * q : Int) < 2 * p * tot + q := by omega
    exact_mod_cast this
  · intro h; have : (2 * n * q : Int) < 2 * p * tot + q := by exact_mod_cast h
    omega

theorem fracEqual_iff {p q n tot : Nat} (hq : 0 < q) : fracEqual p q n tot = true ↔ n = nearest p q tot := by
  have h1 : (n = nearest p q tot) ↔ (n ≤ nearest p q tot ∧ nearest p q tot ≤ n) := by omega
  rw [h1, ← fracLess_iff hq, (nearest_spec hq n).2]
  simp only [fracEqual, fracLess, Bool.and_eq_true, decide_eq_true_eq]
  rw [show ((2 * n - 1 : Int) * q) = 2 * n * q - q by rw [Int.sub_mul, Int.one_mul]]
  constructor
  · rintro ⟨a, b⟩
    refine ⟨?_, b⟩
    have : (2 * n * q : Int) ≤ 2 * p * tot + q := by omega
    exact_mod_cast this
  · rintro ⟨a, b⟩
    refine ⟨?_, b⟩
    have : (2 * n * q : Int) ≤ 2 * p * tot + q := by exact_mod_cast a
    omega

/-- Every determiner answers what it says about the answers of the columns. -/
def C43_statement : Prop := ∀ (d : Determiner) (bs : List Bool), d.WF → (detLoop d bs 0 0 = true ↔ DetHolds d bs)

theorem uniform_count (bs : List Bool) : (bs.count true = 0 ∨ bs.count false = 0) ↔ ∀ b ∈ bs, ∀ c ∈ bs, b = c := by
  rw [List.count_eq_zero, List.count_eq_zero]
  constructor
  · rintro (h | h) b hb c hc
    · cases b <;> cases c <;> simp_all
    · cases b <;> cases c <;> simp_all
  · intro h
    refine Classical.byContradiction fun hn => ?_
    have h1 : true ∈ bs := Classical.byContradiction fun h => hn (.inl h)
    have h2 : false ∈ bs := Classical.byContradiction fun h => hn (.inr h)
    exact absurd (h _ h1 _ h2) (by decide)

/-- It does, unless the threshold is a fraction used as a limit. -/
theorem C43_counts_partial (d : Determiner) (bs : List Bool) (h : d.WF) (hf : d.fracLimit = false) :
    detLoop d bs 0 0 = true ↔ DetHolds d bs := by
  have ht := count_true_false bs
  have ha : bs.count false = 0 ↔ ∀ b ∈ bs, b = true := by
    rw [List.count_eq_zero]
    constructor
    · intro h b hb; cases b <;> simp_all
    · intro h hm; exact absurd (h _ hm) (by decide)
  have hn : bs.count true = 0 ↔ ∀ b ∈ bs, b = false := by
    rw [List.count_eq_zero]
    constructor
    · intro h b hb; cases b <;> simp_all
    · intro h hm; exact absurd (h _ hm) (by decide)
  have pt : 0 < bs.count true ↔ true ∈ bs := List.count_pos_iff
  have pf : 0 < bs.count false ↔ false ∈ bs := List.count_pos_iff
  rw [C42_early, Nat.zero_add, Nat.zero_add]
  cases d with
  | all => simp only [Determiner.matchFinal, beq_iff_eq, DetHolds, ha]
  | none => simp only [Determiner.matchFinal, beq_iff_eq, DetHolds, hn]
  | some => simp only [Determiner.matchFinal, decide_eq_true_eq, DetHolds, gt_iff_lt, pt]; simp
  | notAll => simp only [Determiner.matchFinal, decide_eq_true_eq, DetHolds, gt_iff_lt, pf]; simp
  | mixed => simp only [Determiner.matchFinal, Bool.and_eq_true, decide_eq_true_eq, DetHolds, gt_iff_lt, pf, pt]
  | uniform =>
    simp only [Determiner.matchFinal, Bool.or_eq_true, beq_iff_eq, DetHolds]
    exact uniform_count bs
  | atMost t =>
    cases t with
    | count c => simp [Determiner.matchFinal, Thresh.atMostFinal, DetHolds, Thresh.columns]
    | frac p q => exact absurd hf (by simp [Determiner.fracLimit])
  | atLeast t =>
    cases t with
    | count c => simp [Determiner.matchFinal, Thresh.atLeastFinal, DetHolds, Thresh.columns]
    | frac p q => exact absurd hf (by simp [Determiner.fracLimit])
  | atMostNo t =>
    cases t with
    | count c => simp [Determiner.matchFinal, Thresh.atMostFinal, DetHolds, Thresh.columns]
    | frac p q => exact absurd hf (by simp [Determiner.fracLimit])
  | atLeastNo t =>
    cases t with
    | count c => simp [Determiner.matchFinal, Thresh.atLeastFinal, DetHolds, Thresh.columns]
    | frac p q => exact absurd hf (by simp [Determiner.fracLimit])
  | exactly t =>
    cases t with
    | count c => simp [Determiner.matchFinal, Thresh.exactly, DetHolds, Thresh.columns]
    | frac p q =>
      simp only [Determiner.matchFinal, Thresh.exactly, DetHolds, Thresh.columns, ht]
      exact fracEqual_iff h
  | exactlyNo t =>
    cases t with
    | count c => simp [Determiner.matchFinal, Thresh.exactly, DetHolds, Thresh.columns]
    | frac p q =>
      simp only [Determiner.matchFinal, Thresh.exactly, DetHolds, Thresh.columns, ht]
      exact fracEqual_iff h

example : (Determiner.exactly (.frac 1 2)).WF ∧ (Determiner.exactly (.frac 1 2)).fracLimit = false ∧
    DetHolds (.exactly (.frac 1 2)) [true, false, true, false] ∧ ¬ DetHolds (.exactly (.frac 1 2)) [true, true, true] := by
  refine ⟨by simp [Determiner.WF], by decide, ?_, ?_⟩ <;> simp [DetHolds, Thresh.columns, nearest]

/-- The two limits are the wrong way round: at most a fraction accepts at least that many columns, at least a fraction
accepts at most that many (less than that many, when the fraction is half way). -/
theorem C43_swapped (p q : Nat) (bs : List Bool) (hq : 0 < q) :
    (detLoop (.atMost (.frac p q)) bs 0 0 = true ↔ DetHolds (.atLeast (.frac p q)) bs) ∧
    (detLoop (.atLeast (.frac p q)) bs 0 0 = true → DetHolds (.atMost (.frac p q)) bs) ∧
    (bs.count true < nearest p q bs.length → detLoop (.atLeast (.frac p q)) bs 0 0 = true) := by
  have ht := count_true_false bs
  refine ⟨?_, ?_, ?_⟩
  · rw [C42_early]
    simp only [Nat.zero_add, Determiner.matchFinal, Thresh.atMostFinal, DetHolds, Thresh.columns, ht]
    exact fracLess_iff hq
  · rw [C42_early]
    simp only [Nat.zero_add, Determiner.matchFinal, Thresh.atLeastFinal, DetHolds, Thresh.columns, ht]
    rw [fracGreater_iff, (nearest_spec hq _).2]
    omega
  · intro h
    rw [C42_early]
    simp only [Nat.zero_add, Determiner.matchFinal, Thresh.atLeastFinal, ht]
    rw [fracGreater_iff]
    have := (nearest_spec hq (bs.count true + 1) (p := p) (tot := bs.length)).2.1 (by omega)
    have e : 2 * (bs.count true + 1) * q = 2 * bs.count true * q + 2 * q := by rw [Nat.mul_add, Nat.add_mul]
    omega

/-- All four columns of four match, at least half is asked for, and the answer is no. -/
theorem C43_refuted : ¬ C43_statement := by
  intro h
  have := (h (.atLeast (.frac 1 2)) [true, true, true, true] (by simp [Determiner.WF])).2
    (by simp [DetHolds, Thresh.columns, nearest])
  exact absurd this (by decide)

/-! ## C75 -/

/-- A range specification is read as the operator and value written. -/
def C75_statement : Prop :=
  ∀ (op : CompareOp) (v : Bytes), v ≠ [] → NoMarks v → RangeSpec.new (symText op ++ v) = .ok ⟨symText op, v, none, none⟩

/-- `<=a` is read as less than `=a`. -/
theorem C75_refuted : ¬ C75_statement := by
  intro h
  exact absurd (h .le [97] (by decide) (by simp [NoMarks])) (by decide)

theorem NoMarks.char {v : Bytes} (h : NoMarks v) {c : UInt8} (hc : c ∈ v) :
    (isOpChar c = false) ∧ (c ≠ 44) ∧ (c ≠ NL) ∧ c ≠ 61 := by
  obtain ⟨a, b, c', d, e, f⟩ := h c hc
  refine ⟨?_, a, f, e⟩
  simp [isOpChar, b, c', d, e]

theorem NoMarks.dotPlus {v : Bytes} (h : NoMarks v) (hv : v ≠ []) : dotPlus v = true := by
  simp only [Cdx.dotPlus, Bool.and_eq_true, bne_iff_ne, ne_eq, hv, not_false_eq_true, true_and, Bool.not_eq_true',
    List.contains_eq_mem, decide_eq_false_iff_not]
  exact fun hm => (h.char hm).2.2.1 rfl

theorem NoMarks.notEqDot {v : Bytes} (h : NoMarks v) (hv : v ≠ []) : notEqDot v = true := by
  cases v with
  | nil => exact absurd rfl hv
  | cons x xs =>
    simp only [Cdx.notEqDot, Bool.and_eq_true, bne_iff_ne, ne_eq, (h.char (List.mem_cons_self)).2.2.2, not_false_eq_true,
      true_and, Bool.not_eq_true', List.contains_eq_mem, decide_eq_false_iff_not]
    exact fun hm => (h.char (List.mem_cons_of_mem _ hm)).2.2.1 rfl

theorem takeWhile_append_stop {p : UInt8 → Bool} {v w : Bytes} (hv : ∀ c ∈ v, p c = true) (hw : ∀ c w', w = c :: w' → p c = false) :
    (v ++ w).takeWhile p = v ∧ (v ++ w).dropWhile p = w := by
  induction v with
  | nil =>
    cases w with
    | nil => simp
    | cons c w => simp [hw c w rfl]
  | cons x xs ih =>
    have := ih fun c hc => hv c (List.mem_cons_of_mem _ hc)
    simp [hv x (List.mem_cons_self), this]

/-- No operator starts with a character that is none of an operator. -/
theorem tryOps_sym_none {α : Type} {s : Bytes} (h : ∀ c w, s = c :: w → isOpChar c = false)
    (rest : Bytes → Bytes → Option α) : tryOps symOps s rest = none := by
  cases s with
  | nil => rfl
  | cons c w =>
    have hc := h c w rfl
    simp only [isOpChar, Bool.or_eq_false_iff, beq_eq_false_iff_ne] at hc
    simp [tryOps, symOps, List.findSome?, Ne.symm hc.1.1.1, Ne.symm hc.1.1.2, Ne.symm hc.1.2, Ne.symm hc.2]

theorem symTwo_one {last : Bytes → Bool} (op : CompareOp) {v : Bytes} (hv : v ≠ []) (h : NoMarks v) :
    symTwo last (symText op ++ v) = none := by
  obtain ⟨x, xs, rfl⟩ : ∃ x xs, v = x :: xs := by cases v with | nil => exact absurd rfl hv | cons x xs => exact ⟨x, xs, rfl⟩
  have hs := takeWhile_append_stop (p := fun c => !isOpChar c) (v := x :: xs) (w := [])
    (fun c hc => by simp [(h.char hc).1]) (by simp)
  have hx := h x (List.mem_cons_self)
  rw [List.append_nil] at hs
  have key : ∀ f : Bytes → Bytes → Option RangeSpec, tryOps symOps [] f = none := fun f => rfl
  have ho : isOpChar 61 = true := by decide
  cases op <;> simp [symText, symTwo, tryOps, symOps, List.findSome?, hs.1, hs.2, ho, Ne.symm hx.2.2.2.2.1]

/-- A symbol other than `<=` and `>=` and its value are read as written. -/
theorem C75_symbols_partial (op : CompareOp) (v : Bytes) (hv : v ≠ []) (h : NoMarks v) (h1 : op ≠ .le) (h2 : op ≠ .ge) :
    RangeSpec.new (symText op ++ v) = .ok ⟨symText op, v, none, none⟩ := by
  have hd := h.dotPlus hv
  have key : symOne dotPlus (symText op ++ v) = some ⟨symText op, v, none, none⟩ := by
    cases op <;> simp_all [symText, symOne, tryOps, symOps, List.findSome?]
  unfold RangeSpec.new
  rw [symTwo_one op hv h, key]

example : ([97] : Bytes) ≠ [] ∧ NoMarks [97] ∧ CompareOp.ne ≠ .le ∧ CompareOp.ne ≠ .ge := by
  simp [NoMarks]

/-- `<=` and `>=` are read as `<` and `>`, the equals sign going to the value. -/
theorem C75_or_equal_lost (op : CompareOp) (v : Bytes) (hv : v ≠ []) (h : NoMarks v) :
    (op = .le → RangeSpec.new (symText op ++ v) = .ok ⟨symText .lt, 61 :: v, none, none⟩) ∧
    (op = .ge → RangeSpec.new (symText op ++ v) = .ok ⟨symText .gt, 61 :: v, none, none⟩) := by
  have hd : dotPlus (61 :: v) = true := by
    have := h.dotPlus hv
    simp only [dotPlus, Bool.and_eq_true, Bool.not_eq_true', List.contains_eq_mem, decide_eq_false_iff_not,
      List.mem_cons, not_or] at this ⊢
    exact ⟨by simp, by decide, this.2⟩
  constructor
  · rintro rfl
    unfold RangeSpec.new
    rw [symTwo_one .le hv h]
    simp [symText, symOne, tryOps, symOps, List.findSome?, hd]
  · rintro rfl
    unfold RangeSpec.new
    rw [symTwo_one .ge hv h]
    simp [symText, symOne, tryOps, symOps, List.findSome?, hd]

theorem nameText_sym (op : CompareOp) : ∃ c w, nameText op = c :: w ∧ isOpChar c = false ∧ c ≠ 44 := by
  cases op <;> exact ⟨_, _, rfl, by decide, by decide⟩

theorem tryOps_name {α : Type} (op : CompareOp) (s : Bytes) (rest : Bytes → Bytes → Option α) :
    tryOps nameOps (nameText op ++ s) rest = rest (nameText op) s := by
  cases op <;> simp [nameText, tryOps, nameOps, List.findSome?] <;> cases rest _ s <;> rfl

/-- Names of operators and their values are read as written. -/
theorem C75_names (op : CompareOp) (v : Bytes) (hv : v ≠ []) (h : NoMarks v) :
    RangeSpec.new (nameText op ++ 44 :: v) = .ok ⟨nameText op, v, none, none⟩ := by
  obtain ⟨c, w, hn, hc, _⟩ := nameText_sym op
  have hs : ∀ c' w', nameText op ++ 44 :: v = c' :: w' → isOpChar c' = false := by
    rw [hn]; rintro c' w' e; injection e with e1 _; exact e1 ▸ hc
  have hw := takeWhile_append_stop (p := (· != 44)) (v := v) (w := [])
    (fun c hc => by simp [(h.char hc).2.1]) (by simp)
  rw [List.append_nil] at hw
  unfold RangeSpec.new symTwo symOne
  rw [tryOps_sym_none hs, tryOps_sym_none hs]
  simp only [nameTwo, nameOne, tryOps_name, afterComma, hw.1, hw.2, hv, if_false, h.dotPlus hv, if_true]

/-- So are the two bounds of a range written with names. -/
theorem C75_names_range (op1 op2 : CompareOp) (v1 v2 : Bytes) (n1 : v1 ≠ []) (n2 : v2 ≠ []) (h1 : NoMarks v1)
    (h2 : NoMarks v2) :
    RangeSpec.new (nameText op1 ++ 44 :: (v1 ++ 44 :: (nameText op2 ++ 44 :: v2))) =
      .ok ⟨nameText op1, v1, some (nameText op2), some v2⟩ := by
  obtain ⟨c, w, hn, hc, _⟩ := nameText_sym op1
  have hs : ∀ c' w', nameText op1 ++ 44 :: (v1 ++ 44 :: (nameText op2 ++ 44 :: v2)) = c' :: w' → isOpChar c' = false := by
    rw [hn]; rintro c' w' e; injection e with e1 _; exact e1 ▸ hc
  have hw := takeWhile_append_stop (p := (· != 44)) (v := v1) (w := 44 :: (nameText op2 ++ 44 :: v2))
    (fun c hc => by simp [(h1.char hc).2.1]) (by rintro c w' e; injection e with e1 _; simp [← e1])
  unfold RangeSpec.new symTwo symOne
  rw [tryOps_sym_none hs, tryOps_sym_none hs]
  simp only [nameTwo, tryOps_name, afterComma, hw.1, hw.2, n1, if_false, h2.dotPlus n2, if_true]

example : RangeSpec.new [71, 84, 44, 97, 44, 76, 69, 44, 99] = .ok ⟨[71, 84], [97], some [76, 69], some [99]⟩ := by decide

/-! A check of a value may be preceded by a comparison method and a comma. -/

theorem trailLoop_skip {body : Bytes → Option RangeSpec} (p : Bytes) (hp : 44 ∉ p) (i : Nat) (s : Bytes) :
    trailLoop body i (p ++ s) = trailLoop body (i + p.length) s := by
  induction p generalizing i with
  | nil => simp
  | cons x xs ih =>
    simp only [List.mem_cons, not_or] at hp
    rw [List.cons_append, trailLoop, if_neg (Ne.symm hp.1), ih hp.2]
    show trailLoop body (i + 1 + xs.length) s = trailLoop body (i + (xs.length + 1)) s
    rw [Nat.add_assoc, Nat.add_comm 1]

theorem trailLoop_none {body : Bytes → Option RangeSpec} (p : Bytes) (hp : 44 ∉ p) (i : Nat) :
    trailLoop body i p = none := by
  have := trailLoop_skip (body := body) p hp i []
  rw [List.append_nil] at this
  rw [this]
  rfl

theorem trail_at {body : Bytes → Option RangeSpec} (p s : Bytes) (hp : 44 ∉ p)
    (h0 : body (p ++ 44 :: s) = none) {r : RangeSpec} (hs : body s = some r) :
    trail body (p ++ 44 :: s) = some (r, p.length) := by
  unfold trail
  rw [h0]
  simp only
  rw [trailLoop_skip p hp, trailLoop, if_pos rfl, hs, Nat.zero_add]

theorem trail_not {body : Bytes → Option RangeSpec} (p s : Bytes) (hp : 44 ∉ p)
    (h0 : body (p ++ 44 :: s) = none) (hs : body s = none) (hn : trailLoop body (p.length + 1) s = none) :
    trail body (p ++ 44 :: s) = none := by
  unfold trail
  rw [h0]
  simp only
  rw [trailLoop_skip p hp, trailLoop, if_pos rfl, hs, Nat.zero_add]
  exact hn

theorem symTwo_prefix {last : Bytes → Bool} {s : Bytes} (h : ∀ c w, s = c :: w → isOpChar c = false) :
    symTwo last s = none := tryOps_sym_none h _

theorem symOne_prefix {last : Bytes → Bool} {s : Bytes} (h : ∀ c w, s = c :: w → isOpChar c = false) :
    symOne last s = none := tryOps_sym_none h _

theorem NoMarks.prefix {p s : Bytes} (hp : NoMarks p) :
    ∀ c w, p ++ 44 :: s = c :: w → isOpChar c = false := by
  cases p with
  | nil => rintro c w e; injection e with e _; rw [← e]; decide
  | cons x xs => rintro c w e; injection e with e _; exact e ▸ (hp.char (List.mem_cons_self)).1

theorem NoMarks.no_comma {p : Bytes} (hp : NoMarks p) : 44 ∉ p := fun h => (hp.char h).2.1 rfl

theorem symText_no_comma (op : CompareOp) : 44 ∉ symText op := by cases op <;> decide

theorem nameText_no_comma (op : CompareOp) : 44 ∉ nameText op := by cases op <;> decide

/-- A symbol (any of them) and its value after a comparison method are read as written. -/
theorem C75_trail_symbols (p : Bytes) (op : CompareOp) (v : Bytes) (hp : NoMarks p) (hv : v ≠ []) (h : NoMarks v) :
    RangeSpec.newTrail (p ++ 44 :: (symText op ++ v)) = .ok (⟨symText op, v, none, none⟩, p.length) := by
  have hd := h.notEqDot hv
  have key : symOne notEqDot (symText op ++ v) = some ⟨symText op, v, none, none⟩ := by
    have e : notEqDot (61 :: v) = false := rfl
    cases op <;> simp [symText, symOne, tryOps, symOps, List.findSome?, hd, e]
  unfold RangeSpec.newTrail
  rw [trail_not p _ hp.no_comma (symTwo_prefix hp.prefix) (symTwo_one op hv h)
    (trailLoop_none _ (by simp [symText_no_comma, h.no_comma]) _),
    trail_at p _ hp.no_comma (symOne_prefix hp.prefix) key]

theorem tryOps_sym {α : Type} (op : CompareOp) (s : Bytes) (rest : Bytes → Bytes → Option α)
    (h : ∀ w, s ≠ 61 :: w) (hr : ∀ o, rest o (61 :: s) = none) :
    tryOps symOps (symText op ++ s) rest = rest (symText op) s := by
  cases s with
  | nil =>
    cases op <;> simp [symText, tryOps, symOps, List.findSome?, hr] <;> cases rest _ [] <;> rfl
  | cons x xs =>
    have hx : ¬ 61 = x := fun e => h xs (by rw [e])
    cases op <;> simp [symText, tryOps, symOps, List.findSome?, hr, hx] <;> cases rest _ (x :: xs) <;> rfl

/-- So are both bounds of a range written with symbols. -/
theorem C75_trail_symbols_range (p : Bytes) (op1 op2 : CompareOp) (v1 v2 : Bytes) (hp : NoMarks p) (n1 : v1 ≠ [])
    (n2 : v2 ≠ []) (h1 : NoMarks v1) (h2 : NoMarks v2) :
    RangeSpec.newTrail (p ++ 44 :: (symText op1 ++ (v1 ++ (symText op2 ++ v2)))) =
      .ok (⟨symText op1, v1, some (symText op2), some v2⟩, p.length) := by
  have hne : ∀ {v : Bytes}, NoMarks v → ∀ w, v ≠ 61 :: w := by
    rintro v hv w rfl
    exact (hv.char (List.mem_cons_self)).2.2.2 rfl
  have ho : isOpChar 61 = true := by decide
  have hw := takeWhile_append_stop (p := fun c => !isOpChar c) (v := v1) (w := symText op2 ++ v2)
    (fun c hc => by simp [(h1.char hc).1])
    (by rintro c w e; cases op2 <;> (injection e with e _; rw [← e]; decide))
  have key : symTwo notEqDot (symText op1 ++ (v1 ++ (symText op2 ++ v2))) =
      some ⟨symText op1, v1, some (symText op2), some v2⟩ := by
    unfold symTwo
    rw [tryOps_sym op1]
    · simp only [hw.1, hw.2, n1, if_false]
      rw [tryOps_sym op2 v2 _ (hne h2)]
      · simp [h2.notEqDot n2]
      · intro o
        rfl
    · intro w e
      cases v1 with
      | nil => exact n1 rfl
      | cons x xs => injection e with e _; exact (h1.char (List.mem_cons_self)).2.2.2 e
    · intro o
      simp [ho]
  unfold RangeSpec.newTrail
  rw [trail_at p _ hp.no_comma (symTwo_prefix hp.prefix) key]

example : RangeSpec.newTrail [108, 111, 119, 101, 114, 44, 60, 61, 100, 62, 99] =
    .ok (⟨[60, 61], [100], some [62], some [99]⟩, 5) := by decide

/-- Without a comparison method the symbol stands at the start. -/
theorem C75_trail_start (op : CompareOp) (v : Bytes) (hv : v ≠ []) (h : NoMarks v) :
    RangeSpec.newTrail (symText op ++ v) = .ok (⟨symText op, v, none, none⟩, 0) := by
  have hne : ∀ w, v ≠ 61 :: w := by
    rintro w rfl
    exact (h.char (List.mem_cons_self)).2.2.2 rfl
  have key : symOne notEqDot (symText op ++ v) = some ⟨symText op, v, none, none⟩ := by
    unfold symOne
    rw [tryOps_sym op v _ hne (fun _ => rfl)]
    simp [h.notEqDot hv]
  unfold RangeSpec.newTrail trail
  rw [symTwo_one op hv h, key]
  simp only
  rw [trailLoop_none _ (by simp [symText_no_comma, h.no_comma])]

theorem comma_split {p o s t : Bytes} (hp : 44 ∉ p) (ho : 44 ∉ o) (h : p ++ 44 :: s = o ++ 44 :: t) : p = o := by
  have h1 := takeWhile_append_stop (p := (· != 44)) (v := p) (w := 44 :: s)
    (fun c hc => by simp; rintro rfl; exact hp hc) (by rintro c w e; injection e with e _; simp [← e])
  have h2 := takeWhile_append_stop (p := (· != 44)) (v := o) (w := 44 :: t)
    (fun c hc => by simp; rintro rfl; exact ho hc) (by rintro c w e; injection e with e _; simp [← e])
  rw [← h1.1, ← h2.1, h]

theorem tryOps_name_none {α : Type} {p s : Bytes} (hp : 44 ∉ p) (hn : p ∉ nameOps)
    (rest : Bytes → Bytes → Option α) (hr : ∀ o r, afterComma r = none → rest o r = none) :
    tryOps nameOps (p ++ 44 :: s) rest = none := by
  unfold tryOps
  rw [List.findSome?_eq_none_iff]
  intro o ho
  split
  · rename_i hpre
    refine hr _ _ ?_
    obtain ⟨t, ht⟩ := List.isPrefixOf_iff_prefix.1 hpre
    rw [← ht, List.drop_left]
    have hoc : 44 ∉ o := (by decide : ∀ o ∈ nameOps, (44 : UInt8) ∉ o) o ho
    cases t with
    | nil =>
      rfl
    | cons x xs =>
      by_cases hx : x = 44
      · subst hx
        exfalso
        exact hn (comma_split hp hoc ht.symm ▸ ho)
      · unfold afterComma
        split
        · rename_i h; injection h with h _; exact absurd h hx
        · rfl
  · rfl

/-- Texts without operator characters. -/
def NoOps (s : Bytes) : Prop := ∀ c ∈ s, isOpChar c = false

theorem NoOps.loop {body : Bytes → Option RangeSpec}
    (hb : ∀ s : Bytes, (∀ c w, s = c :: w → isOpChar c = false) → body s = none) (s : Bytes) (h : NoOps s) (i : Nat) :
    trailLoop body i s = none := by
  induction s generalizing i with
  | nil => rfl
  | cons x xs ih =>
    have hx : NoOps xs := fun c hc => h c (List.mem_cons_of_mem _ hc)
    unfold trailLoop
    rw [show (if x = 44 then body xs else none) = none by
      split
      · exact hb xs fun c w e => hx c (by rw [e]; simp)
      · rfl]
    exact ih hx _

theorem NoOps.trail {body : Bytes → Option RangeSpec}
    (hb : ∀ s : Bytes, (∀ c w, s = c :: w → isOpChar c = false) → body s = none) (s : Bytes) (h : NoOps s) :
    trail body s = none := by
  unfold Cdx.trail
  rw [hb s fun c w e => h c (by rw [e]; simp)]
  exact h.loop hb s 0

theorem nameText_no_ops (op : CompareOp) : NoOps (nameText op) := by cases op <;> unfold NoOps <;> decide

theorem NoOps.append {a b : Bytes} (ha : NoOps a) (hb : NoOps b) : NoOps (a ++ b) := by
  intro c hc
  rcases List.mem_append.1 hc with h | h
  · exact ha c h
  · exact hb c h

theorem NoOps.comma {b : Bytes} (hb : NoOps b) : NoOps (44 :: b) := by
  intro c hc
  rcases List.mem_cons.1 hc with rfl | h
  · decide
  · exact hb c h

theorem NoMarks.no_ops {v : Bytes} (h : NoMarks v) : NoOps v := fun _ hc => (h.char hc).1

theorem nameTwo_needs {p s : Bytes} (hp : 44 ∉ p) (hn : p ∉ nameOps) : nameTwo (p ++ 44 :: s) = none :=
  tryOps_name_none hp hn _ fun o r h => by simp only [h]

theorem nameOne_needs {p s : Bytes} (hp : 44 ∉ p) (hn : p ∉ nameOps) : nameOne (p ++ 44 :: s) = none :=
  tryOps_name_none hp hn _ fun o r h => by simp only [h]

theorem afterComma_none {r : Bytes} (h : 44 ∉ r) : afterComma r = none := by
  unfold afterComma
  split
  · exact absurd (by simp) h
  · rfl

theorem tryOps_name_plain {α : Type} {s : Bytes} (hs : 44 ∉ s) (rest : Bytes → Bytes → Option α)
    (hr : ∀ o r, afterComma r = none → rest o r = none) : tryOps nameOps s rest = none := by
  unfold tryOps
  rw [List.findSome?_eq_none_iff]
  intro o ho
  split
  · exact hr _ _ (afterComma_none fun h => hs (List.mem_of_mem_drop h))
  · rfl

/-- A name of an operator and its value after a comparison method (not itself such a name) are read as written. -/
theorem C75_trail_names (p : Bytes) (op : CompareOp) (v : Bytes) (hp : NoMarks p) (hn : p ∉ nameOps) (hv : v ≠ [])
    (h : NoMarks v) :
    RangeSpec.newTrail (p ++ 44 :: (nameText op ++ 44 :: v)) = .ok (⟨nameText op, v, none, none⟩, p.length) := by
  have ho : NoOps (p ++ 44 :: (nameText op ++ 44 :: v)) :=
    hp.no_ops.append (NoOps.comma ((nameText_no_ops op).append (NoOps.comma h.no_ops)))
  have hw := takeWhile_append_stop (p := (· != 44)) (v := v) (w := [])
    (fun c hc => by simp [(h.char hc).2.1]) (by simp)
  rw [List.append_nil] at hw
  have k1 : nameOne (nameText op ++ 44 :: v) = some ⟨nameText op, v, none, none⟩ := by
    simp only [nameOne, tryOps_name, afterComma, h.dotPlus hv, if_true]
  have k2 : nameTwo (nameText op ++ 44 :: v) = none := by
    simp only [nameTwo, tryOps_name, afterComma, hw.1, hw.2, hv, if_false]
  have k3 : trailLoop nameTwo (p.length + 1) (nameText op ++ 44 :: v) = none := by
    rw [trailLoop_skip _ (nameText_no_comma op), trailLoop, if_pos rfl]
    rw [show nameTwo v = none from tryOps_name_plain h.no_comma _ fun o r h => by simp only [h]]
    exact trailLoop_none v h.no_comma _
  unfold RangeSpec.newTrail
  rw [ho.trail (fun s h => symTwo_prefix h), ho.trail (fun s h => symOne_prefix h),
    trail_not p _ hp.no_comma (nameTwo_needs hp.no_comma hn) k2 k3,
    trail_at p _ hp.no_comma (nameOne_needs hp.no_comma hn) k1]

/-- So are both bounds of a range written with names. -/
theorem C75_trail_names_range (p : Bytes) (op1 op2 : CompareOp) (v1 v2 : Bytes) (hp : NoMarks p) (hn : p ∉ nameOps)
    (n1 : v1 ≠ []) (n2 : v2 ≠ []) (h1 : NoMarks v1) (h2 : NoMarks v2) :
    RangeSpec.newTrail (p ++ 44 :: (nameText op1 ++ 44 :: (v1 ++ 44 :: (nameText op2 ++ 44 :: v2)))) =
      .ok (⟨nameText op1, v1, some (nameText op2), some v2⟩, p.length) := by
  have ho : NoOps (p ++ 44 :: (nameText op1 ++ 44 :: (v1 ++ 44 :: (nameText op2 ++ 44 :: v2)))) :=
    hp.no_ops.append (NoOps.comma ((nameText_no_ops op1).append (NoOps.comma (h1.no_ops.append (NoOps.comma
      ((nameText_no_ops op2).append (NoOps.comma h2.no_ops)))))))
  have hw := takeWhile_append_stop (p := (· != 44)) (v := v1) (w := 44 :: (nameText op2 ++ 44 :: v2))
    (fun c hc => by simp [(h1.char hc).2.1]) (by rintro c w' e; injection e with e1 _; simp [← e1])
  have k1 : nameTwo (nameText op1 ++ 44 :: (v1 ++ 44 :: (nameText op2 ++ 44 :: v2))) =
      some ⟨nameText op1, v1, some (nameText op2), some v2⟩ := by
    simp only [nameTwo, tryOps_name, afterComma, hw.1, hw.2, n1, if_false, h2.dotPlus n2, if_true]
  unfold RangeSpec.newTrail
  rw [ho.trail (fun s h => symTwo_prefix h), ho.trail (fun s h => symOne_prefix h),
    trail_at p _ hp.no_comma (nameTwo_needs hp.no_comma hn) k1]

example : NoMarks [108, 111, 119, 101, 114] ∧ ([108, 111, 119, 101, 114] : Bytes) ∉ nameOps ∧
    RangeSpec.newTrail [108, 111, 119, 101, 114, 44, 76, 69, 44, 100] = .ok (⟨[76, 69], [100], none, none⟩, 5) := by
  refine ⟨by simp [NoMarks], by decide, by decide⟩

end Cdx
