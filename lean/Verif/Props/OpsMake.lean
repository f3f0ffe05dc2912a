import Verif.Props.Ops

/-!
C40, C41 and C75 continued: which texts are operators, what a range specification is made of, checks made of specifications.
-/

namespace Cdx

/-! ## C40 -/

theorem lower_sym {s : Bytes} (op : CompareOp) (h : lower s = lower (symText op)) : s = symText op := by
  have key : ∀ b c : UInt8, isOpChar c = true → lowerByte b = lowerByte c → b = c := by
    intro b c hc
    have := byte_forall (P := fun b => ∀ c ∈ ([60, 61, 62, 33] : Bytes), lowerByte b = lowerByte c → b = c) (by decide +kernel) b c
    refine this ?_
    simp only [isOpChar, Bool.or_eq_true, beq_iff_eq] at hc
    simp only [List.mem_cons, List.not_mem_nil, or_false]
    rcases hc with ((h | h) | h) | h <;> simp [h]
  have go : ∀ (t : Bytes), (∀ c ∈ t, isOpChar c = true) → ∀ s, lower s = lower t → s = t := by
    intro t
    induction t with
    | nil => intro _ s h; cases s with
      | nil => rfl
      | cons x xs => exact absurd h (by simp [lower])
    | cons c t ih => intro ht s h; cases s with
      | nil => exact absurd h (by simp [lower])
      | cons x xs =>
        simp only [lower, List.map_cons] at h
        injection h with h1 h2
        rw [key x c (ht c (by simp)) h1, ih (fun d hd => ht d (by simp [hd])) xs h2]
  exact go _ (by cases op <;> decide) s h

/-- A text is read as an operator exactly if it is a name of it in either case or its symbol; any other text is an error. -/
theorem C40_parse_iff (s : Bytes) :
    (∀ op, CompareOp.parse s = .ok op ↔ lower s = lower (nameText op) ∨ s = symText op) ∧ CompareOp.parse s ≠ .panic := by
  constructor
  · intro op
    refine ⟨fun h => ?_, C40_parse op s⟩
    unfold CompareOp.parse at h
    cases hf : opNames.find? fun p => eqIgnoreCase s p.1 with
    | none => rw [hf] at h; exact absurd h (by simp)
    | some p =>
      rw [hf] at h
      injection h with h
      have h1 := List.mem_of_find?_eq_some hf
      have h2 := List.find?_some hf
      simp only [eqIgnoreCase, beq_iff_eq] at h2
      have hall : ∀ q ∈ opNames, lower q.1 = lower (nameText q.2) ∨ q.1 = symText q.2 := by decide
      subst h
      rcases hall p h1 with e | e
      · exact .inl (h2.trans e)
      · exact .inr (lower_sym p.2 (by rw [h2, e]))
  · unfold CompareOp.parse
    split <;> simp

example : lower [108, 84] = lower (nameText .lt) ∧ CompareOp.parse [108, 84] = .ok .lt ∧ CompareOp.parse [61] = .err := by decide

/-! ## C75 -/

/-- A text that is an operator. -/
def OpWord (o : Bytes) : Prop := ∃ op, o = symText op ∨ o = nameText op

/-- A range as it is written: with symbols, or with names and commas. -/
def BoundsText (r : RangeSpec) (s : Bytes) : Prop :=
  (∃ a v, r = ⟨symText a, v, none, none⟩ ∧ v ≠ [] ∧ s = symText a ++ v) ∨
  (∃ a b v w, r = ⟨symText a, v, some (symText b), some w⟩ ∧ v ≠ [] ∧ w ≠ [] ∧ s = symText a ++ (v ++ (symText b ++ w))) ∨
  (∃ a v, r = ⟨nameText a, v, none, none⟩ ∧ v ≠ [] ∧ s = nameText a ++ 44 :: v) ∨
  (∃ a b v w, r = ⟨nameText a, v, some (nameText b), some w⟩ ∧ v ≠ [] ∧ w ≠ [] ∧
    s = nameText a ++ 44 :: (v ++ 44 :: (nameText b ++ 44 :: w)))

theorem tryOps_some {α : Type} {ops : List Bytes} {s : Bytes} {rest : Bytes → Bytes → Option α} {a : α}
    (h : tryOps ops s rest = some a) : ∃ o ∈ ops, ∃ t, s = o ++ t ∧ rest o t = some a := by
  unfold tryOps at h
  obtain ⟨o, ho, h⟩ := List.exists_of_findSome?_eq_some h
  split at h
  · rename_i hp
    obtain ⟨t, ht⟩ := List.isPrefixOf_iff_prefix.1 hp
    refine ⟨o, ho, t, ht.symm, ?_⟩
    rw [← ht, List.drop_left] at h
    exact h
  · exact absurd h (by simp)

theorem mem_symOps {o : Bytes} (h : o ∈ symOps) : ∃ op, o = symText op := by
  have : ∀ o ∈ symOps, o = symText .lt ∨ o = symText .gt ∨ o = symText .le ∨ o = symText .ge ∨ o = symText .eq ∨ o = symText .ne := by
    decide
  rcases this o h with h | h | h | h | h | h <;> exact ⟨_, h⟩

theorem mem_nameOps {o : Bytes} (h : o ∈ nameOps) : ∃ op, o = nameText op := by
  have : ∀ o ∈ nameOps, o = nameText .lt ∨ o = nameText .gt ∨ o = nameText .le ∨ o = nameText .ge ∨ o = nameText .eq ∨
    o = nameText .ne := by decide
  rcases this o h with h | h | h | h | h | h <;> exact ⟨_, h⟩

theorem afterComma_some {r s : Bytes} (h : afterComma r = some s) : r = 44 :: s := by
  unfold afterComma at h
  split at h
  · injection h with h; rw [h]
  · exact absurd h (by simp)

theorem symTwo_text {last : Bytes → Bool} (hl : last [] = false) {s : Bytes} {r : RangeSpec} (h : symTwo last s = some r) :
    BoundsText r s := by
  unfold symTwo at h
  obtain ⟨o, ho, t, hs, h'⟩ := tryOps_some h
  clear h
  subst hs
  have h := h'
  clear h'
  obtain ⟨a, rfl⟩ := mem_symOps ho
  dsimp only at h
  split at h
  · exact absurd h (by simp)
  · rename_i hv
    obtain ⟨o2, ho2, w, hw, h⟩ := tryOps_some h
    obtain ⟨b, rfl⟩ := mem_symOps ho2
    split at h
    · rename_i hlast
      injection h with h
      refine .inr (.inl ⟨a, b, _, w, h.symm, hv, ?_, ?_⟩)
      · rintro rfl; rw [hl] at hlast; exact absurd hlast (by simp)
      · rw [← hw, List.takeWhile_append_dropWhile]
    · exact absurd h (by simp)

theorem symOne_text {last : Bytes → Bool} (hl : last [] = false) {s : Bytes} {r : RangeSpec} (h : symOne last s = some r) :
    BoundsText r s := by
  unfold symOne at h
  obtain ⟨o, ho, t, hs, h'⟩ := tryOps_some h
  clear h
  subst hs
  have h := h'
  clear h'
  obtain ⟨a, rfl⟩ := mem_symOps ho
  split at h
  · rename_i hlast
    injection h with h
    refine .inl ⟨a, t, h.symm, ?_, rfl⟩
    rintro rfl; rw [hl] at hlast; exact absurd hlast (by simp)
  · exact absurd h (by simp)

theorem dotPlus_ne {s : Bytes} (h : dotPlus s = true) : s ≠ [] := by rintro rfl; exact absurd h (by decide)

theorem nameTwo_text {s : Bytes} {r : RangeSpec} (h : nameTwo s = some r) : BoundsText r s := by
  unfold nameTwo at h
  obtain ⟨o, ho, t, hs, h'⟩ := tryOps_some h
  clear h
  subst hs
  have h := h'
  clear h'
  obtain ⟨a, rfl⟩ := mem_nameOps ho
  cases h1 : afterComma t with
  | none => simp only [h1] at h; exact absurd h (by simp)
  | some t1 =>
    simp only [h1] at h
    split at h
    · exact absurd h (by simp)
    · rename_i hv
      cases h2 : afterComma (t1.dropWhile (· != 44)) with
      | none => simp only [h2] at h; exact absurd h (by simp)
      | some t2 =>
        simp only [h2] at h
        obtain ⟨o2, ho2, t3, hs3, h'⟩ := tryOps_some h
        clear h
        subst hs3
        have h := h'
        clear h'
        obtain ⟨b, rfl⟩ := mem_nameOps ho2
        cases h3 : afterComma t3 with
        | none => simp only [h3] at h; exact absurd h (by simp)
        | some w =>
          simp only [h3] at h
          split at h
          · rename_i hw
            injection h with h
            refine .inr (.inr (.inr ⟨a, b, _, w, h.symm, hv, dotPlus_ne hw, ?_⟩))
            rw [afterComma_some h1, ← afterComma_some h3, ← afterComma_some h2, List.takeWhile_append_dropWhile]
          · exact absurd h (by simp)

theorem nameOne_text {s : Bytes} {r : RangeSpec} (h : nameOne s = some r) : BoundsText r s := by
  unfold nameOne at h
  obtain ⟨o, ho, t, hs, h'⟩ := tryOps_some h
  clear h
  subst hs
  have h := h'
  clear h'
  obtain ⟨a, rfl⟩ := mem_nameOps ho
  cases h1 : afterComma t with
  | none => simp only [h1] at h; exact absurd h (by simp)
  | some t1 =>
    simp only [h1] at h
    split at h
    · rename_i hv
      injection h with h
      exact .inr (.inr (.inl ⟨a, t1, h.symm, dotPlus_ne hv, by rw [afterComma_some h1]⟩))
    · exact absurd h (by simp)

/-- What is read from a specification is what is written there; a text that is not a range is an error. -/
theorem C75_as_written (spec : Bytes) : RangeSpec.new spec ≠ .panic ∧ ∀ r, RangeSpec.new spec = .ok r → BoundsText r spec := by
  unfold RangeSpec.new
  cases h1 : symTwo dotPlus spec with
  | some r => exact ⟨by simp, fun r' h => by injection h with h; subst h; exact symTwo_text rfl h1⟩
  | none => cases h2 : symOne dotPlus spec with
    | some r => exact ⟨by simp, fun r' h => by injection h with h; subst h; exact symOne_text rfl h2⟩
    | none => cases h3 : nameTwo spec with
      | some r => exact ⟨by simp, fun r' h => by injection h with h; subst h; exact nameTwo_text h3⟩
      | none => cases h4 : nameOne spec with
        | some r => exact ⟨by simp, fun r' h => by injection h with h; subst h; exact nameOne_text h4⟩
        | none => exact ⟨by simp, fun r' h => absurd h (by simp)⟩

example : ∃ r, RangeSpec.new [60, 97, 62, 98] = .ok r := ⟨_, by rfl⟩

/-- The text after which a range stands at the end: everything, or a part before a comma. -/
def RangeAt (r : RangeSpec) (n : Nat) (s : Bytes) : Prop :=
  (n = 0 ∧ BoundsText r s) ∨ (∃ t, s = s.take n ++ 44 :: t ∧ n < s.length ∧ BoundsText r t)

theorem trailLoop_text {body : Bytes → Option RangeSpec} (hb : ∀ s r, body s = some r → BoundsText r s) (p s : Bytes)
    {r : RangeSpec} {n : Nat} (h : trailLoop body p.length s = some (r, n)) : RangeAt r n (p ++ s) := by
  induction s generalizing p with
  | nil => exact absurd h (by simp [trailLoop])
  | cons x xs ih =>
    rw [trailLoop] at h
    cases hx : (if x = 44 then body xs else none) with
    | some r' =>
      rw [hx] at h
      injection h with h
      injection h with h1 h2
      subst h1 h2
      split at hx
      · rename_i e
        subst e
        exact .inr ⟨xs, by rw [List.take_left], by simp, hb _ _ hx⟩
      · exact absurd hx (by simp)
    | none =>
      rw [hx] at h
      have := ih (p ++ [x]) (by rw [List.length_append]; exact h)
      rw [List.append_assoc] at this
      exact this

theorem trail_text {body : Bytes → Option RangeSpec} (hb : ∀ s r, body s = some r → BoundsText r s) (s : Bytes)
    {r : RangeSpec} {n : Nat} (h : trail body s = some (r, n)) : RangeAt r n s := by
  unfold trail at h
  cases h1 : body s with
  | some r' =>
    rw [h1] at h
    injection h with h
    injection h with h2 h3
    subst h2 h3
    exact .inl ⟨rfl, hb _ _ h1⟩
  | none =>
    rw [h1] at h
    exact trailLoop_text hb [] s h

/-- The same at the end of a specification: the range is what stands after the method and its comma. -/
theorem C75_trail_as_written (spec : Bytes) :
    RangeSpec.newTrail spec ≠ .panic ∧ ∀ r n, RangeSpec.newTrail spec = .ok (r, n) → RangeAt r n spec := by
  unfold RangeSpec.newTrail
  cases h1 : trail (symTwo notEqDot) spec with
  | some r => exact ⟨by simp, fun r' n h => by
      injection h with h; subst h; exact trail_text (fun s r => symTwo_text rfl) spec h1⟩
  | none => cases h2 : trail (symOne notEqDot) spec with
    | some r => exact ⟨by simp, fun r' n h => by
        injection h with h; subst h; exact trail_text (fun s r => symOne_text rfl) spec h2⟩
    | none => cases h3 : trail nameTwo spec with
      | some r => exact ⟨by simp, fun r' n h => by
          injection h with h; subst h; exact trail_text (fun s r => nameTwo_text) spec h3⟩
      | none => cases h4 : trail nameOne spec with
        | some r => exact ⟨by simp, fun r' n h => by
            injection h with h; subst h; exact trail_text (fun s r => nameOne_text) spec h4⟩
        | none => exact ⟨by simp, fun r' n h => absurd h (by simp)⟩

example : ∃ p, RangeSpec.newTrail [108, 44, 60, 97] = .ok p := ⟨_, by rfl⟩

/-! ## C41 -/

theorem BoundsText.parts {r : RangeSpec} {s : Bytes} (h : BoundsText r s) :
    (∃ op, CompareOp.parse r.op1 = .ok op) ∧ r.op2.isSome = r.val2.isSome ∧
      ∀ o, r.op2 = some o → ∃ op, CompareOp.parse o = .ok op := by
  have hs : ∀ a, CompareOp.parse (symText a) = .ok a := fun a => C40_parse a _ (.inr rfl)
  have hn : ∀ a, CompareOp.parse (nameText a) = .ok a := fun a => C40_parse a _ (.inl rfl)
  rcases h with ⟨a, v, rfl, _⟩ | ⟨a, b, v, w, rfl, _⟩ | ⟨a, v, rfl, _⟩ | ⟨a, b, v, w, rfl, _⟩
  · exact ⟨⟨a, hs a⟩, rfl, fun o h => absurd h (by simp)⟩
  · exact ⟨⟨a, hs a⟩, rfl, fun o h => by injection h with h; subst h; exact ⟨b, hs b⟩⟩
  · exact ⟨⟨a, hn a⟩, rfl, fun o h => absurd h (by simp)⟩
  · exact ⟨⟨a, hn a⟩, rfl, fun o h => by injection h with h; subst h; exact ⟨b, hn b⟩⟩

theorem RangeAt.parts {r : RangeSpec} {n : Nat} {s : Bytes} (h : RangeAt r n s) :
    (∃ op, CompareOp.parse r.op1 = .ok op) ∧ r.op2.isSome = r.val2.isSome ∧
      ∀ o, r.op2 = some o → ∃ op, CompareOp.parse o = .ok op := by
  rcases h with ⟨_, h⟩ | ⟨t, _, _, h⟩ <;> exact h.parts

/-- A check of lines is made of every specification that is a range, and of no other; checking a line with it never panics. -/
theorem C41_made (spec : Bytes) :
    (∀ r, RangeSpec.new spec = .ok r → ∃ c, CheckLine.new spec = .ok c) ∧
    (RangeSpec.new spec = .err → CheckLine.new spec = .err) ∧ CheckLine.new spec ≠ .panic ∧
    ∀ c, CheckLine.new spec = .ok c → ∀ (toF64 : Bytes → F64) (cs : List LineComp) (line : TextLine),
      c.lineOk toF64 cs line ≠ .panic ∧ c.lineOkVerbose toF64 cs line ≠ .panic := by
  have hw := C75_as_written spec
  have hp : ∀ n v, setParts n v 44 ≠ .panic := by
    intro n v
    unfold setParts
    split
    · simp
    · split <;> simp
  unfold CheckLine.new
  cases hr : RangeSpec.new spec with
  | panic => exact absurd hr hw.1
  | err => exact ⟨fun r h => absurd h (by simp), fun _ => rfl, by simp, fun c h => absurd h (by simp)⟩
  | ok r =>
    obtain ⟨⟨op, h1⟩, h2, h3⟩ := (hw.2 r hr).parts
    have : ∃ c, CheckLine.setWith r = .ok c ∧ c.op2.isSome = c.val2.isSome := by
      unfold CheckLine.setWith
      rw [h1, Res.bind_ok]
      cases ho : r.op2 with
      | none =>
        rw [ho] at h2
        cases hv : r.val2 with
        | none => exact ⟨_, rfl, rfl⟩
        | some v => rw [hv] at h2; exact absurd h2 (by simp)
      | some o =>
        obtain ⟨op2, h4⟩ := h3 o ho
        rw [ho] at h2
        cases hv : r.val2 with
        | none => rw [hv] at h2; exact absurd h2 (by simp)
        | some v => exact ⟨⟨op, r.val1, some op2, some o⟩, by simp [h4], rfl⟩
    obtain ⟨c, hc, h4⟩ := this
    refine ⟨fun _ _ => ⟨c, hc⟩, fun h => absurd h (by simp), by simp [hc], ?_⟩
    intro c' h toF64 cs line
    rw [Res.bind_ok, hc] at h
    injection h with h
    subst h
    constructor
    · unfold CheckLine.lineOk
      cases hs : setParts cs.length c.val 44 with
      | panic => exact absurd hs (hp _ _)
      | err => simp
      | ok vs =>
        simp only [Res.bind_ok]
        split
        · simp
        · cases ho : c.op2 with
          | none => simp
          | some o =>
            rw [ho] at h4
            cases hv : c.val2 with
            | none => rw [hv] at h4; exact absurd h4 (by simp)
            | some v =>
              cases hs2 : setParts cs.length v 44 with
              | panic => exact absurd hs2 (hp _ _)
              | err => simp [hs2]
              | ok vs2 => simp [hs2]
    · unfold CheckLine.lineOkVerbose
      cases hs : setParts cs.length c.val 44 with
      | panic => exact absurd hs (hp _ _)
      | err => simp
      | ok vs => simp

/-- `value OP line`, the other way round than `BoundHolds`. -/
def BoundSwapped (toF64 : Bytes → F64) (cs : List LineComp) (op : CompareOp) (value : Bytes) (line : TextLine) : Prop :=
  ∃ vs, (cs.length = 1 ∧ vs = [value] ∨ cs.length ≠ 1 ∧ vs = sliceSplit 44 value) ∧ vs.length = cs.length ∧
    OpHolds op (lineVsValues toF64 line (cs.zip vs)).swap

/-- Keys of a line that are ordered against all the parts of a value. -/
def CheckKeys (toF64 : Bytes → F64) (cs : List LineComp) (value : Bytes) (line : TextLine) : Prop :=
  ∀ vs, setParts cs.length value 44 = .ok vs → ∀ p ∈ cs.zip vs, CheckKey toF64 line p.1 p.2

theorem BoundSwapped.iff {toF64 : Bytes → F64} {cs : List LineComp} {op : CompareOp} {value : Bytes} {line : TextLine}
    {vs : List Bytes} (h : setParts cs.length value 44 = .ok vs) (hk : CheckKeys toF64 cs value line) :
    BoundSwapped toF64 cs op value line ↔ op.lineOk toF64 cs vs line = true := by
  obtain ⟨h1, h2⟩ := setParts_ok h
  unfold CompareOp.lineOk
  rw [compSelfColsList_swap toF64 line cs vs (hk vs h), C40_ord_ok]
  constructor
  · rintro ⟨vs', hb, _, hd⟩
    have : vs' = vs := by
      rcases h1 with ⟨a, rfl⟩ | ⟨a, rfl⟩ <;> rcases hb with ⟨b, rfl⟩ | ⟨b, rfl⟩ <;> first | rfl | exact absurd b a |
        exact absurd a b
    rw [← this]
    exact hd
  · exact fun h => ⟨vs, h1, h2, h⟩

/-- Quietly, a check with two bounds accepts the lines for which both hold the other way round. -/
theorem C41_quiet_both (toF64 : Bytes → F64) (c : CheckLine) (cs : List LineComp) (line : TextLine) (b : Bool)
    (hk : CheckKeys toF64 cs c.val line) (hk2 : ∀ v, c.val2 = some v → CheckKeys toF64 cs v line)
    (hb : c.lineOk toF64 cs line = .ok b) :
    b = true ↔ BoundSwapped toF64 cs c.op c.val line ∧
      ∀ o v, c.op2 = some o → c.val2 = some v → BoundSwapped toF64 cs o v line := by
  unfold CheckLine.lineOk at hb
  obtain ⟨vs, hvs, hb⟩ := Res.bind_eq_ok hb
  rw [BoundSwapped.iff hvs hk]
  cases h1 : c.op.lineOk toF64 cs vs line with
  | false => simp only [h1] at hb; injection hb with hb; subst hb; simp
  | true =>
    simp only [h1] at hb
    cases ho : c.op2 with
    | none => rw [ho] at hb; injection hb with hb; subst hb; simp
    | some o => cases hv : c.val2 with
      | none => rw [ho, hv] at hb; exact absurd hb (by simp)
      | some v =>
        rw [ho, hv] at hb
        obtain ⟨vs2, hvs2, hb⟩ := Res.bind_eq_ok hb
        injection hb with hb
        subst hb
        have := BoundSwapped.iff (op := o) hvs2 (hk2 v hv)
        constructor
        · intro h
          refine ⟨rfl, ?_⟩
          rintro _ _ ⟨⟩ ⟨⟩
          exact this.2 h
        · exact fun h => this.1 (h.2 o v rfl rfl)

example : (⟨.lt, [97], some .gt, some [99]⟩ : CheckLine).lineOk (fun _ => 0) [textCol0] lineB = .ok true ∧
    CheckKeys (fun _ => 0) [textCol0] [97] lineB := by
  refine ⟨by decide, ?_⟩
  rintro vs h
  have : vs = [[97]] := by injection h with h; exact h.symm
  subst this
  simp [CheckKey, textCol0, KeyOk]; decide

/-- A check of values is made of every specification that ends with a range and begins with a method; what stands before the range is the
method, both bounds are those written; it never panics. -/
theorem C41_buff_made (mkComp : Bytes → Res CompKind) (spec : Bytes) :
    (∀ r n, RangeSpec.newTrail spec = .ok (r, n) → ∀ k, mkComp (spec.take n) = .ok k → ∃ c, CheckBuff.new mkComp spec = .ok c) ∧
    (CheckBuff.new mkComp spec = .panic → ∃ n, mkComp (spec.take n) = .panic) ∧
    ∀ c, CheckBuff.new mkComp spec = .ok c → ∃ r n, RangeAt r n spec ∧ mkComp (spec.take n) = .ok c.kind ∧
      CompareOp.parse r.op1 = .ok c.op ∧ c.val = r.val1 ∧ c.val2 = r.val2 ∧
      (∀ o, r.op2 = some o → ∃ op, c.op2 = some op ∧ CompareOp.parse o = .ok op) ∧ (r.op2 = none → c.op2 = none) ∧
      c.op2.isSome = c.val2.isSome ∧ ∀ (toF64 : Bytes → F64) (right : Bytes), c.buffOk toF64 right ≠ .panic := by
  have hw := C75_trail_as_written spec
  unfold CheckBuff.new
  cases hr : RangeSpec.newTrail spec with
  | panic => exact absurd hr hw.1
  | err => exact ⟨fun r n h => absurd h (by simp), fun h => absurd h (by simp), fun c h => absurd h (by simp)⟩
  | ok p =>
    obtain ⟨r, n⟩ := p
    obtain ⟨⟨op, h1⟩, h2, h3⟩ := (hw.2 r n hr).parts
    cases hm : mkComp (spec.take n) with
    | panic => exact ⟨fun r' n' h k hk => by
        injection h with h; injection h with ha hb; subst ha hb; rw [hm] at hk; exact absurd hk (by simp),
        fun _ => ⟨n, hm⟩, fun c h => absurd h (by simp [hm])⟩
    | err => exact ⟨fun r' n' h k hk => by
        injection h with h; injection h with ha hb; subst ha hb; rw [hm] at hk; exact absurd hk (by simp),
        fun h => absurd h (by simp [hm]), fun c h => absurd h (by simp [hm])⟩
    | ok k =>
      have : ∃ o2 : Option CompareOp, CheckBuff.newWith k r = .ok ⟨op, r.val1, o2, r.val2, k⟩ ∧
          (∀ o, r.op2 = some o → ∃ op, o2 = some op ∧ CompareOp.parse o = .ok op) ∧ (r.op2 = none → o2 = none) ∧
          o2.isSome = r.val2.isSome := by
        unfold CheckBuff.newWith
        rw [h1, Res.bind_ok]
        cases ho : r.op2 with
        | none => exact ⟨none, rfl, fun o h => absurd h (by simp), fun _ => rfl, by rw [← h2, ho]; rfl⟩
        | some o =>
          obtain ⟨op2, h4⟩ := h3 o ho
          refine ⟨some op2, by simp [h4], ?_, fun h => absurd h (by simp), by rw [← h2, ho]; rfl⟩
          rintro _ ⟨⟩
          exact ⟨op2, rfl, h4⟩
      obtain ⟨o2, hn, h4, h5, h6⟩ := this
      refine ⟨fun _ _ _ _ _ => ⟨_, by simp only [Res.bind_ok, hm]; exact hn⟩, fun h => ?_, ?_⟩
      · simp [hm, hn] at h
      · intro c h
        simp only [Res.bind_ok, hm, hn] at h
        injection h with h
        subst h
        refine ⟨r, n, hw.2 r n hr, hm, h1, rfl, rfl, h4, h5, h6, ?_⟩
        intro toF64 right
        unfold CheckBuff.buffOk
        dsimp only at h6 ⊢
        split
        · simp
        · cases o2 with
          | none => simp
          | some o => cases hv : r.val2 with
            | none => rw [hv] at h6; exact absurd h6 (by simp)
            | some v => simp

example : ∃ c, CheckBuff.new (fun _ => .ok .plain) [112, 44, 60, 99, 62, 97] = .ok c ∧ c.buffOk (fun _ => 0) [98] = .ok true :=
  ⟨⟨.lt, [99], some .gt, some [97], .plain⟩, by decide, by decide⟩

end Cdx
