import Verif.Model.GrepMain
import Verif.Model.Num
import Verif.Model.Sample
import Verif.Model.Settings
import Verif.Props.Words
import Verif.Props.OpsMake
import Verif.Props.Trans
import Verif.Props.Num
import Verif.Spec.Malformed

/-! Malformed texts of options: errors, not panics (C191). -/

namespace Cdx

/-! ### Numbers -/

theorem decVal_le_append (a b : Bytes) : decVal a ≤ decVal (a ++ b) := by
  rw [decVal_append]
  exact Nat.le_trans (Nat.le_mul_of_pos_right _ (Nat.pow_pos (by decide))) (Nat.le_add_right _ _)

theorem takeSuffix_pos (rest : Bytes) : 1 ≤ (takeSuffix rest).1 := by
  cases rest with
  | nil => simp [takeSuffix]
  | cons s rest =>
    cases hs : suffixValU s with
    | none => simp [takeSuffix, hs]
    | some m => simpa [takeSuffix, hs] using suffixValU_pos s m hs

/-- Reading a number panics exactly if the text starts, after an optional plus sign, with a number that does not fit. -/
theorem C191_number (t : Bytes) : toUsizeWhole t = .panic ↔ ∃ sign p rest, (sign = [] ∨ sign = [43]) ∧ t = sign ++ p ++ rest ∧ BigNumber p := by
  have hw : toUsizeWhole t = .panic ↔ toUsize t = none := by
    unfold toUsizeWhole
    cases toUsize t with
    | none => simp
    | some r => dsimp only; split <;> simp
  rw [hw]
  obtain ⟨sign, ds, rest, rfl, hsign, hds, hrest, hplus⟩ := C39_decompose t
  rw [C39_to_usize sign ds rest hsign hds hrest hplus]
  constructor
  · intro h
    by_cases h0 : ds = []
    · rw [if_pos h0] at h; simp at h
    · rw [if_neg h0] at h
      have hb : usizeMax < decVal ds * (takeSuffix rest).1 := by
        rcases Nat.lt_or_ge usizeMax (decVal ds * (takeSuffix rest).1) with h' | h'
        · exact h'
        · rw [if_pos h'] at h; simp at h
      cases rest with
      | nil => exact ⟨sign, ds, [], hsign, by simp, ds, h0, hds, .inl ⟨rfl, by simpa [takeSuffix] using hb⟩⟩
      | cons s rest =>
        cases hs : suffixValU s with
        | none => exact ⟨sign, ds, s :: rest, hsign, rfl, ds, h0, hds, .inl ⟨rfl, by simpa [takeSuffix, hs] using hb⟩⟩
        | some m => exact ⟨sign, ds ++ [s], rest, hsign, by simp, ds, h0, hds, .inr ⟨s, m, rfl, hrest s rfl, hs, by simpa [takeSuffix, hs] using hb⟩⟩
  · rintro ⟨sign', p, rest', hsign', e, es, h0, hes, hp⟩
    obtain ⟨e0, es', he0⟩ := List.exists_cons_of_ne_nil h0
    have hd0 : isDigit e0 = true := hes e0 (by simp [he0])
    obtain ⟨more, hmore⟩ : ∃ more, p ++ rest' = es ++ more := by
      rcases hp with ⟨rfl, _⟩ | ⟨c, m, rfl, _⟩
      · exact ⟨rest', rfl⟩
      · exact ⟨c :: rest', by simp⟩
    have hcut : sign = sign' ∧ ds ++ rest = es ++ more := by
      rw [List.append_assoc, List.append_assoc, hmore] at e
      have n43 : e0 ≠ 43 := by rintro rfl; exact absurd hd0 (by decide)
      rcases hsign with rfl | rfl <;> rcases hsign' with rfl | rfl
      · exact ⟨rfl, e⟩
      · exfalso
        cases ds with
        | nil =>
          rw [List.nil_append, List.nil_append] at e
          exact hplus rfl rfl (by rw [e]; rfl)
        | cons d ds =>
          simp only [List.nil_append, List.cons_append, List.cons.injEq] at e
          have := hds d (by simp)
          rw [e.1] at this; exact absurd this (by decide)
      · exfalso
        rw [he0] at e
        simp only [List.nil_append, List.cons_append, List.cons.injEq] at e
        exact n43 e.1.symm
      · exact ⟨rfl, by simpa using e⟩
    obtain ⟨-, hcut⟩ := hcut
    -- the digits of the number are a prefix of all digits
    have hlen : es.length ≤ ds.length := by
      rcases Nat.lt_or_ge ds.length es.length with h | h
      · exfalso
        have h1 : (ds ++ rest)[ds.length]? = (es ++ more)[ds.length]? := by rw [hcut]
        rw [List.getElem?_append_right (Nat.le_refl _), Nat.sub_self, List.getElem?_append_left h,
          List.getElem?_eq_getElem h] at h1
        cases rest with
        | nil => simp at h1
        | cons r rest =>
          have h2 := hrest r rfl
          simp only [List.getElem?_cons_zero, Option.some.injEq] at h1
          rw [h1, hes _ (List.getElem_mem h)] at h2
          simp at h2
      · exact h
    obtain ⟨x, hx⟩ : ∃ x, ds = es ++ x :=
      ⟨ds.drop es.length, by
        have := congrArg (List.take es.length) hcut
        rw [List.take_append_of_le_length hlen, List.take_left] at this
        conv => lhs; rw [← List.take_append_drop es.length ds]
        rw [this]⟩
    have hd1 : ds ≠ [] := by rw [hx, he0]; simp
    rw [if_neg hd1, if_neg]
    have hle := decVal_le_append es x
    have hpos := takeSuffix_pos rest
    rw [← hx] at hle
    have hmul : decVal ds ≤ decVal ds * (takeSuffix rest).1 := Nat.le_mul_of_pos_right _ hpos
    rcases hp with ⟨rfl, hbig⟩ | ⟨c, m, rfl, hcd, hc, hbig⟩
    · omega
    · have hm : more = c :: rest' := by
        have : es ++ (c :: rest') = es ++ more := by rw [← hmore]; simp
        exact (List.append_cancel_left this).symm
      cases x with
      | cons y x =>
        exfalso
        have : ds ++ rest = es ++ (c :: rest') := by rw [hcut, hm]
        rw [hx] at this
        simp only [List.append_assoc, List.cons_append, List.append_cancel_left_eq, List.cons.injEq] at this
        have hy := hds y (by rw [hx]; simp)
        rw [this.1, hcd] at hy
        simp at hy
      | nil =>
        rw [List.append_nil] at hx
        have : rest = c :: rest' := by
          rw [hx, hm] at hcut; exact List.append_cancel_left hcut
        rw [this, hx]
        simp only [takeSuffix, hc]
        omega

theorem HoldsBig.part {s a p b : Bytes} (e : s = a ++ p ++ b) (h : HoldsBig p) : HoldsBig s := by
  obtain ⟨x, q, y, rfl, hq⟩ := h
  exact ⟨a ++ x, q, y ++ b, by rw [e]; simp, hq⟩

theorem usize_big {t : Bytes} (h : toUsizeWhole t = .panic) : HoldsBig t := by
  obtain ⟨sign, p, rest, -, e, hp⟩ := (C191_number t).1 h
  exact ⟨sign, p, rest, e, hp⟩

theorem usize_none {t : Bytes} (h : toUsize t = none) : HoldsBig t := usize_big (by unfold toUsizeWhole; rw [h])

theorem Res.bind_eq_panic {α β : Type} {r : Res α} {f : α → Res β} (h : r.bind f = .panic) : r = .panic ∨ ∃ a, r = .ok a ∧ f a = .panic := by
  cases r with
  | ok a => exact .inr ⟨a, rfl, h⟩
  | err => simp at h
  | panic => exact .inl rfl

theorem splitOnce_parts {d : UInt8} {s a b : Bytes} (h : splitOnce d s = some (a, b)) : (HoldsBig a → HoldsBig s) ∧ (HoldsBig b → HoldsBig s) := by
  obtain ⟨e, -⟩ := splitOnce_eq d s a b h
  exact ⟨fun h => h.part (a := []) (b := d :: b) (by simpa using e), fun h => h.part (a := a ++ [d]) (b := []) (by simpa using e)⟩

theorem sliceSplit_infix (d : UInt8) (s : Bytes) : ∀ p ∈ sliceSplit d s, ∃ a b, s = a ++ p ++ b := by
  have key : ∀ s : Bytes, (∃ b, s = (sliceSplit d s).headD [] ++ b) ∧ ∀ p ∈ sliceSplit d s, ∃ a b, s = a ++ p ++ b := by
    intro s
    induction s with
    | nil => exact ⟨⟨[], rfl⟩, fun p hp => ⟨[], [], by simp [sliceSplit] at hp; simp [hp]⟩⟩
    | cons x xs ih =>
      obtain ⟨⟨b0, ih1⟩, ih2⟩ := ih
      unfold sliceSplit
      split
      · refine ⟨⟨x :: xs, rfl⟩, fun p hp => ?_⟩
        rcases List.mem_cons.1 hp with rfl | hp
        · exact ⟨[], x :: xs, rfl⟩
        · obtain ⟨a, b, e⟩ := ih2 p hp
          exact ⟨x :: a, b, by rw [e]; simp⟩
      · rcases hs : sliceSplit d xs with _ | ⟨h, t⟩
        · exact absurd hs (sliceSplit_ne_nil d xs)
        · rw [hs] at ih1 ih2
          simp only [List.headD_cons] at ih1
          refine ⟨⟨b0, by simp [← ih1]⟩, fun p hp => ?_⟩
          rcases List.mem_cons.1 hp with rfl | hp
          · exact ⟨[], b0, by simp [← ih1]⟩
          · obtain ⟨a, b, e⟩ := ih2 p (List.mem_cons_of_mem _ hp)
            exact ⟨x :: a, b, by rw [e]; simp⟩
  exact (key s).2

theorem sliceSplit_big {d : UInt8} {s p : Bytes} (hp : p ∈ sliceSplit d s) (h : HoldsBig p) : HoldsBig s := by
  obtain ⟨a, b, e⟩ := sliceSplit_infix d s p hp
  exact h.part e

/-! ### The texts of options -/

/-- The functions that read option texts, as far as they read whole words and numbers. -/
def OptionReads (s : Bytes) : Prop :=
  toUsizeWhole s = .panic ∨ NamedCol.newFrom s = .panic ∨ mkLength s = .panic ∨ NumFormat.parse s = .panic ∨
  Determiner.new s = .panic ∨ CompareOp.parse s = .panic ∨ RangeSpec.new s = .panic ∨ RangeSpec.newTrail s = .panic ∨
  Context.set s = .panic ∨ Slice.parse s = .panic ∨ rangeParse s = .panic ∨ ForLoop.parse s = .panic ∨
  LocItem.new s = .panic ∨ FileLoc.new s = .panic ∨ compSpec s = .panic ∨ joinAlso s = .panic ∨
  Tri.new s = .panic ∨ DupColHandling.new s = .panic ∨ EndMode.new s = .panic ∨ (∃ f, FileNameColumn.set f s = .panic)

/-- Full statement: no text of an option makes reading it panic. -/
def C191_statement : Prop := ∀ s : Bytes, ¬ OptionReads s

theorem C191_refuted : ¬ C191_statement := by
  intro h
  exact h (ascii "99999999999999999999") (.inl (by decide +kernel))

theorem named_big {s : Bytes} (h : NamedCol.parse s = .panic) : HoldsBig s := by
  unfold NamedCol.parse at h
  split at h
  · simp at h
  · rename_i ch cs
    split at h
    · rename_i hd
      split at h
      · exact usize_none ‹_›
      · rename_i a b hu
        exfalso
        split at h
        · rename_i ha
          subst ha
          -- the first digit is not zero
          obtain ⟨sign, ds, rest, e, hsign, hds, hrest, hplus⟩ := C39_decompose (ch :: cs)
          have hs : sign = [] := by
            rcases hsign with rfl | rfl
            · rfl
            · simp only [List.cons_append, List.nil_append, List.cons.injEq] at e
              rw [e.1] at hd; exact absurd hd.1 (by decide)
          subst hs
          rw [e, C39_to_usize [] ds rest (.inl rfl) hds hrest hplus] at hu
          cases ds with
          | nil =>
            have := hrest ch (by rw [← show (ch :: cs) = rest by simpa using e]; rfl)
            rw [hd.1] at this; simp at this
          | cons d ds =>
            simp only [List.nil_append, List.cons_append, List.cons.injEq] at e
            rw [if_neg (by simp)] at hu
            split at hu
            · simp only [Option.some.injEq, Prod.mk.injEq] at hu
              have hpos := takeSuffix_pos rest
              have hz : decVal (d :: ds) = 0 := by
                rcases Nat.eq_zero_or_pos (decVal (d :: ds)) with h | h
                · exact h
                · have := Nat.mul_pos h hpos; omega
              have h1 := decVal_le_append [d] ds
              have h2 : decVal [d] = d.toNat - 48 := by simp [decVal]
              have hd' := (isDigit_iff d).1 (e.1 ▸ hd.1)
              have : d.toNat ≠ 48 := fun h => hd.2 (by rw [e.1]; exact UInt8.toNat_inj.1 h)
              simp only [List.cons_append, List.nil_append] at h1
              simp only [Digit, UInt8.le_iff_toNat_le] at hd'
              have e48 : (48 : UInt8).toNat = 48 := rfl
              omega
            · simp at hu
        · simp at h
    · split at h <;> simp at h

theorem namedFrom_big {s : Bytes} (h : NamedCol.newFrom s = .panic) : HoldsBig s := by
  rcases Res.bind_eq_panic h with h | ⟨r, -, h⟩
  · exact named_big h
  · split at h <;> simp at h

theorem length_big {s : Bytes} (h : mkLength s = .panic) : HoldsBig s := by
  unfold mkLength at h
  split at h
  · simp at h
  · split at h
    · rename_i a e
      rcases Res.bind_eq_panic h with h | ⟨_, -, h⟩
      · exact sliceSplit_big (by rw [e]; simp) (usize_big h)
      · simp at h
    · rename_i a b e
      rcases Res.bind_eq_panic h with h | ⟨_, -, h⟩
      · exact sliceSplit_big (by rw [e]; simp) (usize_big h)
      · rcases Res.bind_eq_panic h with h | ⟨_, -, h⟩
        · exact sliceSplit_big (by rw [e]; simp) (usize_big h)
        · simp at h
    · rename_i a b c e
      rcases Res.bind_eq_panic h with h | ⟨_, -, h⟩
      · exact sliceSplit_big (by rw [e]; simp) (usize_big h)
      · rcases Res.bind_eq_panic h with h | ⟨_, -, h⟩
        · exact sliceSplit_big (by rw [e]; simp) (usize_big h)
        · simp at h
    · simp at h

theorem format_big {s : Bytes} (h : NumFormat.parse s = .panic) : HoldsBig s := by
  unfold NumFormat.parse at h
  repeat' split at h
  all_goals try (simp at h; done)
  all_goals
    rename splitOnce 46 s = _ => e
    rcases Res.bind_eq_panic h with h | ⟨_, -, h⟩
    · exact (splitOnce_parts e).2 (usize_big h)
    · simp at h

theorem doSet_big {s : Bytes} (h : doSet s = .panic) : HoldsBig s := by
  unfold doSet at h
  split at h
  · rename_i a e
    rcases Res.bind_eq_panic h with h | ⟨_, -, h⟩
    · exact sliceSplit_big (by rw [e]; simp) (usize_big h)
    · simp at h
  · rename_i a b e
    rcases Res.bind_eq_panic h with h | ⟨_, -, h⟩
    · exact sliceSplit_big (by rw [e]; simp) (usize_big h)
    · rcases Res.bind_eq_panic h with h | ⟨_, -, h⟩
      · exact sliceSplit_big (by rw [e]; simp) (usize_big h)
      · simp at h
  · simp at h

theorem context_big {s : Bytes} (h : Context.set s = .panic) : HoldsBig s := by
  unfold Context.set at h
  split at h
  · rename_i a e
    rcases Res.bind_eq_panic h with h | ⟨_, -, h⟩
    · exact sliceSplit_big (by rw [e]; simp) (doSet_big h)
    · simp at h
  · rename_i a b e
    rcases Res.bind_eq_panic h with h | ⟨_, -, h⟩
    · exact sliceSplit_big (by rw [e]; simp) (doSet_big h)
    · rcases Res.bind_eq_panic h with h | ⟨_, -, h⟩
      · exact sliceSplit_big (by rw [e]; simp) (doSet_big h)
      · simp at h
  · simp at h

theorem slice_big {s : Bytes} (h : Slice.parse s = .panic) : HoldsBig s := by
  unfold Slice.parse at h
  split at h
  · rename_i a b e
    split at h
    · exact (splitOnce_parts e).1 (usize_big ‹_›)
    · simp at h
    · split at h
      · exact (splitOnce_parts e).2 (usize_big ‹_›)
      · simp at h
      · repeat' split at h
        all_goals simp at h
  · split at h
    · exact usize_big ‹_›
    · simp at h
    · split at h <;> simp at h

theorem range_big {s : Bytes} (h : rangeParse s = .panic) : HoldsBig s := by
  unfold rangeParse at h
  split at h
  · rename_i a b e
    rcases Res.bind_eq_panic h with h | ⟨_, -, h⟩
    · exact (splitOnce_parts e).1 (usize_big h)
    · rcases Res.bind_eq_panic h with h | ⟨_, -, h⟩
      · exact (splitOnce_parts e).2 (usize_big h)
      · simp at h
  · rcases Res.bind_eq_panic h with h | ⟨_, -, h⟩
    · exact usize_big h
    · simp at h

theorem loop_big {s : Bytes} (h : ForLoop.parse s = .panic) : HoldsBig s := by
  unfold ForLoop.parse at h
  split at h
  · simp at h
  · rcases Res.bind_eq_panic h with h | ⟨_, -, h⟩
    · split at h
      · rename_i a e
        rcases Res.bind_eq_panic h with h | ⟨_, -, h⟩
        · exact sliceSplit_big (by rw [e]; simp) (usize_big h)
        · simp at h
      · rename_i a b e
        rcases Res.bind_eq_panic h with h | ⟨_, -, h⟩
        · exact sliceSplit_big (by rw [e]; simp) (usize_big h)
        · rcases Res.bind_eq_panic h with h | ⟨_, -, h⟩
          · exact sliceSplit_big (by rw [e]; simp) (usize_big h)
          · simp at h
      · rename_i a b c rest e
        rcases Res.bind_eq_panic h with h | ⟨_, -, h⟩
        · exact sliceSplit_big (by rw [e]; simp) (usize_big h)
        · rcases Res.bind_eq_panic h with h | ⟨_, -, h⟩
          · exact sliceSplit_big (by rw [e]; simp) (usize_big h)
          · rcases Res.bind_eq_panic h with h | ⟨_, -, h⟩
            · exact sliceSplit_big (by rw [e]; simp) (usize_big h)
            · split at h <;> simp at h
      · rename_i e
        exact absurd e (sliceSplit_ne_nil 44 s)
    · split at h <;> simp at h

theorem loc_big {s : Bytes} (h : LocItem.new s = .panic) : HoldsBig s := by
  unfold LocItem.new at h
  repeat' split at h
  all_goals try (simp at h; done)
  rename_i a b e _
  rcases Res.bind_eq_panic h with h | ⟨_, -, h⟩
  · exact (splitOnce_parts e).2 (usize_big h)
  · simp at h

theorem fileLoc_big {s : Bytes} (h : FileLoc.new s = .panic) : HoldsBig s := by
  unfold FileLoc.new at h
  split at h
  · rename_i a b e
    rcases Res.bind_eq_panic h with h | ⟨_, -, h⟩
    · exact (splitOnce_parts e).2 (loc_big h)
    · simp at h
  · rcases Res.bind_eq_panic h with h | ⟨_, -, h⟩
    · exact loc_big h
    · simp at h

theorem toUsize_rest {t rest : Bytes} {v : Nat} (h : toUsize t = some (v, rest)) : ∃ a, t = a ++ rest := by
  obtain ⟨sign, ds, r, rfl, hsign, hds, hrest, hplus⟩ := C39_decompose t
  rw [C39_to_usize sign ds r hsign hds hrest hplus] at h
  split at h
  · simp only [Option.some.injEq, Prod.mk.injEq] at h
    exact ⟨[], by rw [← h.2]; simp⟩
  · split at h
    · simp only [Option.some.injEq, Prod.mk.injEq] at h
      cases r with
      | nil => exact ⟨sign ++ ds, by rw [← h.2]; simp [takeSuffix]⟩
      | cons c r =>
        cases hc : suffixValU c with
        | none => exact ⟨sign ++ ds, by rw [← h.2]; simp [takeSuffix, hc]⟩
        | some m => exact ⟨sign ++ ds ++ [c], by rw [← h.2]; simp [takeSuffix, hc]⟩
    · simp at h

theorem named_rest {s : Bytes} {r : NamedCol × Bytes} (h : NamedCol.parse s = .ok r) : ∃ a, s = a ++ r.2 := by
  unfold NamedCol.parse at h
  split at h
  · simp at h
  · split at h
    · split at h
      · simp at h
      · rename_i hu
        split at h
        · simp at h
        · injection h with h
          subst h
          exact toUsize_rest hu
    · split at h
      · injection h with h
        subst h
        exact ⟨_, (List.take_append_drop _ _).symm⟩
      · simp at h

theorem compPart_rest {c : UInt8} {rest : Bytes} {p : NamedCol × Bytes} (h : compPart c rest = .ok p) : ∃ a, c :: rest = a ++ p.2 := by
  unfold compPart at h
  split at h
  · obtain ⟨q, h1, h2⟩ := Res.bind_eq_ok h
    obtain ⟨a, e⟩ := named_rest h1
    split at h2
    · simp at h2
    · rename_i d t e2
      split at h2
      · injection h2 with h2
        exact ⟨c :: a ++ [d], by rw [e, e2, ← h2]; simp⟩
      · simp at h2
  · exact named_rest h

theorem compPart_big {c : UInt8} {rest : Bytes} (h : compPart c rest = .panic) : HoldsBig (c :: rest) := by
  unfold compPart at h
  split at h
  · rcases Res.bind_eq_panic h with h | ⟨_, -, h⟩
    · exact (named_big h).part (a := [c]) (b := []) (by simp)
    · split at h
      · simp at h
      · split at h <;> simp at h
  · exact named_big h

theorem compLoop_big : ∀ (fuel : Nat) (suffix curr : Bytes), curr.length < fuel → compLoop fuel suffix curr = .panic → HoldsBig curr
  | 0, _, _, h, _ => absurd h (by omega)
  | fuel + 1, suffix, [], _, h => by simp [compLoop] at h
  | fuel + 1, suffix, ch :: curr, hl, h => by
    have hl' : curr.length < fuel := by simpa using hl
    rw [compLoop.eq_def] at h
    dsimp only at h
    split at h
    · cases curr with
      | nil =>
        have := compLoop_big fuel _ [] (by simpa using hl') h
        exact this.part (a := [ch]) (b := []) (by simp)
      | cons c rest =>
        dsimp only at h
        split at h
        · have := compLoop_big fuel _ rest (by simp at hl'; omega) h
          exact this.part (a := [ch, c]) (b := []) (by simp)
        · rcases Res.bind_eq_panic h with h | ⟨p, hp, h⟩
          · exact (compPart_big h).part (a := [ch]) (b := []) (by simp)
          · rcases Res.bind_eq_panic h with h | ⟨_, -, h⟩
            · obtain ⟨a, e⟩ := compPart_rest hp
              have hlen : p.2.length ≤ rest.length + 1 := by
                have := congrArg List.length e
                simp at this; omega
              exact (compLoop_big fuel _ p.2 (by simp at hl'; omega) h).part (a := ch :: a) (b := []) (by simp [e])
            · simp at h
    · exact (compLoop_big fuel _ curr hl' h).part (a := [ch]) (b := []) (by simp)

theorem compSpec_big {s : Bytes} (h : compSpec s = .panic) : HoldsBig s := by
  unfold compSpec at h
  split at h
  · simp at h
  · rename_i name curr e
    rcases Res.bind_eq_panic h with h | ⟨_, -, h⟩
    · exact (splitOnce_parts e).2 (compLoop_big _ _ _ (by omega) h)
    · simp at h

theorem also_big {s : Bytes} (h : joinAlso s = .panic) : HoldsBig s := by
  unfold joinAlso at h
  split at h
  · rename_i a b e
    rcases Res.bind_eq_panic h with h | ⟨_, -, h⟩
    · exact (splitOnce_parts e).1 (usize_big h)
    · simp at h
  · simp at h

theorem fileName_big {f : FileNameColumn} {s : Bytes} (h : FileNameColumn.set f s = .panic) : HoldsBig s := by
  unfold FileNameColumn.set at h
  split at h
  · simp at h
  · split at h
    · rename_i a b e
      rcases Res.bind_eq_panic h with h | ⟨_, -, h⟩
      · exact (splitOnce_parts e).2 (usize_big h)
      · simp at h
    · split at h
      · rcases Res.bind_eq_panic h with h | ⟨_, -, h⟩
        · exact usize_big h
        · simp at h
      · simp at h

/-- Reading the text of an option panics only if somewhere in the text there is a number that does not fit into 64 bits; anything else
that is not understood is an error. -/
theorem C191_partial (s : Bytes) (h : ¬ HoldsBig s) : ¬ OptionReads s := by
  rintro (h1 | h1 | h1 | h1 | h1 | h1 | h1 | h1 | h1 | h1 | h1 | h1 | h1 | h1 | h1 | h1 | h1 | h1 | h1 | ⟨f, h1⟩)
  · exact h (usize_big h1)
  · exact h (namedFrom_big h1)
  · exact h (length_big h1)
  · exact h (format_big h1)
  · exact (C190_determiners s).2 h1
  · revert h1
    unfold CompareOp.parse
    split <;> simp
  · exact (C75_as_written s).1 h1
  · exact (C75_trail_as_written s).1 h1
  · exact h (context_big h1)
  · exact h (slice_big h1)
  · exact h (range_big h1)
  · exact h (loop_big h1)
  · exact h (loc_big h1)
  · exact h (fileLoc_big h1)
  · exact h (compSpec_big h1)
  · exact h (also_big h1)
  · revert h1; unfold Tri.new; repeat' split
    all_goals simp
  · revert h1; unfold DupColHandling.new; repeat' split
    all_goals simp
  · revert h1; unfold EndMode.new; repeat' split
    all_goals simp
  · exact h (fileName_big h1)

/-- Texts that are read, and texts that are errors. -/
example : ¬ HoldsBig (ascii "a,b") ∧ mkLength (ascii "1,2,3") = .err ∧ NamedCol.newFrom [] = .err ∧ compSpec (ascii "^a") = .err ∧
    doSet (ascii "1.2.3") = .err ∧ BigNumber (ascii "99999999999999999999") := by
  refine ⟨?_, rfl, by decide +kernel, by decide +kernel, by decide +kernel, ascii "99999999999999999999", by decide +kernel, by decide +kernel, .inl ⟨rfl, by decide +kernel⟩⟩
  rintro ⟨a, p, b, e, ds, h0, hd, hp⟩
  obtain ⟨d, ds', rfl⟩ := List.exists_cons_of_ne_nil h0
  have hm : d ∈ p := by rcases hp with ⟨rfl, _⟩ | ⟨c, m, rfl, _⟩ <;> simp
  have : d ∈ ascii "a,b" := by rw [e]; simp [hm]
  exact (by decide +kernel : ∀ d ∈ ascii "a,b", isDigit d ≠ true) d this (hd d (by simp))

end Cdx
