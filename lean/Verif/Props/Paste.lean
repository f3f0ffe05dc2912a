import Verif.Model.Paste
import Verif.Props.Verify
import Verif.Props.Transpose

/-!
C55: `paste`.
-/

namespace Cdx

variable {m : TextMode}

/-! ## What should be written -/

/-- What a file with the data lines `D` adds to row `k`. -/
def pieceAt (D : List Bytes) (pad : Bytes) (k : Nat) : Bytes :=
  match D[k]? with
  | some l => l.dropLast
  | none => pad

/-- Row `k` of the pasted files, each given by its lines and what stands for missing ones. -/
def rowAt (F : List (List Bytes × Bytes)) (k : Nat) : Bytes :=
  List.intercalate [TAB] (F.map fun x => pieceAt x.1 x.2 k) ++ [NL]

/-- Rows `k` to `k + n`. -/
def rowsAt (F : List (List Bytes × Bytes)) (k n : Nat) : Bytes := ((List.range' k n).map (rowAt F)).flatten

/-- The number of rows asked for. -/
def IsRows (mode : EndMode) (F : List (List Bytes × Bytes)) (N : Nat) : Prop :=
  (∃ x ∈ F, x.1.length = N) ∧ ∀ x ∈ F, if mode = .late then x.1.length ≤ N else N ≤ x.1.length

/-! ## A reader on line `k` -/

/-- The reader is on line `k` of `D`. -/
structure At (m : TextMode) (D : List Bytes) (k : Nat) (r : Reader) : Prop where
  on : ∀ d L, D.drop k = d :: L → ∃ o, View m true (decoded m d) o L r ∧ (m.col = .plain → o.orig = [])
  off : D.drop k = [] → r.isDone = true ∧ ∀ l, D.getLast? = some l → r.prevLine 1 = some (decoded m l)

theorem at_open (f : Bytes) : At m (dataOf m f) 0 ((Reader.newWith 1 m).open_ f) := by
  constructor
  · intro d L h
    rw [List.drop_zero] at h
    cases hh : readHeader m f with
    | none => simp [dataOf, hh] at h
    | some p =>
      obtain ⟨hd, rest⟩ := p
      have hD : readLines m.col m.eol rest = d :: L := by simpa [dataOf, hh] using h
      exact ⟨_, view_open m f hd rest d L hh hD, fun _ => rfl⟩
  · intro h
    rw [List.drop_zero] at h
    constructor
    · have : ((Reader.newWith 1 m).open_ f).isDone = (dataOf m f).isEmpty := newOpen_done m f
      rw [this, h]; rfl
    · intro l hl
      rw [h] at hl
      simp at hl

theorem At.live {D : List Bytes} {k : Nat} {r : Reader} (h : At m D k r) : r.isDone = decide (D.length ≤ k) := by
  cases hd : D.drop k with
  | nil =>
    rw [(h.off hd).1]
    have := List.drop_eq_nil_iff.1 hd
    simp [this]
  | cons d L =>
    obtain ⟨o, hv, _⟩ := h.on d L hd
    rw [hv.more]
    have : k < D.length := by
      have := congrArg List.length hd
      simp at this
      omega
    simp [this]

theorem At.next {D : List Bytes} {k : Nat} {r : Reader} (h : At m D k r) (hk : k < D.length) :
    At m D (k + 1) r.getline ∧ r.currLine = decoded m D[k] := by
  have hd : D.drop k = D[k] :: D.drop (k + 1) := List.drop_eq_getElem_cons hk
  obtain ⟨o, hv, ho⟩ := h.on _ _ hd
  refine ⟨⟨?_, ?_⟩, hv.cur⟩
  · intro d L hL
    rw [hL] at hv
    have := hv.next
    rw [putLine_decoded o d ho] at this
    exact ⟨_, this, decoded_orig _⟩
  · intro hL
    rw [hL] at hv
    refine ⟨hv.end_.1, ?_⟩
    intro l hl
    rw [hv.end_.2]
    have hlen := List.drop_eq_nil_iff.1 hL
    have : D.length = k + 1 := by omega
    rw [List.getLast?_eq_getElem?, this, Nat.add_sub_cancel, List.getElem?_eq_getElem hk] at hl
    simp only [Option.some.injEq] at hl
    rw [hl]

theorem At.stay {D : List Bytes} {k : Nat} {r : Reader} (h : At m D k r) (hk : D.length ≤ k) : At m D (k + 1) r := by
  constructor
  · intro d L hL
    rw [List.drop_eq_nil_iff.2 (by omega)] at hL
    simp at hL
  · intro _
    exact h.off (List.drop_eq_nil_iff.2 hk)

/-! ## A row -/

/-- What stands for missing lines, as the code computes it. -/
def padRes (useLast : Bool) (strings : List Bytes) (D : List Bytes) (start stop : Nat) : Res Bytes :=
  if useLast then match D.getLast? with
    | none => .panic
    | some l => .ok l.dropLast
  else dfltPiece strings false (List.range' start (stop - start))

/-- The open files are on line `k`, and what stands for missing lines is there for all that have fewer than `N`. -/
inductive AllAt (m : TextMode) (useLast : Bool) (strings : List Bytes) (N k : Nat) :
    List (List Bytes × Bytes) → List Pasted → Prop
  | nil : AllAt m useLast strings N k [] []
  | cons {D : List Bytes} {pad : Bytes} {p : Pasted} {F : List (List Bytes × Bytes)} {P : List Pasted} :
    At m D k p.r → (∀ l ∈ D, ∃ body, l = body ++ [NL]) → (padRes useLast strings D p.start p.stop = .ok pad ∨ N ≤ D.length) →
    AllAt m useLast strings N k F P → AllAt m useLast strings N k ((D, pad) :: F) (p :: P)

/-- The files that end with line `k`. -/
def endsAt (F : List (List Bytes × Bytes)) (k : Nat) : Nat := F.countP fun x => decide (x.1.length = k + 1)

theorem pastePiece_spec (hm : m.col = .plain) (useLast : Bool) (strings : List Bytes) (D : List Bytes) (pad : Bytes)
    (p : Pasted) (k live dead : Nat) (hat : At m D k p.r) (hD : ∀ l ∈ D, ∃ body, l = body ++ [NL])
    (hpad : padRes useLast strings D p.start p.stop = .ok pad ∨ k < D.length)
    (hlive : (if D.length = k + 1 then 1 else 0) ≤ live) :
    ∃ r', pastePiece useLast strings p live dead = .ok (pieceAt D pad k, { p with r := r' },
        live - (if D.length = k + 1 then 1 else 0), dead + (if D.length = k + 1 then 1 else 0)) ∧ At m D (k + 1) r' := by
  unfold pastePiece
  rw [hat.live]
  by_cases hk : D.length ≤ k
  · have hpad : padRes useLast strings D p.start p.stop = .ok pad := by
      rcases hpad with h | h
      · exact h
      · omega
    have hpiece : pieceAt D pad k = pad := by simp [pieceAt, List.getElem?_eq_none hk]
    have hne : D.length ≠ k + 1 := by omega
    refine ⟨p.r, ?_, hat.stay hk⟩
    simp only [hk, decide_true, if_true, hne, if_false, Nat.sub_zero, Nat.add_zero, hpiece]
    have : (if useLast = true then p.r.prevNl 1 else dfltPiece strings false (List.range' p.start (p.stop - p.start))) =
        .ok pad := by
      unfold padRes at hpad
      cases useLast with
      | false => simpa using hpad
      | true =>
        simp only [if_true] at hpad ⊢
        cases hl : D.getLast? with
        | none => rw [hl] at hpad; simp at hpad
        | some l =>
          rw [hl] at hpad
          simp only [Res.ok.injEq] at hpad
          have := (hat.off (List.drop_eq_nil_iff.2 hk)).2 l hl
          obtain ⟨body, hb⟩ := hD l (List.mem_of_getLast? hl)
          have hlne : (decoded m l).line = l := (decoded_plain hm l).1
          simp only [Reader.prevNl, this, hlne]
          rw [if_neg (by rw [hb]; simp), hpad]
    rw [this]
    rfl
  · have hk' : k < D.length := by omega
    obtain ⟨h1, h2⟩ := hat.next hk'
    have hcur : p.r.currNl = .ok (D[k].dropLast) := by
      obtain ⟨body, hb⟩ := hD D[k] (List.getElem_mem hk')
      simp only [Reader.currNl, h2, (decoded_plain hm _).1]
      rw [if_neg (by rw [hb]; simp)]
    have hpiece : pieceAt D pad k = D[k].dropLast := by simp [pieceAt, List.getElem?_eq_getElem hk']
    refine ⟨p.r.getline, ?_, h1⟩
    simp only [hk, decide_false, Bool.false_eq_true, if_false, hcur, Res.bind_ok, h1.live, hpiece]
    by_cases he : D.length = k + 1
    · have e1 : D.length ≤ k + 1 := by omega
      simp only [he, if_true, Nat.le_refl, decide_true] at hlive ⊢
      rw [if_neg (by omega)]
    · have e1 : ¬ D.length ≤ k + 1 := by omega
      simp [he, e1]

theorem intercalate_join (x : Bytes) (xs : List Bytes) :
    List.intercalate [TAB] (x :: xs) = x ++ (xs.map fun y => TAB :: y).flatten := by
  induction xs generalizing x with
  | nil => simp [List.intercalate]
  | cons y ys ih =>
    have := ih y
    rw [List.intercalate] at this ⊢
    simp only [List.intersperse, List.flatten_cons, List.map_cons] at this ⊢
    rw [this]
    simp

theorem pasteRow_spec (hm : m.col = .plain) (useLast : Bool) (strings : List Bytes) (N k : Nat) (hk : k < N)
    {F : List (List Bytes × Bytes)} {P : List Pasted} (h : AllAt m useLast strings N k F P) :
    ∀ (nd : Bool) (live dead : Nat), endsAt F k ≤ live →
      ∃ P', pasteRow useLast strings nd P live dead =
        .ok ((if nd then (F.map fun x => TAB :: pieceAt x.1 x.2 k).flatten
          else List.intercalate [TAB] (F.map fun x => pieceAt x.1 x.2 k)) ++ [NL], P', live - endsAt F k, dead + endsAt F k) ∧
        AllAt m useLast strings N (k + 1) F P' := by
  induction h with
  | nil =>
    intro nd live dead _
    exact ⟨[], by cases nd <;> simp [pasteRow, endsAt, List.intercalate], .nil⟩
  | @cons D pad p F P hat hD hpad _ ih =>
    intro nd live dead hlive
    have he : endsAt ((D, pad) :: F) k = (if D.length = k + 1 then 1 else 0) + endsAt F k := by
      unfold endsAt
      rw [List.countP_cons]
      simp only [decide_eq_true_eq]
      omega
    rw [he] at hlive ⊢
    obtain ⟨r', h1, h2⟩ := pastePiece_spec hm useLast strings D pad p k live dead hat hD
      (hpad.imp id fun h => by omega) (by omega)
    obtain ⟨P', g1, g2⟩ := ih true (live - (if D.length = k + 1 then 1 else 0))
      (dead + (if D.length = k + 1 then 1 else 0)) (by omega)
    refine ⟨{ p with r := r' } :: P', ?_, .cons h2 hD hpad g2⟩
    unfold pasteRow
    rw [h1]
    simp only [Res.bind_ok]
    rw [g1]
    simp only [Res.bind_ok, if_true, List.map_cons, Res.ok.injEq, Prod.mk.injEq, true_and]
    refine ⟨?_, by omega, by omega⟩
    rw [intercalate_join]
    cases nd <;> simp [Function.comp_def]

/-! ## The rows -/

def liveAt (F : List (List Bytes × Bytes)) (k : Nat) : Nat := F.countP fun x => decide (k < x.1.length)
def deadAt (F : List (List Bytes × Bytes)) (k : Nat) : Nat := F.countP fun x => decide (x.1.length ≤ k)

theorem live_split (F : List (List Bytes × Bytes)) (k : Nat) :
    liveAt F k = liveAt F (k + 1) + endsAt F k ∧ deadAt F (k + 1) = deadAt F k + endsAt F k := by
  unfold liveAt deadAt endsAt
  induction F with
  | nil => simp
  | cons x F ih =>
    simp only [List.countP_cons, decide_eq_true_eq]
    obtain ⟨h1, h2⟩ := ih
    rcases Nat.lt_trichotomy x.1.length (k + 1) with h | h | h
    · have e1 : ¬ k < x.1.length := by omega
      have e2 : ¬ k + 1 < x.1.length := by omega
      have e3 : x.1.length ≤ k := by omega
      have e4 : x.1.length ≤ k + 1 := by omega
      have e5 : ¬ x.1.length = k + 1 := by omega
      simp only [e1, e2, e3, e4, e5, if_true, if_false]; omega
    · have e1 : k < x.1.length := by omega
      have e2 : ¬ k + 1 < x.1.length := by omega
      have e3 : ¬ x.1.length ≤ k := by omega
      have e4 : x.1.length ≤ k + 1 := by omega
      simp only [if_pos e1, if_neg e2, if_neg e3, if_pos e4, if_pos h]; omega
    · have e1 : k < x.1.length := by omega
      have e2 : k + 1 < x.1.length := by omega
      have e3 : ¬ x.1.length ≤ k := by omega
      have e4 : ¬ x.1.length ≤ k + 1 := by omega
      have e5 : ¬ x.1.length = k + 1 := by omega
      simp only [e1, e2, e3, e4, e5, if_true, if_false]; omega

theorem liveAt_zero (F : List (List Bytes × Bytes)) (k : Nat) : liveAt F k = 0 ↔ ∀ x ∈ F, x.1.length ≤ k := by
  simp [liveAt, List.countP_eq_zero]

theorem deadAt_zero (F : List (List Bytes × Bytes)) (k : Nat) : deadAt F k = 0 ↔ ∀ x ∈ F, k < x.1.length := by
  simp [deadAt, List.countP_eq_zero]

theorem pasteLoop_spec (hm : m.col = .plain) (mode : EndMode) (useLast : Bool) (strings : List Bytes)
    (F : List (List Bytes × Bytes)) (N : Nat) (hN : IsRows mode F N) (n : Nat) :
    ∀ (fuel k : Nat) (P : List Pasted), k + n = N → n < fuel → AllAt m useLast strings N k F P →
      ∃ b, pasteLoop mode useLast strings fuel P (liveAt F k) (deadAt F k) = .ok (rowsAt F k n, b) ∧
        (b = false ↔ mode = .exact ∧ ∃ x ∈ F, x.1.length ≠ N) := by
  obtain ⟨⟨x0, hx0, e0⟩, hall⟩ := hN
  induction n with
  | zero =>
    intro fuel k P hk hf hat
    have hkN : k = N := by omega
    subst hkN
    cases fuel with
    | zero => simp at hf
    | succ fuel =>
      unfold pasteLoop
      by_cases hl : liveAt F k = 0
      · refine ⟨true, by simp [hl, rowsAt], ?_⟩
        rw [← Bool.not_eq_true]
        simp only [not_true, false_iff, not_and, not_exists]
        intro hmode x hx hne
        subst hmode
        have h1 := (liveAt_zero F k).1 hl x hx
        have h2 := hall x hx
        simp only [reduceCtorEq, if_false] at h2
        omega
      · have hd : deadAt F k ≠ 0 := by
          intro hd
          have := (deadAt_zero F k).1 hd x0 hx0
          omega
        have hne : ∃ x ∈ F, x.1.length ≠ k := by
          apply Classical.byContradiction
          intro h
          refine hl ((liveAt_zero F k).2 fun x hx => Classical.byContradiction fun h' => h ⟨x, hx, by omega⟩)
        cases mode with
        | late =>
          exfalso
          apply hl
          rw [liveAt_zero]
          intro x hx
          have := hall x hx
          simpa using this
        | exact => exact ⟨false, by simp [hl, hd, rowsAt], by simpa using hne⟩
        | early => exact ⟨true, by simp [hl, hd, rowsAt], by simp⟩
  | succ n ih =>
    intro fuel k P hk hf hat
    cases fuel with
    | zero => simp at hf
    | succ fuel =>
      have hkN : k < N := by omega
      obtain ⟨s1, s2⟩ := live_split F k
      obtain ⟨P', g1, g2⟩ := pasteRow_spec hm useLast strings N k hkN hat false (liveAt F k) (deadAt F k) (by omega)
      have e1 : liveAt F k - endsAt F k = liveAt F (k + 1) := by omega
      rw [e1, ← s2] at g1
      obtain ⟨b, h1, h2⟩ := ih fuel (k + 1) P' (by omega) (by omega) g2
      refine ⟨b, ?_, h2⟩
      have hl : liveAt F k ≠ 0 := by
        intro hl
        have := (liveAt_zero F k).1 hl x0 hx0
        omega
      have hd : mode ≠ .late → deadAt F k = 0 := by
        intro hmode
        rw [deadAt_zero]
        intro x hx
        have := hall x hx
        rw [if_neg hmode] at this
        omega
      unfold pasteLoop
      rw [if_neg hl]
      rw [if_neg (by rintro ⟨h, h'⟩; exact h' (hd (by rw [h]; simp)))]
      rw [if_neg (by rintro ⟨h, h'⟩; exact h' (hd (by rw [h]; simp)))]
      rw [g1]
      simp only [Res.bind_ok, h1, Bool.false_eq_true, if_false]
      simp only [rowsAt, List.range'_succ, List.map_cons, List.flatten_cons, rowAt]

/-! ## Opening the files -/

/-- The open files with their columns, from column `start` on. -/
def opened (m : TextMode) : (start : Nat) → List Bytes → List Pasted
  | _, [] => []
  | start, f :: fs => ⟨(Reader.newWith 1 m).open_ f, start, start + (namesOf m f).length⟩ ::
      opened m (start + (namesOf m f).length) fs

theorem pasteOpen_spec (files : List Bytes) : ∀ (fds : List Pasted) (live dead : Nat) (dh : Bool) (cols : Nat)
    (hc : List Bytes) (s : PasteOpen), pasteOpen m ⟨fds, live, dead, dh, cols, ⟨hc, .fail, []⟩⟩ files = .ok s →
      s.fds = fds ++ opened m cols files ∧ s.live = live + files.countP (fun f => !(dataOf m f).isEmpty) ∧
      s.dead = dead + files.countP (fun f => (dataOf m f).isEmpty) ∧
      s.doHeader = (dh && files.all fun f => ((Reader.newWith 1 m).open_ f).hasHeader) ∧
      s.header = ⟨hc ++ (files.map (namesOf m)).flatten, .fail, []⟩ := by
  induction files with
  | nil =>
    intro fds live dead dh cols hc s h
    simp only [pasteOpen, Res.ok.injEq] at h
    subst h
    simp [opened]
  | cons f fs ih =>
    intro fds live dead dh cols hc s h
    unfold pasteOpen at h
    simp only at h
    obtain ⟨hd, h1, h⟩ := Res.bind_eq_ok h
    have e1 : hd = ⟨hc ++ namesOf m f, .fail, []⟩ := by
      split at h1
      · rw [pushAll_fail] at h1
        split at h1
        · exact (Res.ok.inj h1).symm
        · simp at h1
      · exact (Res.ok.inj h1).symm
    subst e1
    obtain ⟨a1, a2, a3, a4, a5⟩ := ih _ _ _ _ _ _ _ h
    have hdone : ((Reader.newWith 1 m).open_ f).isDone = (dataOf m f).isEmpty := newOpen_done m f
    refine ⟨?_, ?_, ?_, ?_, ?_⟩
    · rw [a1, opened]
      simp [namesOf]
    · rw [a2, hdone, List.countP_cons]
      cases (dataOf m f).isEmpty <;> simp <;> omega
    · rw [a3, hdone, List.countP_cons]
      cases (dataOf m f).isEmpty <;> simp <;> omega
    · rw [a4, List.all_cons, Bool.and_assoc]
    · rw [a5]
      simp

theorem pasteOpen_ok (files : List Bytes) : ∀ (fds : List Pasted) (live dead : Nat) (dh : Bool) (cols : Nat) (hc : List Bytes),
    (∀ n ∈ (files.map (namesOf m)).flatten, isValidColumnName n = true ∧ n ∉ hc) →
    (files.map (namesOf m)).flatten.Nodup → ∃ s, pasteOpen m ⟨fds, live, dead, dh, cols, ⟨hc, .fail, []⟩⟩ files = .ok s := by
  induction files with
  | nil => intro fds live dead dh cols hc _ _; exact ⟨_, rfl⟩
  | cons f fs ih =>
    intro fds live dead dh cols hc hv hn
    simp only [List.map_cons, List.flatten_cons, List.mem_append] at hv hn
    rw [List.nodup_append] at hn
    obtain ⟨n1, n2, n3⟩ := hn
    unfold pasteOpen
    simp only
    have e : (if (dh && ((Reader.newWith 1 m).open_ f).hasHeader) = true then
        (⟨hc, .fail, []⟩ : ColumnHeader).pushAll ((Reader.newWith 1 m).open_ f).names
        else .ok ((⟨hc, .fail, []⟩ : ColumnHeader).pushUnchecked ((Reader.newWith 1 m).open_ f).names)) =
        .ok ⟨hc ++ namesOf m f, .fail, []⟩ := by
      split
      · rw [pushAll_fail, if_pos ⟨fun n hn => hv n (.inl hn), n1⟩]
        rfl
      · rfl
    rw [e]
    simp only [Res.bind_ok]
    refine ih _ _ _ _ _ _ ?_ n2
    intro n hn
    refine ⟨(hv n (.inr hn)).1, ?_⟩
    simp only [List.mem_append, not_or]
    exact ⟨(hv n (.inr hn)).2, fun h => n3 n h n hn rfl⟩

/-! ## What stands for missing lines -/

theorem setStrings_length (value : Bytes) (cs : List OutCol) : ∀ (st st' : List Bytes), setStrings value cs st = .ok st' →
    st'.length = st.length := by
  induction cs with
  | nil => intro st st' h; simp only [setStrings, Res.ok.injEq] at h; rw [h]
  | cons c cs ih =>
    intro st st' h
    unfold setStrings at h
    split at h
    · rw [ih _ _ h, List.length_set]
    · simp at h

theorem lookupValues_length (mk : Bytes → Res (Bytes → Bool)) (names : List Bytes) (data : List ScopedValue) :
    ∀ (st st' : List Bytes), lookupValues mk names data st = .ok st' → st'.length = st.length := by
  induction data with
  | nil => intro st st' h; simp only [lookupValues, Res.ok.injEq] at h; rw [h]
  | cons x xs ih =>
    intro st st' h
    unfold lookupValues at h
    obtain ⟨cols, _, h⟩ := Res.bind_eq_ok h
    obtain ⟨st1, h1, h⟩ := Res.bind_eq_ok h
    rw [ih _ _ h, setStrings_length _ _ _ _ h1]

theorem dfltPiece_spec (strings : List Bytes) (n : Nat) : ∀ (start : Nat) (nd : Bool), start + n ≤ strings.length →
    dfltPiece strings nd (List.range' start n) =
      .ok (if nd then (((strings.drop start).take n).map fun v => TAB :: v).flatten
        else List.intercalate [TAB] ((strings.drop start).take n)) := by
  induction n with
  | zero => intro start nd _; cases nd <;> simp [dfltPiece, List.intercalate]
  | succ n ih =>
    intro start nd h
    have hs : start < strings.length := by omega
    rw [List.range'_succ, dfltPiece, scopedGet, List.getElem?_eq_getElem hs]
    simp only [Res.bind_ok]
    rw [ih (start + 1) true (by omega), List.drop_eq_getElem_cons hs, List.take_succ_cons, intercalate_join]
    simp only [if_true, Res.bind_ok]
    cases nd <;> simp

/-- The files, each with what stands for its missing lines: its last line, or the values of its columns. -/
def padded (m : TextMode) (useLast : Bool) : (values : List Bytes) → List Bytes → List (List Bytes × Bytes)
  | _, [] => []
  | values, f :: fs =>
    (dataOf m f, if useLast then ((dataOf m f).getLastD []).dropLast
      else List.intercalate [TAB] (values.take (namesOf m f).length)) ::
      padded m useLast (values.drop (namesOf m f).length) fs

theorem padded_data (useLast : Bool) (files : List Bytes) : ∀ values,
    (padded m useLast values files).map (·.1) = files.map (dataOf m) := by
  induction files with
  | nil => intro values; rfl
  | cons f fs ih => intro values; simp [padded, ih]

theorem dataOf_line (hm : m.col = .plain) (heol : m.eol = NL) (f : Bytes) : ∀ l ∈ dataOf m f, ∃ body, l = body ++ [NL] := by
  intro l hl
  unfold dataOf at hl
  split at hl
  · simp at hl
  · rw [hm, heol] at hl
    obtain ⟨body, e, _⟩ := C09_each_line _ _ _ l hl
    exact ⟨body, e⟩

theorem allAt_opened (hm : m.col = .plain) (heol : m.eol = NL) (useLast : Bool) (strings : List Bytes) (N : Nat)
    (files : List Bytes) : ∀ start, start + (files.map (namesOf m)).flatten.length ≤ strings.length →
      (useLast = true → ∀ f ∈ files, dataOf m f ≠ [] ∨ N = 0) →
      AllAt m useLast strings N 0 (padded m useLast (strings.drop start) files) (opened m start files) := by
  induction files with
  | nil => intro start _ _; exact .nil
  | cons f fs ih =>
    intro start hl hu
    simp only [List.map_cons, List.flatten_cons, List.length_append] at hl
    refine .cons (at_open f) (dataOf_line hm heol f) ?_ ?_
    · unfold padRes
      cases useLast with
      | true =>
        rcases hu rfl f (by simp) with h | h
        · left
          simp only [if_true]
          rw [List.getLast?_eq_some_getLast h]
          simp [List.getLastD_eq_getLast?, List.getLast?_eq_some_getLast h]
        · right; omega
      | false =>
        left
        simp only [Bool.false_eq_true, if_false, Nat.add_sub_cancel_left]
        rw [dfltPiece_spec strings _ _ _ (by omega)]
        simp
    · rw [List.drop_drop]
      exact ih _ (by omega) fun h g hg => hu h g (by simp [hg])

theorem dataOf_length (m : TextMode) (f : Bytes) : (dataOf m f).length ≤ f.length := by
  unfold dataOf
  cases h : readHeader m f with
  | none => simp
  | some p =>
    have h1 := readLines_length m.col m.eol p.2
    have : p.2.length ≤ f.length := by
      unfold readHeader at h
      split at h
      · simp at h
      · have hrl : ∀ q, readLine m.col m.eol f = some q → q.2.length ≤ f.length := fun q hq => by
          have := readLine_shorter m.col m.eol f q.1 q.2 hq
          omega
        split at h
        · exact hrl _ h
        · exact hrl _ h
        · simp only [Option.some.injEq] at h; rw [← h]; exact Nat.le_refl _
        · split at h
          · exact hrl _ h
          · simp only [Option.some.injEq] at h; rw [← h]; exact Nat.le_refl _
        · have hr : (if isCdx f = true then ((readLine m.col m.eol f).map (·.2)).getD f else f).length ≤ f.length := by
            split
            · cases hq : readLine m.col m.eol f with
              | none => simp
              | some q => simpa using hrl q hq
            · exact Nat.le_refl _
          simp only at h
          generalize (if isCdx f = true then ((readLine m.col m.eol f).map (·.2)).getD f else f) = rest at h hr
          split at h
          · simp at h
          · simp only [Option.some.injEq] at h
            rw [← h]
            exact hr
    simp only
    omega

theorem sum_ge (files : List Bytes) (f : Bytes) (h : f ∈ files) : f.length ≤ (files.map List.length).sum := by
  induction files with
  | nil => simp at h
  | cons g gs ih =>
    rcases List.mem_cons.1 h with rfl | h
    · simp
    · have := ih h
      simp only [List.map_cons, List.sum_cons]
      omega

/-! ## The command -/

/-- All files have a header. -/
def allHeads (m : TextMode) (files : List Bytes) : Prop := ∀ f ∈ files, ((Reader.newWith 1 m).open_ f).hasHeader = true

/-- The names of all columns. -/
def allNames (m : TextMode) (files : List Bytes) : List Bytes := (files.map (namesOf m)).flatten

theorem live_padded (useLast : Bool) (files : List Bytes) : ∀ values,
    liveAt (padded m useLast values files) 0 = files.countP (fun f => !(dataOf m f).isEmpty) ∧
    deadAt (padded m useLast values files) 0 = files.countP (fun f => (dataOf m f).isEmpty) := by
  induction files with
  | nil => intro values; simp [padded, liveAt, deadAt]
  | cons f fs ih =>
    intro values
    obtain ⟨h1, h2⟩ := ih (values.drop (namesOf m f).length)
    unfold liveAt at h1 ⊢
    unfold deadAt at h2 ⊢
    rw [padded, List.countP_cons, List.countP_cons, List.countP_cons, List.countP_cons, h1, h2]
    cases dataOf m f <;> simp

/-- What opening the files gives, whatever the header makes of the names. -/
theorem pasteOpen_any (files : List Bytes) : ∀ (fds : List Pasted) (live dead : Nat) (dh : Bool) (cols : Nat)
    (h0 : ColumnHeader) (s : PasteOpen), pasteOpen m ⟨fds, live, dead, dh, cols, h0⟩ files = .ok s →
      s.fds = fds ++ opened m cols files ∧ s.live = live + files.countP (fun f => !(dataOf m f).isEmpty) ∧
      s.dead = dead + files.countP (fun f => (dataOf m f).isEmpty) ∧
      s.doHeader = (dh && files.all fun f => ((Reader.newWith 1 m).open_ f).hasHeader) := by
  induction files with
  | nil =>
    intro fds live dead dh cols h0 s h
    simp only [pasteOpen, Res.ok.injEq] at h
    subst h
    simp [opened]
  | cons f fs ih =>
    intro fds live dead dh cols h0 s h
    unfold pasteOpen at h
    simp only at h
    obtain ⟨hd, h1, h⟩ := Res.bind_eq_ok h
    obtain ⟨a1, a2, a3, a4⟩ := ih _ _ _ _ _ _ _ h
    have hdone : ((Reader.newWith 1 m).open_ f).isDone = (dataOf m f).isEmpty := newOpen_done m f
    refine ⟨?_, ?_, ?_, ?_⟩
    · rw [a1, opened]
      simp [namesOf]
    · rw [a2, hdone, List.countP_cons]
      cases (dataOf m f).isEmpty <;> simp <;> omega
    · rw [a3, hdone, List.countP_cons]
      cases (dataOf m f).isEmpty <;> simp <;> omega
    · rw [a4, List.all_cons, Bool.and_assoc]

theorem paste_any (hm : m.col = .plain) (heol : m.eol = NL) (mk : Bytes → Res (Bytes → Bool)) (mode : EndMode)
    (useLast : Bool) (data : List ScopedValue) (files values : List Bytes) (N : Nat) (s : PasteOpen)
    (h0 : ColumnHeader) (sloppy : Bool) (ho : pasteOpen m ⟨[], 0, 0, true, 0, h0⟩ files = .ok s)
    (hs : sloppy = true ∨ s.header.rename = []) (hcols : s.header.cols.length = (allNames m files).length)
    (hv : scopedLookup mk [] data s.header.cols = .ok values)
    (hN : IsRows mode (padded m useLast values files) N)
    (hlast : useLast = true → mode = .late → ∀ f ∈ files, dataOf m f ≠ [] ∨ N = 0) :
    ∃ b, (b = false ↔ mode = .exact ∧ ∃ f ∈ files, (dataOf m f).length ≠ N) ∧
      pasteCmd m mk mode useLast data h0 files sloppy =
        (if files.all (fun f => ((Reader.newWith 1 m).open_ f).hasHeader) then columnHead s.header.cols else .ok []).bind
          fun head => .ok (head ++ rowsAt (padded m useLast values files) 0 N, b) := by
  obtain ⟨a1, a2, a3, a4⟩ := pasteOpen_any files _ _ _ _ _ _ _ ho
  have hlen : values.length = (allNames m files).length := by
    have := lookupValues_length mk _ _ _ _ hv
    rw [← hcols]
    simpa using this
  have hdata : ∀ f ∈ files, ∃ x ∈ padded m useLast values files, x.1 = dataOf m f := by
    intro f hf
    have : dataOf m f ∈ (padded m useLast values files).map (·.1) := by
      rw [padded_data]; exact List.mem_map_of_mem hf
    obtain ⟨x, hx, e⟩ := List.mem_map.1 this
    exact ⟨x, hx, e⟩
  have hdata' : ∀ x ∈ padded m useLast values files, ∃ f ∈ files, x.1 = dataOf m f := by
    intro x hx
    have : x.1 ∈ files.map (dataOf m) := by
      rw [← padded_data useLast files values]; exact List.mem_map_of_mem hx
    obtain ⟨f, hf, e⟩ := List.mem_map.1 this
    exact ⟨f, hf, e.symm⟩
  have hat : AllAt m useLast values N 0 (padded m useLast values files) (opened m 0 files) := by
    have := allAt_opened hm heol useLast values N files 0 (by unfold allNames at hlen; omega) (by
      intro hu f hf
      by_cases hmode : mode = .late
      · exact hlast hu hmode f hf
      · obtain ⟨x, hx, e⟩ := hdata f hf
        have := hN.2 x hx
        rw [if_neg hmode, e] at this
        cases hd : dataOf m f with
        | nil => right; rw [hd] at this; simpa using this
        | cons _ _ => left; simp)
    simpa using this
  have hfuel : N < (files.map List.length).sum + 1 := by
    obtain ⟨x, hx, e⟩ := hN.1
    obtain ⟨f, hf, e'⟩ := hdata' x hx
    have h1 := dataOf_length m f
    have h2 := sum_ge files f hf
    rw [← e', e] at h1
    omega
  obtain ⟨b, h1, h2⟩ := pasteLoop_spec hm mode useLast values _ N hN N _ 0 _ (by omega) hfuel hat
  obtain ⟨l1, l2⟩ := live_padded (m := m) useLast files values
  rw [l1, l2] at h1
  refine ⟨b, ?_, ?_⟩
  · rw [h2]
    refine and_congr Iff.rfl ⟨?_, ?_⟩
    · rintro ⟨x, hx, hne⟩
      obtain ⟨f, hf, e⟩ := hdata' x hx
      exact ⟨f, hf, by rw [← e]; exact hne⟩
    · rintro ⟨f, hf, hne⟩
      obtain ⟨x, hx, e⟩ := hdata f hf
      exact ⟨x, hx, by rw [e]; exact hne⟩
  · unfold pasteCmd
    rw [ho]
    have hr : ¬ (sloppy = false ∧ s.header.rename ≠ []) := by
      rintro ⟨k1, k2⟩
      rcases hs with hs | hs
      · rw [k1] at hs; cases hs
      · exact k2 hs
    rw [Res.bind_ok, if_neg hr]
    simp only [Res.bind_ok, a4, a1, a2, a3, List.nil_append, Nat.zero_add, Bool.true_and]
    rw [hv]
    simp only [Res.bind_ok, h1]

theorem paste_core (hm : m.col = .plain) (heol : m.eol = NL) (mk : Bytes → Res (Bytes → Bool)) (mode : EndMode)
    (useLast : Bool) (data : List ScopedValue) (files values : List Bytes) (N : Nat) (s : PasteOpen)
    (ho : pasteOpen m ⟨[], 0, 0, true, 0, ⟨[], .fail, []⟩⟩ files = .ok s)
    (hv : scopedLookup mk [] data (allNames m files) = .ok values)
    (hN : IsRows mode (padded m useLast values files) N)
    (hlast : useLast = true → mode = .late → ∀ f ∈ files, dataOf m f ≠ [] ∨ N = 0) :
    ∃ b, (b = false ↔ mode = .exact ∧ ∃ f ∈ files, (dataOf m f).length ≠ N) ∧
      pasteCmd m mk mode useLast data ⟨[], .fail, []⟩ files =
        (if files.all (fun f => ((Reader.newWith 1 m).open_ f).hasHeader) then columnHead (allNames m files) else .ok []).bind
          fun head => .ok (head ++ rowsAt (padded m useLast values files) 0 N, b) := by
  obtain ⟨_, _, _, _, a5⟩ := pasteOpen_spec files _ _ _ _ _ _ _ ho
  rw [List.nil_append] at a5
  have hc : s.header.cols = allNames m files := by rw [a5]; rfl
  rw [← hc] at hv ⊢
  exact paste_any hm heol mk mode useLast data files values N s ⟨[], .fail, []⟩ false ho (.inr (by rw [a5])) (by rw [hc]) hv hN hlast

/-- Full statement: pasting files with headers and different column names gives the names of all columns, then each row, as many as
the longest file has lines with `late` and as many as the shortest otherwise, and fails exactly if `exact` was asked for and the
files do not have the same number of lines. -/
def C55_statement : Prop :=
  ∀ (m : TextMode) (mk : Bytes → Res (Bytes → Bool)) (mode : EndMode) (useLast : Bool) (data : List ScopedValue)
    (files values : List Bytes) (N : Nat) (head : Bytes), allHeads m files →
    (∀ n ∈ allNames m files, isValidColumnName n = true) → (allNames m files).Nodup →
    columnHead (allNames m files) = .ok head → scopedLookup mk [] data (allNames m files) = .ok values →
    IsRows mode (padded m useLast values files) N →
    ∃ b, (b = false ↔ mode = .exact ∧ ∃ f ∈ files, (dataOf m f).length ≠ N) ∧
      pasteCmd m mk mode useLast data ⟨[], .fail, []⟩ files =
        .ok (head ++ rowsAt (padded m useLast values files) 0 N, b)

/-- Holds for plain columns and lines ending with a newline, if no file without lines has to be padded with its last line. -/
theorem C55_paste_partial (m : TextMode) (hm : m.col = .plain) (heol : m.eol = NL) (mk : Bytes → Res (Bytes → Bool))
    (mode : EndMode) (useLast : Bool) (data : List ScopedValue)
    (files values : List Bytes) (N : Nat) (head : Bytes) (hh : allHeads m files)
    (hvalid : ∀ n ∈ allNames m files, isValidColumnName n = true) (hnd : (allNames m files).Nodup)
    (hhead : columnHead (allNames m files) = .ok head) (hv : scopedLookup mk [] data (allNames m files) = .ok values)
    (hN : IsRows mode (padded m useLast values files) N)
    (hlast : useLast = true → mode = .late → ∀ f ∈ files, dataOf m f ≠ [] ∨ N = 0) :
    ∃ b, (b = false ↔ mode = .exact ∧ ∃ f ∈ files, (dataOf m f).length ≠ N) ∧
      pasteCmd m mk mode useLast data ⟨[], .fail, []⟩ files =
        .ok (head ++ rowsAt (padded m useLast values files) 0 N, b) := by
  obtain ⟨s, ho⟩ := pasteOpen_ok (m := m) files [] 0 0 true 0 [] (fun n hn => ⟨hvalid n hn, by simp⟩) hnd
  obtain ⟨b, h1, h2⟩ := paste_core hm heol mk mode useLast data files values N s ho hv hN hlast
  refine ⟨b, h1, ?_⟩
  have : files.all (fun f => ((Reader.newWith 1 m).open_ f).hasHeader) = true := List.all_eq_true.2 hh
  rw [h2, this, if_pos rfl, hhead]
  rfl

theorem pasteOpen_unchecked (files : List Bytes) : ∀ (fds : List Pasted) (live dead cols : Nat) (h : ColumnHeader),
    ∃ s, pasteOpen m ⟨fds, live, dead, false, cols, h⟩ files = .ok s := by
  induction files with
  | nil => intro fds live dead cols h; exact ⟨_, rfl⟩
  | cons f fs ih =>
    intro fds live dead cols h
    unfold pasteOpen
    simp only [Bool.false_and, Bool.false_eq_true, if_false, Res.bind_ok]
    exact ih _ _ _ _ _

/-- The same without headers, whatever the names are, if already the first file has none. -/
theorem C55_headerless_partial (m : TextMode) (hm : m.col = .plain) (heol : m.eol = NL) (mk : Bytes → Res (Bytes → Bool))
    (mode : EndMode) (useLast : Bool) (data : List ScopedValue) (f : Bytes)
    (files values : List Bytes) (N : Nat) (hh : ((Reader.newWith 1 m).open_ f).hasHeader = false)
    (hv : scopedLookup mk [] data (allNames m (f :: files)) = .ok values)
    (hN : IsRows mode (padded m useLast values (f :: files)) N)
    (hlast : useLast = true → mode = .late → ∀ g ∈ f :: files, dataOf m g ≠ [] ∨ N = 0) :
    ∃ b, (b = false ↔ mode = .exact ∧ ∃ g ∈ f :: files, (dataOf m g).length ≠ N) ∧
      pasteCmd m mk mode useLast data ⟨[], .fail, []⟩ (f :: files) =
        .ok (rowsAt (padded m useLast values (f :: files)) 0 N, b) := by
  have ho : ∃ s, pasteOpen m ⟨[], 0, 0, true, 0, ⟨[], .fail, []⟩⟩ (f :: files) = .ok s := by
    unfold pasteOpen
    simp only [hh, Bool.and_false, Bool.false_eq_true, if_false, Res.bind_ok]
    exact pasteOpen_unchecked files _ _ _ _ _
  obtain ⟨s, ho⟩ := ho
  obtain ⟨b, h1, h2⟩ := paste_core hm heol mk mode useLast data (f :: files) values N s ho hv hN hlast
  refine ⟨b, h1, ?_⟩
  rw [h2]
  simp [hh]

/-- The number of rows is determined: the greatest or the least number of lines. -/
theorem C55_rows_unique {mode : EndMode} {F : List (List Bytes × Bytes)} {N N' : Nat} (h : IsRows mode F N)
    (h' : IsRows mode F N') : N = N' := by
  obtain ⟨⟨x, hx, e⟩, ha⟩ := h
  obtain ⟨⟨x', hx', e'⟩, ha'⟩ := h'
  have h1 := ha x' hx'
  have h2 := ha' x hx
  rw [e] at h2
  rw [e'] at h1
  split at h1 <;> simp_all <;> omega

/-- A file with a header only has no last line. -/
theorem C55_refuted : ¬ C55_statement := by
  intro h
  obtain ⟨b, _, h2⟩ := h .default (fun _ => .err) .late true [] [ascii " CDX\ta\n", ascii " CDX\tb\n1\n"] [[], []] 1
    (ascii " CDX\ta\tb\n") (by unfold allHeads; decide +kernel) (by decide +kernel) (by decide +kernel) (by decide +kernel) (by decide +kernel)
    (by constructor <;> decide +kernel)
  have : pasteCmd .default (fun _ => .err) .late true [] ⟨[], .fail, []⟩ [ascii " CDX\ta\n", ascii " CDX\tb\n1\n"] = .panic := by
    decide +kernel
  rw [this] at h2
  cases h2

/-- With quoted columns the last character of each line is lost. -/
theorem C55_refuted_quote :
    pasteCmd { TextMode.default with col := .quote } (fun _ => .err) .exact false [] ⟨[], .fail, []⟩
      [ascii " CDX\ta\n12\n", ascii " CDX\tb\n34\n"] = .ok (ascii " CDX\ta\tb\n1\t3\n", true) := by decide +kernel

/-- With `exact`, rows have been written before the files turn out to have different lengths. -/
theorem C55_exact_writes :
    pasteCmd .default (fun _ => .err) .exact false [] ⟨[], .fail, []⟩
      [ascii " CDX\ta\n1\n2\n", ascii " CDX\tb\n3\n"] = .ok (ascii " CDX\ta\tb\n1\t3\n", false) := by decide +kernel

/-- Three files of different lengths, padded. -/
example : pasteCmd .default (fun _ => .err) .late false [⟨.empty, ascii "-"⟩] ⟨[], .fail, []⟩
    [ascii " CDX\ta\n1\n2\n", ascii " CDX\tb\tc\n3\t4\n", ascii " CDX\td\n5\n6\n7\n"] =
      .ok (ascii " CDX\ta\tb\tc\td\n1\t3\t4\t5\n2\t-\t-\t6\n-\t-\t-\t7\n", true) := by decide +kernel

example : IsRows .late (padded .default false [[], [], []] [ascii " CDX\ta\n1\n2\n", ascii " CDX\tb\tc\n3\t4\n"]) 2 := by
  constructor <;> decide +kernel

/-! ## C94: values for columns -/

/-- The value of column `j`: that of the last of the given sets of columns that has it. -/
inductive ValueOf (dflt : Bytes) (j : Nat) : List (List Nat × Bytes) → Bytes → Prop
  | dflt : ValueOf dflt j [] dflt
  | last {L : List (List Nat × Bytes)} {cols : List Nat} {v : Bytes} : j ∈ cols → ValueOf dflt j (L ++ [(cols, v)]) v
  | skip {L : List (List Nat × Bytes)} {cols : List Nat} {v w : Bytes} : j ∉ cols → ValueOf dflt j L w →
    ValueOf dflt j (L ++ [(cols, v)]) w

theorem setStrings_get (value : Bytes) (cs : List OutCol) : ∀ (st st' : List Bytes), setStrings value cs st = .ok st' →
    ∀ j, st'[j]? = if j ∈ cs.map (·.num) then some value else st[j]? := by
  induction cs with
  | nil => intro st st' h j; simp only [setStrings, Res.ok.injEq] at h; simp [h]
  | cons c cs ih =>
    intro st st' h j
    unfold setStrings at h
    split at h
    · rename_i hc
      rw [ih _ _ h j, List.map_cons]
      by_cases h1 : j ∈ cs.map (·.num)
      · simp [h1]
      · by_cases h2 : j = c.num
        · subst h2
          simp [hc, h1]
        · rw [if_neg h1, if_neg (by simp [h1, h2]), List.getElem?_set_ne (Ne.symm h2)]
    · simp at h

theorem lookupValues_get (mk : Bytes → Res (Bytes → Bool)) (names : List Bytes) (dflt : Bytes) (data : List ScopedValue) :
    ∀ (L : List (List Nat × Bytes)) (st st' : List Bytes), lookupValues mk names data st = .ok st' →
      (∀ j v, st[j]? = some v → ValueOf dflt j L v) →
      ∃ cols : List (List OutCol), cols.length = data.length ∧
        (∀ (i : Nat) (x : ScopedValue) (c : List OutCol), data[i]? = some x → cols[i]? = some c → x.cols.lookup mk names = .ok c) ∧
        ∀ j v, st'[j]? = some v → ValueOf dflt j (L ++ (cols.zip data).map fun p => (p.1.map (·.num), p.2.value)) v := by
  induction data with
  | nil =>
    intro L st st' h hL
    simp only [lookupValues, Res.ok.injEq] at h
    subst h
    exact ⟨[], rfl, by simp, by simpa using hL⟩
  | cons x xs ih =>
    intro L st st' h hL
    unfold lookupValues at h
    obtain ⟨c, hc, h⟩ := Res.bind_eq_ok h
    obtain ⟨st1, h1, h⟩ := Res.bind_eq_ok h
    obtain ⟨cols, g1, g2, g3⟩ := ih (L ++ [(c.map (·.num), x.value)]) st1 st' h (by
      intro j v hj
      rw [setStrings_get _ _ _ _ h1 j] at hj
      split at hj
      · rename_i hm
        cases hj
        exact .last hm
      · rename_i hm
        exact .skip hm (hL j v hj))
    refine ⟨c :: cols, by simp [g1], ?_, ?_⟩
    · intro i y d hy hd
      cases i with
      | zero => simp at hy hd; rw [← hy, ← hd]; exact hc
      | succ i => exact g2 i y d (by simpa using hy) (by simpa using hd)
    · intro j v hj
      have := g3 j v hj
      simpa using this

/-- Each column has the value given last for a set of columns with this column, or the default. -/
theorem C94_last (mk : Bytes → Res (Bytes → Bool)) (dflt : Bytes) (data : List ScopedValue) (names values : List Bytes)
    (h : scopedLookup mk dflt data names = .ok values) :
    values.length = names.length ∧
    ∃ cols : List (List OutCol), cols.length = data.length ∧
      (∀ (i : Nat) (x : ScopedValue) (c : List OutCol), data[i]? = some x → cols[i]? = some c → x.cols.lookup mk names = .ok c) ∧
      ∀ j, j < names.length → ∃ v, scopedGet values j = .ok v ∧
        ValueOf dflt j ((cols.zip data).map fun p => (p.1.map (·.num), p.2.value)) v := by
  have hlen : values.length = names.length := by simpa using lookupValues_length mk _ _ _ _ h
  obtain ⟨cols, h1, h2, h3⟩ := lookupValues_get mk names dflt data [] _ _ h (by
    intro j v hj
    obtain ⟨_, rfl⟩ := List.mem_replicate.1 (List.mem_of_getElem? hj)
    exact .dflt)
  refine ⟨hlen, cols, h1, h2, ?_⟩
  intro j hj
  have e : values[j]? = some (values[j]'(by omega)) := List.getElem?_eq_getElem _
  exact ⟨values[j], by simp [scopedGet, e], by simpa using h3 j _ e⟩

/-- A column has only one value. -/
theorem C94_unique {dflt : Bytes} {j : Nat} {L : List (List Nat × Bytes)} {v w : Bytes} (h : ValueOf dflt j L v)
    (h' : ValueOf dflt j L w) : v = w := by
  induction h with
  | dflt =>
    generalize hL : ([] : List (List Nat × Bytes)) = L at h'
    cases h' with
    | dflt => rfl
    | last => simp at hL
    | skip => simp at hL
  | @last L cols v hm =>
    generalize hL : L ++ [(cols, v)] = L' at h'
    cases h' with
    | dflt => simp at hL
    | last _ => have := List.append_inj_right' hL rfl; simp at this; exact this.2
    | skip hn _ => have := List.append_inj_right' hL rfl; simp at this; exact absurd (this.1 ▸ hm) hn
  | @skip L cols v u hn _ ih =>
    generalize hL : L ++ [(cols, v)] = L' at h'
    cases h' with
    | dflt => simp at hL
    | last hm => have := List.append_inj_right' hL rfl; simp at this; exact absurd (this.1 ▸ hm) hn
    | skip _ h => have := List.append_inj_left' hL rfl; subst this; exact ih h

theorem scopedLoop_spec (del : UInt8) (v : Bytes) (hv : del ∉ v) : ∀ (acc cols : Bytes),
    scopedLoop del acc (v ++ del :: cols) = (acc ++ v, some cols) ∧ scopedLoop del acc v = (acc ++ v, none) := by
  induction v with
  | nil => intro acc cols; simp [scopedLoop]
  | cons c v ih =>
    intro acc cols
    simp only [List.mem_cons, not_or] at hv
    have hne : c ≠ del := fun h => hv.1 h.symm
    obtain ⟨h1, h2⟩ := ih hv.2 (acc ++ [c]) cols
    simp [scopedLoop, hne, h1, h2]

/-- Full statement: the text before the first delimiter is the value, and the text after it the set of columns. -/
def C94_statement : Prop :=
  ∀ (transOk : Bytes → Bool) (v cols : Bytes) (del : UInt8) (c : ColumnSet), del ∉ v →
    ColumnSet.empty.add transOk cols false = .ok c → ScopedValue.new transOk (v ++ del :: cols) del = .ok ⟨c, v⟩

theorem C94_parse_partial (transOk : Bytes → Bool) (v cols : Bytes) (del : UInt8) (c : ColumnSet) (hv : del ∉ v)
    (hne : v ≠ []) (hc : ColumnSet.empty.add transOk cols false = .ok c) :
    ScopedValue.new transOk (v ++ del :: cols) del = .ok ⟨c, v⟩ ∧ ScopedValue.new transOk v del = .ok ⟨.empty, v⟩ := by
  cases v with
  | nil => exact absurd rfl hne
  | cons ch v =>
    have h1 : ch ≠ del := fun h => hv (by simp [h])
    obtain ⟨g1, g2⟩ := scopedLoop_spec del (ch :: v) hv [] cols
    constructor
    · rw [List.cons_append, ScopedValue.new, if_neg h1, ← List.cons_append, g1]
      simp [hc]
    · rw [ScopedValue.new, if_neg h1, g2]
      simp

/-- An empty value becomes the delimiter. -/
theorem C94_refuted : ¬ C94_statement := by
  intro h
  have := h (fun _ => true) [] (ascii "a") 44 _ (by simp) (by decide +kernel : ColumnSet.empty.add (fun _ => true) (ascii "a") false =
    .ok ⟨[⟨ascii "a", none⟩], [], [], []⟩)
  exact absurd this (by decide +kernel)

/-- A column number beyond the columns panics. -/
theorem C94_panic : scopedLookup (fun _ => .err) [] [⟨⟨[⟨ascii "3", none⟩], [], [], []⟩, ascii "x"⟩] [ascii "a", ascii "b"] = .panic := by
  decide +kernel

/-- `make_ints` panics as soon as there is a column. -/
theorem C94_ints (values : List Bytes) (h : values ≠ []) : makeInts values = .panic := by simp [makeInts, h]

/-- The second of two values is for all columns but the first. -/
example : scopedLookup (fun _ => .err) (ascii "d") [⟨⟨[⟨ascii "b-", none⟩], [], [], []⟩, ascii "x"⟩, ⟨⟨[⟨ascii "c", none⟩], [], [], []⟩, ascii "y"⟩]
    [ascii "a", ascii "b", ascii "c"] = .ok [ascii "d", ascii "x", ascii "y"] := by decide +kernel

/-! ## C95: made-up names -/

/-- Full statement: a file without a header has as many names as columns in the first line. -/
def C95_statement : Prop := ∀ (m : TextMode) (f l : Bytes) (L : List Bytes), ((Reader.newWith 1 m).open_ f).hasHeader = false →
  dataOf m f = l :: L → (namesOf m f).length = (decoded m l).vec.length

/-- The made-up names: `c1`, `c2` and so on. -/
def madeUp (n : Nat) : List Bytes := (List.range n).map fun i => (99 : UInt8) :: decText (i + 1)

theorem fakeHeader_madeUp (n : Nat) (hn : 0 < n) : headNames (fakeHeader n) = madeUp n := by
  have hfree : ∀ c ∈ madeUp n, TAB ∉ c := by
    intro c hc
    obtain ⟨i, _, rfl⟩ := List.mem_map.1 hc
    intro hm
    rcases List.mem_cons.1 hm with hm | hm
    · exact absurd hm (by decide)
    · exact absurd (decText_digits _ _ hm) (by decide)
  have hv := plainLine_vec TAB (List.intercalate [TAB] (madeUp n)) (by decide)
  rw [sliceSplit_intercalate TAB _ (by simp [madeUp]; omega) hfree] at hv
  have hc : isCdx (List.intercalate [TAB] (madeUp n) ++ [NL]) = false := by
    obtain ⟨m, rfl⟩ : ∃ m, n = m + 1 := ⟨n - 1, by omega⟩
    rw [madeUp, List.range_succ_eq_map, List.map_cons, intercalate_cons_head]
    simp [isCdx, cdxTag, List.isPrefixOf]
  show (if isCdx (List.intercalate [TAB] (madeUp n) ++ [NL]) = true then _ else
    ((TextLine.ofRaw (List.intercalate [TAB] (madeUp n) ++ [NL])).split .plain TAB).vec) = madeUp n
  rw [hc, if_neg (by decide)]
  exact hv

/-- Holds, with the names `c1`, `c2` and so on, if the delimiter is a tab and the first line has columns. -/
theorem C95_names_partial (m : TextMode) (hd : m.delim = TAB) (f l : Bytes) (L : List Bytes)
    (hh : ((Reader.newWith 1 m).open_ f).hasHeader = false) (hD : dataOf m f = l :: L) (hl : (decoded m l).vec ≠ []) :
    namesOf m f = madeUp (decoded m l).vec.length := by
  cases hr : readHeader m f with
  | none => simp [dataOf, hr] at hD
  | some p =>
    obtain ⟨hd', rest⟩ := p
    have hD' : readLines m.col m.eol rest = l :: L := by simpa [dataOf, hr] using hD
    have hv := view_open m f hd' rest l L hr hD'
    have hne : ((Reader.newWith 1 m).open_ f).isEmpty = false := (newOpen_fields m f hd' rest hr (by rw [hD']; simp)).1
    have hlen : (decoded m l).len = (decoded m l).vec.length := by simp [TextLine.len, TextLine.vec]
    unfold namesOf Reader.names
    rw [hne, hh, hv.cur, hv.mode, hd, hlen]
    simp only [Bool.false_eq_true, if_false]
    exact fakeHeader_madeUp _ (List.length_pos_iff.2 hl)

/-- Plain lines always have columns. -/
theorem C95_plain_partial (m : TextMode) (hm : m.col = .plain) (heol : m.eol = NL) (hd : m.delim = TAB) (f l : Bytes)
    (L : List Bytes) (hh : ((Reader.newWith 1 m).open_ f).hasHeader = false) (hD : dataOf m f = l :: L) :
    namesOf m f = madeUp (decoded m l).vec.length ∧ (namesOf m f).Nodup := by
  have hl : (decoded m l).vec ≠ [] := by
    obtain ⟨body, rfl⟩ := dataOf_line hm heol f l (by rw [hD]; simp)
    have : (decoded m (body ++ [NL])).vec = sliceSplit TAB body := by
      have := plainLine_vec TAB body (by decide)
      unfold decoded
      rw [hm, hd]
      exact this
    rw [this]
    exact sliceSplit_ne_nil _ _
  have h := C95_names_partial m hd f l L hh hD hl
  refine ⟨h, ?_⟩
  rw [h, madeUp, List.nodup_iff_pairwise_ne, List.pairwise_map]
  refine List.nodup_range.imp ?_
  intro a b hab he
  exact hab (by simpa using decText_inj (List.cons.inj he).2)

/-- With commas the made-up names are one name. -/
theorem C95_refuted : ¬ C95_statement := by
  intro h
  have := h { TextMode.default with delim := 44 } (ascii "a,b\n") (ascii "a,b\n") [] (by decide +kernel) (by decide +kernel)
  exact absurd this (by decide +kernel)

/-- So `verify` refuses every file of comma separated columns without a header, if it has two lines. -/
theorem C95_verify : verifyCmd MEnv.trivial { TextMode.default with delim := 44 } bareConf wholeKeys [ascii "a,b\nc,d\n"] = .ok false := by
  decide +kernel

example : namesOf .default (ascii "x\ty\tz\n1\t2\t3\n") = [ascii "c1", ascii "c2", ascii "c3"] := by decide +kernel

end Cdx
