import Verif.Model.Trans
import Verif.Spec.Trans
import Verif.Props.Ops

/-! C48, C49, C81 to C84: transforms. -/

namespace Cdx

/-! ## White space -/

section
variable {α : Type} (sp : α → Bool) (blank : α)

theorem normLoop_word (w r dst : List α) (h : ∀ x ∈ w, sp x = false) :
    normLoop sp blank (w ++ r) false dst = normLoop sp blank r false (dst ++ w) := by
  induction w generalizing dst with
  | nil => simp
  | cons x w ih =>
    simp only [List.cons_append, normLoop, h x (List.mem_cons_self ..)]
    simp only [Bool.false_eq_true, if_false, Bool.false_and]
    rw [ih _ fun y hy => h y (List.mem_cons_of_mem _ hy)]
    simp

theorem normLoop_blank (s r dst : List α) (b : Bool) (h : ∀ x ∈ s, sp x = true) (hs : s ≠ []) :
    normLoop sp blank (s ++ r) b dst = normLoop sp blank r true dst := by
  induction s generalizing b with
  | nil => exact absurd rfl hs
  | cons x s ih =>
    simp only [List.cons_append, normLoop, h x (List.mem_cons_self ..), if_true]
    cases s with
    | nil => rfl
    | cons y s => exact ih true (fun z hz => h z (List.mem_cons_of_mem _ hz)) (by simp)

theorem normLoop_trail (s dst : List α) (b : Bool) (h : ∀ x ∈ s, sp x = true) :
    normLoop sp blank s b dst = dst := by
  cases s with
  | nil => rfl
  | cons x s =>
    have := normLoop_blank sp blank (x :: s) [] dst b h (by simp)
    rw [List.append_nil] at this
    rw [this]; rfl

theorem normLoop_next (w r dst : List α) (h : ∀ x ∈ w, sp x = false) (hw : w ≠ []) (hd : dst ≠ []) :
    normLoop sp blank (w ++ r) true dst = normLoop sp blank r false (dst ++ [blank] ++ w) := by
  cases w with
  | nil => exact absurd rfl hw
  | cons x w =>
    have : dst.isEmpty = false := by cases dst with | nil => exact absurd rfl hd | cons => rfl
    simp only [List.cons_append, normLoop, h x (List.mem_cons_self ..), this]
    simp only [Bool.false_eq_true, if_false, Bool.not_false, Bool.and_self, if_true]
    rw [normLoop_word sp blank w r _ fun y hy => h y (List.mem_cons_of_mem _ hy)]
    simp

theorem spaced_cons (w : List α) (ws : List (List α)) (h : ws ≠ []) :
    spaced blank (w :: ws) = w ++ [blank] ++ spaced blank ws := by
  cases ws with
  | nil => exact absurd rfl h
  | cons => rfl

theorem Laid.ne_nil {ws : List (List α)} {xs : List α} (h : Laid sp ws xs) : ws ≠ [] := by
  cases h <;> simp

theorem normLoop_laid_next {ws : List (List α)} {xs : List α} (h : Laid sp ws xs) (dst : List α) (hd : dst ≠ []) :
    normLoop sp blank xs true dst = dst ++ [blank] ++ spaced blank ws := by
  induction h generalizing dst with
  | last w s hw h1 h2 =>
    rw [normLoop_next sp blank w s dst h1 hw hd, normLoop_trail sp blank s _ false h2]; rfl
  | cons w s ws xs hw h1 hs h2 hl ih =>
    rw [List.append_assoc, normLoop_next sp blank w _ dst h1 hw hd, normLoop_blank sp blank s xs _ false h2 hs,
      ih _ (by simp [hd]), spaced_cons blank w ws (hl.ne_nil sp)]
    simp

theorem normLoop_laid {ws : List (List α)} {xs : List α} (h : Laid sp ws xs) :
    normLoop sp blank xs false [] = spaced blank ws := by
  cases h with
  | last w s hw h1 h2 =>
    rw [normLoop_word sp blank w s [] h1, normLoop_trail sp blank s _ false h2]; rfl
  | cons w s ws xs hw h1 hs h2 hl =>
    rw [List.append_assoc, normLoop_word sp blank w _ [] h1, normLoop_blank sp blank s xs _ false h2 hs,
      normLoop_laid_next sp blank hl _ (by simpa using hw), spaced_cons blank w ws (hl.ne_nil sp)]
    simp

theorem normLoop_laid_lead {ws : List (List α)} {xs : List α} (h : Laid sp ws xs) :
    normLoop sp blank xs true [] = spaced blank (cutFirst ws) := by
  have key : ∀ (w r : List α), w ≠ [] → (∀ x ∈ w, sp x = false) →
      ∃ v, (∃ b, normLoop sp blank (w ++ r) true [] = normLoop sp blank r b v) ∧ v ≠ [] ∧
        (∀ rest : List (List α), cutFirst (w :: rest) = cutFirst [w] ++ rest) ∧ v = spaced blank (cutFirst [w]) := by
    intro w r hw h1
    match w, hw with
    | [x], _ =>
      refine ⟨[x], ⟨true, ?_⟩, by simp, fun _ => rfl, rfl⟩
      simp [normLoop, h1 x (by simp)]
    | x :: y :: w, _ =>
      refine ⟨[x] ++ [blank] ++ (y :: w), ⟨false, ?_⟩, by simp, fun _ => rfl, rfl⟩
      have : normLoop sp blank (x :: y :: w ++ r) true [] = normLoop sp blank ((y :: w) ++ r) true [x] := by
        simp [normLoop, h1 x (by simp)]
      rw [this, normLoop_next sp blank (y :: w) r [x] (fun z hz => h1 z (List.mem_cons_of_mem _ hz)) (by simp) (by simp)]
  have app : ∀ (a : List (List α)) (ws : List (List α)), a ≠ [] → ws ≠ [] →
      spaced blank (a ++ ws) = spaced blank a ++ [blank] ++ spaced blank ws := by
    intro a ws ha hws
    induction a with
    | nil => exact absurd rfl ha
    | cons u a ih =>
      cases a with
      | nil => rw [List.singleton_append, spaced_cons blank u ws hws]; rfl
      | cons v a =>
        rw [List.cons_append, spaced_cons blank u _ (by simp), ih (by simp), spaced_cons blank u (v :: a) (by simp)]
        simp
  cases h with
  | last w s hw h1 h2 =>
    obtain ⟨v, ⟨b, e⟩, _, _, hv⟩ := key w s hw h1
    rw [e, normLoop_trail sp blank s v b h2, hv]
  | cons w s ws xs hw h1 hs h2 hl =>
    obtain ⟨v, ⟨b, e⟩, hne, hc, hv⟩ := key w (s ++ xs) hw h1
    rw [List.append_assoc, e, normLoop_blank sp blank s xs v b h2 hs, normLoop_laid_next sp blank hl v hne, hc ws,
      app _ _ (by match w, hw with | [_], _ => simp [cutFirst] | _ :: _ :: _, _ => simp [cutFirst]) (hl.ne_nil sp), hv]

/-- Every list is blanks followed by words, or only blanks. -/
theorem laid_exists (xs : List α) :
    (∀ x ∈ xs, sp x = true) ∨ ∃ lead ws ys, xs = lead ++ ys ∧ (∀ x ∈ lead, sp x = true) ∧ Laid sp ws ys := by
  induction xs with
  | nil => left; simp
  | cons x xs ih =>
    rcases ih with h | ⟨lead, ws, ys, e, hl, hw⟩
    · cases hx : sp x with
      | true => left; intro y hy; rcases List.mem_cons.1 hy with rfl | hy <;> simp_all
      | false => exact .inr ⟨[], [[x]], x :: xs, rfl, by simp, Laid.last [x] xs (by simp) (by simpa using hx) h⟩
    · cases hx : sp x with
      | true => exact .inr ⟨x :: lead, ws, ys, by simp [e], by intro y hy; rcases List.mem_cons.1 hy with rfl | hy <;> simp_all, hw⟩
      | false =>
        cases lead with
        | cons z lead => exact .inr ⟨[], [x] :: ws, x :: xs, rfl, by simp,
            by rw [e]; exact Laid.cons [x] (z :: lead) ws ys (by simp) (by simpa using hx) (by simp) hl hw⟩
        | nil =>
          simp only [List.nil_append] at e
          subst e
          cases hw with
          | last w s a b c =>
            refine .inr ⟨[], [x :: w], _, rfl, by simp, Laid.last (x :: w) s (by simp) ?_ c⟩
            intro y hy; rcases List.mem_cons.1 hy with rfl | hy <;> simp_all
          | cons w s ws xs a b c d f =>
            refine .inr ⟨[], (x :: w) :: ws, _, rfl, by simp, Laid.cons (x :: w) s ws xs (by simp) ?_ c d f⟩
            intro y hy; rcases List.mem_cons.1 hy with rfl | hy <;> simp_all

theorem Laid.words {ws : List (List α)} {xs : List α} (h : Laid sp ws xs) :
    ∀ w ∈ ws, w ≠ [] ∧ ∀ x ∈ w, sp x = false := by
  induction h with
  | last w s a b c => intro v hv; simp only [List.mem_singleton] at hv; subst hv; exact ⟨a, b⟩
  | cons w s ws xs a b c d f ih =>
    intro v hv
    rcases List.mem_cons.1 hv with rfl | hv
    · exact ⟨a, b⟩
    · exact ih v hv

theorem cutFirst_words {ws : List (List α)} (h : ∀ w ∈ ws, w ≠ [] ∧ ∀ x ∈ w, sp x = false) :
    ∀ w ∈ cutFirst ws, w ≠ [] ∧ ∀ x ∈ w, sp x = false := by
  match ws with
  | [] => exact h
  | [] :: _ => exact h
  | [_] :: _ => exact h
  | (x :: y :: w) :: ws =>
    have h0 := (h (x :: y :: w) (by simp)).2
    intro v hv
    simp only [cutFirst, List.mem_cons] at hv
    rcases hv with rfl | rfl | hv
    · exact ⟨by simp, fun z hz => h0 z (by simp_all)⟩
    · exact ⟨by simp, fun z hz => h0 z (List.mem_cons_of_mem _ hz)⟩
    · exact h v (List.mem_cons_of_mem _ hv)

theorem spaced_laid (hb : sp blank = true) (ws : List (List α)) (hne : ws ≠ [])
    (h : ∀ w ∈ ws, w ≠ [] ∧ ∀ x ∈ w, sp x = false) : Laid sp ws (spaced blank ws) := by
  induction ws with
  | nil => exact absurd rfl hne
  | cons w ws ih =>
    have hw := h w (by simp)
    cases ws with
    | nil => simpa [spaced] using Laid.last w [] hw.1 hw.2 (by simp)
    | cons v ws =>
      rw [spaced_cons blank w _ (by simp)]
      exact Laid.cons w [blank] _ _ hw.1 hw.2 (by simp) (by simpa using hb)
        (ih (by simp) fun u hu => h u (List.mem_cons_of_mem _ hu))

/-- Exactly what the loop makes of blanks, then words: the words with one space between any two, but, if there was a blank
in front, the first character of the first word is a word of its own. -/
theorem normLoop_eq {ws : List (List α)} {xs lead : List α} (hl : ∀ x ∈ lead, sp x = true) (h : Laid sp ws xs) :
    normLoop sp blank (lead ++ xs) false [] = spaced blank (if lead = [] then ws else cutFirst ws) := by
  by_cases e : lead = []
  · subst e; simpa using normLoop_laid sp blank h
  · rw [normLoop_blank sp blank lead xs [] false hl e, if_neg e]; exact normLoop_laid_lead sp blank h

theorem cutFirst_ne {ws : List (List α)} (h : ws ≠ []) : cutFirst ws ≠ [] := by
  match ws, h with
  | [] :: _, _ => simp [cutFirst]
  | [_] :: _, _ => simp [cutFirst]
  | (_ :: _ :: _) :: _, _ => simp [cutFirst]

theorem normLoop_idem (hb : sp blank = true) (xs : List α) :
    normLoop sp blank (normLoop sp blank xs false []) false [] = normLoop sp blank xs false [] := by
  rcases laid_exists sp xs with h | ⟨lead, ws, ys, rfl, hl, hw⟩
  · rw [normLoop_trail sp blank xs [] false h]; rfl
  · rw [normLoop_eq sp blank hl hw]
    apply normLoop_laid
    apply spaced_laid sp blank hb
    · split
      · exact hw.ne_nil sp
      · exact cutFirst_ne (hw.ne_nil sp)
    · split
      · exact hw.words sp
      · exact cutFirst_words sp (hw.words sp)

end

/-- C48 in full: leading and trailing white space goes, each run inside becomes one space, the rest stays, and a second time
changes nothing. -/
def C48_statement : Prop :=
  (∀ (lead xs : Bytes) (ws : List Bytes), (∀ x ∈ lead, x ≤ 32) → Laid (fun x : UInt8 => decide (x ≤ 32)) ws xs →
    normSpace (lead ++ xs) = spaced 32 ws) ∧
  (∀ xs : Bytes, (∀ x ∈ xs, x ≤ 32) → normSpace xs = []) ∧
  (∀ xs, normSpace (normSpace xs) = normSpace xs)

/-- `" ab"` becomes `"a b"`: the space owed from the front is paid after the first character. -/
theorem C48_refuted : ¬ C48_statement := by
  intro h
  have h1 := h.1 [32] [97, 98] [[97, 98]] (by simp) (Laid.last [97, 98] [] (by simp) (by decide) (by simp))
  exact absurd h1 (by decide)

/-- C48 but for what happens to the first word after leading white space: with none, the statement holds; with some, the
result is right but for a space after the first character of the first word, unless the word ends there. -/
theorem C48_words_partial (lead xs : Bytes) (ws : List Bytes) (hl : ∀ x ∈ lead, x ≤ 32)
    (h : Laid (fun x : UInt8 => decide (x ≤ 32)) ws xs) :
    normSpace (lead ++ xs) = spaced 32 (if lead = [] then ws else cutFirst ws) :=
  normLoop_eq _ 32 (by simpa using hl) h

theorem C48_blank (xs : Bytes) (h : ∀ x ∈ xs, x ≤ 32) : normSpace xs = [] :=
  normLoop_trail _ 32 xs [] false (by simpa using h)

theorem C48_idempotent (xs : Bytes) : normSpace (normSpace xs) = normSpace xs := normLoop_idem _ 32 (by decide) xs

/-- The hypotheses cover every value. -/
theorem C48_cover (xs : Bytes) : (∀ x ∈ xs, x ≤ 32) ∨ ∃ lead ws ys, xs = lead ++ ys ∧ (∀ x ∈ lead, x ≤ 32) ∧
    Laid (fun x : UInt8 => decide (x ≤ 32)) ws ys := by
  simpa using laid_exists (fun x : UInt8 => decide (x ≤ 32)) xs

/-- The same for the Unicode version, of the characters. -/
theorem C48_utf8_partial (o : TransOps) (src : Bytes) (lead xs : List Char) (ws : List (List Char))
    (e : o.chars src = lead ++ xs) (hl : ∀ c ∈ lead, (o.space c || c == '�') = true)
    (h : Laid (fun c => o.space c || c == '�') ws xs) :
    normSpaceUtf8 o src = o.encode (spaced ' ' (if lead = [] then ws else cutFirst ws)) := by
  unfold normSpaceUtf8; rw [e, normLoop_eq _ ' ' hl h]

theorem C48_utf8_idempotent (o : TransOps) (hr : ∀ l, o.chars (o.encode l) = l) (hs : o.space ' ' = true) (src : Bytes) :
    normSpaceUtf8 o (normSpaceUtf8 o src) = normSpaceUtf8 o src := by
  unfold normSpaceUtf8; rw [hr, normLoop_idem _ ' ' (by simp [hs])]

/-- Characters that are bytes, and no Unicode. -/
def TransOps.plain : TransOps :=
  ⟨fun b => b.map fun c => Char.ofNat c.toNat, fun l => l.map fun c => UInt8.ofNat c.toNat, fun c => [c.toLower],
    fun c => [c.toUpper], Char.isWhitespace⟩

example : normSpace (ascii "  ab  cd ") = ascii "a b cd" := by decide
example : normSpace (ascii "ab  cd ") = ascii "ab cd" := by decide
example : Laid (fun x : UInt8 => decide (x ≤ 32)) [ascii "ab", ascii "cd"] (ascii "ab  cd ") :=
  Laid.cons (ascii "ab") [32, 32] [ascii "cd"] (ascii "cd ") (by decide) (by decide) (by decide) (by decide)
    (Laid.last (ascii "cd") [32] (by decide) (by decide) (by decide))

/-! ## Lists -/

theorem transLoop_eq (o : TransOps) (src : Bytes) (v : List Trans) (i : Nat) (t1 t2 : Bytes) :
    ((transLoop o src v (i + 1) t1 t2 (decide (i % 2 = 0))).bind fun r => .ok (if r.2.2 then r.1 else r.2.1)) =
      pipeline (v.map (Trans.apply o)) (if i % 2 = 0 then t1 else t2) := by
  induction v generalizing i t1 t2 with
  | nil =>
    by_cases h : i % 2 = 0 <;> simp [transLoop, pipeline, h]
  | cons x v ih =>
    by_cases h : i % 2 = 0
    · have h1 : ¬ (i + 1) % 2 = 0 := by omega
      simp only [transLoop, List.map_cons, pipeline, h, if_true, h1, if_false, Nat.add_one_ne_zero]
      cases e : x.apply o t1 with
      | ok t =>
        have := ih (i + 1) t1 t
        simp only [h1, decide_false, if_false] at this
        simpa using this
      | err => rfl
      | panic => rfl
    · have h1 : (i + 1) % 2 = 0 := by omega
      simp only [transLoop, List.map_cons, pipeline, h, h1, if_true, if_false, Nat.add_one_ne_zero]
      cases e : x.apply o t2 with
      | ok t =>
        have := ih (i + 1) t t2
        simp only [h1, decide_true, if_true] at this
        simpa using this
      | err => rfl
      | panic => rfl

/-- C49 in full: whatever the buffers held. -/
def C49_statement : Prop :=
  ∀ (o : TransOps) (v : List Trans) (tmp1 tmp2 src : Bytes),
    transList o v tmp1 tmp2 src = pipeline (v.map (Trans.apply o)) src

/-- A list without transforms gives what its first buffer held, not the value: on a fresh list, nothing. -/
theorem C49_refuted : ¬ C49_statement := by
  intro h
  exact absurd (h TransOps.plain [] [] [] [97]) (by decide)

/-- C49 for every list with a transform in it. -/
theorem C49_compose_partial (o : TransOps) (v : List Trans) (tmp1 tmp2 src : Bytes) (h : v ≠ []) :
    transList o v tmp1 tmp2 src = pipeline (v.map (Trans.apply o)) src := by
  cases v with
  | nil => exact absurd rfl h
  | cons x v =>
    simp only [transList, transLoop, List.map_cons, pipeline, if_true]
    cases e : x.apply o src with
    | ok t =>
      have := transLoop_eq o src v 0 t tmp2
      simpa using this
    | err => rfl
    | panic => rfl

theorem C49_empty (o : TransOps) (tmp1 tmp2 src : Bytes) : transList o [] tmp1 tmp2 src = .ok tmp1 := rfl

theorem transMakeAll_length (known : Bool) (xs : List Bytes) (v : List Trans) (h : transMakeAll known xs = .ok v) :
    v.length = xs.length := by
  induction xs generalizing known v with
  | nil => simp only [transMakeAll, Res.ok.injEq] at h; subst h; rfl
  | cons x xs ih =>
    simp only [transMakeAll] at h
    obtain ⟨t, _, h⟩ := Res.bind_eq_ok h
    obtain ⟨ts, h2, e⟩ := Res.bind_eq_ok h
    simp only [Res.ok.injEq] at e
    subst e
    simp [ih true ts h2]

/-- No specification makes an empty list. -/
theorem C49_spec_nonempty (known : Bool) (spec : Bytes) (v : List Trans) (h : transListNew known spec = .ok v) : v ≠ [] := by
  intro e
  have := transMakeAll_length _ _ _ h
  rw [e] at this
  exact sliceSplit_ne_nil 43 spec (List.length_eq_zero_iff.1 this.symm)

/-- So what a specification makes of values is its transforms, one after the other, on every value. -/
theorem C49_spec (o : TransOps) (known : Bool) (spec : Bytes) (v : List Trans) (h : transListNew known spec = .ok v)
    (tmp1 tmp2 src : Bytes) : transList o v tmp1 tmp2 src = pipeline (v.map (Trans.apply o)) src :=
  C49_compose_partial o v tmp1 tmp2 src (C49_spec_nonempty known spec v h)

example : transListNew false (ascii "upper+bytes,1-2+to_base64") = .ok [.upper, .bytes [⟨0, 2⟩], .toBase64] := by
  decide +kernel
example : transList TransOps.plain [.upper, .bytes [⟨0, 2⟩], .toBase64] [1] [2] (ascii "abc") = .ok (ascii "QUI=") := by
  decide +kernel

/-! ## Base64 -/

theorem b64Val_char : ∀ n, n < 64 → b64Val (b64Char n) = some n := by decide +kernel

theorem b64Char_ne_pad : ∀ n, n < 64 → b64Char n ≠ 61 := by decide +kernel

theorem b64Val_lt (c : UInt8) (n : Nat) (h : b64Val c = some n) : n < 64 ∧ b64Char n = c := by
  have := byte_forall (P := fun c => ∀ n ∈ b64Val c, n < 64 ∧ b64Char n = c) (by decide +kernel) c
  exact this n h

theorem b64Decode_encode (v : Bytes) : b64Decode (b64Encode v) = some v := by
  induction v using b64Encode.induct with
  | case1 => rfl
  | case2 a =>
    have ha := a.toNat_lt
    simp only [b64Encode, b64Decode, b64Val_char _ (show a.toNat / 4 < 64 by omega),
      b64Val_char _ (show a.toNat % 4 * 16 < 64 by omega), and_self, if_true, b64Group]
    rw [if_pos (by omega)]
    congr 2
    rw [← UInt8.toNat_inj, UInt8.toNat_ofNat']
    omega
  | case3 a b =>
    have ha := a.toNat_lt
    have hb := b.toNat_lt
    simp only [b64Encode, b64Decode, b64Val_char _ (show a.toNat / 4 < 64 by omega),
      b64Val_char _ (show a.toNat % 4 * 16 + b.toNat / 16 < 64 by omega), and_self, if_true,
      b64Char_ne_pad _ (show b.toNat % 16 * 4 < 64 by omega), if_false,
      b64Val_char _ (show b.toNat % 16 * 4 < 64 by omega), b64Group]
    rw [if_pos (by omega)]
    congr 2
    · rw [← UInt8.toNat_inj, UInt8.toNat_ofNat']
      omega
    · congr 1
      rw [← UInt8.toNat_inj, UInt8.toNat_ofNat']
      omega
  | case4 a b c rest ih =>
    have ha := a.toNat_lt
    have hb := b.toNat_lt
    have hc := c.toNat_lt
    simp only [b64Encode, b64Decode, b64Val_char _ (show a.toNat / 4 < 64 by omega),
      b64Val_char _ (show a.toNat % 4 * 16 + b.toNat / 16 < 64 by omega),
      b64Char_ne_pad _ (show c.toNat % 64 < 64 by omega), false_and, if_false,
      b64Val_char _ (show b.toNat % 16 * 4 + c.toNat / 64 < 64 by omega),
      b64Val_char _ (show c.toNat % 64 < 64 by omega), b64Group, ih]
    congr 1
    simp only [List.cons_append, List.nil_append]
    congr 1
    · rw [← UInt8.toNat_inj, UInt8.toNat_ofNat']
      omega
    · congr 1
      · rw [← UInt8.toNat_inj, UInt8.toNat_ofNat']
        omega
      · congr 1
        rw [← UInt8.toNat_inj, UInt8.toNat_ofNat']
        omega

theorem b64Encode_length (v : Bytes) : (b64Encode v).length = (v.length + 2) / 3 * 4 := by
  induction v using b64Encode.induct with
  | case1 => rfl
  | case2 a => simp [b64Encode]
  | case3 a b => simp [b64Encode]
  | case4 a b c rest ih =>
    simp only [b64Encode, List.length_cons, ih]
    omega

theorem b64_byte (n : Nat) (h : n < 256) : (UInt8.ofNat n).toNat = n := by
  rw [UInt8.toNat_ofNat']; omega

theorem b64Encode_decode : ∀ s v : Bytes, b64Decode s = some v → s = b64Encode v
  | [], v, h => by simp only [b64Decode, Option.some.injEq] at h; subst h; rfl
  | [_], v, h => by simp [b64Decode] at h
  | [_, _], v, h => by simp [b64Decode] at h
  | [_, _, _], v, h => by simp [b64Decode] at h
  | w :: x :: y :: z :: rest, v, h => by
    cases hw : b64Val w with
    | none => simp [b64Decode, hw] at h
    | some wv =>
    cases hx : b64Val x with
    | none => simp [b64Decode, hw, hx] at h
    | some xv =>
    obtain ⟨w1, w2⟩ := b64Val_lt _ _ hw
    obtain ⟨x1, x2⟩ := b64Val_lt _ _ hx
    by_cases hz : z = 61 ∧ rest = []
    · by_cases hy : y = 61
      · simp only [b64Decode, hw, hx, hz, and_self, if_true, hy, b64Group] at h
        split at h
        · simp only [Option.some.injEq] at h
          subst h
          obtain ⟨rfl, rfl⟩ := hz
          rw [b64Encode, b64_byte _ (by omega), show (wv * 4 + xv / 16) / 4 = wv by omega,
            show (wv * 4 + xv / 16) % 4 * 16 = xv by omega, w2, x2, hy]
        · exact absurd h (by simp)
      · cases hyv : b64Val y with
        | none => simp [b64Decode, hw, hx, hz, hy, hyv] at h
        | some yv =>
        obtain ⟨y1, y2⟩ := b64Val_lt _ _ hyv
        simp only [b64Decode, hw, hx, hz, and_self, if_true, hy, if_false, hyv, b64Group] at h
        split at h
        · simp only [Option.some.injEq] at h
          subst h
          obtain ⟨rfl, rfl⟩ := hz
          rw [b64Encode, b64_byte _ (by omega), b64_byte _ (by omega), show (wv * 4 + xv / 16) / 4 = wv by omega,
            show (wv * 4 + xv / 16) % 4 * 16 + (xv % 16 * 16 + yv / 4) / 16 = xv by omega,
            show (xv % 16 * 16 + yv / 4) % 16 * 4 = yv by omega, w2, x2, y2]
        · exact absurd h (by simp)
    · cases hyv : b64Val y with
      | none => simp [b64Decode, hw, hx, hz, hyv] at h
      | some yv =>
      cases hzv : b64Val z with
      | none => simp [b64Decode, hw, hx, hz, hyv, hzv] at h
      | some zv =>
      obtain ⟨y1, y2⟩ := b64Val_lt _ _ hyv
      obtain ⟨z1, z2⟩ := b64Val_lt _ _ hzv
      cases hr : b64Decode rest with
      | none => simp [b64Decode, hw, hx, hz, hyv, hzv, hr, b64Group] at h
      | some r =>
      simp only [b64Decode, hw, hx, hz, hyv, hzv, hr, b64Group, if_false, Option.some.injEq] at h
      subst h
      have ih := b64Encode_decode rest r hr
      simp only [List.cons_append, List.nil_append]
      rw [b64Encode, b64_byte _ (by omega), b64_byte _ (by omega), b64_byte _ (by omega),
        show (wv * 4 + xv / 16) / 4 = wv by omega,
        show (wv * 4 + xv / 16) % 4 * 16 + (xv % 16 * 16 + yv / 4) / 16 = xv by omega,
        show (xv % 16 * 16 + yv / 4) % 16 * 4 + (yv % 4 * 64 + zv) / 64 = yv by omega,
        show (yv % 4 * 64 + zv) % 64 = zv by omega, w2, x2, y2, z2, ← ih]

/-- C81: encoding never fails, for want of room or otherwise. -/
theorem C81_encode_total (o : TransOps) (src : Bytes) : ∃ v, Trans.toBase64.apply o src = .ok v := by
  refine ⟨b64Encode src, ?_⟩
  simp only [Trans.apply, b64Encode_length]
  rw [if_pos (by omega)]

/-- C81: a text decodes to a value exactly if the value encodes to that text: decoding undoes encoding, distinct values have
distinct encodings, and nothing else is accepted. -/
theorem C81_inverse (o : TransOps) (src dst : Bytes) :
    Trans.fromBase64.apply o src = .ok dst ↔ Trans.toBase64.apply o dst = .ok src := by
  have e : Trans.toBase64.apply o dst = .ok (b64Encode dst) := by
    simp only [Trans.apply, b64Encode_length]
    rw [if_pos (by omega)]
  rw [e, Res.ok.injEq]
  constructor
  · intro h
    simp only [Trans.apply] at h
    cases hd : b64Decode src with
    | none => simp [hd] at h
    | some v =>
      simp only [hd, Res.ok.injEq] at h
      subst h
      exact (b64Encode_decode src v hd).symm
  · intro h
    subst h
    simp [Trans.apply, b64Decode_encode]

/-- The characters base64 texts are made of, from RFC 4648. -/
def IsB64 (c : UInt8) : Prop := (65 ≤ c ∧ c ≤ 90) ∨ (97 ≤ c ∧ c ≤ 122) ∨ (48 ≤ c ∧ c ≤ 57) ∨ c = 43 ∨ c = 47 ∨ c = 61

theorem b64Char_is : ∀ n, n < 64 → IsB64 (b64Char n) := by unfold IsB64; decide +kernel

/-- C81: an encoded value holds letters, digits, `+`, `/` and `=` only, in groups of four, so no tab or newline. -/
theorem C81_shape (o : TransOps) (src dst : Bytes) (h : Trans.toBase64.apply o src = .ok dst) :
    dst.length = (src.length + 2) / 3 * 4 ∧ ∀ c ∈ dst, IsB64 c := by
  have e : Trans.toBase64.apply o src = .ok (b64Encode src) := by
    simp only [Trans.apply, b64Encode_length]
    rw [if_pos (by omega)]
  rw [e, Res.ok.injEq] at h
  subst h
  refine ⟨b64Encode_length src, ?_⟩
  clear e
  have hp : IsB64 61 := by simp [IsB64]
  induction src using b64Encode.induct with
  | case1 => simp [b64Encode]
  | case2 a =>
    have ha := a.toNat_lt
    simp only [b64Encode, List.forall_mem_cons]
    exact ⟨b64Char_is _ (by omega), b64Char_is _ (by omega), hp, hp, by simp⟩
  | case3 a b =>
    have ha := a.toNat_lt
    have hb := b.toNat_lt
    simp only [b64Encode, List.forall_mem_cons]
    exact ⟨b64Char_is _ (by omega), b64Char_is _ (by omega), b64Char_is _ (by omega), hp, by simp⟩
  | case4 a b c rest ih =>
    have ha := a.toNat_lt
    have hb := b.toNat_lt
    have hc := c.toNat_lt
    simp only [b64Encode, List.forall_mem_cons]
    exact ⟨b64Char_is _ (by omega), b64Char_is _ (by omega), b64Char_is _ (by omega), b64Char_is _ (by omega), ih⟩

example : Trans.toBase64.apply TransOps.plain (ascii "light wor") = .ok (ascii "bGlnaHQgd29y") := by decide +kernel
example : Trans.fromBase64.apply TransOps.plain (ascii "bGlnaHQgdw==") = .ok (ascii "light w") := by decide +kernel
example : Trans.fromBase64.apply TransOps.plain (ascii "bGlnaHQgdx==") = .err := by decide +kernel

/-! ## Specifications -/

/-- C82 in full: the other names of `lower` and `upper` mean the same wherever they are used. -/
def C82_statement : Prop :=
  ∀ known, transMake known (ascii "lowercase") = transMake known (ascii "lower") ∧
    transMake known (ascii "uppercase") = transMake known (ascii "upper")

/-- If it is the first transform of the program, `lowercase` is unknown: the table of aliases is filled only after it has
been looked at. -/
theorem C82_refuted : ¬ C82_statement := by
  intro h
  exact absurd (h false).1 (by decide +kernel)

/-- The words of a name, other than `utf8`, with the meaning of the last one. -/
def DottedName (names : List Bytes) (utf8 : Bool) (kind : Bytes) : Prop :=
  (utf8 = true ↔ ∃ x ∈ names, eqIgnoreCase x (ascii "utf8") = true) ∧
  ∃ a b, names = a ++ kind :: b ∧ eqIgnoreCase kind (ascii "utf8") = false ∧
    ∀ x ∈ b, eqIgnoreCase x (ascii "utf8") = true

theorem transWords_append (a b : List Bytes) (u : Bool) (k : Bytes) :
    transWords (a ++ b) u k = transWords b (transWords a u k).1 (transWords a u k).2 := by
  induction a generalizing u k with
  | nil => rfl
  | cons x a ih => simp only [List.cons_append, transWords]; split <;> exact ih _ _

theorem transWords_utf8 (names : List Bytes) (u : Bool) (k : Bytes) :
    (transWords names u k).1 = true ↔ u = true ∨ ∃ x ∈ names, eqIgnoreCase x (ascii "utf8") = true := by
  induction names generalizing u k with
  | nil => simp [transWords]
  | cons x a ih =>
    simp only [transWords]
    split
    · rename_i h; rw [ih]; simp [h]
    · rename_i h; rw [ih]; simp [h]

theorem transWords_tail (b : List Bytes) (u : Bool) (k : Bytes) (h : ∀ x ∈ b, eqIgnoreCase x (ascii "utf8") = true) :
    (transWords b u k).2 = k := by
  induction b generalizing u with
  | nil => rfl
  | cons x b ih =>
    simp only [transWords, h x (List.mem_cons_self ..), if_true]
    exact ih true fun y hy => h y (List.mem_cons_of_mem _ hy)

theorem transWords_name (names : List Bytes) (utf8 : Bool) (kind : Bytes) (h : DottedName names utf8 kind) :
    transWords names false [] = (utf8, kind) := by
  obtain ⟨h1, a, b, e, hk, hb⟩ := h
  apply Prod.ext
  · have := transWords_utf8 names false []
    simp only [Bool.false_eq_true, false_or] at this
    rw [← h1] at this
    exact Bool.eq_iff_iff.2 this
  · subst e
    rw [transWords_append]
    simp only [transWords, hk, Bool.false_eq_true, if_false]
    exact transWords_tail b _ _ hb

/-- The transforms by name, plain and Unicode. -/
def transTable : List (String × Trans × Trans) :=
  [("lower", .lower, .lowerUtf), ("lowercase", .lower, .lowerUtf), ("upper", .upper, .upperUtf),
    ("uppercase", .upper, .upperUtf), ("normspace", .norm, .normUtf), ("to_base64", .toBase64, .toBase64),
    ("from_base64", .fromBase64, .fromBase64)]

theorem transMake_dotted (known : Bool) (name pattern : Bytes) (utf8 : Bool) (kind : Bytes) (hn : name ≠ []) (hc : 44 ∉ name)
    (h : DottedName (sliceSplit 46 name) utf8 kind) :
    transMake known (name ++ 44 :: pattern) = transBox (transAlias known kind) utf8 pattern := by
  simp only [transMake, splitOnce_some 44 name pattern hc, transMake2, hn, if_false, transWords_name _ _ _ h]

/-- C82 but for the first transform: once the table is filled, a dotted name means the transform of its last word other than
`utf8`, in the Unicode version exactly if `utf8` is among the words, and `lowercase` and `uppercase` are `lower` and
`upper`. -/
theorem C82_alias_partial (name pattern : Bytes) (utf8 : Bool) (kind : String) (t u : Trans) (hn : name ≠ []) (hc : 44 ∉ name)
    (h : DottedName (sliceSplit 46 name) utf8 (ascii kind)) (ht : (kind, t, u) ∈ transTable) :
    transMake true (name ++ 44 :: pattern) = .ok (if utf8 then u else t) := by
  rw [transMake_dotted true name pattern utf8 _ hn hc h]
  simp only [transTable, List.mem_cons, Prod.mk.injEq, List.not_mem_nil, or_false] at ht
  rcases ht with ⟨rfl, rfl, rfl⟩ | ⟨rfl, rfl, rfl⟩ | ⟨rfl, rfl, rfl⟩ | ⟨rfl, rfl, rfl⟩ | ⟨rfl, rfl, rfl⟩ | ⟨rfl, rfl, rfl⟩ |
    ⟨rfl, rfl, rfl⟩ <;> cases utf8 <;> rfl

/-- `bytes` takes the pattern as its list of ranges. -/
theorem C82_bytes (known : Bool) (name pattern : Bytes) (utf8 : Bool) (hn : name ≠ []) (hc : 44 ∉ name)
    (h : DottedName (sliceSplit 46 name) utf8 (ascii "bytes")) (v : List Slice) :
    transMake known (name ++ 44 :: pattern) = .ok (.bytes v) ↔ bytesTransNew (sliceSplit 44 pattern) = .ok v := by
  rw [transMake_dotted known name pattern utf8 _ hn hc h]
  have : transBox (transAlias known (ascii "bytes")) utf8 pattern =
      (bytesTransNew (sliceSplit 44 pattern)).bind fun v => .ok (.bytes v) := by cases known <;> rfl
  rw [this]
  cases bytesTransNew (sliceSplit 44 pattern) <;> simp [Res.bind]

/-- Any other name is an error. -/
theorem C82_unknown (known : Bool) (name pattern : Bytes) (utf8 : Bool) (kind : Bytes) (hn : name ≠ []) (hc : 44 ∉ name)
    (h : DottedName (sliceSplit 46 name) utf8 kind) (hk : ∀ e ∈ transTable, kind ≠ ascii e.1) (hb : kind ≠ ascii "bytes") :
    transMake known (name ++ 44 :: pattern) = .err := by
  rw [transMake_dotted known name pattern utf8 _ hn hc h]
  simp only [transTable, List.forall_mem_cons] at hk
  obtain ⟨h1, h2, h3, h4, h5, h6, h7, _⟩ := hk
  simp [transBox, transAlias, h1, h2, h3, h4, h5, h6, h7, hb]

/-- The first transform of the program means the same, unless it uses one of the aliases, which is then an error. -/
theorem C82_first (name pattern : Bytes) (utf8 : Bool) (kind : Bytes) (hn : name ≠ []) (hc : 44 ∉ name)
    (h : DottedName (sliceSplit 46 name) utf8 kind) :
    transMake false (name ++ 44 :: pattern) =
      if kind = ascii "lowercase" ∨ kind = ascii "uppercase" then .err
      else transMake true (name ++ 44 :: pattern) := by
  simp only [transMake, splitOnce_some 44 name pattern hc, transMake2, hn, if_false,
    transWords_name _ _ _ h, transAlias, if_true, Bool.false_eq_true]
  by_cases h1 : kind = ascii "lowercase"
  · subst h1; simp only [true_or, if_true]; rfl
  · by_cases h2 : kind = ascii "uppercase"
    · subst h2; simp only [or_true, if_true]; rfl
    · simp [h1, h2]

example : DottedName (sliceSplit 46 (ascii "UTF8.lowercase")) true (ascii "lowercase") :=
  ⟨by decide, [ascii "UTF8"], [], by decide, by decide, by simp⟩

theorem transMakeAll_iff (known : Bool) (specs : List Bytes) (v : List Trans) :
    transMakeAll known specs = .ok v ↔ v.length = specs.length ∧
      ∀ (i : Nat) s t, specs[i]? = some s → v[i]? = some t → transMake (known || decide (0 < i)) s = .ok t := by
  induction specs generalizing known v with
  | nil =>
    simp only [transMakeAll, Res.ok.injEq, List.length_nil, List.length_eq_zero_iff]
    exact ⟨fun h => ⟨h.symm, by simp⟩, fun h => h.1.symm⟩
  | cons x xs ih =>
    constructor
    · intro h
      simp only [transMakeAll] at h
      obtain ⟨t, h1, h⟩ := Res.bind_eq_ok h
      obtain ⟨ts, h2, e⟩ := Res.bind_eq_ok h
      simp only [Res.ok.injEq] at e
      subst e
      obtain ⟨a, b⟩ := (ih true ts).1 h2
      refine ⟨by simp [a], ?_⟩
      intro i s t' hs ht
      cases i with
      | zero => simp only [List.getElem?_cons_zero, Option.some.injEq] at hs ht; subst hs ht; simpa using h1
      | succ i => simpa using b i s t' (by simpa using hs) (by simpa using ht)
    · rintro ⟨a, b⟩
      cases v with
      | nil => simp at a
      | cons t ts =>
        have h1 : transMake known x = .ok t := by simpa using b 0 x t (by simp) (by simp)
        have h2 : transMakeAll true xs = .ok ts := by
          refine (ih true ts).2 ⟨by simpa using a, ?_⟩
          intro i s t' hs ht
          simpa using b (i + 1) s t' (by simpa using hs) (by simpa using ht)
        simp only [transMakeAll, h1, Res.bind, h2]

/-- A list of specifications becomes the list of their transforms, in order; only the first is made before the table of
aliases is filled. -/
theorem C82_list (known : Bool) (specs : List Bytes) (hne : specs ≠ []) (h : ∀ s ∈ specs, 43 ∉ s) (v : List Trans) :
    transListNew known (List.intercalate [43] specs) = .ok v ↔ v.length = specs.length ∧
      ∀ (i : Nat) s t, specs[i]? = some s → v[i]? = some t → transMake (known || decide (0 < i)) s = .ok t := by
  simp only [transListNew, sliceSplit_intercalate 43 specs hne h]
  exact transMakeAll_iff known specs v

theorem transMake_known (spec : Bytes) (known : Bool) (t : Trans) (h : transMake known spec = .ok t) :
    transMake true spec = .ok t := by
  cases known with
  | true => exact h
  | false =>
    have key : ∀ name pattern, transMake2 false name pattern = .ok t → transMake2 true name pattern = .ok t := by
      intro name pattern h
      unfold transMake2 at h ⊢
      by_cases hn : name = []
      · simpa [hn] using h
      · simp only [hn, if_false, transAlias, Bool.false_eq_true, if_true] at h ⊢
        by_cases h1 : (transWords (sliceSplit 46 name) false []).2 = ascii "lowercase"
        · rw [h1] at h; exact absurd h (by simp +decide [transBox])
        · by_cases h2 : (transWords (sliceSplit 46 name) false []).2 = ascii "uppercase"
          · rw [h2] at h; exact absurd h (by simp +decide [transBox])
          · simpa [h1, h2] using h
    unfold transMake at h ⊢
    cases e : splitOnce 44 spec with
    | none => simp only [e] at h; exact key _ _ h
    | some p => simp only [e] at h; exact key _ _ h

theorem splitOnce_eq (d : UInt8) (s a b : Bytes) (h : splitOnce d s = some (a, b)) : s = a ++ d :: b ∧ d ∉ a := by
  induction s generalizing a with
  | nil => simp [splitOnce] at h
  | cons x s ih =>
    by_cases hx : x = d
    · simp only [splitOnce, hx, if_true, Option.some.injEq, Prod.mk.injEq] at h
      obtain ⟨rfl, rfl⟩ := h
      exact ⟨by simp [hx], by simp⟩
    · simp only [splitOnce, hx, if_false] at h
      cases hs : splitOnce d s with
      | none => simp [hs] at h
      | some p =>
        obtain ⟨p1, p2⟩ := p
        simp only [hs, Option.some.injEq, Prod.mk.injEq] at h
        obtain ⟨rfl, rfl⟩ := h
        obtain ⟨e, hn⟩ := ih p1 hs
        exact ⟨by simp [e], by simp [hn, Ne.symm hx]⟩

/-- C83: cloning a transform never panics and gives the same transform. -/
theorem C83_clone (known : Bool) (spec : Bytes) (t : Trans) (h : transMake known spec = .ok t) :
    transClone spec = .ok t := by
  have h1 := transMake_known spec known t h
  have e : transMake true (transSpec spec) = transMake true spec := by
    unfold transSpec
    cases hs : splitOnce 44 spec with
    | none => rfl
    | some p =>
      obtain ⟨a, b⟩ := p
      obtain ⟨rfl, ha⟩ := splitOnce_eq 44 spec a b hs
      by_cases hb : b = []
      · subst hb
        simp [transMake, splitOnce_none 44 a ha, splitOnce_some 44 a [] ha]
      · simp [hb]
  simp only [transClone, e, h1]

example : transMake false (ascii "utf8.upper,") = .ok .upperUtf ∧ transSpec (ascii "utf8.upper,") = ascii "utf8.upper" := by
  decide +kernel

/-! ## Case -/

/-- The letters of ASCII, the small one first. -/
def Letters (a b : UInt8) : Prop := ∃ n : Nat, n < 26 ∧ a = UInt8.ofNat (97 + n) ∧ b = UInt8.ofNat (65 + n)

/-- C84: `lower` and `upper` change each letter to the other case, nothing else, and keep the length; one undoes the other
wherever it applies. -/
theorem C84_case (o : TransOps) (src : Bytes) : ∃ l u, Trans.lower.apply o src = .ok l ∧ Trans.upper.apply o src = .ok u ∧
    l.length = src.length ∧ u.length = src.length ∧
    ∀ (i : Nat) x y z, src[i]? = some x → l[i]? = some y → u[i]? = some z →
      (Letters y z ∧ (x = y ∨ x = z)) ∨ ((∀ a b, Letters a b → x ≠ a ∧ x ≠ b) ∧ y = x ∧ z = x) := by
  refine ⟨_, _, rfl, rfl, by simp [Cdx.lower], by simp, ?_⟩
  intro i x y z hx hy hz
  simp only [Cdx.lower, List.getElem?_map, hx, Option.map_some, Option.some.injEq] at hy hz
  subst hy hz
  have key := byte_forall (P := fun x => ((∃ n ∈ List.range 26, lowerByte x = UInt8.ofNat (97 + n) ∧ upperByte x = UInt8.ofNat (65 + n)) ∧
      (x = lowerByte x ∨ x = upperByte x)) ∨ ((∀ n ∈ List.range 26, x ≠ UInt8.ofNat (97 + n) ∧ x ≠ UInt8.ofNat (65 + n)) ∧
      lowerByte x = x ∧ upperByte x = x)) (by decide +kernel) x
  rcases key with ⟨⟨n, hn, h1, h2⟩, h3⟩ | ⟨h1, h2, h3⟩
  · exact .inl ⟨⟨n, List.mem_range.1 hn, h1, h2⟩, h3⟩
  · refine .inr ⟨?_, h2, h3⟩
    rintro a b ⟨n, hn, rfl, rfl⟩
    exact h1 n (List.mem_range.2 hn)

example : Letters 97 65 := ⟨0, by decide⟩

end Cdx
