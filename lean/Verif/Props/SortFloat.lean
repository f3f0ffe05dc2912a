import Verif.Props.SortNums
import Verif.Props.FloatNear

/-!
C238: sorting by a column of decimals.
-/

namespace Cdx

/-- The size of a number. -/
def ratSize (q : Rat) : Rat := if q < 0 then -q else q

/-- A decimal without exponent and suffix, at most 300 digits on each side, and its value; the number `-0` is left out. -/
def DecCell (c : Bytes) (q : Rat) : Prop :=
  ∃ p : NumParts, p.WF ∧ p.Plain ∧ p.ds.length ≤ 300 ∧ p.fs.length ≤ 300 ∧ c = p.text ∧ q = p.value ∧ (p.sign = [45] → q ≠ 0)

/-- The order of numbers. -/
def ratOrd (a b : Rat) : Ordering := if a < b then .lt else if a = b then .eq else .gt

/-- The order of rows by the numbers that the cells of a column are given. -/
def nearCmp (near : Bytes → Rat) (names : List Bytes) (col : Bytes) (reverse : Bool) (a b : List Bytes) : Ordering :=
  if reverse then ratOrd (near (cellOf names b col)) (near (cellOf names a col))
  else ratOrd (near (cellOf names a col)) (near (cellOf names b col))

theorem val_lt_iff (x y : F64) : x.val < y.val ↔ x.scaled < y.scaled := by
  refine ⟨val_lt, fun h => ?_⟩
  unfold F64.val
  have hp := natCast_pos pow1074_pos
  generalize ((2 ^ 1074 : Nat) : Rat) = u at *
  rw [Rat.div_def, Rat.div_def]
  exact Rat.mul_lt_mul_of_pos_right (Rat.intCast_lt_intCast.2 h) (Rat.inv_pos.2 hp)

theorem ratOrd_val (x y : F64) : ratOrd x.val y.val = compare x.scaled y.scaled := by
  have h1 := val_lt_iff x y
  have h2 := val_lt_iff y x
  have h3 : x.val = y.val ↔ x.scaled = y.scaled := by
    constructor
    · intro e
      rw [e] at h1 h2
      have a := mt h1.2 (Rat.lt_irrefl)
      have b := mt h2.2 (Rat.lt_irrefl)
      omega
    · intro e
      unfold F64.val
      rw [e]
  rw [compare_int]
  unfold ratOrd
  by_cases h : x.scaled = y.scaled
  · rw [if_neg (by rw [h1]; omega), if_pos (h3.2 h), if_pos h]
  · by_cases h' : x.scaled < y.scaled
    · rw [if_pos (h1.2 h'), if_neg h, if_neg (by omega)]
    · rw [if_neg (mt h1.1 h'), if_neg (mt h3.1 h), if_neg h, if_pos (by omega)]

theorem decCell_double (exp10 : Int → F64) {c : Bytes} {q : Rat} (h : DecCell c q) :
    (lossyF64 exp10 c).Fin ∧ q - ratSize q / ((2 ^ 41 : Nat) : Rat) ≤ (lossyF64 exp10 c).val ∧
      (lossyF64 exp10 c).val ≤ q + ratSize q / ((2 ^ 41 : Nat) : Rat) ∧ ((lossyF64 exp10 c).scaled = 0 → lossyF64 exp10 c = F64.ofNat 0) := by
  obtain ⟨p, hp, hpl, h1, h2, rfl, rfl, hz⟩ := h
  obtain ⟨v, a1, a2, a3, a4, -⟩ := C185_near_partial exp10 p hp hpl h1 h2
  obtain ⟨w, b1, -, b3, b4⟩ := C185_error_partial exp10 p hp hpl h1 h2
  rw [a1, Option.some.injEq, Prod.mk.injEq] at b1
  obtain ⟨rfl, -⟩ := b1
  have e : lossyF64 exp10 p.text = v := by unfold lossyF64 parseF64; rw [a1]; rfl
  have h0 : 0 ≤ p.bare.value := by
    rw [bare_value]
    exact (mant_appr p hp h1 h2).2.2.1
  have hs : ratSize p.value = p.bare.value := by
    unfold ratSize
    rw [a4]
    unfold NumParts.sgn
    split <;> split <;> grind
  rw [e, hs]
  refine ⟨a2, b3, b4, fun h => ?_⟩
  have hv : v.val = 0 := by
    unfold F64.val
    rw [h, Rat.div_def, Rat.intCast_zero, Rat.zero_mul]
  have hf := (Fin_iff v).1 a2
  refine is_zero_pos ⟨hf.1, hf.2, by rw [h, Int.zero_mul]⟩ ?_
  rw [a3, decide_eq_false_iff_not]
  intro hn
  have hne := hz hn
  rw [a4] at hne b4
  unfold NumParts.sgn at hne b4
  rw [if_pos hn] at hne b4
  rw [hv] at b4
  have hc : (1 : Rat) < ((2 ^ 41 : Nat) : Rat) := by
    have : ((1 : Nat) : Rat) < ((2 ^ 41 : Nat) : Rat) := Rat.natCast_lt_natCast.2 (by decide)
    simpa using this
  generalize ((2 ^ 41 : Nat) : Rat) = u at *
  have h5 : p.bare.value / u * u = p.bare.value := by grind
  have h6 : p.bare.value * u ≤ p.bare.value / u * u := Rat.mul_le_mul_of_nonneg_right (by grind) (by grind)
  have h7 : 0 < p.bare.value := by grind
  have h8 : p.bare.value * 1 < p.bare.value * u := Rat.mul_lt_mul_of_pos_left hc h7
  grind

theorem nearCmp_double (exp10 : Int → F64) (names : List Bytes) (col : Bytes) (reverse : Bool) :
    TotalPreorder (nearCmp (fun c => (lossyF64 exp10 c).val) names col reverse) := by
  have h : TotalPreorder fun a b : List Bytes => compare (lossyF64 exp10 (cellOf names a col)).scaled (lossyF64 exp10 (cellOf names b col)).scaled :=
    preorder_int.comap fun r : List Bytes => (lossyF64 exp10 (cellOf names r col)).scaled
  cases reverse with
  | false =>
    have e : nearCmp (fun c => (lossyF64 exp10 c).val) names col false =
        fun a b : List Bytes => compare (lossyF64 exp10 (cellOf names a col)).scaled (lossyF64 exp10 (cellOf names b col)).scaled := by
      funext a b
      simp only [nearCmp, Bool.false_eq_true, if_false, ratOrd_val]
    rw [e]
    exact h
  | true =>
    have e : nearCmp (fun c => (lossyF64 exp10 c).val) names col true =
        fun a b : List Bytes => compare (lossyF64 exp10 (cellOf names b col)).scaled (lossyF64 exp10 (cellOf names a col)).scaled := by
      funext a b
      simp only [nearCmp, if_true, ratOrd_val]
    rw [e]
    exact preorder_swap h

theorem float_agree (exp10 : Int → F64) {names : List Bytes} {col : Bytes} {reverse : Bool} {rows : List (List Bytes)} (hne : names ≠ [])
    (ht : SepTable TAB names.length rows) (hd : ∀ r ∈ rows, ∃ q, DecCell (cellOf names r col) q) :
    ItemsAgree (lossyF64 exp10) [⟨.col .float (fun _ => names.idxOf col), reverse, TAB⟩]
      (fun l r => nearCmp (fun c => (lossyF64 exp10 c).val) names col reverse (lineNames l TAB) (lineNames r TAB))
      fun l => ∃ r ∈ rows, l = askLine r := by
  have hnil : ∀ r ∈ rows, r ≠ [] := by
    intro r hr e
    have := (ht r hr).1
    rw [e] at this
    exact hne (List.length_eq_zero_iff.1 this.symm)
  have hback : ∀ r ∈ rows, lineNames (askLine r) TAB = r := fun r hr => lineNames_row TAB (by decide) r (hnil r hr) (ht r hr).2
  have fine : ∀ r ∈ rows, (lossyF64 exp10 (cellOf names r col)).isNaN = false ∧
      ((lossyF64 exp10 (cellOf names r col)).scaled = 0 → lossyF64 exp10 (cellOf names r col) = F64.ofNat 0) := by
    intro r hr
    obtain ⟨q, hq⟩ := hd r hr
    have := decCell_double exp10 hq
    exact ⟨((Fin_iff _).1 this.1).1, this.2.2.2⟩
  have hlines : ∀ l r : Bytes, (∃ x ∈ rows, l = askLine x) → (∃ x ∈ rows, r = askLine x) →
      compLinesList (lossyF64 exp10) [⟨.col .float (fun _ => names.idxOf col), reverse, TAB⟩] 0 0 l r =
        nearCmp (fun c => (lossyF64 exp10 c).val) names col reverse (lineNames l TAB) (lineNames r TAB) := by
    rintro l r ⟨a, ha, rfl⟩ ⟨b, hb, rfl⟩
    rw [hback a ha, hback b hb]
    have e : LineComp.compLines (lossyF64 exp10) ⟨.col .float (fun _ => names.idxOf col), reverse, TAB⟩ 0 0 (askLine a) (askLine b) =
        nearCmp (fun c => (lossyF64 exp10 c).val) names col reverse a b := by
      simp only [LineComp.compLines, LineComp.inner, getCol_row TAB (by decide) a (hnil a ha) (ht a ha).2,
        getCol_row TAB (by decide) b (hnil b hb) (ht b hb).2]
      change rev reverse (fcmp (lossyF64 exp10 (cellOf names a col)) (lossyF64 exp10 (cellOf names b col))) = _
      rw [fcmp_eq (fine a ha).1 (fine b hb).1]
      cases reverse with
      | false => simp only [rev, nearCmp, Bool.false_eq_true, if_false, ratOrd_val]
      | true => simp only [rev, nearCmp, if_true, ratOrd_val, preorder_int.swap (lossyF64 exp10 (cellOf names b col)).scaled, Ordering.swap_swap]
    simp only [compLinesList, e]
    split <;> simp_all
  have key : ∀ (base : Bytes) (l r : Item), (∃ x ∈ rows, l.get base = askLine x) → (∃ x ∈ rows, r.get base = askLine x) → _ ∧ _ :=
    fun base l r ⟨a, ha, ea⟩ ⟨b, hb, eb⟩ => by
      have cola : itemFloat (lossyF64 exp10) (.col .float fun _ => names.idxOf col) base TAB l = lossyF64 exp10 (cellOf names a col) := by
        simp only [itemFloat, itemCol]
        rw [ea]
        exact congrArg _ (getCol_row TAB (by decide) a (hnil a ha) (ht a ha).2 _)
      have colb : itemFloat (lossyF64 exp10) (.col .float fun _ => names.idxOf col) base TAB r = lossyF64 exp10 (cellOf names b col) := by
        simp only [itemFloat, itemCol]
        rw [eb]
        exact congrArg _ (getCol_row TAB (by decide) b (hnil b hb) (ht b hb).2 _)
      have n1 : (itemFloat (lossyF64 exp10) (.col .float fun _ => names.idxOf col) base TAB l).isNaN = false := by rw [cola]; exact (fine a ha).1
      have n2 : (itemFloat (lossyF64 exp10) (.col .float fun _ => names.idxOf col) base TAB r).isNaN = false := by rw [colb]; exact (fine b hb).1
      have hz : ¬ ((itemFloat (lossyF64 exp10) (.col .float fun _ => names.idxOf col) base TAB l).scaled = 0 ∧
          (itemFloat (lossyF64 exp10) (.col .float fun _ => names.idxOf col) base TAB r).scaled = 0) ∨
          itemFloat (lossyF64 exp10) (.col .float fun _ => names.idxOf col) base TAB l =
            itemFloat (lossyF64 exp10) (.col .float fun _ => names.idxOf col) base TAB r := by
        rw [cola, colb]
        by_cases h : (lossyF64 exp10 (cellOf names a col)).scaled = 0 ∧ (lossyF64 exp10 (cellOf names b col)).scaled = 0
        · right
          rw [(fine a ha).2 h.1, (fine b hb).2 h.2]
        · exact .inl h
      exact ⟨C25_float_partial _ _ reverse TAB base l r (.inl ⟨_, rfl⟩) n1 n2 hz, C25_equal_float_partial _ _ reverse TAB base l r (.inl ⟨_, rfl⟩) n1 n2 hz⟩
  refine ⟨fun base l r _ _ _ hl hr => ?_, fun base l r _ _ _ hl hr => ?_⟩
  · rw [← hlines _ _ hl hr]
    exact C25_list _ _ _ base l r (key base l r hl hr).1
  · rw [← hlines _ _ hl hr]
    rw [← Bool.eq_iff_iff.2 ((C27_equal_agrees _ _ 0 0 (l.get base) (r.get base)).trans beq_iff_eq.symm)]
    exact equalItemsList_list _ _ _ base l r (key base l r hl hr).2

/-! ## C238 -/

theorem float_sort (eval : Bytes → List Bytes → Res (Bytes → F64)) (exp10 : Int → F64) (nameOk : Bytes → Bool) (pick : Nat → List (Nat × Bytes) → Nat)
    (rd : Nat → Nat → Nat) (cap : Nat) (m : TextMode) {os : List SortOpt} {names : List Bytes} {tables : List (List (List Bytes))}
    {col : Bytes} {reverse : Bool} (h : AsksSort names [.col ⟨col, .float, reverse⟩] os) (hcol : col ∈ names)
    (hd : ∀ r ∈ tables.flatten, ∃ q, DecCell (cellOf names r col) q)
    (ht : GoodTable names tables.flatten) (hok : ∀ n ∈ names, nameOk n = true) (htn : tables ≠ [])
    (hcap : 8 < cap) (hlen : (sepText TAB tables.flatten).length < cap) :
    ∃ out, sortMainF eval (lossyF64 exp10) nameOk pick rd cap m os (tables.map fun rows => sepHead TAB names ++ sepText TAB rows) =
        .ok (sepHead TAB names ++ sepText TAB out) ∧
      (SortOpt.unique ∉ os → StableSort (nearCmp (fun c => (lossyF64 exp10 c).val) names col reverse) tables.flatten out) ∧
      (SortOpt.unique ∈ os → UniqueSort (nearCmp (fun c => (lossyF64 exp10 c).val) names col reverse) tables.flatten out) := by
  obtain ⟨t1, t2, t3, t4, t5⟩ := ht
  have hn : SepNames TAB names := ⟨t1, fun n hn => name_free (d := TAB) (by decide) (by decide) (t2 n hn)⟩
  have there : ∀ k ∈ [SortAsk.col ⟨col, .float, reverse⟩], k.There names := by
    intro k hk
    rw [List.mem_singleton.1 hk]
    exact hcol
  have hag := float_agree exp10 (reverse := reverse) t1 t5 hd
  have key : ∀ unique, ∃ out, sortCmd (lossyF64 exp10) nameOk pick rd cap unique
        ([SortAsk.col ⟨col, .float, reverse⟩].map (·.at names fun _ _ => F64.ofNat 0))
        (tables.map fun rows => sepHead TAB names ++ sepText TAB rows) = .ok (sepHead TAB names ++ sepText TAB out) ∧ _ :=
    fun unique => table_sorts (lossyF64 exp10) nameOk pick rd cap unique _ names tables _ (nearCmp_double exp10 names col reverse) hag hn hok htn t5
      hcap hlen
  obtain ⟨out, o1, o2, o3⟩ := key (decide (SortOpt.unique ∈ os))
  refine ⟨out, ?_, fun h => o2 (by simpa using h), fun h => o3 (by simpa using h)⟩
  have first : ∀ f ∈ tables.map (fun rows => sepHead TAB names ++ sepText TAB rows), makeHeader (readUntil NL f).1 = .ok names := by
    intro f hf
    obtain ⟨rows, _, rfl⟩ := List.mem_map.1 hf
    simp only [table_first names hn, makeHeader_sep names hn]
  cases ho : SortOpts.addAll {} os with
  | ok o =>
    rw [sortMainF_plain ho]
    obtain ⟨a1, a2, a3, a4, _⟩ := C139_options os o ho
    obtain ⟨qs, q1, q2, q3⟩ := asks_plain t2 t4 os _ there h.keys.1 h.keys.2 {} o ho
    have e1 : o.merge = false := by rw [a3]; simpa using h.noMerge
    have e2 : o.check = false := by rw [a4, List.any_eq_false]; intro x hx; simp [h.noCheck x hx]
    have e3 : o.sortKeys = qs := by
      rw [SortOpts.sortKeys, q1]
      cases qs with
      | nil => exact absurd (List.length_eq_zero_iff.1 q2.symm) h.some
      | cons q qs => rfl
    simp only [sortMain, ho, Res.run, Run.bind, SortOpts.run, e1, e2, Bool.false_and, Bool.false_eq_true, if_false, e3]
    rw [sortFiles_lookup _ nameOk _ pick rd cap o.unique _ ([SortAsk.col ⟨col, .float, reverse⟩].map (·.at names fun _ _ => F64.ofNat 0)), a2, o1]
    intro f hf _ _
    simp only [first f hf, Res.bind_ok, q3 fun _ _ => F64.ofNat 0]
  | _ =>
    obtain ⟨y, ms, g1, g2, g3, g4, g5, g6⟩ := asks_made t2 t4 os _ there h.keys.1 h.keys.2 h.noCheck h.noMerge {}
    simp only [List.nil_append, Bool.false_or] at g2 g3
    simp only [sortMainF, ho, g1, Res.run, Run.bind, FormulaOpts.run, g4, g5, Bool.or_self, Bool.false_eq_true, if_false, g2, g3]
    rw [sortFiles_lookup _ nameOk _ pick rd cap _ _ ([SortAsk.col ⟨col, .float, reverse⟩].map (·.at names fun _ _ => F64.ofNat 0)), o1]
    intro f hf _ _
    simp only [first f hf, Res.bind_ok, g6 eval (fun _ _ => F64.ofNat 0) (by intro f r hm; simp at hm)]

/-- C238: `sort` by a column of decimals gives each cell a number that is at most one part in `2^41` off, and orders the rows by these numbers, stably;
with `--unique` the first row of each number remains. -/
theorem C238_sort (o : Outside) (s : Sys) (c : Cmd) (hc : c ∈ mainList) (hn : c.name = "sort") (toks : List Tok) (m : TextMode)
    (t : Option TextMode) (os : List SortOpt) (files names : List Bytes) (tables : List (List (List Bytes))) (col : Bytes) (reverse : Bool)
    (h : Says (o.world s) c toks m t (os.map SortOpt.said) files) (hr : Tables (o.world s) s files names tables)
    (hf : AsksSort names [.col ⟨col, .float, reverse⟩] os) (hcol : col ∈ names)
    (hd : ∀ r ∈ tables.flatten, ∃ q, DecCell (cellOf names r col) q) (ht : GoodTable names tables.flatten)
    (hok : ∀ n ∈ names, nameOkBytes o.classes n = true) (htn : tables ≠ []) (hcap : 8 < o.cap) (hlen : (sepText TAB tables.flatten).length < o.cap) :
    ∃ out near, o.run "sort" toks s = .ok { s with stdout := s.stdout ++ (sepHead TAB names ++ sepText TAB out) } ∧
      (∀ v q, DecCell v q → q - ratSize q / ((2 ^ 41 : Nat) : Rat) ≤ near v ∧ near v ≤ q + ratSize q / ((2 ^ 41 : Nat) : Rat)) ∧
      (SortOpt.unique ∉ os → StableSort (nearCmp near names col reverse) tables.flatten out) ∧
      (SortOpt.unique ∈ os → UniqueSort (nearCmp near names col reverse) tables.flatten out) := by
  obtain ⟨r1, r2⟩ := hr.read
  obtain ⟨out, g1, g2⟩ := float_sort (o.keyValue s) o.exp10 (nameOkBytes o.classes) o.pick o.rd o.cap m hf hcol hd ht hok htn hcap hlen
  refine ⟨out, fun c => (lossyF64 o.exp10 c).val, ?_, fun v q hq => ⟨(decCell_double o.exp10 hq).2.1, (decCell_double o.exp10 hq).2.2.1⟩, g2⟩
  unfold Outside.run
  rw [← hn]
  refine run_writes (o.world s) hc (by rw [hn]; decide) (by rw [hn]; decide) h s r1 ?_
  rw [hn]
  unfold World.output
  simp only [if_false, if_true, String.reduceEq, opts_said, Res.run, Run.bind, zip_snd r2]
  exact g1

/-- C238, what follows for the decimals themselves: of two rows of the output, the first does not exceed the second by more than the parts in `2^41` of
both; in reverse the other way round. -/
theorem C238_order {near : Bytes → Rat}
    (hnear : ∀ v q, DecCell v q → q - ratSize q / ((2 ^ 41 : Nat) : Rat) ≤ near v ∧ near v ≤ q + ratSize q / ((2 ^ 41 : Nat) : Rat))
    {names : List Bytes} {col : Bytes} {reverse : Bool} {rows out : List (List Bytes)}
    (h : StableSort (nearCmp near names col reverse) rows out ∨ UniqueSort (nearCmp near names col reverse) rows out) :
    out.Pairwise fun a b => ∀ p q, DecCell (cellOf names a col) p → DecCell (cellOf names b col) q →
      if reverse then q ≤ p + (ratSize p + ratSize q) / ((2 ^ 41 : Nat) : Rat) else p ≤ q + (ratSize p + ratSize q) / ((2 ^ 41 : Nat) : Rat) := by
  have hs : out.Pairwise fun a b => nearCmp near names col reverse a b ≠ .gt := by
    rcases h with h | h
    · exact h.sorted
    · exact h.strict.imp fun h => by rw [h]; simp
  refine hs.imp fun {a b} hab p q hp hq => ?_
  obtain ⟨p1, p2⟩ := hnear _ _ hp
  obtain ⟨q1, q2⟩ := hnear _ _ hq
  unfold nearCmp ratOrd at hab
  generalize near (cellOf names a col) = x at *
  generalize near (cellOf names b col) = y at *
  have hc : (0 : Rat) < ((2 ^ 41 : Nat) : Rat) := natCast_pos (by decide)
  generalize ((2 ^ 41 : Nat) : Rat) = u at *
  cases reverse with
  | false =>
    simp only [Bool.false_eq_true, if_false] at hab ⊢
    have : x ≤ y := by
      by_cases h1 : x < y
      · grind
      · by_cases h2 : x = y
        · grind
        · rw [if_neg h1, if_neg h2] at hab
          exact absurd rfl hab
    grind
  | true =>
    simp only [if_true] at hab ⊢
    have : y ≤ x := by
      by_cases h1 : y < x
      · grind
      · by_cases h2 : y = x
        · grind
        · rw [if_neg h1, if_neg h2] at hab
          exact absurd rfl hab
    grind

/-- Two decimals that are told apart in spite of rounding: by more than one part in `2^41` of each. -/
def FarApart (p q : Rat) : Prop :=
  p + (ratSize p + ratSize q) / ((2 ^ 41 : Nat) : Rat) < q ∨ q + (ratSize p + ratSize q) / ((2 ^ 41 : Nat) : Rat) < p

theorem ratOrd_preorder : TotalPreorder ratOrd := by
  refine ⟨fun a => ?_, fun a b => ?_, fun a b c => ?_⟩
  · simp [ratOrd, Rat.lt_irrefl]
  · unfold ratOrd
    split <;> split <;> (try split) <;> (try split) <;> first | rfl | grind
  · unfold ratOrd
    intro h1 h2
    split at h1 <;> split at h2 <;> split <;> (try split) <;> grind

theorem nearCmp_preorder (near : Bytes → Rat) (names : List Bytes) (col : Bytes) (reverse : Bool) : TotalPreorder (nearCmp near names col reverse) := by
  have h : TotalPreorder fun a b : List Bytes => ratOrd (near (cellOf names a col)) (near (cellOf names b col)) :=
    ratOrd_preorder.comap fun r : List Bytes => near (cellOf names r col)
  cases reverse with
  | false => exact h
  | true => exact preorder_swap h

/-- C238: if cells with different texts are far apart, the rows are sorted by the decimals themselves. -/
theorem C238_exact (o : Outside) (s : Sys) (c : Cmd) (hc : c ∈ mainList) (hn : c.name = "sort") (toks : List Tok) (m : TextMode)
    (t : Option TextMode) (os : List SortOpt) (files names : List Bytes) (tables : List (List (List Bytes))) (col : Bytes) (reverse : Bool)
    (dec : Bytes → Rat) (h : Says (o.world s) c toks m t (os.map SortOpt.said) files) (hr : Tables (o.world s) s files names tables)
    (hf : AsksSort names [.col ⟨col, .float, reverse⟩] os) (hcol : col ∈ names)
    (hd : ∀ r ∈ tables.flatten, DecCell (cellOf names r col) (dec (cellOf names r col)))
    (hfar : ∀ a ∈ tables.flatten, ∀ b ∈ tables.flatten, cellOf names a col = cellOf names b col ∨
      FarApart (dec (cellOf names a col)) (dec (cellOf names b col))) (ht : GoodTable names tables.flatten)
    (hok : ∀ n ∈ names, nameOkBytes o.classes n = true) (htn : tables ≠ []) (hcap : 8 < o.cap) (hlen : (sepText TAB tables.flatten).length < o.cap) :
    ∃ out, o.run "sort" toks s = .ok { s with stdout := s.stdout ++ (sepHead TAB names ++ sepText TAB out) } ∧
      (SortOpt.unique ∉ os → StableSort (nearCmp dec names col reverse) tables.flatten out) ∧
      (SortOpt.unique ∈ os → UniqueSort (nearCmp dec names col reverse) tables.flatten out) := by
  obtain ⟨out, near, g1, g2, g3, g4⟩ := C238_sort o s c hc hn toks m t os files names tables col reverse h hr hf hcol (fun r hr => ⟨_, hd r hr⟩) ht hok
    htn hcap hlen
  have hone : ∀ a ∈ tables.flatten, ∀ b ∈ tables.flatten, ratOrd (near (cellOf names a col)) (near (cellOf names b col)) =
      ratOrd (dec (cellOf names a col)) (dec (cellOf names b col)) := by
    intro a ha b hb
    obtain ⟨p1, p2⟩ := g2 _ _ (hd a ha)
    obtain ⟨q1, q2⟩ := g2 _ _ (hd b hb)
    rcases hfar a ha b hb with e | e
    · rw [e]
      simp [ratOrd, Rat.lt_irrefl]
    · have s1 : 0 ≤ ratSize (dec (cellOf names a col)) := by unfold ratSize; split <;> grind
      have s2 : 0 ≤ ratSize (dec (cellOf names b col)) := by unfold ratSize; split <;> grind
      unfold FarApart at e
      generalize ratSize (dec (cellOf names a col)) = x at *
      generalize ratSize (dec (cellOf names b col)) = y at *
      generalize near (cellOf names a col) = na at *
      generalize near (cellOf names b col) = nb at *
      generalize dec (cellOf names a col) = da at *
      generalize dec (cellOf names b col) = db at *
      have hu : (0 : Rat) < ((2 ^ 41 : Nat) : Rat) := natCast_pos (by decide)
      generalize ((2 ^ 41 : Nat) : Rat) = u at *
      have hx : 0 ≤ x / u := by rw [Rat.div_def]; exact Rat.mul_nonneg s1 (Rat.le_of_lt (Rat.inv_pos.2 hu))
      have hy : 0 ≤ y / u := by rw [Rat.div_def]; exact Rat.mul_nonneg s2 (Rat.le_of_lt (Rat.inv_pos.2 hu))
      have hxy : (x + y) / u = x / u + y / u := by grind
      rw [hxy] at e
      generalize x / u = x' at *
      generalize y / u = y' at *
      unfold ratOrd
      rcases e with e | e
      · rw [if_pos (by grind), if_pos (by grind)]
      · rw [if_neg (by grind), if_neg (by grind), if_neg (by grind), if_neg (by grind)]
  have hag : ∀ a ∈ tables.flatten, ∀ b ∈ tables.flatten, nearCmp near names col reverse (id a) (id b) = nearCmp dec names col reverse a b := by
    intro a ha b hb
    unfold nearCmp
    cases reverse with
    | false => exact hone a ha b hb
    | true => exact hone b hb a ha
  refine ⟨out, g1, fun hu => ?_, fun hu => ?_⟩
  · obtain ⟨out', e, h'⟩ := StableSort.back (nearCmp_preorder near names col reverse) (nearCmp_preorder dec names col reverse) id _ hag out (by
      rw [List.map_id]
      exact g3 hu)
    rw [List.map_id] at e
    rw [e]
    exact h'
  · obtain ⟨out', e, h'⟩ := UniqueSort.back (nearCmp_preorder near names col reverse) (nearCmp_preorder dec names col reverse) id id _ hag
      (fun _ _ => rfl) out (by
      rw [List.map_id]
      exact g4 hu)
    rw [List.map_id] at e
    rw [e]
    exact h'

/-- A table of decimals. -/
def sysDec : Sys :=
  { files := fun n => if n = ascii "t" then some (ascii " CDX\ta\tb\n3.25\tx\n-0.1\ty\n0.0\tz\n") else none
    stdin := [], stdout := ascii ">", stderr := [] }

/-- `cdx sort --key a,float t`: the rows are in the order of the decimals, up to the bound. -/
example : ∃ out near, outside0.run "sort" [.opt "key" (ascii "a,float"), .pos "input_files" (ascii "t")] sysDec =
      .ok { sysDec with stdout := sysDec.stdout ++ (sepHead TAB [ascii "a", ascii "b"] ++ sepText TAB out) } ∧
    StableSort (nearCmp near [ascii "a", ascii "b"] (ascii "a") false)
      [[ascii "3.25", ascii "x"], [ascii "-0.1", ascii "y"], [ascii "0.0", ascii "z"]] out ∧
    DecCell (ascii "-0.1") (-1 / 10) ∧
    out.Pairwise fun a b => ∀ p q, DecCell (cellOf [ascii "a", ascii "b"] a (ascii "a")) p → DecCell (cellOf [ascii "a", ascii "b"] b (ascii "a")) q →
      p ≤ q + (ratSize p + ratSize q) / ((2 ^ 41 : Nat) : Rat) := by
  have d1 : DecCell (ascii "3.25") (325 / 100) :=
    ⟨⟨[], ascii "3", some (ascii "25"), none, none⟩, ⟨.inl rfl, by decide, by decide, by simp, by simp⟩, ⟨rfl, rfl⟩, by decide, by decide, by decide, by
      decide +kernel, by decide⟩
  have d2 : DecCell (ascii "-0.1") (-1 / 10) :=
    ⟨⟨[45], ascii "0", some (ascii "1"), none, none⟩, ⟨.inr (.inr rfl), by decide, by decide, by simp, by simp⟩, ⟨rfl, rfl⟩, by decide, by decide, by decide, by
      decide +kernel, fun _ => by decide +kernel⟩
  have d3 : DecCell (ascii "0.0") 0 :=
    ⟨⟨[], ascii "0", some (ascii "0"), none, none⟩, ⟨.inl rfl, by decide, by decide, by simp, by simp⟩, ⟨rfl, rfl⟩, by decide, by decide, by decide, by
      decide +kernel, by decide⟩
  obtain ⟨out, near, h1, h2, h3, -⟩ := C238_sort outside0 sysDec (cmd0 "sort") (cmd0_mem (by decide +kernel)) (by decide +kernel)
    [.opt "key" (ascii "a,float"), .pos "input_files" (ascii "t")] .default none
    [.key (ascii "a,float")] [ascii "t"] [ascii "a", ascii "b"]
    [[[ascii "3.25", ascii "x"], [ascii "-0.1", ascii "y"], [ascii "0.0", ascii "z"]]] (ascii "a") false
    (says_plain (by decide +kernel) (by decide +kernel) (by decide +kernel) (by decide +kernel) (by decide +kernel))
    (by unfold Tables; decide +kernel)
    ⟨by simp, ⟨rfl, by
      intro x hx
      have : x = (.col ⟨ascii "a", .float, false⟩, ascii "a,float") := by simpa [sortSpecs] using hx
      subst this
      exact ⟨ascii "a", .inl rfl, .inr ⟨ascii "float", by decide +kernel, by decide, by unfold AliasOk; decide +kernel,
          by unfold MethodOf; decide +kernel, by decide +kernel⟩⟩⟩, by decide, by decide⟩
    (by decide) (by
      intro r hr
      simp only [List.flatten_cons, List.flatten_nil, List.append_nil, List.mem_cons, List.not_mem_nil, or_false] at hr
      rcases hr with rfl | rfl | rfl
      · exact ⟨_, d1⟩
      · exact ⟨_, d2⟩
      · exact ⟨_, d3⟩)
    (goodTable_ab (by decide +kernel)) (by decide +kernel) (by simp) (by decide) (by decide +kernel)
  have h4 := h3 (by decide)
  exact ⟨out, near, h1, h4, d2, by simpa using C238_order h2 (.inl h4)⟩

/-- `cdx sort --key a,float t`: the decimals are in order. -/
example : outside0.run "sort" [.opt "key" (ascii "a,float"), .pos "input_files" (ascii "t")] sysDec =
      .ok { sysDec with stdout := ascii "> CDX\ta\tb\n-0.1\ty\n0.0\tz\n3.25\tx\n" } := by
  have d1 : DecCell (ascii "3.25") (325 / 100) :=
    ⟨⟨[], ascii "3", some (ascii "25"), none, none⟩, ⟨.inl rfl, by decide, by decide, by simp, by simp⟩, ⟨rfl, rfl⟩, by decide, by decide, by decide, by
      decide +kernel, by decide⟩
  have d2 : DecCell (ascii "-0.1") (-1 / 10) :=
    ⟨⟨[45], ascii "0", some (ascii "1"), none, none⟩, ⟨.inr (.inr rfl), by decide, by decide, by simp, by simp⟩, ⟨rfl, rfl⟩, by decide, by decide, by decide, by
      decide +kernel, fun _ => by decide +kernel⟩
  have d3 : DecCell (ascii "0.0") 0 :=
    ⟨⟨[], ascii "0", some (ascii "0"), none, none⟩, ⟨.inl rfl, by decide, by decide, by simp, by simp⟩, ⟨rfl, rfl⟩, by decide, by decide, by decide, by
      decide +kernel, by decide⟩
  obtain ⟨out, h1, h2, -⟩ := C238_exact outside0 sysDec (cmd0 "sort") (cmd0_mem (by decide +kernel)) (by decide +kernel)
    [.opt "key" (ascii "a,float"), .pos "input_files" (ascii "t")] .default none
    [.key (ascii "a,float")] [ascii "t"] [ascii "a", ascii "b"]
    [[[ascii "3.25", ascii "x"], [ascii "-0.1", ascii "y"], [ascii "0.0", ascii "z"]]] (ascii "a") false
    (fun c => if c = ascii "3.25" then 325 / 100 else if c = ascii "-0.1" then -1 / 10 else 0)
    (says_plain (by decide +kernel) (by decide +kernel) (by decide +kernel) (by decide +kernel) (by decide +kernel))
    (by unfold Tables; decide +kernel)
    ⟨by simp, ⟨rfl, by
      intro x hx
      have : x = (.col ⟨ascii "a", .float, false⟩, ascii "a,float") := by simpa [sortSpecs] using hx
      subst this
      exact ⟨ascii "a", .inl rfl, .inr ⟨ascii "float", by decide +kernel, by decide, by unfold AliasOk; decide +kernel,
          by unfold MethodOf; decide +kernel, by decide +kernel⟩⟩⟩, by decide, by decide⟩
    (by decide) (by
      intro r hr
      simp only [List.flatten_cons, List.flatten_nil, List.append_nil, List.mem_cons, List.not_mem_nil, or_false] at hr
      rcases hr with rfl | rfl | rfl
      · exact d1
      · exact d2
      · exact d3)
    (by unfold FarApart ratSize; decide +kernel)
    (goodTable_ab (by decide +kernel)) (by decide +kernel) (by simp) (by decide) (by decide +kernel)
  have e := (h2 (by decide)).unique (nearCmp_preorder _ _ _ _) (stableSort_stable (nearCmp_preorder _ _ _ _) _)
  have e' : sysDec.stdout ++ (sepHead TAB [ascii "a", ascii "b"] ++ sepText TAB out) = ascii "> CDX\ta\tb\n-0.1\ty\n0.0\tz\n3.25\tx\n" := by
    rw [e]
    decide +kernel
  rw [h1, e']

end Cdx
