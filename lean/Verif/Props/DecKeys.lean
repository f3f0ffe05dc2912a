import Verif.Props.SortFloat
import Verif.Props.UniqNums

/-!
C242: sorting by a column of decimals and then by further keys.
-/

namespace Cdx

/-- The order of rows by the numbers that the cells of a column are given, and among equals by further keys. -/
def decKeysCmp (near : Bytes → Rat) (names : List Bytes) (col : Bytes) (reverse : Bool) (num : Bytes → Int) (val : WholeFormula → List Bytes → Int)
    (asks : List SortAsk) (a b : List Bytes) : Ordering :=
  (nearCmp near names col reverse a b).then (askCmp names num val asks a b)

theorem decKeysCmp_preorder (near : Bytes → Rat) (names : List Bytes) (col : Bytes) (reverse : Bool) (num : Bytes → Int)
    (val : WholeFormula → List Bytes → Int) (asks : List SortAsk) : TotalPreorder (decKeysCmp near names col reverse num val asks) :=
  (nearCmp_preorder near names col reverse).then (askCmp_preorder names num val asks)

theorem decKeys_agree (exp10 : Int → F64) {names : List Bytes} {col : Bytes} {reverse : Bool} {rows : List (List Bytes)} {asks : List SortAsk}
    {num : Bytes → Int} {val : WholeFormula → List Bytes → Int} {ev : WholeFormula → Bytes → F64} (hne : names ≠ [])
    (ht : SepTable TAB names.length rows) (hd : ∀ r ∈ rows, ∃ q, DecCell (cellOf names r col) q)
    (hfit : ∀ k ∈ asks, k.Fits names num val rows) (hev : EvIs ev val rows asks) :
    ItemsAgree (lossyF64 exp10) (⟨.col .float (fun _ => names.idxOf col), reverse, TAB⟩ :: asks.map (·.at names ev))
      (fun l r => decKeysCmp (fun c => (lossyF64 exp10 c).val) names col reverse num val asks (lineNames l TAB) (lineNames r TAB))
      fun l => ∃ r ∈ rows, l = askLine r := by
  have hnil : ∀ r ∈ rows, r ≠ [] := by
    intro r hr e
    have := (ht r hr).1
    rw [e] at this
    exact hne (List.length_eq_zero_iff.1 this.symm)
  have hback : ∀ r ∈ rows, lineNames (askLine r) TAB = r := fun r hr => lineNames_row TAB (by decide) r (hnil r hr) (ht r hr).2
  have fine : ∀ r ∈ rows, (lossyF64 exp10 (cellOf names r col)).isNaN = false ∧
      ((lossyF64 exp10 (cellOf names r col)).scaled = 0 → lossyF64 exp10 (cellOf names r col) = F64.ofNat 0) := by
    intro r hr
    obtain ⟨q, hq⟩ := hd r hr
    have := decCell_double exp10 hq
    exact ⟨((Fin_iff _).1 this.1).1, this.2.2.2⟩
  have hlines : ∀ l r : Bytes, (∃ x ∈ rows, l = askLine x) → (∃ x ∈ rows, r = askLine x) →
      compLinesList (lossyF64 exp10) (⟨.col .float (fun _ => names.idxOf col), reverse, TAB⟩ :: asks.map (·.at names ev)) 0 0 l r =
        decKeysCmp (fun c => (lossyF64 exp10 c).val) names col reverse num val asks (lineNames l TAB) (lineNames r TAB) := by
    rintro l r ⟨a, ha, rfl⟩ ⟨b, hb, rfl⟩
    rw [hback a ha, hback b hb]
    have e : LineComp.compLines (lossyF64 exp10) ⟨.col .float (fun _ => names.idxOf col), reverse, TAB⟩ 0 0 (askLine a) (askLine b) =
        nearCmp (fun c => (lossyF64 exp10 c).val) names col reverse a b := by
      simp only [LineComp.compLines, LineComp.inner, getCol_row TAB (by decide) a (hnil a ha) (ht a ha).2,
        getCol_row TAB (by decide) b (hnil b hb) (ht b hb).2]
      change rev reverse (fcmp (lossyF64 exp10 (cellOf names a col)) (lossyF64 exp10 (cellOf names b col))) = _
      rw [fcmp_eq (fine a ha).1 (fine b hb).1]
      cases reverse with
      | false => simp only [rev, nearCmp, Bool.false_eq_true, if_false, ratOrd_val]
      | true => simp only [rev, nearCmp, if_true, ratOrd_val, preorder_int.swap (lossyF64 exp10 (cellOf names b col)).scaled, Ordering.swap_swap]
    simp only [compLinesList, e, asks_lines exp10 hne ht ha hb hfit hev, decKeysCmp]
    cases nearCmp (fun c => (lossyF64 exp10 c).val) names col reverse a b <;> rfl
  have key : ∀ (base : Bytes) (l r : Item), (∃ x ∈ rows, l.get base = askLine x) → (∃ x ∈ rows, r.get base = askLine x) → _ ∧ _ :=
    fun base l r ⟨a, ha, ea⟩ ⟨b, hb, eb⟩ => by
      have cola : itemFloat (lossyF64 exp10) (.col .float fun _ => names.idxOf col) base TAB l = lossyF64 exp10 (cellOf names a col) := by
        simp only [itemFloat, itemCol]
        rw [ea]
        exact congrArg _ (getCol_row TAB (by decide) a (hnil a ha) (ht a ha).2 _)
      have colb : itemFloat (lossyF64 exp10) (.col .float fun _ => names.idxOf col) base TAB r = lossyF64 exp10 (cellOf names b col) := by
        simp only [itemFloat, itemCol]
        rw [eb]
        exact congrArg _ (getCol_row TAB (by decide) b (hnil b hb) (ht b hb).2 _)
      have n1 : (itemFloat (lossyF64 exp10) (.col .float fun _ => names.idxOf col) base TAB l).isNaN = false := by rw [cola]; exact (fine a ha).1
      have n2 : (itemFloat (lossyF64 exp10) (.col .float fun _ => names.idxOf col) base TAB r).isNaN = false := by rw [colb]; exact (fine b hb).1
      have hz : ¬ ((itemFloat (lossyF64 exp10) (.col .float fun _ => names.idxOf col) base TAB l).scaled = 0 ∧
          (itemFloat (lossyF64 exp10) (.col .float fun _ => names.idxOf col) base TAB r).scaled = 0) ∨
          itemFloat (lossyF64 exp10) (.col .float fun _ => names.idxOf col) base TAB l =
            itemFloat (lossyF64 exp10) (.col .float fun _ => names.idxOf col) base TAB r := by
        rw [cola, colb]
        by_cases h : (lossyF64 exp10 (cellOf names a col)).scaled = 0 ∧ (lossyF64 exp10 (cellOf names b col)).scaled = 0
        · right
          rw [(fine a ha).2 h.1, (fine b hb).2 h.2]
        · exact .inl h
      exact ⟨C25_float_partial _ _ reverse TAB base l r (.inl ⟨_, rfl⟩) n1 n2 hz, C25_equal_float_partial _ _ reverse TAB base l r (.inl ⟨_, rfl⟩) n1 n2 hz⟩
  refine ⟨fun base l r _ _ _ hl hr => ?_, fun base l r _ _ _ hl hr => ?_⟩
  · rw [← hlines _ _ hl hr]
    exact C25_list _ _ _ base l r (key base l r hl hr).1
  · rw [← hlines _ _ hl hr]
    rw [← Bool.eq_iff_iff.2 ((C27_equal_agrees _ _ 0 0 (l.get base) (r.get base)).trans beq_iff_eq.symm)]
    exact equalItemsList_list _ _ _ base l r (key base l r hl hr).2

/-! ## C242 -/

theorem decKeys_sort (eval : Bytes → List Bytes → Res (Bytes → F64)) (exp10 : Int → F64) (nameOk : Bytes → Bool) (pick : Nat → List (Nat × Bytes) → Nat)
    (rd : Nat → Nat → Nat) (cap : Nat) (m : TextMode) {os : List SortOpt} {names : List Bytes} {tables : List (List (List Bytes))}
    {col : Bytes} {reverse : Bool} {asks : List SortAsk} {num : Bytes → Int} {val : WholeFormula → List Bytes → Int} {ev : WholeFormula → Bytes → F64}
    (h : AsksSort names (.col ⟨col, .float, reverse⟩ :: asks) os) (hcol : col ∈ names) (hfit : ∀ k ∈ asks, k.Fits names num val tables.flatten)
    (hev : EvIs ev val tables.flatten asks) (heval : ∀ f r, SortAsk.formula f r ∈ asks → eval f.text names = .ok (ev f))
    (hd : ∀ r ∈ tables.flatten, ∃ q, DecCell (cellOf names r col) q)
    (ht : GoodTable names tables.flatten) (hok : ∀ n ∈ names, nameOk n = true) (htn : tables ≠ [])
    (hcap : 8 < cap) (hlen : (sepText TAB tables.flatten).length < cap) :
    ∃ out, sortMainF eval (lossyF64 exp10) nameOk pick rd cap m os (tables.map fun rows => sepHead TAB names ++ sepText TAB rows) =
        .ok (sepHead TAB names ++ sepText TAB out) ∧
      (SortOpt.unique ∉ os → StableSort (decKeysCmp (fun c => (lossyF64 exp10 c).val) names col reverse num val asks) tables.flatten out) ∧
      (SortOpt.unique ∈ os → UniqueSort (decKeysCmp (fun c => (lossyF64 exp10 c).val) names col reverse num val asks) tables.flatten out) := by
  obtain ⟨t1, t2, t3, t4, t5⟩ := ht
  have hn : SepNames TAB names := ⟨t1, fun n hn => name_free (d := TAB) (by decide) (by decide) (t2 n hn)⟩
  have there : ∀ k ∈ SortAsk.col ⟨col, .float, reverse⟩ :: asks, k.There names := by
    intro k hk
    rcases List.mem_cons.1 hk with rfl | hk
    · exact hcol
    · exact fits_there hfit k hk
  have hag := decKeys_agree exp10 (reverse := reverse) t1 t5 hd hfit hev
  have key : ∀ unique, ∃ out, sortCmd (lossyF64 exp10) nameOk pick rd cap unique
        ((SortAsk.col ⟨col, .float, reverse⟩ :: asks).map (·.at names ev))
        (tables.map fun rows => sepHead TAB names ++ sepText TAB rows) = .ok (sepHead TAB names ++ sepText TAB out) ∧ _ :=
    fun unique => table_sorts (lossyF64 exp10) nameOk pick rd cap unique _ names tables _ (decKeysCmp_preorder _ names col reverse num val asks) hag hn hok htn t5
      hcap hlen
  obtain ⟨out, o1, o2, o3⟩ := key (decide (SortOpt.unique ∈ os))
  refine ⟨out, ?_, fun h => o2 (by simpa using h), fun h => o3 (by simpa using h)⟩
  have first : ∀ f ∈ tables.map (fun rows => sepHead TAB names ++ sepText TAB rows), makeHeader (readUntil NL f).1 = .ok names := by
    intro f hf
    obtain ⟨rows, _, rfl⟩ := List.mem_map.1 hf
    simp only [table_first names hn, makeHeader_sep names hn]
  cases ho : SortOpts.addAll {} os with
  | ok o =>
    rw [sortMainF_plain ho]
    obtain ⟨a1, a2, a3, a4, _⟩ := C139_options os o ho
    obtain ⟨qs, q1, q2, q3⟩ := asks_plain t2 t4 os _ there h.keys.1 h.keys.2 {} o ho
    have e1 : o.merge = false := by rw [a3]; simpa using h.noMerge
    have e2 : o.check = false := by rw [a4, List.any_eq_false]; intro x hx; simp [h.noCheck x hx]
    have e3 : o.sortKeys = qs := by
      rw [SortOpts.sortKeys, q1]
      cases qs with
      | nil => exact absurd (List.length_eq_zero_iff.1 q2.symm) h.some
      | cons q qs => rfl
    simp only [sortMain, ho, Res.run, Run.bind, SortOpts.run, e1, e2, Bool.false_and, Bool.false_eq_true, if_false, e3]
    rw [sortFiles_lookup _ nameOk _ pick rd cap o.unique _ ((SortAsk.col ⟨col, .float, reverse⟩ :: asks).map (·.at names ev)), a2, o1]
    intro f hf _ _
    simp only [first f hf, Res.bind_ok, q3 ev]
  | _ =>
    obtain ⟨y, ms, g1, g2, g3, g4, g5, g6⟩ := asks_made t2 t4 os _ there h.keys.1 h.keys.2 h.noCheck h.noMerge {}
    simp only [List.nil_append, Bool.false_or] at g2 g3
    simp only [sortMainF, ho, g1, Res.run, Run.bind, FormulaOpts.run, g4, g5, Bool.or_self, Bool.false_eq_true, if_false, g2, g3]
    rw [sortFiles_lookup _ nameOk _ pick rd cap _ _ ((SortAsk.col ⟨col, .float, reverse⟩ :: asks).map (·.at names ev)), o1]
    intro f hf _ _
    simp only [first f hf, Res.bind_ok, g6 eval ev (by intro f r hm; simp only [List.mem_cons, reduceCtorEq, false_or] at hm; exact heval f r hm)]

/-- C242: `sort` by a column of decimals and then by further keys, each a column of texts or whole numbers or a formula, gives each cell of the first a
number that is at most one part in `2^41` off and orders the rows by these numbers; the further keys order the rows whose numbers are equal. -/
theorem C242_sort (o : Outside) (s : Sys) (c : Cmd) (hc : c ∈ mainList) (hn : c.name = "sort") (toks : List Tok) (m : TextMode)
    (t : Option TextMode) (os : List SortOpt) (files names : List Bytes) (tables : List (List (List Bytes))) (col : Bytes) (reverse : Bool)
    (asks : List SortAsk) (num : Bytes → Int) (val : WholeFormula → List Bytes → Int)
    (h : Says (o.world s) c toks m t (os.map SortOpt.said) files) (hr : Tables (o.world s) s files names tables)
    (hf : AsksSort names (.col ⟨col, .float, reverse⟩ :: asks) os) (hcol : col ∈ names)
    (hd : ∀ r ∈ tables.flatten, ∃ q, DecCell (cellOf names r col) q) (hfit : ∀ k ∈ asks, k.Fits names num val tables.flatten)
    (ht : GoodTable names tables.flatten) (hrows : tables.flatten ≠ [])
    (hok : ∀ n ∈ names, nameOkBytes o.classes n = true) (htn : tables ≠ []) (hcap : 8 < o.cap) (hlen : (sepText TAB tables.flatten).length < o.cap) :
    ∃ out near, o.run "sort" toks s = .ok { s with stdout := s.stdout ++ (sepHead TAB names ++ sepText TAB out) } ∧
      (∀ v q, DecCell v q → q - ratSize q / ((2 ^ 41 : Nat) : Rat) ≤ near v ∧ near v ≤ q + ratSize q / ((2 ^ 41 : Nat) : Rat)) ∧
      (SortOpt.unique ∉ os → StableSort (decKeysCmp near names col reverse num val asks) tables.flatten out) ∧
      (SortOpt.unique ∈ os → UniqueSort (decKeysCmp near names col reverse num val asks) tables.flatten out) := by
  obtain ⟨r1, r2⟩ := hr.read
  obtain ⟨ev, e1, e2⟩ := formula_values o s ht hfit hrows
  obtain ⟨out, g1, g2⟩ := decKeys_sort (o.keyValue s) o.exp10 (nameOkBytes o.classes) o.pick o.rd o.cap m hf hcol hfit e1 e2 hd ht hok htn hcap hlen
  refine ⟨out, fun c => (lossyF64 o.exp10 c).val, ?_, fun v q hq => ⟨(decCell_double o.exp10 hq).2.1, (decCell_double o.exp10 hq).2.2.1⟩, g2⟩
  unfold Outside.run
  rw [← hn]
  refine run_writes (o.world s) hc (by rw [hn]; decide) (by rw [hn]; decide) h s r1 ?_
  rw [hn]
  unfold World.output
  simp only [if_false, if_true, String.reduceEq, opts_said, Res.run, Run.bind, zip_snd r2]
  exact g1

/-- C242: if cells with different texts are far apart, the rows are sorted by the decimals themselves, and then by the further keys. -/
theorem C242_exact (o : Outside) (s : Sys) (c : Cmd) (hc : c ∈ mainList) (hn : c.name = "sort") (toks : List Tok) (m : TextMode)
    (t : Option TextMode) (os : List SortOpt) (files names : List Bytes) (tables : List (List (List Bytes))) (col : Bytes) (reverse : Bool)
    (asks : List SortAsk) (num : Bytes → Int) (val : WholeFormula → List Bytes → Int) (dec : Bytes → Rat)
    (h : Says (o.world s) c toks m t (os.map SortOpt.said) files) (hr : Tables (o.world s) s files names tables)
    (hf : AsksSort names (.col ⟨col, .float, reverse⟩ :: asks) os) (hcol : col ∈ names)
    (hd : ∀ r ∈ tables.flatten, DecCell (cellOf names r col) (dec (cellOf names r col)))
    (hfar : ∀ a ∈ tables.flatten, ∀ b ∈ tables.flatten, cellOf names a col = cellOf names b col ∨
      FarApart (dec (cellOf names a col)) (dec (cellOf names b col))) (hfit : ∀ k ∈ asks, k.Fits names num val tables.flatten)
    (ht : GoodTable names tables.flatten) (hrows : tables.flatten ≠ [])
    (hok : ∀ n ∈ names, nameOkBytes o.classes n = true) (htn : tables ≠ []) (hcap : 8 < o.cap) (hlen : (sepText TAB tables.flatten).length < o.cap) :
    ∃ out, o.run "sort" toks s = .ok { s with stdout := s.stdout ++ (sepHead TAB names ++ sepText TAB out) } ∧
      (SortOpt.unique ∉ os → StableSort (decKeysCmp dec names col reverse num val asks) tables.flatten out) ∧
      (SortOpt.unique ∈ os → UniqueSort (decKeysCmp dec names col reverse num val asks) tables.flatten out) := by
  obtain ⟨out, near, g1, g2, g3, g4⟩ := C242_sort o s c hc hn toks m t os files names tables col reverse asks num val h hr hf hcol
    (fun r hr => ⟨_, hd r hr⟩) hfit ht hrows hok
    htn hcap hlen
  have hone : ∀ a ∈ tables.flatten, ∀ b ∈ tables.flatten, ratOrd (near (cellOf names a col)) (near (cellOf names b col)) =
      ratOrd (dec (cellOf names a col)) (dec (cellOf names b col)) := by
    intro a ha b hb
    obtain ⟨p1, p2⟩ := g2 _ _ (hd a ha)
    obtain ⟨q1, q2⟩ := g2 _ _ (hd b hb)
    rcases hfar a ha b hb with e | e
    · rw [e]
      simp [ratOrd, Rat.lt_irrefl]
    · have s1 : 0 ≤ ratSize (dec (cellOf names a col)) := by unfold ratSize; split <;> grind
      have s2 : 0 ≤ ratSize (dec (cellOf names b col)) := by unfold ratSize; split <;> grind
      unfold FarApart at e
      generalize ratSize (dec (cellOf names a col)) = x at *
      generalize ratSize (dec (cellOf names b col)) = y at *
      generalize near (cellOf names a col) = na at *
      generalize near (cellOf names b col) = nb at *
      generalize dec (cellOf names a col) = da at *
      generalize dec (cellOf names b col) = db at *
      have hu : (0 : Rat) < ((2 ^ 41 : Nat) : Rat) := natCast_pos (by decide)
      generalize ((2 ^ 41 : Nat) : Rat) = u at *
      have hx : 0 ≤ x / u := by rw [Rat.div_def]; exact Rat.mul_nonneg s1 (Rat.le_of_lt (Rat.inv_pos.2 hu))
      have hy : 0 ≤ y / u := by rw [Rat.div_def]; exact Rat.mul_nonneg s2 (Rat.le_of_lt (Rat.inv_pos.2 hu))
      have hxy : (x + y) / u = x / u + y / u := by grind
      rw [hxy] at e
      generalize x / u = x' at *
      generalize y / u = y' at *
      unfold ratOrd
      rcases e with e | e
      · rw [if_pos (by grind), if_pos (by grind)]
      · rw [if_neg (by grind), if_neg (by grind), if_neg (by grind), if_neg (by grind)]
  have hag : ∀ a ∈ tables.flatten, ∀ b ∈ tables.flatten, decKeysCmp near names col reverse num val asks (id a) (id b) =
      decKeysCmp dec names col reverse num val asks a b := by
    intro a ha b hb
    refine congrArg (Ordering.then · (askCmp names num val asks a b)) ?_
    unfold nearCmp
    cases reverse with
    | false => exact hone a ha b hb
    | true => exact hone b hb a ha
  refine ⟨out, g1, fun hu => ?_, fun hu => ?_⟩
  · obtain ⟨out', e, h'⟩ := StableSort.back (decKeysCmp_preorder near names col reverse num val asks) (decKeysCmp_preorder dec names col reverse num val asks) id _ hag out (by
      rw [List.map_id]
      exact g3 hu)
    rw [List.map_id] at e
    rw [e]
    exact h'
  · obtain ⟨out', e, h'⟩ := UniqueSort.back (decKeysCmp_preorder near names col reverse num val asks) (decKeysCmp_preorder dec names col reverse num val asks) id id _ hag
      (fun _ _ => rfl) out (by
      rw [List.map_id]
      exact g4 hu)
    rw [List.map_id] at e
    rw [e]
    exact h'

/-- A table in which a decimal is there twice. -/
def sysDecKeys : Sys :=
  { files := fun n => if n = ascii "t" then some (ascii " CDX\ta\tb\n3.25\ty\n-0.1\tz\n3.25\tx\n") else none
    stdin := [], stdout := ascii ">", stderr := [] }

/-- `cdx sort --key a,float --key b t`: the rows with 3.25 are in the order of `b`. -/
example : outside0.run "sort" [.opt "key" (ascii "a,float"), .opt "key" (ascii "b"), .pos "input_files" (ascii "t")] sysDecKeys =
      .ok { sysDecKeys with stdout := ascii "> CDX\ta\tb\n-0.1\tz\n3.25\tx\n3.25\ty\n" } := by
  have d1 : DecCell (ascii "3.25") (325 / 100) :=
    ⟨⟨[], ascii "3", some (ascii "25"), none, none⟩, ⟨.inl rfl, by decide, by decide, by simp, by simp⟩, ⟨rfl, rfl⟩, by decide, by decide, by decide, by
      decide +kernel, by decide⟩
  have d2 : DecCell (ascii "-0.1") (-1 / 10) :=
    ⟨⟨[45], ascii "0", some (ascii "1"), none, none⟩, ⟨.inr (.inr rfl), by decide, by decide, by simp, by simp⟩, ⟨rfl, rfl⟩, by decide, by decide, by decide, by
      decide +kernel, fun _ => by decide +kernel⟩
  obtain ⟨out, h1, h2, -⟩ := C242_exact outside0 sysDecKeys (cmd0 "sort") (cmd0_mem (by decide +kernel)) (by decide +kernel)
    [.opt "key" (ascii "a,float"), .opt "key" (ascii "b"), .pos "input_files" (ascii "t")] .default none
    [.key (ascii "a,float"), .key (ascii "b")] [ascii "t"] [ascii "a", ascii "b"]
    [[[ascii "3.25", ascii "y"], [ascii "-0.1", ascii "z"], [ascii "3.25", ascii "x"]]] (ascii "a") false
    [.col ⟨ascii "b", .plain, false⟩] (fun _ => 0) (fun _ _ => 0)
    (fun c => if c = ascii "3.25" then 325 / 100 else -1 / 10)
    (says_plain (by decide +kernel) (by decide +kernel) (by decide +kernel) (by decide +kernel) (by decide +kernel))
    (by unfold Tables; decide +kernel)
    ⟨by simp, ⟨rfl, by
      intro x hx
      have : x = (.col ⟨ascii "a", .float, false⟩, ascii "a,float") ∨ x = (.col ⟨ascii "b", .plain, false⟩, ascii "b") := by simpa [sortSpecs] using hx
      rcases this with rfl | rfl
      · exact ⟨ascii "a", .inl rfl, .inr ⟨ascii "float", by decide +kernel, by decide, by unfold AliasOk; decide +kernel,
          by unfold MethodOf; decide +kernel, by decide +kernel⟩⟩
      · exact ⟨ascii "b", .inl rfl, .inl ⟨rfl, rfl, rfl⟩⟩⟩, by decide, by decide⟩
    (by decide) (by
      intro r hr
      simp only [List.flatten_cons, List.flatten_nil, List.append_nil, List.mem_cons, List.not_mem_nil, or_false] at hr
      rcases hr with rfl | rfl | rfl
      · exact d1
      · exact d2
      · exact d1)
    (by unfold FarApart ratSize; decide +kernel)
    (by
      intro k hk
      rw [List.mem_singleton.1 hk]
      exact ⟨by decide, fun h => nomatch h⟩)
    (goodTable_ab (by decide +kernel)) (by simp) (by decide +kernel) (by simp) (by decide) (by decide +kernel)
  have e := (h2 (by decide)).unique (decKeysCmp_preorder _ _ _ _ _ _ _) (stableSort_stable (decKeysCmp_preorder _ _ _ _ _ _ _) _)
  have e' : sysDecKeys.stdout ++ (sepHead TAB [ascii "a", ascii "b"] ++ sepText TAB out) = ascii "> CDX\ta\tb\n-0.1\tz\n3.25\tx\n3.25\ty\n" := by
    rw [e]
    decide +kernel
  rw [h1, e']

end Cdx
