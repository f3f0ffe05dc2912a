import Verif.Props.PipesSort
import Verif.Props.PipesCut

/-!
C217: cutting columns of tables before or after their rows are sorted or chosen.
-/

namespace Cdx

/-! ## Sorting images -/

theorem classOf_map {α β : Type} {cmp : α → α → Ordering} {cmp' : β → β → Ordering} (hc : TotalPreorder cmp') {f : α → β}
    (hag : ∀ a b, cmp' (f a) (f b) = cmp a b) {z : β} {a : α} (hz : cmp' z (f a) = .eq) (l : List α) :
    classOf cmp' z (l.map f) = (classOf cmp a l).map f := by
  unfold classOf
  rw [List.filter_map]
  congr 1
  refine List.filter_congr fun y _ => ?_
  show (cmp' z (f y) == .eq) = _
  rw [hc.eq_left hz, hag]

theorem classOf_map_nil {α β : Type} {cmp' : β → β → Ordering} {f : α → β} {z : β} (hz : ¬ ∃ a, cmp' z (f a) = .eq) (l : List α) :
    classOf cmp' z (l.map f) = [] := by
  unfold classOf
  rw [List.filter_eq_nil_iff]
  intro y hy e
  obtain ⟨a, _, rfl⟩ := List.mem_map.1 hy
  exact hz ⟨a, by simpa using e⟩

/-- The images of a stable sort are the stable sort of the images, if the images compare as the elements do. -/
theorem StableSort.image {α β : Type} {cmp : α → α → Ordering} {cmp' : β → β → Ordering} (hc : TotalPreorder cmp') {f : α → β}
    (hag : ∀ a b, cmp' (f a) (f b) = cmp a b) {inp out : List α} (h : StableSort cmp inp out) : StableSort cmp' (inp.map f) (out.map f) := by
  refine ⟨h.perm.map f, ?_, fun z => ?_⟩
  · rw [SortedBy, List.pairwise_map]
    exact h.sorted.imp fun e => by rw [hag]; exact e
  · by_cases hz : ∃ a, cmp' z (f a) = .eq
    · obtain ⟨a, ha⟩ := hz
      rw [classOf_map hc hag ha, classOf_map hc hag ha, h.stable]
    · rw [classOf_map_nil hz, classOf_map_nil hz]

theorem UniqueSort.image {α β : Type} {cmp : α → α → Ordering} {cmp' : β → β → Ordering} (hc : TotalPreorder cmp') {f : α → β}
    (hag : ∀ a b, cmp' (f a) (f b) = cmp a b) {inp out : List α} (h : UniqueSort cmp inp out) : UniqueSort cmp' (inp.map f) (out.map f) := by
  refine ⟨?_, fun z => ?_⟩
  · rw [List.pairwise_map]
    exact h.strict.imp fun e => by rw [hag]; exact e
  · by_cases hz : ∃ a, cmp' z (f a) = .eq
    · obtain ⟨a, ha⟩ := hz
      rw [classOf_map hc hag ha, classOf_map hc hag ha, h.first, List.map_take]
    · rw [classOf_map_nil hz, classOf_map_nil hz]
      rfl

/-! ## C217 -/

/-- The names of the columns that `cut` writes. -/
def keptNames (names : List Bytes) (ws : List Want) : List Bytes := ws.flatMap (Want.outNames names)

/-- The row that `cut` writes for a row. -/
def keptRow (names : List Bytes) (ws : List Want) (r : List Bytes) : List Bytes := ws.flatMap (Want.fieldsOf names r)

/-- The column is among those that are cut, under its own name. -/
def KeptCol (names : List Bytes) (ws : List Want) (col : Bytes) : Prop :=
  col ∈ names ∧ ∃ is, Want.fields is ∈ ws ∧ ∃ v, pickedOf names is = some v ∧ ∃ new, (names.idxOf col, new) ∈ v ∧ (new = [] ∨ new = col)

theorem pairs_getD : ∀ (L : List (Bytes × Bytes)) {c v : Bytes}, (L.map (·.1)).Nodup → (c, v) ∈ L →
    (L.map (·.2)).getD ((L.map (·.1)).idxOf c) [] = v
  | (a, b) :: L, c, v, hn, hm => by
    rw [List.map_cons, List.nodup_cons] at hn
    rcases List.mem_cons.1 hm with e | hm
    · obtain ⟨rfl, rfl⟩ := Prod.mk.inj e
      simp
    · have hne : a ≠ c := by
        rintro rfl
        exact hn.1 (List.mem_map.2 ⟨(a, v), hm, rfl⟩)
      have := pairs_getD L hn.2 hm
      rw [List.map_cons, List.map_cons, List.idxOf_cons, beq_false_of_ne hne]
      exact this

theorem zip_flatMap {α β γ : Type} (f : α → List β) (g : α → List γ) : ∀ (l : List α), (∀ x ∈ l, (f x).length = (g x).length) →
    (l.flatMap f).zip (l.flatMap g) = l.flatMap fun x => (f x).zip (g x)
  | [], _ => rfl
  | x :: l, h => by
    rw [List.flatMap_cons, List.flatMap_cons, List.flatMap_cons, List.zip_append (h x (by simp)), zip_flatMap f g l fun y hy => h y (by simp [hy])]

/-- The value of a column that is kept is not changed. -/
theorem kept_cell {names : List Bytes} {ws : List Want} {d : UInt8} {rows : List (List Bytes)} (hp : ∀ w ∈ ws, w.Plain d rows)
    (hd : (keptNames names ws).Nodup) {col : Bytes} (h : KeptCol names ws col) (r : List Bytes) :
    col ∈ keptNames names ws ∧ cellOf (keptNames names ws) (keptRow names ws r) col = cellOf names r col := by
  obtain ⟨hc, is, hw, v, hv, new, hm, hn⟩ := h
  have hlen : (keptNames names ws).length = (keptRow names ws r).length := by
    unfold keptNames keptRow
    rw [List.length_flatMap, List.length_flatMap]
    congr 1
    exact List.map_congr_left fun w hw => (fieldsOf_length names r w d rows (hp w hw)).symm
  have hz : (col, cellOf names r col) ∈ (keptNames names ws).zip (keptRow names ws r) := by
    unfold keptNames keptRow
    rw [zip_flatMap _ _ _ fun w hw => (fieldsOf_length names r w d rows (hp w hw)).symm, List.mem_flatMap]
    refine ⟨_, hw, ?_⟩
    simp only [Want.outNames, Want.fieldsOf, hv, Option.getD_some]
    rw [List.zip_map']
    refine List.mem_map.2 ⟨_, hm, ?_⟩
    have : names.getD (names.idxOf col) [] = col := by
      have hi := List.idxOf_lt_length_iff.2 hc
      rw [List.getD_eq_getElem?_getD, List.getElem?_eq_getElem hi, Option.getD_some, List.getElem_idxOf]
    rcases hn with rfl | rfl
    · simp only [if_true, this, cellOf]
    · simp only [this, cellOf, ite_self]
  have e1 : ((keptNames names ws).zip (keptRow names ws r)).map (·.1) = keptNames names ws := List.map_fst_zip (Nat.le_of_eq hlen)
  have e2 : ((keptNames names ws).zip (keptRow names ws r)).map (·.2) = keptRow names ws r := List.map_snd_zip (Nat.le_of_eq hlen.symm)
  have := pairs_getD _ (by rw [e1]; exact hd) hz
  rw [e1, e2] at this
  refine ⟨?_, this⟩
  have h := List.mem_map_of_mem (f := (·.1)) hz
  rwa [e1] at h

theorem tabCmp_kept {names names' : List Bytes} {f : List Bytes → List Bytes} {ks : List TabKey}
    (h : ∀ k ∈ ks, ∀ r, cellOf names' (f r) k.col = cellOf names r k.col) (a b : List Bytes) : tabCmp names' ks (f a) (f b) = tabCmp names ks a b := by
  induction ks with
  | nil => rfl
  | cons k ks ih =>
    simp only [tabCmp, ih fun k hk => h k (by simp [hk]), h k (by simp)]

/-- C217: cutting columns, the keys among them, of tables sorted is sorting the tables cut, byte for byte. -/
theorem C217_sort (toF64 : Bytes → F64) (env : CutEnv) (nameOk : Bytes → Bool) (pick : Nat → List (Nat × Bytes) → Nat) (rd : Nat → Nat → Nat)
    (cap : Nat) (m : TextMode) (names : List Bytes) (ws : List Want) (tables : List (List (List Bytes))) (ks : List TabKey) (as bs : List SortOpt)
    (ht : GoodTable names tables.flatten) (hok : ∀ n ∈ names, nameOk n = true) (htn : tables ≠ []) (hz : ∀ r ∈ tables.flatten, ∀ c ∈ r, 0 ∉ c)
    (hcap : 8 < cap) (hfit : (sepText TAB tables.flatten).length < cap)
    (hws : ws ≠ []) (hf : ∀ w ∈ ws, w.Fine env) (hs : ∀ w ∈ ws, w.Suits env names) (ho : (keptNames names ws).Nodup)
    (hv : ∀ n ∈ keptNames names ws, IsName n ∧ nameOk n = true) (hl : (keptNames names ws).length < 2 ^ 64)
    (hp : ∀ w ∈ ws, w.Plain TAB tables.flatten) (hz' : ∀ r ∈ tables.flatten, ∀ c ∈ keptRow names ws r, 0 ∉ c)
    (hfit' : (sepText TAB (tables.flatten.map (keptRow names ws))).length < cap)
    (ha : SortFits names ks as) (hb : SortFits (keptNames names ws) ks bs) (hu : SortOpt.unique ∈ as ↔ SortOpt.unique ∈ bs)
    (hk : ∀ k ∈ ks, KeptCol names ws k.col) :
    ∃ sorted cut out, sortMain toF64 nameOk pick rd cap m as (tables.map fun rows => sepHead TAB names ++ sepText TAB rows) = .ok sorted ∧
      cutMain env nameOk .default .default .matching (ws.map Want.opt) [sorted] = .ok out ∧
      cutMain env nameOk .default .default .matching (ws.map Want.opt) (tables.map fun rows => sepHead TAB names ++ sepText TAB rows) = .ok cut ∧
      sortMain toF64 nameOk pick rd cap m bs [cut] = .ok out := by
  obtain ⟨t1, t2, t3, t4, t5⟩ := ht
  obtain ⟨mid, m1, m2, m3⟩ := sort_tables toF64 nameOk pick rd cap m ha ⟨t1, t2, t3, t4, t5⟩ hok htn hz hcap hfit
  have hpre := tabCmp_preorder names ks
  have hmem : ∀ r ∈ mid, r ∈ tables.flatten := by
    by_cases hq : SortOpt.unique ∈ as
    · exact (m3 hq).mem hpre
    · exact fun r hr => (m2 hq).perm.mem_iff.1 hr
  have em : sepMode TAB = .default := rfl
  have hplain : ∀ w ∈ ws, w.Plain TAB mid := by
    intro w hw
    have := hp w hw
    cases w with
    | fields is => trivial
    | group g n is => exact ⟨this.1, this.2.1, fun r hr => this.2.2 r (hmem r hr)⟩
    | expr n f => exact this
    | comp n ps => exact this
  have c1 := C133_table_partial env nameOk TAB (by decide) (by decide) names t1 t2 ws hws hf hs ho hv [mid]
    (by intro rows hm r hr; rw [List.mem_singleton.1 hm] at hr; exact t5 r (hmem r hr)) (by rw [List.flatten_singleton]; exact hplain) (by simp)
  rw [List.map_singleton, List.flatten_singleton, em] at c1
  have c2 := C133_table_partial env nameOk TAB (by decide) (by decide) names t1 t2 ws hws hf hs ho hv tables
    (fun rows hm r hr => t5 r (List.mem_flatten.2 ⟨rows, hm, hr⟩)) hp htn
  rw [em] at c2
  have hgood : GoodTable (keptNames names ws) (tables.flatten.map (keptRow names ws)) := by
    refine ⟨?_, fun n hn => (hv n hn).1, ho, hl, ?_⟩
    · cases ks with
      | nil => exact absurd rfl ha.some
      | cons k ks => exact List.ne_nil_of_mem (kept_cell hp ho (hk k (by simp)) []).1
    · intro r hr
      obtain ⟨r, hr', rfl⟩ := List.mem_map.1 hr
      obtain ⟨n1, n2⟩ := t5 r hr'
      have hrn : r ≠ [] := by
        rintro rfl
        exact t1 (List.length_eq_zero_iff.1 n1.symm)
      refine ⟨?_, ?_⟩
      · unfold keptNames keptRow
        rw [List.length_flatMap, List.length_flatMap]
        congr 1
        exact List.map_congr_left fun w hw => fieldsOf_length names r w TAB _ (hp w hw)
      · intro c hc
        obtain ⟨w, hw, hc⟩ := List.mem_flatMap.1 hc
        exact (cells_fields env TAB (by decide) names tables.flatten w (hp w hw) r hr' hrn n2).2 c hc
  obtain ⟨out, o1, o2, o3⟩ := sort_tables toF64 nameOk pick rd cap m (tables := [tables.flatten.map (keptRow names ws)]) hb
    (by rw [List.flatten_singleton]; exact hgood) (fun n hn => (hv n hn).2) (by simp)
    (by
      rw [List.flatten_singleton]
      intro r hr
      obtain ⟨r, hr', rfl⟩ := List.mem_map.1 hr
      exact hz' r hr') hcap (by rw [List.flatten_singleton]; exact hfit')
  rw [List.flatten_singleton] at o2 o3
  rw [List.map_singleton] at o1
  refine ⟨_, _, _, m1, c1, c2, o1.trans ?_⟩
  have hag := tabCmp_kept (f := keptRow names ws) fun k hm r => (kept_cell hp ho (hk k hm) r).2
  have hpre' := tabCmp_preorder (keptNames names ws) ks
  have e : out = mid.map (keptRow names ws) := by
    by_cases hq : SortOpt.unique ∈ as
    · exact UniqueSort.same hpre' (o3 (hu.1 hq)) ((m3 hq).image hpre' hag)
    · exact StableSort.unique hpre' (o2 (fun h => hq (hu.2 h))) ((m2 hq).image hpre' hag)
  rw [e]
  rfl

/-- C217: cutting columns, those that are tested among them, of rows chosen is choosing rows of the tables cut, byte for byte. -/
theorem C217_grep (menv : MEnv) (env : CutEnv) (nameOk : Bytes → Bool) (d : UInt8) (hd : SepByte d) (hu : d ≠ 95) (names : List Bytes)
    (ws : List Want) (tables : List (Bytes × List (List Bytes))) (ts : List RowTest) (as bs : List (Bytes × Bytes)) (fname : Bytes)
    (hne : names ≠ []) (hnd : names.Nodup) (hn : ∀ n ∈ names, IsName n ∧ nameOk n = true) (hnl : names.length < 2 ^ 64) (htn : tables ≠ [])
    (htab : ∀ t ∈ tables, t.1.getLast? ≠ some 47 ∧ SepTable d names.length t.2) (hfn : fname.getLast? ≠ some 47)
    (hws : ws ≠ []) (hf : ∀ w ∈ ws, w.Fine env) (hs : ∀ w ∈ ws, w.Suits env names) (ho : (keptNames names ws).Nodup)
    (hv : ∀ n ∈ keptNames names ws, IsName n ∧ nameOk n = true) (hon : keptNames names ws ≠ []) (hl : (keptNames names ws).length < 2 ^ 64)
    (hp : ∀ w ∈ ws, w.Plain d (tables.map (·.2)).flatten)
    (ha : GrepFits names ts as) (hb : GrepFits (keptNames names ws) ts bs)
    (hor : valuesOf "or" as = [] ↔ valuesOf "or" bs = []) (hinv : valuesOf "invert" as = [] ↔ valuesOf "invert" bs = [])
    (hk : ∀ t ∈ ts, KeptCol names ws t.col) :
    ∃ chosen cut out,
      grepMain menv nameOk (sepMode d) (sepMode d) .matching as (tables.map fun t => (t.1, sepHead d names ++ sepText d t.2)) = .ok chosen ∧
      cutMain env nameOk (sepMode d) (sepMode d) .matching (ws.map Want.opt) [chosen] = .ok out ∧
      cutMain env nameOk (sepMode d) (sepMode d) .matching (ws.map Want.opt) (tables.map fun t => sepHead d names ++ sepText d t.2) = .ok cut ∧
      grepMain menv nameOk (sepMode d) (sepMode d) .matching bs [(fname, cut)] = .ok out := by
  have hall : SepTable d names.length (tables.map (·.2)).flatten := by
    intro r hr
    obtain ⟨l, hl, hr⟩ := List.mem_flatten.1 hr
    obtain ⟨t, htm, rfl⟩ := List.mem_map.1 hl
    exact (htab t htm).2 r hr
  have g1 := C214_rows menv nameOk d hd hu names ts as tables hne hnd hn hnl ha htn htab
  let p := chosenRow names ts (decide (valuesOf "or" as ≠ [])) (decide (valuesOf "invert" as ≠ []))
  have hplain : ∀ w ∈ ws, w.Plain d ((tables.map (·.2)).flatten.filter p) := by
    intro w hw
    have := hp w hw
    cases w with
    | fields is => trivial
    | group g n is => exact ⟨this.1, this.2.1, fun r hr => this.2.2 r (List.mem_filter.1 hr).1⟩
    | expr n f => exact this
    | comp n ps => exact this
  have c1 := C133_table_partial env nameOk d hd hu names hne (fun n h => (hn n h).1) ws hws hf hs ho hv [(tables.map (·.2)).flatten.filter p]
    (by intro rows hm; rw [List.mem_singleton.1 hm]; exact sepTable_filter _ hall) (by rw [List.flatten_singleton]; exact hplain) (by simp)
  rw [List.map_singleton, List.flatten_singleton] at c1
  have c2 := C133_table_partial env nameOk d hd hu names hne (fun n h => (hn n h).1) ws hws hf hs ho hv (tables.map (·.2))
    (by
      intro rows hm
      obtain ⟨t, ht, rfl⟩ := List.mem_map.1 hm
      exact (htab t ht).2) hp (by simpa using htn)
  rw [List.map_map] at c2
  have hcut : SepTable d (keptNames names ws).length ((tables.map (·.2)).flatten.map (keptRow names ws)) := by
    intro r hr
    obtain ⟨r, hr', rfl⟩ := List.mem_map.1 hr
    obtain ⟨n1, n2⟩ := hall r hr'
    have hrn : r ≠ [] := by
      rintro rfl
      exact hne (List.length_eq_zero_iff.1 n1.symm)
    refine ⟨?_, ?_⟩
    · unfold keptNames keptRow
      rw [List.length_flatMap, List.length_flatMap]
      congr 1
      exact List.map_congr_left fun w hw => fieldsOf_length names r w d _ (hp w hw)
    · intro c hc
      obtain ⟨w, hw, hc⟩ := List.mem_flatMap.1 hc
      exact (cells_fields env d hd names _ w (hp w hw) r hr' hrn n2).2 c hc
  have g2 := C214_rows menv nameOk d hd hu (keptNames names ws) ts bs [(fname, (tables.map (·.2)).flatten.map (keptRow names ws))] hon ho hv hl hb
    (by simp) (by intro t hm; rw [List.mem_singleton.1 hm]; exact ⟨hfn, hcut⟩)
  rw [List.map_singleton, List.map_singleton, List.flatten_singleton, List.filter_map] at g2
  refine ⟨_, _, _, g1, c1, c2, g2.trans ?_⟩
  congr 3
  show (List.filter _ _).map (keptRow names ws) = (List.filter _ _).map (keptRow names ws)
  congr 1
  refine List.filter_congr fun r _ => ?_
  show chosenRow (keptNames names ws) ts _ _ (keptRow names ws r) = chosenRow names ts _ _ r
  have hpass : ∀ t ∈ ts, t.passes (keptNames names ws) (keptRow names ws r) = t.passes names r := by
    intro t hm
    unfold RowTest.passes
    rw [(kept_cell hp ho (hk t hm) r).2]
  have e1 : (ts.any fun t => t.passes (keptNames names ws) (keptRow names ws r)) = ts.any fun t => t.passes names r := by
    rw [Bool.eq_iff_iff, List.any_eq_true, List.any_eq_true]
    exact ⟨fun ⟨t, a, b⟩ => ⟨t, a, by rw [← hpass t a]; exact b⟩, fun ⟨t, a, b⟩ => ⟨t, a, by rw [hpass t a]; exact b⟩⟩
  have e2 : (ts.all fun t => t.passes (keptNames names ws) (keptRow names ws r)) = ts.all fun t => t.passes names r := by
    rw [Bool.eq_iff_iff, List.all_eq_true, List.all_eq_true]
    exact ⟨fun a t b => by rw [← hpass t b]; exact a t b, fun a t b => by rw [hpass t b]; exact a t b⟩
  unfold chosenRow
  rw [e1, e2]
  simp only [ne_eq, hor, hinv]

/-- `-f b,x:a` -/
def keepWants : List Want := [.fields [⟨false, none, .one (.name (ascii "b"))⟩, ⟨false, some (ascii "x"), .one (.name (ascii "a"))⟩]]

theorem keepWants_fine : ∀ w ∈ keepWants, w.Fine cutEnv0 := by
  intro w hw
  simp only [keepWants, List.mem_singleton] at hw
  subst hw
  refine ⟨by simp, ?_⟩
  intro i hi
  simp only [List.mem_cons, List.not_mem_nil, or_false] at hi
  rcases hi with rfl | rfl
  · exact ⟨by simp, by simp only [Sel.refs, List.mem_singleton, forall_eq]; exact name_one 98 (by decide)⟩
  · exact ⟨by simp only [Option.some.injEq, forall_eq']; exact name_one 120 (by decide), by
      simp only [Sel.refs, List.mem_singleton, forall_eq]; exact name_one 97 (by decide)⟩

theorem keepWants_suits : ∀ w ∈ keepWants, w.Suits cutEnv0 [ascii "a", ascii "b"] := by
  intro w hw
  simp only [keepWants, List.mem_singleton] at hw
  subst hw
  refine ⟨⟨[(1, []), (0, ascii "x")], by decide +kernel, by simp⟩, ?_⟩
  intro i hi
  simp only [List.mem_cons, List.not_mem_nil, or_false] at hi
  rcases hi with rfl | rfl
  · simp only [Sel.refs, List.mem_singleton, forall_eq]; exact trivial
  · simp only [Sel.refs, List.mem_singleton, forall_eq]; exact trivial

theorem keepWants_names : ∀ n ∈ keptNames [ascii "a", ascii "b"] keepWants, IsName n ∧ (fun _ => true) n = true := by
  intro n hn
  have e : keptNames [ascii "a", ascii "b"] keepWants = [ascii "b", ascii "x"] := by decide +kernel
  rw [e] at hn
  simp only [List.mem_cons, List.not_mem_nil, or_false] at hn
  rcases hn with rfl | rfl
  · exact ⟨name_one 98 (by decide), rfl⟩
  · exact ⟨name_one 120 (by decide), rfl⟩

theorem keepWants_kept : KeptCol [ascii "a", ascii "b"] keepWants (ascii "b") :=
  ⟨by simp, _, List.mem_singleton.2 rfl, [(1, []), (0, ascii "x")], by decide +kernel, [], by decide +kernel, .inl rfl⟩

/-- Columns cut of two tables sorted. -/
example : ∃ sorted cut out, sortMain (fun _ => 0) (fun _ => true) (fun _ _ => 0) (fun _ _ => 0) 100 .default [.key (ascii "b")]
      [ascii " CDX\ta\tb\nx\t1\ny\t22\n", ascii " CDX\ta\tb\nx\t3\ny\t44\n"] = .ok sorted ∧
    cutMain cutEnv0 (fun _ => true) .default .default .matching (keepWants.map Want.opt) [sorted] = .ok out ∧
    cutMain cutEnv0 (fun _ => true) .default .default .matching (keepWants.map Want.opt)
      [ascii " CDX\ta\tb\nx\t1\ny\t22\n", ascii " CDX\ta\tb\nx\t3\ny\t44\n"] = .ok cut ∧
    sortMain (fun _ => 0) (fun _ => true) (fun _ _ => 0) (fun _ _ => 0) 100 .default [.key (ascii "b")] [cut] = .ok out :=
  C217_sort (fun _ => 0) cutEnv0 (fun _ => true) (fun _ _ => 0) (fun _ _ => 0) 100 .default [ascii "a", ascii "b"] keepWants
    [[[ascii "x", ascii "1"], [ascii "y", ascii "22"]], [[ascii "x", ascii "3"], [ascii "y", ascii "44"]]] [⟨ascii "b", .plain, false⟩]
    [.key (ascii "b")] [.key (ascii "b")] goodTable_example (by simp) (by simp) (by decide +kernel) (by decide) (by decide +kernel)
    (by simp [keepWants]) keepWants_fine keepWants_suits (by decide +kernel) keepWants_names (by decide +kernel)
    (by intro w hw; simp only [keepWants, List.mem_singleton] at hw; subst hw; trivial) (by decide +kernel) (by decide +kernel)
    (sortFits_one _ _ (by decide +kernel)) (sortFits_one _ _ (by decide +kernel)) Iff.rfl (by simpa using keepWants_kept)

theorem keptTest_fits {names : List Bytes} (hb : ascii "b" ∈ names) :
    GrepFits names [⟨ascii "b", fun v => v == ascii "1"⟩] [(ascii "pattern", ascii "b,exact,1")] := by
  refine ⟨by decide +kernel, by simpa using hb, by decide +kernel, ?_⟩
  intro x hx
  rw [show valuesOf "pattern" [(ascii "pattern", ascii "b,exact,1")] = [ascii "b,exact,1"] by decide +kernel] at hx
  have : x = (⟨ascii "b", fun v => v == ascii "1"⟩, ascii "b,exact,1") := by simpa using hx
  subst this
  exact ⟨ascii "b", ascii "exact", ascii "1", .inl rfl, by decide +kernel, (ascii "exact", fun p v => v = p), .inl (by simp [plainMethods]),
    .inl ⟨rfl, fun v => by simp⟩⟩

/-- Columns cut of rows chosen. -/
example : ∃ chosen cut out,
    grepMain MEnv.trivial (fun _ => true) (sepMode 59) (sepMode 59) .matching [(ascii "pattern", ascii "b,exact,1")]
      [(ascii "f", ascii " CDX;a;b\nx;1\ny;22\n"), (ascii "g", ascii " CDX;a;b\nz;1\n")] = .ok chosen ∧
    cutMain cutEnv0 (fun _ => true) (sepMode 59) (sepMode 59) .matching (keepWants.map Want.opt) [chosen] = .ok out ∧
    cutMain cutEnv0 (fun _ => true) (sepMode 59) (sepMode 59) .matching (keepWants.map Want.opt)
      [ascii " CDX;a;b\nx;1\ny;22\n", ascii " CDX;a;b\nz;1\n"] = .ok cut ∧
    grepMain MEnv.trivial (fun _ => true) (sepMode 59) (sepMode 59) .matching [(ascii "pattern", ascii "b,exact,1")] [([], cut)] = .ok out :=
  C217_grep MEnv.trivial cutEnv0 (fun _ => true) 59 (by decide) (by decide) [ascii "a", ascii "b"] keepWants
    [(ascii "f", [[ascii "x", ascii "1"], [ascii "y", ascii "22"]]), (ascii "g", [[ascii "z", ascii "1"]])] [⟨ascii "b", fun v => v == ascii "1"⟩]
    [(ascii "pattern", ascii "b,exact,1")] [(ascii "pattern", ascii "b,exact,1")] [] (by simp) (by decide +kernel)
    (fun n hn => ⟨goodTable_example.2.1 n hn, rfl⟩) (by decide) (by simp) (by decide +kernel) (by simp) (by simp [keepWants]) keepWants_fine
    keepWants_suits (by decide +kernel) keepWants_names (by decide +kernel) (by decide +kernel)
    (by intro w hw; simp only [keepWants, List.mem_singleton] at hw; subst hw; trivial) (keptTest_fits (by simp)) (keptTest_fits (by decide +kernel))
    Iff.rfl Iff.rfl (by simpa using keepWants_kept)

end Cdx
