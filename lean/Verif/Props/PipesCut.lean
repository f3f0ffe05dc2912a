import Verif.Props.PipesUniq
import Verif.Props.PasteMain
import Verif.Props.CutTable

/-!
C211: pasting tables side by side, and pasting what `cut` gives.
-/

namespace Cdx

/-- A table: the names of its columns and its rows. -/
abbrev Tab := List Bytes × List (List Bytes)

/-- The file. -/
def Tab.file (t : Tab) : Bytes := sepHead TAB t.1 ++ sepText TAB t.2

/-- Row `k` of the tables side by side. -/
def sideBySide (ts : List Tab) (k : Nat) : List Bytes := ts.flatMap fun t => t.2.getD k []

theorem intercalate_flatMap_ne {α : Type} (d : Bytes) (f : α → List Bytes) (l : List α) (h : ∀ x ∈ l, f x ≠ []) :
    List.intercalate d (l.flatMap f) = List.intercalate d (l.map fun x => List.intercalate d (f x)) := by
  induction l with
  | nil => rfl
  | cons x l ih =>
    have ih := ih fun y hy => h y (by simp [hy])
    cases l with
    | nil => simp [intercalate_singleton]
    | cons y l =>
      have h1 : (y :: l).flatMap f ≠ [] := by
        rw [List.flatMap_cons]
        intro e
        exact h y (by simp) (List.append_eq_nil_iff.1 e).1
      rw [List.flatMap_cons, intercalate_append d _ _ (h x (by simp)) h1, ih, List.map_cons (l := y :: l)]
      generalize hz : (y :: l).map (fun x => List.intercalate d (f x)) = z
      have hz' : z ≠ [] := by rw [← hz]; simp
      cases z with
      | nil => exact absurd rfl hz'
      | cons z zs => simp [List.intercalate]

theorem flatMap_flatten_map {α β : Type} (f : α → List β) (ls : List (List α)) : ls.flatten.flatMap f = (ls.map fun l => l.flatMap f).flatten := by
  induction ls with
  | nil => rfl
  | cons l ls ih => simp [ih]

/-- C211: tables with the same number of rows and different names of columns, pasted: all the columns side by side. -/
theorem C211_paste (transOk : Bytes → Bool) (mk : Bytes → Res (Bytes → Bool)) (ts : List Tab) (n : Nat) (hne : ts ≠ [])
    (hn : ∀ t ∈ ts, t.1 ≠ [] ∧ ∀ c ∈ t.1, IsName c) (hd : (ts.flatMap (·.1)).Nodup) (ht : ∀ t ∈ ts, SepTable TAB t.1.length t.2)
    (hl : ∀ t ∈ ts, t.2.length = n) :
    pasteMain .default transOk mk [] (ts.map Tab.file) =
      .ok (sepHead TAB (ts.flatMap (·.1)) ++ sepText TAB ((List.range n).map (sideBySide ts)), true) := by
  have read : ∀ t ∈ ts, namesOf .default t.file = t.1 ∧ dataOf .default t.file = t.2.map tabLine ∧
      ((Reader.newWith 1 .default).open_ t.file).hasHeader = true := by
    intro t hm
    have hsn : SepNames TAB t.1 := ⟨(hn t hm).1, fun c hc => name_free (d := TAB) (by decide) (by decide) ((hn t hm).2 c hc)⟩
    obtain ⟨-, r2, r3, r4⟩ := table_read TAB (by decide) t.1 hsn t.2 (ht t hm)
    exact ⟨r2, r3, r4⟩
  have names : allNames .default (ts.map Tab.file) = ts.flatMap (·.1) := by
    unfold allNames
    rw [List.map_map, List.flatMap_def]
    congr 1
    exact List.map_congr_left fun t hm => (read t hm).1
  have valid : ∀ c ∈ ts.flatMap (·.1), isValidColumnName c = true := by
    intro c hc
    obtain ⟨t, hm, hc⟩ := List.mem_flatMap.1 hc
    exact ((isValid_iff c).2 ((hn t hm).2 c hc)).2
  have some : ts.flatMap (·.1) ≠ [] := by
    obtain ⟨t, hm⟩ := List.exists_mem_of_ne_nil _ hne
    obtain ⟨c, hc⟩ := List.exists_mem_of_ne_nil _ (hn t hm).1
    exact List.ne_nil_of_mem (List.mem_flatMap.2 ⟨t, hm, hc⟩)
  have lens : ∀ x ∈ padded .default false (List.replicate (ts.flatMap (·.1)).length []) (ts.map Tab.file), x.1.length = n := by
    intro x hx
    have := List.mem_map_of_mem (f := (·.1)) hx
    rw [padded_data, List.map_map] at this
    obtain ⟨t, hm, e⟩ := List.mem_map.1 this
    simp only [Function.comp_apply] at e
    rw [← e, (read t hm).2.1, List.length_map, hl t hm]
  have pn : padded .default false (List.replicate (ts.flatMap (·.1)).length []) (ts.map Tab.file) ≠ [] := by
    cases ts with
    | nil => exact absurd rfl hne
    | cons t ts => simp [padded]
  obtain ⟨b, h1, h2⟩ := C204_pasted_partial .default rfl rfl transOk mk [] {} (ts.map Tab.file) (List.replicate (ts.flatMap (·.1)).length []) n
    ⟨ts.flatMap (·.1), .fail, []⟩ (sepHead TAB (ts.flatMap (·.1))) rfl
    (by
      intro f hf
      obtain ⟨t, hm, rfl⟩ := List.mem_map.1 hf
      exact (read t hm).2.2)
    (by
      rw [names, pushAll_fail, if_pos ⟨fun c hc => ⟨valid c hc, by simp⟩, hd⟩]
      rfl)
    (.inr rfl) (by rw [names]) (by
      unfold columnHead
      rw [if_neg some]
      have e : ascii " CDX" = cdxTag := by decide +kernel
      simp [sepHead, e]) rfl
    (by
      obtain ⟨x, hx⟩ := List.exists_mem_of_ne_nil _ pn
      exact ⟨⟨x, hx, lens x hx⟩, fun x hx => by simp [lens x hx]⟩) (by simp)
  have hb : b = true := by
    cases b with
    | true => rfl
    | false =>
      obtain ⟨-, f, hf, h3⟩ := h1.1 rfl
      obtain ⟨t, hm, rfl⟩ := List.mem_map.1 hf
      rw [(read t hm).2.1, List.length_map, hl t hm] at h3
      exact absurd rfl h3
  rw [h2, hb]
  congr 3
  unfold rowsAt
  rw [sepText_lines, List.map_map, List.range_eq_range']
  congr 1
  apply List.map_congr_left
  intro k hk
  have hk : k < n := by simpa using hk
  simp only [Function.comp_apply, rowAt]
  congr 1
  unfold sideBySide
  rw [intercalate_flatMap_ne]
  · congr 1
    clear h1 h2 hb lens pn names valid some hd hne
    generalize List.replicate (ts.flatMap (·.1)).length [] = vs
    induction ts generalizing vs with
    | nil => rfl
    | cons t ts ih =>
      have ih := ih (fun t h => hn t (by simp [h])) (fun t h => ht t (by simp [h])) (fun t h => hl t (by simp [h])) (fun t h => read t (by simp [h]))
      have hlt : k < t.2.length := by rw [hl t (by simp)]; exact hk
      simp only [List.map_cons, padded, ih, List.cons.injEq, and_true]
      rw [(read t (by simp)).2.1]
      simp only [pieceAt, List.getElem?_map, List.getElem?_eq_getElem hlt, Option.map_some, List.getD_eq_getElem?_getD, Option.getD_some, tabLine,
        List.dropLast_concat]
  · intro t hm e
    have hlt : k < t.2.length := by rw [hl t hm]; exact hk
    rw [List.getD_eq_getElem?_getD, List.getElem?_eq_getElem hlt, Option.getD_some] at e
    have := (ht t hm _ (List.getElem_mem hlt)).1
    rw [e] at this
    exact (hn t hm).1 (List.length_eq_zero_iff.1 this.symm)

theorem fieldsOf_length (names row : List Bytes) (w : Want) (d : UInt8) (rows : List (List Bytes)) (h : w.Plain d rows) :
    (w.fieldsOf names row).length = (w.outNames names).length := by
  cases w with
  | fields is => simp [Want.fieldsOf, Want.outNames]
  | group g n is => rfl
  | expr n f => exact absurd h (by simp [Want.Plain])
  | comp n ps => rfl

/-- C211: columns cut in several runs and pasted are the columns cut in one run. -/
theorem C211_cut_paste (env : CutEnv) (nameOk : Bytes → Bool) (transOk : Bytes → Bool) (mk : Bytes → Res (Bytes → Bool)) (names : List Bytes)
    (hne : names ≠ []) (hn : ∀ n ∈ names, IsName n) (wss : List (List Want)) (hwss : wss ≠ []) (hws : ∀ ws ∈ wss, ws ≠ [])
    (hf : ∀ w ∈ wss.flatten, w.Fine env) (hs : ∀ w ∈ wss.flatten, w.Suits env names)
    (ho : (wss.flatten.flatMap (Want.outNames names)).Nodup) (hv : ∀ n ∈ wss.flatten.flatMap (Want.outNames names), IsName n ∧ nameOk n = true)
    (tables : List (List (List Bytes))) (htab : ∀ rows ∈ tables, SepTable TAB names.length rows) (hp : ∀ w ∈ wss.flatten, w.Plain TAB tables.flatten)
    (ht : tables ≠ []) :
    ∃ parts whole, (wss.map fun ws => cutMain env nameOk .default .default .matching (ws.map Want.opt)
        (tables.map fun rows => sepHead TAB names ++ sepText TAB rows)) = parts.map Res.ok ∧
      cutMain env nameOk .default .default .matching (wss.flatten.map Want.opt) (tables.map fun rows => sepHead TAB names ++ sepText TAB rows) = .ok whole ∧
      pasteMain .default transOk mk [] parts = .ok (whole, true) := by
  have em : sepMode TAB = .default := rfl
  have cells : ∀ w ∈ wss.flatten, w.outNames names ≠ [] := by
    intro w hw
    have := hs w hw
    cases w with
    | fields is =>
      obtain ⟨⟨v, hv, hne⟩, _⟩ := this
      simpa [Want.outNames, hv] using hne
    | group g name is => simp [Want.outNames]
    | expr name f => simp [Want.outNames]
    | comp name ps => simp [Want.outNames]
  have hfl : wss.flatten ≠ [] := by
    obtain ⟨ws, hm⟩ := List.exists_mem_of_ne_nil _ hwss
    obtain ⟨w, hw⟩ := List.exists_mem_of_ne_nil _ (hws ws hm)
    exact List.ne_nil_of_mem (List.mem_flatten.2 ⟨ws, hm, hw⟩)
  have whole := C133_table_partial env nameOk TAB (by decide) (by decide) names hne hn wss.flatten hfl hf hs ho hv tables htab hp ht
  rw [em] at whole
  have part : ∀ ws ∈ wss, cutMain env nameOk .default .default .matching (ws.map Want.opt) (tables.map fun rows => sepHead TAB names ++ sepText TAB rows) =
      .ok (Tab.file (ws.flatMap (Want.outNames names), tables.flatten.map fun r => ws.flatMap (Want.fieldsOf names r))) := by
    intro ws hm
    have sub : ∀ w ∈ ws, w ∈ wss.flatten := fun w hw => List.mem_flatten.2 ⟨ws, hm, hw⟩
    have subl : (ws.flatMap (Want.outNames names)).Sublist (wss.flatten.flatMap (Want.outNames names)) :=
      by rw [flatMap_flatten_map]; exact List.sublist_flatten_of_mem (List.mem_map_of_mem hm)
    exact C133_table_partial env nameOk TAB (by decide) (by decide) names hne hn ws (hws ws hm) (fun w hw => hf w (sub w hw)) (fun w hw => hs w (sub w hw))
      (ho.sublist subl) (fun n h => hv n (subl.subset h)) tables htab (fun w hw => hp w (sub w hw)) ht
  refine ⟨wss.map fun ws => Tab.file (ws.flatMap (Want.outNames names), tables.flatten.map fun r => ws.flatMap (Want.fieldsOf names r)), _, ?_, whole, ?_⟩
  · rw [List.map_map]
    exact List.map_congr_left fun ws hm => part ws hm
  · have := C211_paste transOk mk (wss.map fun ws => (ws.flatMap (Want.outNames names), tables.flatten.map fun r => ws.flatMap (Want.fieldsOf names r)))
      tables.flatten.length (by simpa using hwss) ?_ ?_ ?_ ?_
    · rw [List.map_map] at this
      refine this.trans ?_
      congr 3
      · rw [List.flatMap_map, flatMap_flatten_map, List.flatMap_def]
      · congr 1
        apply List.ext_getElem
        · rw [List.length_map, List.length_map, List.length_range]
        · intro k h1 h2
          have hk : k < tables.flatten.length := by rwa [List.length_map] at h2
          simp only [List.getElem_map, List.getElem_range, sideBySide, List.flatMap_map]
          rw [flatMap_flatten_map, List.flatMap_def]
          congr 1
          apply List.map_congr_left
          intro ws hm
          rw [List.getD_eq_getElem?_getD, List.getElem?_map, List.getElem?_eq_getElem hk]
          rfl
    · intro t hm
      obtain ⟨ws, hw, rfl⟩ := List.mem_map.1 hm
      constructor
      · obtain ⟨w, hw'⟩ := List.exists_mem_of_ne_nil _ (hws ws hw)
        obtain ⟨c, hc⟩ := List.exists_mem_of_ne_nil _ (cells w (List.mem_flatten.2 ⟨ws, hw, hw'⟩))
        exact List.ne_nil_of_mem (List.mem_flatMap.2 ⟨w, hw', hc⟩)
      · intro c hc
        obtain ⟨w, hw', hc⟩ := List.mem_flatMap.1 hc
        exact (hv c (List.mem_flatMap.2 ⟨w, List.mem_flatten.2 ⟨ws, hw, hw'⟩, hc⟩)).1
    · rwa [List.flatMap_map, List.flatMap_def, ← flatMap_flatten_map]
    · intro t hm r hr
      obtain ⟨ws, hw, rfl⟩ := List.mem_map.1 hm
      obtain ⟨r, hr', rfl⟩ := List.mem_map.1 hr
      obtain ⟨rows, hrows, hr'⟩ := List.mem_flatten.1 hr'
      obtain ⟨hlen, hfree⟩ := htab rows hrows r hr'
      have hrne : r ≠ [] := by
        rintro rfl
        exact hne (List.length_eq_zero_iff.1 hlen.symm)
      constructor
      · have : ∀ w ∈ ws, (w.fieldsOf names r).length = (w.outNames names).length := fun w hw' =>
          fieldsOf_length names r w TAB _ (hp w (List.mem_flatten.2 ⟨ws, hw, hw'⟩))
        rw [List.length_flatMap, List.length_flatMap]
        congr 1
        exact List.map_congr_left this
      · intro c hc
        obtain ⟨w, hw', hc⟩ := List.mem_flatMap.1 hc
        exact (cells_fields env TAB (by decide) names tables.flatten w (hp w (List.mem_flatten.2 ⟨ws, hw, hw'⟩)) r
          (List.mem_flatten.2 ⟨rows, hrows, hr'⟩) hrne hfree).2 c hc
    · intro t hm
      obtain ⟨ws, hw, rfl⟩ := List.mem_map.1 hm
      rw [List.length_map]

/-- Two runs of `cut`, pasted. -/
example : ∃ p1 p2 whole, cutMain cutEnv0 (fun n => n != []) .default .default .matching ((cutWants.take 1).map Want.opt)
      [ascii " CDX\ta\tb\n1\t2\n", ascii " CDX\ta\tb\n3\t4\n5\t\n"] = .ok p1 ∧
    cutMain cutEnv0 (fun n => n != []) .default .default .matching ((cutWants.drop 1).map Want.opt)
      [ascii " CDX\ta\tb\n1\t2\n", ascii " CDX\ta\tb\n3\t4\n5\t\n"] = .ok p2 ∧
    pasteMain .default (fun _ => true) (fun _ => .err) [] [p1, p2] = .ok (whole, true) ∧
    whole = ascii " CDX\tb\tx\tg\tc\n2\t1\t1,2\t1^k2\n4\t3\t3,4\t3^k4\n\t5\t5,\t5^k\n" := by
  obtain ⟨parts, whole, h1, h2, h3⟩ := C211_cut_paste cutEnv0 (fun n => n != []) (fun _ => true) (fun _ => .err) [ascii "a", ascii "b"] (by simp) (by
      intro n hn
      simp only [List.mem_cons, List.not_mem_nil, or_false] at hn
      rcases hn with rfl | rfl
      · exact name_one 97 (by decide)
      · exact name_one 98 (by decide)) [cutWants.take 1, cutWants.drop 1] (by simp) (by simp [cutWants]) (by
      intro w hw
      replace hw : w ∈ cutWants := by simpa [cutWants] using hw
      simp only [cutWants, List.mem_cons, List.not_mem_nil, or_false] at hw
      rcases hw with rfl | rfl | rfl
      · refine ⟨by simp, ?_⟩
        intro i hi
        simp only [List.mem_cons, List.not_mem_nil, or_false] at hi
        rcases hi with rfl | rfl
        · exact ⟨by simp, by simp only [Sel.refs, List.mem_singleton, forall_eq]; exact num_one 50 (by decide)⟩
        · exact ⟨by simp only [Option.some.injEq, forall_eq']; exact name_one 120 (by decide), by
            simp only [Sel.refs, List.mem_singleton, forall_eq]; exact name_one 97 (by decide)⟩
      · refine ⟨by decide, by decide, by simp, ?_⟩
        intro i hi
        simp only [List.mem_singleton] at hi
        subst hi
        exact ⟨by simp, by simp only [Sel.refs, Option.toList, List.append_nil, List.mem_singleton, forall_eq]; exact num_one 49 (by decide)⟩
      · exact ⟨by decide, cutWants_apart⟩) (by
      intro w hw
      replace hw : w ∈ cutWants := by simpa [cutWants] using hw
      simp only [cutWants, List.mem_cons, List.not_mem_nil, or_false] at hw
      rcases hw with rfl | rfl | rfl
      · refine ⟨⟨[(1, []), (0, ascii "x")], by decide +kernel, by simp⟩, ?_⟩
        intro i hi
        simp only [List.mem_cons, List.not_mem_nil, or_false] at hi
        rcases hi with rfl | rfl
        · simp only [Sel.refs, List.mem_singleton, forall_eq]; exact (by decide : decVal [50] ≤ 2)
        · simp only [Sel.refs, List.mem_singleton, forall_eq]; exact trivial
      · refine ⟨⟨[(0, []), (1, [])], by decide +kernel⟩, ?_⟩
        intro i hi
        simp only [List.mem_singleton] at hi
        subst hi
        simp only [Sel.refs, Option.toList, List.append_nil, List.mem_singleton, forall_eq]; exact (by decide : decVal [49] ≤ 2)
      · simp only [Want.Suits]; decide) (by decide +kernel) (by
      intro n hn
      have : n ∈ [ascii "b", ascii "x", ascii "g", ascii "c"] := by
        have e : cutWants.flatMap (Want.outNames [ascii "a", ascii "b"]) = [ascii "b", ascii "x", ascii "g", ascii "c"] := by decide +kernel
        have e' : [cutWants.take 1, cutWants.drop 1].flatten = cutWants := rfl
        rwa [e', e] at hn
      simp only [List.mem_cons, List.not_mem_nil, or_false] at this
      rcases this with rfl | rfl | rfl | rfl
      · exact ⟨name_one 98 (by decide), by decide⟩
      · exact ⟨name_one 120 (by decide), by decide⟩
      · exact ⟨name_one 103 (by decide), by decide⟩
      · exact ⟨name_one 99 (by decide), by decide⟩)
    [[[ascii "1", ascii "2"]], [[ascii "3", ascii "4"], [ascii "5", []]]] (by
      intro rows hr
      simp only [List.mem_cons, List.not_mem_nil, or_false] at hr
      unfold SepTable
      rcases hr with rfl | rfl <;> decide) (by
      intro w hw
      replace hw : w ∈ cutWants := by simpa [cutWants] using hw
      simp only [cutWants, List.mem_cons, List.not_mem_nil, or_false] at hw
      rcases hw with rfl | rfl | rfl
      · trivial
      · simp only [Want.Plain]; decide
      · intro s hs
        simp only [List.mem_cons, Piece.text.injEq, reduceCtorEq, List.not_mem_nil, or_false, false_or] at hs
        subst hs
        decide) (by simp)
  have e1 : [ascii " CDX\ta\tb\n1\t2\n", ascii " CDX\ta\tb\n3\t4\n5\t\n"] =
      [[[ascii "1", ascii "2"]], [[ascii "3", ascii "4"], [ascii "5", []]]].map fun rows => sepHead TAB [ascii "a", ascii "b"] ++ sepText TAB rows := by
    decide +kernel
  rw [← e1] at h1 h2
  obtain ⟨p1, p2, rfl⟩ : ∃ p1 p2, parts = [p1, p2] := by
    have := congrArg List.length h1
    simp only [List.length_map, List.length_cons, List.length_nil] at this
    match parts, this with
    | [p1, p2], _ => exact ⟨p1, p2, rfl⟩
  simp only [List.map_cons, List.map_nil, List.cons.injEq, and_true] at h1
  refine ⟨p1, p2, whole, h1.1, h1.2, h3, ?_⟩
  have h4 := h2.symm.trans (by decide +kernel :
    cutMain cutEnv0 (fun n => n != []) .default .default .matching ([cutWants.take 1, cutWants.drop 1].flatten.map Want.opt)
      [ascii " CDX\ta\tb\n1\t2\n", ascii " CDX\ta\tb\n3\t4\n5\t\n"] =
      .ok (ascii " CDX\tb\tx\tg\tc\n2\t1\t1,2\t1^k2\n4\t3\t3,4\t3^k4\n\t5\t5,\t5^k\n"))
  simpa using h4

end Cdx
