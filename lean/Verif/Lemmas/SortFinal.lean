import Verif.Lemmas.MergeFiles

/-!
The output of the sort.
-/

namespace Cdx

theorem sortBlock_stable {cmp : Bytes → Bytes → Ordering} (hc : TotalPreorder cmp) (b : List Bytes) :
    StableSort cmp b (sortBlock cmp false b) := by
  simpa [sortBlock] using stableSort_stable hc b

theorem sortBlock_unique {cmp : Bytes → Bytes → Ordering} (hc : TotalPreorder cmp) (b : List Bytes) :
    UniqueSort cmp b (sortBlock cmp true b) := by
  have h := stableSort_stable hc b
  simpa [sortBlock] using UniqueSort.of_stable h (uniq_spec hc h.sorted)

theorem sortBlock_sorted {cmp : Bytes → Bytes → Ordering} (hc : TotalPreorder cmp) (unique : Bool) (b : List Bytes) :
    SortedBy cmp (sortBlock cmp unique b) := by
  cases unique with
  | false => exact (sortBlock_stable hc b).sorted
  | true =>
    have := (sortBlock_unique hc b).strict
    exact this.imp (by intro x y h; rw [h]; decide)

theorem sortBlock_mem {cmp : Bytes → Bytes → Ordering} (hc : TotalPreorder cmp) (unique : Bool) (b : List Bytes) :
    ∀ l ∈ sortBlock cmp unique b, l ∈ b := by
  cases unique with
  | false => intro l hl; exact (sortBlock_stable hc b).perm.mem_iff.1 hl
  | true => exact UniqueSort.mem hc (sortBlock_unique hc b)

theorem nlLines_flatten (ls : List Bytes) (h : ∀ l ∈ ls, IsLine l) : (nlLines [] ls.flatten).1 = ls := by
  have h1 := nlLines_lines [] ls.flatten (by simp)
  have h2 := nlLines_append [] ls.flatten
  exact (lines_unique _ _ _ [] h1.1 h h1.2 (by simp) (by simpa using h2)).1

theorem openMerge_lines (ls : List Bytes) (h : ∀ l ∈ ls, IsLine l) (hc : ∀ l ∈ ls, isCdx l = false) :
    openMerge ls.flatten = ([], ls) := by
  rw [openMerge_plain _ (isCdx_flatten ls h hc), readLines_flatten ls h]

theorem calc_inv {toF64 : Bytes → F64} {cmp : Bytes → Bytes → Ordering} {L : Bytes → Prop} {cs : List LineComp}
    (hc : TotalPreorder cmp) (hag : ItemsAgree toF64 cs cmp L) (unique : Bool) (cap : Nat) (hcap : 8 < cap) (s : Sorter)
    (D : List Bytes) (blocks : List (List Bytes)) (B : List Bytes) (hi : FilesInv cmp unique cap cs s D blocks B)
    (hL : ∀ l ∈ D, L l) :
    itemsText (s.buf ++ s.stale) (doSort toF64 s.cs unique (s.buf ++ s.stale) (s.calc toF64).1)
      = (sortBlock cmp unique B).flatten := by
  have hbl : ∀ l ∈ B, IsLine l := fun l hl => hi.lines l (by rw [hi.all]; simp [hl])
  cases hs : s.checker.sawOne with
  | false =>
    have hb := (hi.fresh hs).1
    have hB : B = [] := by
      cases B with
      | nil => rfl
      | cons b B =>
        exfalso
        rw [hi.buf] at hb
        obtain ⟨x, hx, _⟩ := hbl b (by simp)
        rw [hx] at hb
        simp at hb
    rw [hB]
    unfold Sorter.calc
    rw [hb]
    cases unique <;> simp [calcLoop, doSort, itemsText, sortBlock, dedupBy, uniq, stableSort]
  | true =>
    have hw := hi.wide hs
    have := calc_text hc hag unique s.buf s.stale (by simp only [List.length_append]; omega) (by
      rw [hi.buf, nlLines_flatten B hbl]
      intro l hl
      exact hL l (by rw [hi.all]; simp [hl]))
    rw [hi.buf, nlLines_flatten B hbl, ← hi.buf] at this
    rw [hi.cs, Sorter.calc, hi.cs]
    exact this.1

/-- The output of the sort: how the data lines `D` were cut into blocks, and what came of them. -/
theorem sortFiles_spec {toF64 : Bytes → F64} {cmp : Bytes → Bytes → Ordering} {L : Bytes → Prop} {cs : List LineComp}
    (hc : TotalPreorder cmp) (hag : ItemsAgree toF64 cs cmp L) (nameOk : Bytes → Bool)
    (lookup : List LineComp → Bytes → Res (List LineComp)) (hlk : ∀ l cs', lookup cs l = .ok cs' → cs' = cs)
    (pick : Nat → List (Nat × Bytes) → Nat)
    (unique : Bool) (cap : Nat) (hcap : 8 < cap) (rd : Nat → Nat → Nat) (files : List Bytes)
    (hL : ∀ l ∈ (files.map dataLines).flatten, L l) (out : Bytes)
    (hok : sortFiles toF64 nameOk lookup pick rd cap unique cs files = .ok out) :
    ∃ blocks B, (files.map dataLines).flatten = blocks.flatten ++ B ∧
      ((files.map dataLines).flatten.flatten.length < cap → blocks = []) ∧
      (blocks = [] → out = sortHeader files ++ (sortBlock cmp unique B).flatten) ∧
      (blocks ≠ [] → MergeAgree toF64 cs cmp L → PicksSmallest cmp L pick →
        (∀ l ∈ (files.map dataLines).flatten, isCdx l = false) →
        ∃ seq, Interleaving ((blocks ++ [B]).map (sortBlock cmp unique)) seq ∧ SortedBy cmp seq ∧
          out = sortHeader files ++ (if unique then uniq (fun a b => cmp a b == .eq) seq else seq).flatten) := by
  unfold sortFiles at hok
  cases hs : Sorter.addFiles toF64 nameOk lookup cap unique rd 0 (Sorter.new cs) files with
  | err => simp [hs] at hok
  | panic => simp [hs] at hok
  | ok s =>
    simp only [hs, Res.bind_ok, Res.ok.injEq] at hok
    obtain ⟨⟨blocks, B, hi⟩, ho⟩ := addFiles_inv hc hag nameOk lookup hlk unique cap hcap rd 0 (Sorter.new cs) [] [] []
      (new_inv cmp unique cap cs) files (by simpa using hL) s hs
    rw [List.nil_append] at hi
    have ho : s.out = sortHeader files := by
      rw [ho]
      simp [Sorter.new, HeaderChecker.fromMode]
    have hcalc := calc_inv hc hag unique cap hcap s _ blocks B hi hL
    refine ⟨blocks, B, hi.all, hi.nospill, ?_, ?_⟩
    · intro hb
      have ht : s.tmp = [] := by rw [hi.tmp, hb]; rfl
      rw [← hok, Sorter.finalize, if_pos ht, hcalc, ho]
    · intro hb hma hp hcdx
      have ht : s.tmp ≠ [] := by rw [hi.tmp]; simpa using hb
      rw [← hok, Sorter.finalize, if_neg ht, ho]
      have hsp : (s.spill toF64 unique).tmp = (blocks ++ [B]).map fun b => (sortBlock cmp unique b).flatten := by
        simp only [Sorter.spill]
        rw [hcalc, hi.tmp, List.map_append]
        rfl
      rw [hsp, hi.cs]
      have hmem : ∀ b ∈ blocks ++ [B], ∀ l ∈ sortBlock cmp unique b, l ∈ (files.map dataLines).flatten := by
        intro b hb l hl
        rw [hi.all]
        have := sortBlock_mem hc unique b l hl
        rcases List.mem_append.1 hb with hb | hb
        · exact List.mem_append_left _ (List.mem_flatten.2 ⟨b, hb, this⟩)
        · rw [List.mem_singleton.1 hb] at this
          exact List.mem_append_right _ this
      have hop : ∀ b ∈ blocks ++ [B], openMerge (sortBlock cmp unique b).flatten = ([], sortBlock cmp unique b) := by
        intro b hb
        exact openMerge_lines _ (fun l hl => hi.lines l (hmem b hb l hl)) (fun l hl => hcdx l (hmem b hb l hl))
      obtain ⟨seq, h1, h2, h3⟩ := mergeT2_spec hc hma hp unique
        ((blocks ++ [B]).map fun b => (sortBlock cmp unique b).flatten) (by
          left
          have := List.length_pos_iff.2 hb
          simp only [List.length_map, List.length_append, List.length_singleton]
          omega) (by
          intro c hcm
          obtain ⟨b, hb, rfl⟩ := List.mem_map.1 hcm
          rw [dataLines, hop b hb]
          exact sortBlock_sorted hc unique b) (by
          intro c hcm l hl
          obtain ⟨b, hb, rfl⟩ := List.mem_map.1 hcm
          rw [dataLines, hop b hb] at hl
          exact hL l (hmem b hb l hl))
      refine ⟨seq, ?_, h2, ?_⟩
      · rw [List.map_map] at h1
        have e : (blocks ++ [B]).map (dataLines ∘ fun b => (sortBlock cmp unique b).flatten)
            = (blocks ++ [B]).map (sortBlock cmp unique) := by
          apply List.map_congr_left
          intro b hb
          simp only [Function.comp, dataLines, hop b hb]
        rwa [e] at h1
      · rw [h3]
        have : (openMerge (((blocks ++ [B]).map fun b => (sortBlock cmp unique b).flatten).headD [])).1 = [] := by
          cases blocks with
          | nil => exact absurd rfl hb
          | cons b bs =>
            simp only [List.cons_append, List.map_cons, List.headD_cons]
            rw [hop b (by simp)]
        rw [this, List.nil_append]

/-! ## When the sort succeeds -/

theorem addLoop_ok {toF64 : Bytes → F64} {cmp : Bytes → Bytes → Ordering} {L : Bytes → Prop}
    (hc : TotalPreorder cmp) (unique : Bool) (cap : Nat) (hcap : 8 < cap) (rd : Nat → Nat)
    (fuel i : Nat) (s : Sorter) (hag : ItemsAgree toF64 s.cs cmp L) (file : Bytes)
    (hroom : s.buf.length + s.stale.length ≤ cap) (hL : ∀ l ∈ readLines .plain NL (s.buf ++ file), L l)
    (hlen : ∀ l ∈ readLines .plain NL (s.buf ++ file), l.length ≤ cap) (hnf : s.buf.length < cap)
    (hfuel : file.length < fuel) :
    ∃ s', Sorter.addLoop toF64 cap unique rd fuel i s file = .ok s' := by
  induction fuel generalizing i s file with
  | zero => omega
  | succ fuel ih =>
    unfold Sorter.addLoop
    obtain ⟨p1, p2, p3, p4, p5, p6, p7, p8, p9, p10, p11⟩ := prepare_spec cap (16 * 1024) s hroom
    generalize s.prepare cap (16 * 1024) = p at *
    obtain ⟨q, sz⟩ := p
    simp only at p1 p2 p3 p4 p5 p6 p7 p8 p9 p10 p11 ⊢
    have hsz : sz ≠ 0 := by omega
    rw [if_neg hsz]
    by_cases hfile : file = []
    · rw [if_pos hfile]
      split
      · exact ⟨_, rfl⟩
      · exact ⟨_, rfl⟩
    · rw [if_neg hfile]
      have hfl : 0 < file.length := List.length_pos_iff.2 hfile
      have hk1 : 1 ≤ max 1 (min (rd i) (min sz file.length)) := by omega
      have hk2 : max 1 (min (rd i) (min sz file.length)) ≤ sz := by omega
      have hk3 : max 1 (min (rd i) (min sz file.length)) ≤ file.length := by omega
      generalize max 1 (min (rd i) (min sz file.length)) = k at *
      rw [p1]
      have hsplit : s.buf ++ file = (s.buf ++ file.take k) ++ file.drop k := by simp
      have hlk : (file.take k).length = k := by simp; omega
      by_cases hfull : (s.buf ++ file.take k).length ≥ cap
      · rw [if_pos hfull]
        have hst : q.stale.drop k = [] := by
          rw [List.drop_eq_nil_iff]
          simp only [List.length_append, hlk] at hfull
          omega
        have hbl : (s.buf ++ file.take k).length = cap := by
          simp only [List.length_append, hlk] at hfull ⊢
          omega
        have hlines := nlLines_lines [] (s.buf ++ file.take k) (by simp)
        have happ := nlLines_append [] (s.buf ++ file.take k)
        simp only [List.nil_append] at happ
        have hrl : readLines .plain NL (s.buf ++ file) = (nlLines [] (s.buf ++ file.take k)).1 ++
            readLines .plain NL ((nlLines [] (s.buf ++ file.take k)).2 ++ file.drop k) := by
          rw [hsplit, ← happ, List.append_assoc, readLines_append _ hlines.1, happ]
        have hct := calc_text hc hag unique (s.buf ++ file.take k) [] (by simp only [List.append_nil]; omega)
          (fun l hl => hL l (by rw [hrl]; simp [hl]))
        simp only [List.append_nil] at hct
        generalize hls : (nlLines [] (s.buf ++ file.take k)).1 = ls at *
        generalize hlp : (nlLines [] (s.buf ++ file.take k)).2 = lp at *
        have hdrop : (s.buf ++ file.take k).drop ls.flatten.length = lp := by
          rw [← happ, List.drop_left]
        have hplen : ls.flatten.length + lp.length = cap := by
          rw [← hbl, ← happ, List.length_append]
        simp only [Sorter.spill, Sorter.calc, hst, List.append_nil, p2, hct, hdrop, p5]
        rw [hbl]
        refine ih (i + 1)
          { cs := s.cs, checker := q.checker, buf := lp, stale := (s.buf ++ file.take k).drop (cap - ls.flatten.length),
            tmp := s.tmp ++ [(sortBlock cmp unique ls).flatten], out := q.out } hag (file.drop k) (by
          simp only [List.length_drop, hbl]
          omega) (fun l hl => hL l (by rw [hrl]; exact List.mem_append_right _ hl))
          (fun l hl => hlen l (by rw [hrl]; exact List.mem_append_right _ hl)) ?_
          (by simp only [List.length_drop]; omega)
        -- the rest of the buffer is a proper part of a line
        simp only
        apply Nat.lt_of_le_of_ne (by omega)
        intro he
        -- then the buffer holds one line part of `cap` bytes without a newline, so the line is longer
        have hne : lp ++ file.drop k ≠ [] := by
          intro h
          have := (List.append_eq_nil_iff.1 h).1
          rw [this] at he
          simp at he
          omega
        have hr := readUntil_append NL (lp ++ file.drop k)
        have hfirst : ∃ l ∈ readLines .plain NL (lp ++ file.drop k), cap < l.length := by
          obtain ⟨b, hb1, hb2⟩ : ∃ l ls', readLines .plain NL (lp ++ file.drop k) = l :: ls' := by
            cases h : readLines .plain NL (lp ++ file.drop k) with
            | nil =>
              have := C09_lossless .plain NL (lp ++ file.drop k)
              rw [h] at this
              have hl := withFinalEol_length (lp ++ file.drop k)
              rw [← this] at hl
              have := List.length_pos_iff.2 hne
              simp only [List.flatten_nil, List.length_nil] at hl
              omega
            | cons l ls' => exact ⟨l, ls', rfl⟩
          refine ⟨b, by rw [hb2]; simp, ?_⟩
          obtain ⟨x, hx, hn⟩ := readLines_isLine (lp ++ file.drop k) b (by rw [hb2]; simp)
          have hlo := C09_lossless .plain NL (lp ++ file.drop k)
          rw [hb2, List.flatten_cons, hx] at hlo
          -- `x ++ [NL] ++ …` starts with `lp`
          have hpre : lp <+: x ++ [NL] ++ hb1.flatten := by
            rw [hlo]
            unfold withFinalEol
            split
            · exact ⟨_, rfl⟩
            · exact ⟨file.drop k ++ [NL], by simp⟩
          rw [hx]
          simp only [List.length_append, List.length_singleton]
          by_cases hlt : lp.length ≤ x.length
          · omega
          · exfalso
            have hpre' : x ++ [NL] <+: lp := by
              apply List.prefix_of_prefix_length_le (l₃ := x ++ [NL] ++ hb1.flatten) ⟨_, rfl⟩ hpre
              simp only [List.length_append, List.length_singleton]
              omega
            obtain ⟨z, hz⟩ := hpre'
            apply hlines.2
            rw [← hz]
            simp
        obtain ⟨l, hl1, hl2⟩ := hfirst
        have := hlen l (by rw [hrl]; exact List.mem_append_right _ hl1)
        omega
      · rw [if_neg hfull]
        have hfull' := hfull
        simp only [List.length_append, hlk] at hfull
        exact ih (i + 1) { q with buf := s.buf ++ file.take k, stale := q.stale.drop k }
          (by simpa only [p2] using hag) (file.drop k) (by
          simp only [List.length_append, hlk, List.length_drop]
          omega) (by simpa only [← hsplit] using hL) (by simpa only [← hsplit] using hlen)
          (by simp only [List.length_append, hlk]; omega) (by simp only [List.length_drop]; omega)

/-- The first line of a file without header. -/
theorem first_line_length (file : Bytes) : (readUntil NL file).1.length ≤ ((readLines .plain NL file).headD []).length := by
  by_cases hne : file = []
  · subst hne; simp [readUntil]
  · have h1 : (readUntil NL file).1 ≠ [] := by rw [ne_eq, readUntil_nil_iff]; exact hne
    have h := readLines_some .plain NL file (ensureEof NL (readUntil NL file).1) (readUntil NL file).2
      (by simp [readLine, h1])
    rw [h]
    simp only [List.headD_cons]
    unfold ensureEof
    split <;> simp

theorem addFile_ok {toF64 : Bytes → F64} {cmp : Bytes → Bytes → Ordering} {L : Bytes → Prop} {cs : List LineComp}
    (hc : TotalPreorder cmp) (hag : ItemsAgree toF64 cs cmp L) (nameOk : Bytes → Bool)
    (lookup : List LineComp → Bytes → Res (List LineComp)) (hlk : ∀ l, lookup cs l = .ok cs)
    (unique : Bool) (cap : Nat) (hcap : 8 < cap) (rd : Nat → Nat) (s : Sorter) (D : List Bytes)
    (blocks : List (List Bytes)) (B : List Bytes) (hi : FilesInv cmp unique cap cs s D blocks B) (file : Bytes)
    (hL : ∀ l ∈ D ++ dataLines file, L l) (hck : file = [] ∨ s.checker.check nameOk (readUntil NL file).1 ≠ none)
    (hroom : s.buf.length + ((dataLines file).headD []).length < cap) (hlen : ∀ l ∈ B ++ dataLines file, l.length ≤ cap) :
    ∃ s', s.addFile toF64 nameOk lookup cap unique rd file = .ok s' ∧
      (if file = [] then s'.checker = s.checker
        else ∃ b, s.checker.check nameOk (readUntil NL file).1 = some (s'.checker, b)) := by
  have hbl : ∀ l ∈ B, IsLine l := fun l hl => hi.lines l (by rw [hi.all]; simp [hl])
  have hB : s.buf = B.flatten := hi.buf
  unfold Sorter.addFile
  simp only []
  by_cases hne : file = []
  · subst hne
    refine ⟨s, by simp [readUntil], by simp⟩
  · have hr1 : (readUntil NL file).1 ≠ [] := by rw [ne_eq, readUntil_nil_iff]; exact hne
    simp only [hr1, hne, if_false]
    have hck := hck.resolve_left hne
    cases hckv : s.checker.check nameOk (readUntil NL file).1 with
    | none => exact absurd hckv hck
    | some ckb =>
      obtain ⟨ck, b⟩ := ckb
      obtain ⟨m1, m2, m3, m4, m5⟩ := check_matching hi.mode hr1 hckv
      rw [isCdx_readUntil] at m3 m4 m5
      have hfe := readUntil_append NL file
      have hsub : ∀ l ∈ B ++ dataLines file, L l := by
        intro l hl
        apply hL
        rw [hi.all]
        simp only [List.mem_append] at hl ⊢
        rcases hl with hl | hl
        · exact .inl (.inr hl)
        · exact .inr hl
      simp only []
      suffices h : ∃ s1, (if b = true then (lookup s.cs (readUntil NL file).1).bind fun cs =>
            if isCdx (readUntil NL file).1 = true then Res.ok { s with cs := cs, checker := ck, out := s.out ++ (readUntil NL file).1 }
            else Sorter.addData cap { s with cs := cs, checker := ck } (readUntil NL file).1
          else Res.ok { s with checker := ck }) = .ok s1 ∧ s1.cs = cs ∧ s1.checker = ck ∧
          s1.buf.length + s1.stale.length ≤ cap ∧ s1.buf.length < cap ∧
          readLines .plain NL (s1.buf ++ (readUntil NL file).2) = B ++ dataLines file by
        obtain ⟨s1, e1, e2, e3, e4, e5, e6⟩ := h
        obtain ⟨s', hs'⟩ := addLoop_ok hc unique cap hcap rd ((readUntil NL file).2.length + 1) 0 s1 (by rw [e2]; exact hag)
          (readUntil NL file).2 e4 (by rw [e6]; exact hsub) (by rw [e6]; exact hlen) e5 (by omega)
        refine ⟨s', ?_, b, ?_⟩
        · rw [e1]
          exact hs'
        · obtain ⟨new, hadd⟩ := addLoop_added hc unique cap hcap rd _ 0 s1 (by rw [e2]; exact hag) _ s' e4
            (by rw [e6]; exact hsub) hs'
          rw [hadd.checker, e3]
      rw [hi.cs, hlk, isCdx_readUntil]
      simp only [Res.bind_ok]
      cases hcd : isCdx file with
      | true =>
        have hom := openMerge_cdx file hcd (m3 hcd)
        have hE : dataLines file = readLines .plain NL (readUntil NL file).2 := by rw [dataLines, hom]
        cases b with
        | true =>
          exact ⟨_, rfl, rfl, rfl, hi.room, by simp only; omega, by simp only [hB]; rw [readLines_append B hbl, hE]⟩
        | false =>
          exact ⟨_, rfl, rfl, rfl, hi.room, by simp only; omega, by simp only [hB]; rw [readLines_append B hbl, hE]⟩
      | false =>
        have hom := openMerge_plain file hcd
        have hE : dataLines file = readLines .plain NL file := by rw [dataLines, hom]
        have hb := m4 hcd
        have hfl := first_line_length file
        rw [← hE] at hfl
        obtain ⟨p1, p2, p3, p4, p5, p6, p7, p8, p9, p10, p11⟩ :=
          prepare_spec cap (readUntil NL file).1.length { s with cs := cs, checker := ck } hi.room
        unfold Sorter.addData
        generalize Sorter.prepare cap (readUntil NL file).1.length { s with cs := cs, checker := ck } = p at *
        obtain ⟨q, sz⟩ := p
        simp only at p1 p2 p3 p4 p5 p6 p7 p8 p9 p10 p11 ⊢
        have hsz : sz = (readUntil NL file).1.length := p11.2 (by omega)
        rw [hb, if_pos rfl, if_neg (by simp), if_neg (by simp [hsz])]
        refine ⟨_, rfl, p2, p4, ?_, ?_, ?_⟩
        · simp only [List.length_append, List.length_drop, p1]
          omega
        · simp only [List.length_append, p1]
          omega
        · simp only [p1, List.append_assoc, hfe, hB]
          rw [readLines_append B hbl, hE]

theorem addFiles_ok {toF64 : Bytes → F64} {cmp : Bytes → Bytes → Ordering} {L : Bytes → Prop} {cs : List LineComp}
    (hc : TotalPreorder cmp) (hag : ItemsAgree toF64 cs cmp L) (nameOk : Bytes → Bool)
    (lookup : List LineComp → Bytes → Res (List LineComp)) (hlk : ∀ l, lookup cs l = .ok cs)
    (unique : Bool) (cap : Nat) (hcap : 8 < cap) (rd : Nat → Nat → Nat) (i : Nat) (s : Sorter) (D : List Bytes)
    (blocks : List (List Bytes)) (B : List Bytes) (hi : FilesInv cmp unique cap cs s D blocks B) (files : List Bytes)
    (hL : ∀ l ∈ D ++ (files.map dataLines).flatten, L l)
    (hck : s.checker.checkAll nameOk ((files.filter (· ≠ [])).map fun f => (readUntil NL f).1) ≠ none)
    (hroom : (D ++ (files.map dataLines).flatten).flatten.length < cap) :
    ∃ s', Sorter.addFiles toF64 nameOk lookup cap unique rd i s files = .ok s' := by
  induction files generalizing i s D blocks B with
  | nil => exact ⟨s, rfl⟩
  | cons f fs ih =>
    have hL1 : ∀ l ∈ D ++ dataLines f, L l := fun l hl => hL l (by
      simp only [List.map_cons, List.flatten_cons, List.mem_append] at hl ⊢; grind)
    simp only [List.map_cons, List.flatten_cons, List.flatten_append, List.length_append] at hroom
    have hb := hi.nospill (by omega)
    have hBD : B = D := by rw [hi.all, hb]; rfl
    have hbuf : s.buf.length = D.flatten.length := by rw [hi.buf, hBD]
    have hle : ∀ (l : Bytes) (ls : List Bytes), l ∈ ls → l.length ≤ ls.flatten.length := by
      intro l ls hl
      obtain ⟨a, b, rfl⟩ := List.append_of_mem hl
      simp only [List.flatten_append, List.flatten_cons, List.length_append]
      omega
    have hhead : ((dataLines f).headD []).length ≤ (dataLines f).flatten.length := by
      cases h : dataLines f with
      | nil => simp
      | cons a l => exact hle a (a :: l) (by simp)
    obtain ⟨s1, h1, h2⟩ := addFile_ok hc hag nameOk lookup hlk unique cap hcap (rd i) s D blocks B hi f hL1 (by
        by_cases hf : f = []
        · exact Or.inl hf
        · right
          intro hn
          apply hck
          simp [hf, HeaderChecker.checkAll, hn]) (by omega) (by
        intro l hl
        rcases List.mem_append.1 hl with hl | hl
        · have := hle l B hl
          rw [hBD] at this
          omega
        · have := hle l _ hl
          omega)
    obtain ⟨⟨b1, B1, hi1⟩, _, _⟩ := addFile_inv hc hag nameOk lookup
      (fun l cs' h => by rw [hlk] at h; exact (Res.ok.inj h).symm) unique cap hcap (rd i) s D blocks B hi f hL1 s1 h1
    simp only [Sorter.addFiles, h1, Res.bind_ok]
    refine ih (i + 1) s1 (D ++ dataLines f) b1 B1 hi1 ?_ ?_ ?_
    · intro l hl
      apply hL
      simp only [List.map_cons, List.flatten_cons, List.mem_append] at hl ⊢
      grind
    · by_cases hf : f = []
      · simp only [hf, if_true] at h2
        rw [h2]
        simpa [hf] using hck
      · simp only [hf, if_false] at h2
        obtain ⟨b, h2⟩ := h2
        intro hn
        apply hck
        simp [hf, HeaderChecker.checkAll, h2]
        simpa using hn
    · simp only [List.flatten_append, List.length_append]
      omega

end Cdx
