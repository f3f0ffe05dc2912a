import Verif.Lemmas.Sorter

/-!
The sorter over all files, and the final merge.
-/

namespace Cdx

/-! ## Headers -/

theorem isCdx_append_nl (a b : Bytes) (x : Bytes) (h : a = x ++ [NL]) (hx : NL ∉ x) : isCdx (a ++ b) = isCdx a := by
  subst h
  unfold isCdx cdxTag
  match x with
  | [] => simp [NL, List.isPrefixOf]
  | [c1] => simp [NL, List.isPrefixOf]
  | [c1, c2] => simp [NL, List.isPrefixOf]
  | [c1, c2, c3] => simp [NL, List.isPrefixOf]
  | c1 :: c2 :: c3 :: c4 :: x => simp [List.isPrefixOf]

theorem isCdx_readUntil (file : Bytes) : isCdx (readUntil NL file).1 = isCdx file := by
  have e := readUntil_append NL file
  rcases readUntil_cases NL file with ⟨a, h1, h2⟩ | ⟨_, h2⟩
  · rw [← isCdx_append_nl (readUntil NL file).1 (readUntil NL file).2 a h1 h2, e]
  · rw [h2, List.append_nil] at e
    rw [e]

theorem isCdx_flatten (ls : List Bytes) (h : ∀ l ∈ ls, IsLine l) (hc : ∀ l ∈ ls, isCdx l = false) :
    isCdx ls.flatten = false := by
  cases ls with
  | nil => rfl
  | cons l ls =>
    obtain ⟨b, hb, hn⟩ := h l (by simp)
    rw [List.flatten_cons, isCdx_append_nl l _ b hb hn]
    exact hc l (by simp)

/-- Opening a file that starts with a header line. -/
theorem openMerge_cdx (file : Bytes) (hc : isCdx file = true) (hl : (readUntil NL file).1.getLast? = some NL) :
    openMerge file = ((readUntil NL file).1, readLines .plain NL (readUntil NL file).2) := by
  have hne : file ≠ [] := by rintro rfl; simp [isCdx, cdxTag] at hc
  have h1 : (readUntil NL file).1 ≠ [] := by rw [ne_eq, readUntil_nil_iff]; exact hne
  unfold openMerge readHeader
  simp only [hne, TextMode.default, if_false, hc, if_true, readLine, h1, ne_eq, reduceCtorEq,
    not_false_eq_true, ensureEof, hl]

theorem openMerge_plain (file : Bytes) (hc : isCdx file = false) : openMerge file = ([], readLines .plain NL file) := by
  unfold openMerge readHeader
  by_cases hne : file = []
  · subst hne
    simp [readLines_nil]
  · simp [hne, TextMode.default, hc]

/-- The header check in matching mode. -/
theorem check_matching {nameOk : Bytes → Bool} {c ck : HeaderChecker} {l : Bytes} {b : Bool} (hm : c.mode = .matching)
    (hne : l ≠ []) (h : c.check nameOk l = some (ck, b)) :
    ck.mode = .matching ∧ ck.sawOne = true ∧ (isCdx l = true → l.getLast? = some NL) ∧
    (isCdx l = false → b = true) ∧ (isCdx l = true → b = !c.sawOne) := by
  unfold HeaderChecker.check at h
  cases hv : isValidCdx nameOk c.mode l with
  | none => simp [hv] at h
  | some cdx =>
    have := isValidCdx_eq (nameOk := nameOk) (mode := c.mode) (l := l) (by simp [hv])
    rw [hv, hm] at this
    simp only [reduceCtorEq, if_false, Option.some.injEq] at this
    subst this
    rw [hv] at h
    simp only [hne, if_false, hm] at h
    by_cases hl : l.getLast? ≠ some NL ∧ isCdx l = true
    · simp [hl] at h
    · rw [if_neg hl] at h
      have hl2 : isCdx l = true → l.getLast? = some NL := by
        intro hcd
        simp only [ne_eq, not_and] at hl
        exact Decidable.not_not.1 fun hh => hl hh hcd
      cases hs : c.sawOne with
      | true =>
        simp only [hs, if_true] at h
        cases hcd : isCdx l with
        | true =>
          simp only [hcd, if_true] at h
          split at h
          · simp at h
          · split at h
            · simp at h
            · simp only [Option.some.injEq, Prod.mk.injEq] at h
              rw [← h.1, ← h.2]
              exact ⟨hm, hs, fun _ => hl2 hcd, by simp, by simp⟩
        | false =>
          simp only [hcd, Bool.false_eq_true, if_false] at h
          split at h
          · simp at h
          · simp only [Option.some.injEq, Prod.mk.injEq] at h
            rw [← h.1, ← h.2]
            exact ⟨hm, hs, by simp, by simp, by simp⟩
      | false =>
        simp only [hs, Bool.false_eq_true, if_false, reduceCtorEq, and_false, Option.some.injEq,
          Prod.mk.injEq] at h
        rw [← h.1, ← h.2]
        exact ⟨rfl, rfl, hl2, by simp, by simp⟩

/-! ## All files -/

/-- The lines of a file that are to be sorted. -/
def dataLines (file : Bytes) : List Bytes := (openMerge file).2

/-- The header of the output: that of the first file that is not empty. -/
def sortHeader : List Bytes → Bytes
  | [] => []
  | f :: fs => if f = [] then sortHeader fs else (openMerge f).1

theorem dataLines_isLine (file : Bytes) : ∀ l ∈ dataLines file, IsLine l := by
  intro l hl
  unfold dataLines openMerge at hl
  cases h : readHeader .default file with
  | none => simp [h] at hl
  | some p => rw [h] at hl; exact readLines_isLine _ l hl

/-- State after some files whose lines are `D`; `blocks` were spilled, `B` is in the buffer. -/
structure FilesInv (cmp : Bytes → Bytes → Ordering) (unique : Bool) (cap : Nat) (cs : List LineComp) (s : Sorter)
    (D : List Bytes) (blocks : List (List Bytes)) (B : List Bytes) : Prop where
  cs : s.cs = cs
  mode : s.checker.mode = .matching
  room : s.buf.length + s.stale.length ≤ cap
  wide : s.checker.sawOne = true → min 16384 cap ≤ s.buf.length + s.stale.length
  fresh : s.checker.sawOne = false → s.buf = [] ∧ s.tmp = [] ∧ s.out = []
  lines : ∀ l ∈ D, IsLine l
  tmp : s.tmp = blocks.map fun b => (sortBlock cmp unique b).flatten
  buf : s.buf = B.flatten
  all : D = blocks.flatten ++ B
  nospill : D.flatten.length < cap → blocks = []

theorem added_inv {cmp : Bytes → Bytes → Ordering} {unique : Bool} {cap : Nat} {cs : List LineComp} {s s1 s' : Sorter}
    {D : List Bytes} {blocks : List (List Bytes)} {B : List Bytes} {t : Bytes} {new : List (List Bytes)} {E : List Bytes}
    (hi : FilesInv cmp unique cap cs s D blocks B) (hadd : Added cmp unique cap s1 s' t new)
    (hcs : s1.cs = s.cs) (hm : s1.checker.mode = .matching) (hs : s1.checker.sawOne = true) (ht : s1.tmp = s.tmp)
    (hE : ∀ l ∈ E, IsLine l) (hte : withFinalEol NL (s1.buf ++ t) = B.flatten ++ E.flatten)
    (hlen : (s1.buf ++ t).length ≤ B.flatten.length + E.flatten.length) :
    ∃ blocks' B', FilesInv cmp unique cap cs s' (D ++ E) blocks' B' := by
  have hbl : ∀ l ∈ B, IsLine l := fun l hl => hi.lines l (by rw [hi.all]; simp [hl])
  have htext := hadd.text
  rw [hte] at htext
  -- the lines of what is in the buffer now
  have hb' := nlLines_lines [] s'.buf (by simp)
  have happ := nlLines_append [] s'.buf
  simp only [List.nil_append] at happ
  have hl1 : ∀ l ∈ new.flatten ++ (nlLines [] s'.buf).1, IsLine l := by
    intro l hl
    rcases List.mem_append.1 hl with hl | hl
    · obtain ⟨b, hb, hlb⟩ := List.mem_flatten.1 hl
      exact hadd.lines b hb l hlb
    · exact hb'.1 l hl
  have hl2 : ∀ l ∈ B ++ E, IsLine l := by
    intro l hl
    rcases List.mem_append.1 hl with hl | hl
    · exact hbl l hl
    · exact hE l hl
  obtain ⟨e1, e2⟩ := lines_unique _ _ _ [] hl1 hl2 hb'.2 (by simp) (by
    simp only [List.flatten_append, List.append_assoc, List.append_nil, happ]
    rw [htext])
  refine ⟨blocks ++ new, (nlLines [] s'.buf).1, ⟨by rw [hadd.cs, hcs, hi.cs], by rw [hadd.checker]; exact hm, hadd.room,
    fun _ => hadd.wide, ?_, ?_, ?_, ?_, ?_, ?_⟩⟩
  · intro h
    rw [hadd.checker, hs] at h
    simp at h
  · intro l hl
    rcases List.mem_append.1 hl with hl | hl
    · exact hi.lines l hl
    · exact hE l hl
  · rw [hadd.tmp, ht, hi.tmp, List.map_append]
  · rw [e2, List.append_nil] at happ
    exact happ.symm
  · rw [List.flatten_append, List.append_assoc, e1, ← List.append_assoc, ← hi.all]
  · intro h
    rw [List.flatten_append, List.length_append] at h
    have h1 := hi.nospill (by omega)
    have h2 : new = [] := by
      apply hadd.nospill
      have : D.flatten.length = B.flatten.length := by rw [hi.all, h1]; simp
      omega
    rw [h1, h2]
    rfl

theorem withFinalEol_length (t : Bytes) : t.length ≤ (withFinalEol NL t).length := by
  unfold withFinalEol
  split <;> simp

theorem withFinalEol_lines (ls : List Bytes) (h : ∀ l ∈ ls, IsLine l) (t : Bytes) :
    withFinalEol NL (ls.flatten ++ t) = ls.flatten ++ (readLines .plain NL t).flatten := by
  rw [← C09_lossless .plain, readLines_append ls h, List.flatten_append]

theorem addFile_inv {toF64 : Bytes → F64} {cmp : Bytes → Bytes → Ordering} {L : Bytes → Prop} {cs : List LineComp}
    (hc : TotalPreorder cmp) (hag : ItemsAgree toF64 cs cmp L) (nameOk : Bytes → Bool)
    (lookup : List LineComp → Bytes → Res (List LineComp)) (hlk : ∀ l cs', lookup cs l = .ok cs' → cs' = cs)
    (unique : Bool) (cap : Nat) (hcap : 8 < cap) (rd : Nat → Nat) (s : Sorter) (D : List Bytes)
    (blocks : List (List Bytes)) (B : List Bytes) (hi : FilesInv cmp unique cap cs s D blocks B) (file : Bytes)
    (hL : ∀ l ∈ D ++ dataLines file, L l) (s' : Sorter)
    (hok : s.addFile toF64 nameOk lookup cap unique rd file = .ok s') :
    (∃ blocks' B', FilesInv cmp unique cap cs s' (D ++ dataLines file) blocks' B') ∧
    s'.out = (if s.checker.sawOne = false ∧ file ≠ [] then (openMerge file).1 else s.out) ∧
    s'.checker.sawOne = (s.checker.sawOne || decide (file ≠ [])) := by
  have hbl : ∀ l ∈ B, IsLine l := fun l hl => hi.lines l (by rw [hi.all]; simp [hl])
  unfold Sorter.addFile at hok
  simp only [] at hok
  by_cases hne : file = []
  · subst hne
    simp only [readUntil, if_true, Res.ok.injEq] at hok
    subst hok
    refine ⟨⟨blocks, B, ?_⟩, by simp, by simp⟩
    simpa [dataLines, openMerge, readHeader] using hi
  · have hr1 : (readUntil NL file).1 ≠ [] := by rw [ne_eq, readUntil_nil_iff]; exact hne
    rw [if_neg hr1] at hok
    cases hck : s.checker.check nameOk (readUntil NL file).1 with
    | none => simp [hck] at hok
    | some ckb =>
      obtain ⟨ck, b⟩ := ckb
      obtain ⟨m1, m2, m3, m4, m5⟩ := check_matching hi.mode hr1 hck
      rw [isCdx_readUntil] at m3 m4 m5
      simp only [hck] at hok
      have hfe := readUntil_append NL file
      cases hcd : isCdx file with
      | true =>
        have hom := openMerge_cdx file hcd (m3 hcd)
        have hE : dataLines file = readLines .plain NL (readUntil NL file).2 := by rw [dataLines, hom]
        have hout : ∃ s1 : Sorter, s1.cs = s.cs ∧ s1.buf = s.buf ∧ s1.stale = s.stale ∧ s1.tmp = s.tmp ∧ s1.checker = ck ∧
            s1.out = (if s.checker.sawOne = false ∧ file ≠ [] then (openMerge file).1 else s.out) ∧
            Sorter.addLoop toF64 cap unique rd ((readUntil NL file).2.length + 1) 0 s1 (readUntil NL file).2 = .ok s' := by
          cases hb : b with
          | false =>
            rw [hb] at hok
            simp only [Bool.false_eq_true, if_false, Res.bind_ok] at hok
            refine ⟨{ s with checker := ck }, rfl, rfl, rfl, rfl, rfl, ?_, hok⟩
            have := m5 hcd
            rw [hb] at this
            have : s.checker.sawOne = true := by simpa using this
            simp [this]
          | true =>
            rw [hb] at hok
            simp only [if_true] at hok
            rw [hi.cs] at hok
            cases hlo : lookup cs (readUntil NL file).1 with
            | err => simp [hlo] at hok
            | panic => simp [hlo] at hok
            | ok cs' =>
              have hcs' := hlk _ _ hlo
              simp only [hlo, Res.bind_ok, isCdx_readUntil, hcd, if_true] at hok
              refine ⟨{ s with cs := cs', checker := ck, out := s.out ++ (readUntil NL file).1 }, hcs'.trans hi.cs.symm, rfl, rfl,
                rfl, rfl, ?_, hok⟩
              have := m5 hcd
              rw [hb] at this
              have hs : s.checker.sawOne = false := by simpa using this.symm
              simp only [hs, hne, ne_eq, not_false_eq_true, and_self, if_true, hom]
              rw [(hi.fresh hs).2.2]
              rfl
        obtain ⟨s1, g1, g2, g3, g4, g5, g6, hok⟩ := hout
        have hB : s.buf = B.flatten := hi.buf
        obtain ⟨new, hadd⟩ := addLoop_added hc unique cap hcap rd _ 0 s1 (by rw [g1, hi.cs]; exact hag) _ s'
          (by rw [g2, g3]; exact hi.room) (by
            rw [g2, hB, readLines_append B hbl, ← hE]
            intro l hl
            apply hL
            rw [hi.all]
            simp only [List.mem_append] at hl ⊢
            rcases hl with hl | hl
            · exact .inl (.inr hl)
            · exact .inr hl) hok
        refine ⟨added_inv hi hadd g1 (by rw [g5]; exact m1) (by rw [g5]; exact m2) g4 (dataLines_isLine file) ?_ ?_, ?_, ?_⟩
        · rw [g2, hB, withFinalEol_lines B hbl, hE]
        · rw [g2, hB, List.length_append, hE, C09_lossless]
          have := withFinalEol_length (readUntil NL file).2
          omega
        · rw [hadd.out, g6]
        · rw [hadd.checker, g5, m2]
          simp [hne]
      | false =>
        have hom := openMerge_plain file hcd
        have hE : dataLines file = readLines .plain NL file := by rw [dataLines, hom]
        have hb := m4 hcd
        rw [hb] at hok
        simp only [if_true] at hok
        rw [hi.cs] at hok
        cases hlo : lookup cs (readUntil NL file).1 with
        | err => simp [hlo] at hok
        | panic => simp [hlo] at hok
        | ok cs' =>
          have hcs' := hlk _ _ hlo
          simp only [hlo, Res.bind_ok, isCdx_readUntil, hcd, Bool.false_eq_true, if_false, Sorter.addData] at hok
          obtain ⟨p1, p2, p3, p4, p5, p6, p7, p8, p9, p10, p11⟩ :=
            prepare_spec cap (readUntil NL file).1.length { s with cs := cs', checker := ck } hi.room
          generalize Sorter.prepare cap (readUntil NL file).1.length { s with cs := cs', checker := ck } = p at *
          obtain ⟨q, sz⟩ := p
          simp only at hok p1 p2 p3 p4 p5 p6 p7 p8 p9 p10 p11
          by_cases hsz : sz ≠ (readUntil NL file).1.length
          · simp [hsz] at hok
          · have hsz : sz = (readUntil NL file).1.length := Decidable.not_not.1 hsz
            simp only [hsz, ne_eq, not_true_eq_false, if_false, Res.bind_ok] at hok
            have hB : s.buf = B.flatten := hi.buf
            have hbuf : (q.buf ++ (readUntil NL file).1) ++ (readUntil NL file).2 = B.flatten ++ file := by
              rw [p1, List.append_assoc, hfe, hB]
            obtain ⟨new, hadd⟩ := addLoop_added hc unique cap hcap rd _ 0
              { q with buf := q.buf ++ (readUntil NL file).1, stale := q.stale.drop (readUntil NL file).1.length }
              (by simp only [p2, hcs']; exact hag) _ s'
              (by
                simp only [List.length_append, List.length_drop, p1]
                omega) (by
                simp only [hbuf]
                rw [readLines_append B hbl, ← hE]
                intro l hl
                apply hL
                rw [hi.all]
                simp only [List.mem_append] at hl ⊢
                rcases hl with hl | hl
                · exact .inl (.inr hl)
                · exact .inr hl) hok
            refine ⟨added_inv hi hadd (by simp only [p2, hcs', hi.cs]) (by simp only [p4, m1]) (by simp only [p4, m2])
              p5 (dataLines_isLine file) ?_ ?_, ?_, ?_⟩
            · simp only [hbuf]
              rw [withFinalEol_lines B hbl, hE]
            · simp only [hbuf]
              rw [List.length_append, hE, C09_lossless]
              have := withFinalEol_length file
              omega
            · rw [hadd.out]
              simp only [p3, hom]
              split
              · rename_i h
                exact (hi.fresh h.1).2.2
              · rfl
            · rw [hadd.checker]
              simp only [p4, m2]
              simp [hne]

theorem addFiles_inv {toF64 : Bytes → F64} {cmp : Bytes → Bytes → Ordering} {L : Bytes → Prop} {cs : List LineComp}
    (hc : TotalPreorder cmp) (hag : ItemsAgree toF64 cs cmp L) (nameOk : Bytes → Bool)
    (lookup : List LineComp → Bytes → Res (List LineComp)) (hlk : ∀ l cs', lookup cs l = .ok cs' → cs' = cs)
    (unique : Bool) (cap : Nat) (hcap : 8 < cap) (rd : Nat → Nat → Nat) (i : Nat) (s : Sorter) (D : List Bytes)
    (blocks : List (List Bytes)) (B : List Bytes) (hi : FilesInv cmp unique cap cs s D blocks B) (files : List Bytes)
    (hL : ∀ l ∈ D ++ (files.map dataLines).flatten, L l) (s' : Sorter)
    (hok : Sorter.addFiles toF64 nameOk lookup cap unique rd i s files = .ok s') :
    (∃ blocks' B', FilesInv cmp unique cap cs s' (D ++ (files.map dataLines).flatten) blocks' B') ∧
    s'.out = (if s.checker.sawOne = false then s.out ++ sortHeader files else s.out) := by
  induction files generalizing i s D blocks B with
  | nil =>
    simp only [Sorter.addFiles, Res.ok.injEq] at hok
    subst hok
    refine ⟨⟨blocks, B, by simpa using hi⟩, ?_⟩
    simp [sortHeader]
  | cons f fs ih =>
    simp only [Sorter.addFiles] at hok
    cases hf : s.addFile toF64 nameOk lookup cap unique (rd i) f with
    | err => simp [hf] at hok
    | panic => simp [hf] at hok
    | ok s1 =>
      simp only [hf, Res.bind_ok] at hok
      obtain ⟨⟨b1, B1, hi1⟩, ho1, hs1⟩ := addFile_inv hc hag nameOk lookup hlk unique cap hcap (rd i) s D blocks B hi f
        (fun l hl => hL l (by simp only [List.map_cons, List.flatten_cons, List.mem_append] at hl ⊢; grind)) s1 hf
      obtain ⟨h1, h2⟩ := ih (i + 1) s1 (D ++ dataLines f) b1 B1 hi1
        (fun l hl => hL l (by simp only [List.map_cons, List.flatten_cons, List.mem_append] at hl ⊢; grind)) hok
      refine ⟨by simpa using h1, ?_⟩
      rw [h2, ho1, hs1]
      cases hsaw : s.checker.sawOne with
      | true => simp
      | false =>
        have := (hi.fresh hsaw).2.2
        by_cases hfe : f = []
        · simp [hfe, sortHeader]
        · simp [hfe, sortHeader, this]

theorem new_inv (cmp : Bytes → Bytes → Ordering) (unique : Bool) (cap : Nat) (cs : List LineComp) :
    FilesInv cmp unique cap cs (Sorter.new cs) [] [] [] := by
  refine ⟨rfl, rfl, by simp [Sorter.new], ?_, ?_, by simp, rfl, rfl, rfl, fun _ => rfl⟩
  · intro h; simp [Sorter.new, HeaderChecker.fromMode] at h
  · intro _; exact ⟨rfl, rfl, rfl⟩

end Cdx
