import Verif.Model.GrepMain
import Verif.Props.Cgrep
import Verif.Props.CutTable
import Verif.Props.Parts

/-!
C149-C152: `cgrep` with location columns, its options, and the texts of locations.
-/

namespace Cdx

/-! ## What is expected -/

/-- The last `n` parts of a path. -/
def lastParts (path : Bytes) (n : Nat) : Bytes := List.intercalate [47] ((sliceSplit 47 path).drop ((sliceSplit 47 path).length - n))

/-- The text of a location: `k` is the number of lines before it, `before` the bytes before it. -/
def placeText (path : Bytes) (k before : Nat) : LocItem → Bytes
  | .bytes => decText before
  | .line => decText (k + 1)
  | .name n => if n = 0 then path else lastParts path n

/-- The row for line `k`, which begins at byte `before`: its location columns, and the line itself. -/
def placedRow (v : List FileLoc) (path : Bytes) (k before : Nat) (line : Bytes) : Bytes :=
  (v.flatMap fun x => placeText path k before x.item ++ [TAB]) ++ line

/-- The rows for the lines selected; the first line has number `k` and begins at byte `before`. -/
def placedRows (v : List FileLoc) (path : Bytes) (sel : Bytes → Bool) : (k before : Nat) → List Bytes → Bytes
  | _, _, [] => []
  | k, before, l :: ls => (if sel l then placedRow v path k before l else []) ++ placedRows v path sel (k + 1) (before + l.length) ls

/-- The same, each row by itself. -/
theorem placedRows_eq (v : List FileLoc) (path : Bytes) (sel : Bytes → Bool) (ls : List Bytes) (k before : Nat) :
    placedRows v path sel k before ls = (ls.mapIdx fun i l =>
      if sel l then placedRow v path (k + i) (before + (ls.take i).flatten.length) l else []).flatten := by
  induction ls generalizing k before with
  | nil => rfl
  | cons l ls ih =>
    rw [placedRows, ih, List.mapIdx_cons]
    simp only [List.flatten_cons, List.take_zero, List.flatten_nil, List.length_nil, Nat.add_zero]
    congr 3
    funext i x
    simp only [List.take_succ_cons, List.flatten_cons, List.length_append]
    rw [show k + 1 + i = k + (i + 1) by omega, show before + l.length + (List.take i ls).flatten.length =
      before + (l.length + (List.take i ls).flatten.length) by omega]

theorem locData_eq (v : List FileLoc) (path : Bytes) (hp : path.getLast? ≠ some 47) (k before : Nat) :
    locData v TAB ⟨path, before, k + 1⟩ = v.flatMap fun x => placeText path k before x.item ++ [TAB] := by
  unfold locData
  apply flatMap_same
  intro x _
  obtain ⟨c, i⟩ := x
  cases i with
  | bytes => rfl
  | line => rfl
  | name n =>
    simp only [LocItem.write, placeText]
    split
    · rfl
    · rw [(C62_tail_path path n 47).2 hp, C62_tail]
      rfl

/-- The matchers accept exactly the lines of `sel`, among the lines `D` under the names `names`. -/
def Judged (env : MEnv) (m : TextMode) (g : GrepConf) (names : List Bytes) (D : List Bytes) (sel : Bytes → Bool) : Prop :=
  ∃ (ts : List LineTest) (answer : LineTest → Bytes → Bool), lookupAll env names g.matchers = .ok ts ∧
    (∀ t ∈ ts, ∀ l ∈ D, t.ok env (decoded m l) = .ok (answer t l)) ∧
    ∀ l ∈ D, sel l = (Combined g.multi (ts.map fun t => answer t l) ^^ g.reverse)

theorem lineListOk_combined (env : MEnv) (c : Combiner) (ts : List LineTest) (line : TextLine) (answer : LineTest → Bool)
    (h : ∀ t ∈ ts, t.ok env line = .ok (answer t)) : lineListOk env c ts line = .ok (Combined c (ts.map answer)) := by
  have e : ts.map (LineTest.ok env line) = (ts.map answer).map .ok := by
    rw [List.map_map]
    exact List.map_congr_left fun t ht => h t ht
  unfold lineListOk
  rw [e]
  cases c with
  | and => rw [Combiner.loop, andLoop_answers]; rfl
  | or => rw [Combiner.loop, orLoop_answers]; rfl

variable {m : TextMode}

theorem grepRows_spec (env : MEnv) (hm : m.col = .plain) (g : GrepConf) (ts : List LineTest) (path : Bytes) (hp : path.getLast? ≠ some 47)
    (sel : Bytes → Bool) (L : List Bytes) :
    ∀ (fuel k before : Nat) (r : Reader) (t o : TextLine) (x : Bytes), L.length < fuel → View m true t o L r → Shows m true t x →
      o.orig = [] → r.locLine = k + 1 → r.locBytes = before →
      (∀ l ∈ x :: L, ∃ b, lineListOk env g.multi ts (decoded m l) = .ok b ∧ sel l = (b ^^ g.reverse)) →
      grepRows env g ts path fuel r = .ok (placedRows g.locs path sel k before (x :: L)) := by
  induction L with
  | nil =>
    intro fuel k before r t o x hf hv ht ho h1 h2 hl
    obtain ⟨fuel, rfl⟩ : ∃ k, fuel = k + 1 := ⟨fuel - 1, by simp at hf; omega⟩
    obtain ⟨b, h3, h4⟩ := hl x (by simp)
    rw [grepRows]
    simp only [hv.cur, ht.split rfl, h3, Res.bind_ok, hv.end_.1, if_true, Reader.loc, h1, h2, Reader.writeCurr, (decoded_plain hm x).1]
    rw [locData_eq _ _ hp]
    simp only [placedRows, placedRow, h4, List.append_nil]
  | cons l L ih =>
    intro fuel k before r t o x hf hv ht ho h1 h2 hl
    obtain ⟨fuel, rfl⟩ : ∃ k, fuel = k + 1 := ⟨fuel - 1, by simp at hf; omega⟩
    obtain ⟨b, h3, h4⟩ := hl x (by simp)
    have hloc := getline_loc r
    rw [hv.cur, ht.line, h1, h2] at hloc
    have := ih fuel (k + 1) (before + x.length) r.getline _ _ l (by simp at hf; omega) hv.next
      (putLine_shows (b := true) hm o ho l) ht.orig hloc.1 hloc.2 (fun y hy => hl y (by simp [List.mem_cons.1 hy]))
    rw [grepRows]
    simp only [hv.cur, ht.split rfl, h3, Res.bind_ok, hv.next.more, Bool.false_eq_true, if_false, this, Reader.loc, h1, h2,
      Reader.writeCurr, (decoded_plain hm x).1]
    rw [locData_eq _ _ hp]
    rw [placedRows, ← h4]
    rfl

/-- The header of a file; empty if it has none. -/
def headOf (m : TextMode) (f : Bytes) : Bytes :=
  match readHeader m f with
  | none => []
  | some p => p.1

/-- The header written for a file, if any is. -/
def grepHead (m t : TextMode) (v : List FileLoc) (f : Bytes) : Bytes :=
  if headOf m f = [] then [] else headText t (v.map (·.colName) ++ namesOf m f)

/-- The rows written for a file. -/
def grepBody (m : TextMode) (v : List FileLoc) (sel : Bytes → Bool) (f : Bytes × Bytes) : Bytes :=
  placedRows v f.1 sel 0 (headOf m f.2).length (dataOf m f.2)

/-- The names of the columns are valid and different. -/
def NamesFit (m : TextMode) (v : List FileLoc) (f : Bytes) : Prop :=
  (∀ n ∈ v.map (·.colName) ++ namesOf m f, isValidColumnName n = true) ∧ (v.map (·.colName) ++ namesOf m f).Nodup ∧
    v.map (·.colName) ++ namesOf m f ≠ []

theorem newOpen_names (m : TextMode) (f : Bytes) : (Reader.newOpenWith f 1 m).names = namesOf m f := rfl

theorem newOpen_isEmpty (m : TextMode) (f : Bytes) : (Reader.newOpenWith f 1 m).isEmpty = (readHeader m f).isNone := open_isEmpty m f

theorem newOpen_hasHeader (m : TextMode) (f : Bytes) (hh : (readHeader m f).isSome) :
    (Reader.newOpenWith f 1 m).hasHeader = !(headOf m f).isEmpty := by
  cases h : readHeader m f with
  | none => simp [h] at hh
  | some p =>
    have := (open_fields m f p.1 p.2 h).2.2.1
    unfold headOf
    rw [h]
    exact this

theorem newOpen_bytes (m : TextMode) (f : Bytes) (hd : Bytes) (rest : Bytes) (hh : readHeader m f = some (hd, rest)) :
    (Reader.newOpenWith f 1 m).locBytes = hd.length := by
  have h := open_fields m f hd rest hh
  unfold Reader.newOpenWith
  simp only
  rw [h.2.2.1, h.2.1]
  cases hd <;> simp

theorem grepFile_spec (env : MEnv) (nameOk : Bytes → Bool) (hm : m.col = .plain) (t : TextMode) (g : GrepConf) (chk : HeaderChecker)
    (f : Bytes × Bytes) (sel : Bytes → Bool) (hp : f.1.getLast? ≠ some 47) (hh : (readHeader m f.2).isSome)
    (hj : Judged env m g (namesOf m f.2) (dataOf m f.2) sel) (hn : NamesFit m g.locs f.2) :
    grepFile env nameOk m t g chk f =
      match chk.check nameOk (grepHead m t g.locs f.2) with
      | none => .err
      | some (chk, shown) => .ok (chk, (if shown then grepHead m t g.locs f.2 else []) ++ grepBody m g.locs sel f) := by
  obtain ⟨ts, answer, h1, h2, h3⟩ := hj
  obtain ⟨n1, n2, n3⟩ := hn
  unfold grepFile
  have hp1 : locAdd g.locs ⟨[], .fail, []⟩ = .ok ⟨g.locs.map (·.colName), .fail, []⟩ := by
    have := pushAll_fresh .fail [] (g.locs.map (·.colName)) [] (fun n hm => n1 n (List.mem_append_left _ hm))
      (by simpa using (List.nodup_append.1 n2).1)
    simpa [locAdd] using this
  have hp2 := pushAll_fresh .fail [] (namesOf m f.2) (g.locs.map (·.colName)) (fun n hm => n1 n (List.mem_append_right _ hm)) n2
  have he : (Reader.newOpenWith f.2 1 m).isEmpty = false := by
    rw [newOpen_isEmpty]
    cases h : readHeader m f.2 <;> simp [h] at hh ⊢
  simp only [he, Bool.false_eq_true, if_false, newOpen_names, h1, Res.bind_ok, hp1, hp2, newOpen_hasHeader m f.2 hh]
  have hhead : (if (!(headOf m f.2).isEmpty) = true then getHead t (g.locs.map (·.colName) ++ namesOf m f.2) else .ok []) =
      .ok (grepHead m t g.locs f.2) := by
    unfold grepHead getHead
    cases headOf m f.2 with
    | nil => rfl
    | cons a b => simp only [List.isEmpty_cons, Bool.not_false, if_true, if_neg n3, headText]; rfl
  rw [hhead, Res.bind_ok]
  cases hc : chk.check nameOk (grepHead m t g.locs f.2) with
  | none => rfl
  | some q =>
    obtain ⟨chk', shown⟩ := q
    simp only [newOpen_done]
    cases hr : readHeader m f.2 with
    | none => simp [hr] at hh
    | some p =>
      cases hD : dataOf m f.2 with
      | nil => simp [grepBody, hD, placedRows]
      | cons d D =>
        have hD' : readLines m.col m.eol p.2 = d :: D := by simpa [dataOf, hr] using hD
        have hv := view_newOpen m f.2 p.1 p.2 d D hr hD'
        have hlen : D.length < (Reader.newOpenWith f.2 1 m).file.length + 1 := by
          have h := readLines_length m.col m.eol (Reader.newOpenWith f.2 1 m).file
          rw [hv.file] at h
          omega
        have := grepRows_spec env hm g ts f.1 hp sel D _ 0 p.1.length _ _ _ d hlen hv (decoded_shows hm d) rfl rfl
          (newOpen_bytes m f.2 p.1 p.2 hr) (by
            intro l hl
            rw [hD] at h2 h3
            exact ⟨_, lineListOk_combined env g.multi ts (decoded m l) (fun t => answer t l) (fun t ht => h2 t ht l hl), h3 l hl⟩)
        simp only [List.isEmpty_cons, Bool.false_eq_true, if_false, this, Res.bind_ok]
        simp [grepBody, hD, headOf, hr]

/-- The files that are not empty. -/
def openable (m : TextMode) (files : List (Bytes × Bytes)) : List (Bytes × Bytes) := files.filter fun f => (readHeader m f.2).isSome

/-- The output: for each file its header, if it is to be shown, and its rows. -/
def grepOutput (m t : TextMode) (v : List FileLoc) (sel : Bytes → Bytes → Bool) (files : List (Bytes × Bytes)) (shown : List Bool) : Bytes :=
  (files.zip shown).flatMap fun x => (if x.2 then grepHead m t v x.1.2 else []) ++ grepBody m v (sel x.1.2) x.1

theorem grepAll_spec (env : MEnv) (nameOk : Bytes → Bool) (hm : m.col = .plain) (t : TextMode) (g : GrepConf)
    (sel : Bytes → Bytes → Bool) (files : List (Bytes × Bytes))
    (hfile : ∀ f ∈ openable m files, f.1.getLast? ≠ some 47 ∧ Judged env m g (namesOf m f.2) (dataOf m f.2) (sel f.2) ∧ NamesFit m g.locs f.2) :
    ∀ chk : HeaderChecker, grepAll env nameOk m t g chk files =
      match chk.checkAll nameOk ((openable m files).map fun f => grepHead m t g.locs f.2) with
      | none => .err
      | some shown => .ok (grepOutput m t g.locs sel (openable m files) shown) := by
  induction files with
  | nil => intro chk; rfl
  | cons f fs ih =>
    intro chk
    rw [grepAll]
    cases hr : readHeader m f.2 with
    | none =>
      have ho : openable m (f :: fs) = openable m fs := by simp [openable, hr]
      have he : (Reader.newOpenWith f.2 1 m).isEmpty = true := by rw [newOpen_isEmpty, hr]; rfl
      have : grepFile env nameOk m t g chk f = .ok (chk, []) := by
        unfold grepFile
        simp only [he, if_true]
      rw [this, ho, Res.bind_ok, ih (by rw [ho] at hfile; exact hfile)]
      simp only
      cases chk.checkAll nameOk ((openable m fs).map fun f => grepHead m t g.locs f.2) with
      | none => rfl
      | some s => simp [Res.bind]
    | some p =>
      have ho : openable m (f :: fs) = f :: openable m fs := by simp [openable, hr]
      rw [ho] at hfile ⊢
      obtain ⟨h1, h2, h3⟩ := hfile f (by simp)
      rw [grepFile_spec env nameOk hm t g chk f (sel f.2) h1 (by simp [hr]) h2 h3]
      rw [List.map_cons, HeaderChecker.checkAll]
      cases hc : chk.check nameOk (grepHead m t g.locs f.2) with
      | none => rfl
      | some q =>
        simp only [Res.bind_ok, ih (fun x hx => hfile x (by simp [hx])) q.1]
        cases q.1.checkAll nameOk ((openable m fs).map fun f => grepHead m t g.locs f.2) with
        | none => rfl
        | some s => simp [Res.bind, grepOutput]

/-! ## C149: the locations -/

/-- Where line `k` of a file begins: after `k` newlines. -/
def startAt : Nat → Bytes → Nat
  | 0, _ => 0
  | _ + 1, [] => 0
  | k + 1, c :: cs => 1 + startAt (if c = NL then k else k + 1) cs

theorem startAt_next (k : Nat) (f : Bytes) : startAt (k + 1) f = (readUntil NL f).1.length + startAt k (readUntil NL f).2 := by
  induction f with
  | nil => cases k <;> rfl
  | cons c cs ih =>
    rw [startAt, readUntil]
    by_cases hc : c = NL
    · simp [hc]
    · simp only [if_neg hc, ih, List.length_cons]
      omega

theorem readLine_newline (f l rest : Bytes) (h : readLine .plain NL f = some (l, rest)) (hr : rest ≠ []) :
    l = (readUntil NL f).1 ∧ rest = (readUntil NL f).2 := by
  unfold readLine at h
  by_cases h0 : (readUntil NL f).1 = []
  · simp [h0] at h
  · simp only [h0, if_false, ne_eq, reduceCtorEq, not_false_eq_true, if_true, Option.some.injEq, Prod.mk.injEq] at h
    refine ⟨?_, h.2.symm⟩
    rw [← h.1, ensureEof, if_pos (readUntil_rest NL f (by rw [h.2]; exact hr))]

theorem startAt_lines (f : Bytes) : ∀ k, k < (readLines .plain NL f).length →
    ((readLines .plain NL f).take k).flatten.length = startAt k f := by
  refine readLines_induction .plain NL (fun f => ∀ k, k < (readLines .plain NL f).length →
    ((readLines .plain NL f).take k).flatten.length = startAt k f) (by simp [readLines_nil]) ?_ f
  intro f l rest h ih k hk
  rw [readLines_some _ _ _ _ _ h] at hk ⊢
  cases k with
  | zero => simp [startAt]
  | succ k =>
    have hk' : k < (readLines .plain NL rest).length := by simpa using hk
    have hr : rest ≠ [] := by
      rintro rfl
      simp [readLines_nil] at hk'
    obtain ⟨h1, h2⟩ := readLine_newline f l rest h hr
    rw [List.take_succ_cons, List.flatten_cons, List.length_append, ih k hk', startAt_next, ← h1, ← h2]

/-- The first line of the file is its header. -/
def shownHead (m : TextMode) (f : Bytes) : Bool :=
  match m.head with
  | .yes | .cdx => true
  | .no => false
  | .maybe | .skip => isCdx f

theorem startAt_data (hm : m.col = .plain) (he : m.eol = NL) (hs : m.head ≠ .skip) (f : Bytes) (k : Nat) (hk : k < (dataOf m f).length) :
    (headOf m f).length + ((dataOf m f).take k).flatten.length = startAt (k + if shownHead m f then 1 else 0) f := by
  unfold dataOf headOf at *
  cases hr : readHeader m f with
  | none => simp [hr] at hk
  | some p =>
    simp only [hr, hm, he] at hk ⊢
    have hrest : p.2 ≠ [] := by
      intro e
      rw [e, readLines_nil] at hk
      simp at hk
    have key : readLine .plain NL f = some (p.1, p.2) → p.1.length + ((readLines .plain NL p.2).take k).flatten.length = startAt (k + 1) f := by
      intro h
      obtain ⟨h1, h2⟩ := readLine_newline f _ _ h hrest
      rw [startAt_next, ← h1, ← h2, startAt_lines p.2 k hk]
    unfold readHeader at hr
    unfold shownHead
    by_cases hf : f = []
    · simp [hf] at hr
    · simp only [hf, if_false, hm, he] at hr
      cases hh : m.head with
      | skip => exact absurd hh hs
      | yes => simp only [hh] at hr; exact key hr
      | cdx => simp only [hh] at hr; exact key hr
      | no =>
        simp only [hh, Option.some.injEq] at hr
        subst hr
        simpa using startAt_lines f k hk
      | maybe =>
        simp only [hh] at hr
        by_cases hc : isCdx f = true
        · simp only [hc, if_true] at hr ⊢
          exact key hr
        · simp only [hc, Bool.false_eq_true, if_false, Option.some.injEq] at hr ⊢
          subst hr
          simpa using startAt_lines f k hk

/-- The rows for the lines selected, with their true places in the file. -/
def truePlaces (m : TextMode) (v : List FileLoc) (sel : Bytes → Bool) (f : Bytes × Bytes) : Bytes :=
  ((dataOf m f.2).mapIdx fun k l =>
    if sel l then placedRow v f.1 k (startAt (k + if shownHead m f.2 then 1 else 0) f.2) l else []).flatten

/-- What `cgrep` has to write: for each file its header, if it is to be shown, and the lines selected with their places. -/
def grepWanted (m t : TextMode) (v : List FileLoc) (sel : Bytes → Bytes → Bool) (files : List (Bytes × Bytes)) (shown : List Bool) : Bytes :=
  (files.zip shown).flatMap fun x => (if x.2 then grepHead m t v x.1.2 else []) ++ truePlaces m v (sel x.1.2) x.1

/-- The full claim: the places are those in the file. -/
def C149_statement : Prop :=
  ∀ (env : MEnv) (nameOk : Bytes → Bool) (m t : TextMode) (mode : HeaderMode) (opts : List (Bytes × Bytes)) (g : GrepConf)
    (sel : Bytes → Bytes → Bool) (files : List (Bytes × Bytes)), m.col = .plain → m.eol = NL →
    grepOptions env ⟨.and, [], false, []⟩ opts = .ok (some g) →
    (∀ f ∈ openable m files, f.1.getLast? ≠ some 47 ∧ Judged env m g (namesOf m f.2) (dataOf m f.2) (sel f.2) ∧ NamesFit m g.locs f.2) →
    grepMain env nameOk m t mode opts files =
      match (HeaderChecker.fromMode mode).checkAll nameOk ((openable m files).map fun f => grepHead m t g.locs f.2) with
      | none => .err
      | some shown => .ok (grepWanted m t g.locs sel (openable m files) shown)

theorem grepBody_places (hm : m.col = .plain) (he : m.eol = NL) (hs : m.head ≠ .skip) (v : List FileLoc) (sel : Bytes → Bool)
    (f : Bytes × Bytes) : grepBody m v sel f = truePlaces m v sel f := by
  unfold grepBody truePlaces
  rw [placedRows_eq]
  congr 1
  apply List.ext_getElem
  · simp
  · intro i h1 h2
    simp only [List.length_mapIdx] at h1
    simp only [List.getElem_mapIdx, Nat.zero_add]
    rw [startAt_data hm he hs f.2 i h1]

/-- The places are right, unless the header is skipped. -/
theorem C149_places_partial (env : MEnv) (nameOk : Bytes → Bool) (m t : TextMode) (mode : HeaderMode) (opts : List (Bytes × Bytes))
    (g : GrepConf) (sel : Bytes → Bytes → Bool) (files : List (Bytes × Bytes)) (hm : m.col = .plain) (he : m.eol = NL)
    (hs : m.head ≠ .skip) (ho : grepOptions env ⟨.and, [], false, []⟩ opts = .ok (some g))
    (hfile : ∀ f ∈ openable m files, f.1.getLast? ≠ some 47 ∧ Judged env m g (namesOf m f.2) (dataOf m f.2) (sel f.2) ∧ NamesFit m g.locs f.2) :
    grepMain env nameOk m t mode opts files =
      match (HeaderChecker.fromMode mode).checkAll nameOk ((openable m files).map fun f => grepHead m t g.locs f.2) with
      | none => .err
      | some shown => .ok (grepWanted m t g.locs sel (openable m files) shown) := by
  unfold grepMain
  rw [ho, Res.bind_ok]
  simp only
  rw [grepAll_spec env nameOk hm t g sel files hfile]
  cases (HeaderChecker.fromMode mode).checkAll nameOk ((openable m files).map fun f => grepHead m t g.locs f.2) with
  | none => rfl
  | some shown =>
    simp only [Res.ok.injEq]
    unfold grepOutput grepWanted
    apply flatMap_same
    intro x _
    rw [grepBody_places hm he hs]

/-- Options and a file as in the theorem. -/
def grepOpts : List (Bytes × Bytes) := [(ascii "location", ascii "bytes,n:line,name.1"), (ascii "pattern", ascii "a,exact,x")]

example : grepMain MEnv.trivial (fun _ => true) .default .default .matching grepOpts
    [(ascii "d/e", ascii " CDX\ta\tb\nx\t1\ny\t2\nx\t3")] =
    .ok (ascii " CDX\tbytes\tn\tfilename\ta\tb\n9\t1\te\tx\t1\n17\t3\te\tx\t3\n") := by decide +kernel

/-- If the header is skipped, its bytes are not counted. The code behaves so. -/
theorem C149_refuted : ¬ C149_statement := by
  intro h
  let m : TextMode := { TextMode.default with head := .skip }
  let f : Bytes × Bytes := (ascii "f", ascii " CDX\ta\nx\n")
  have := h MEnv.trivial (fun _ => true) m .default .matching [(ascii "location", ascii "bytes")]
    ⟨.and, [], false, [⟨ascii "bytes", .bytes⟩]⟩ (fun _ _ => true) [f] rfl rfl (by rfl) (by
      intro x hx
      have : x = f := by simpa using (List.mem_filter.1 hx).1
      subst this
      refine ⟨by decide +kernel, ⟨[], fun _ _ => true, rfl, by simp, by simp [Combined]⟩, ?_⟩
      unfold NamesFit
      decide +kernel)
  revert this
  decide +kernel

/-! ## C150: tables -/

/-- The location fields of a row. -/
def placeCells (v : List FileLoc) (path : Bytes) (k before : Nat) : List Bytes := v.map fun x => placeText path k before x.item

/-- The rows of a table selected, with their location fields in front. -/
def placedTable (d : UInt8) (names : List Bytes) (v : List FileLoc) (sel : List Bytes → Bool) (path : Bytes) (rows : List (List Bytes)) :
    List (List Bytes) :=
  (rows.mapIdx fun k r =>
    if sel r then [placeCells v path k ((sepHead d names).length + (sepText d (rows.take k)).length) ++ r] else []).flatten

/-- The text of a row of a table. -/
def rowLine (d : UInt8) (r : List Bytes) : Bytes := List.intercalate [d] r ++ [NL]

/-- The full claim: from tables with the same header, written with any separator, a table is written that has the location columns
in front. -/
def C150_statement : Prop :=
  ∀ (env : MEnv) (nameOk : Bytes → Bool) (d : UInt8) (names : List Bytes) (g : GrepConf) (opts : List (Bytes × Bytes))
    (sel : List Bytes → Bool) (tables : List (Bytes × List (List Bytes))), SepByte d → d ≠ 95 → names ≠ [] →
    (g.locs.map (·.colName) ++ names).Nodup → (∀ n ∈ g.locs.map (·.colName) ++ names, IsName n ∧ nameOk n = true) →
    grepOptions env ⟨.and, [], false, []⟩ opts = .ok (some g) → tables ≠ [] →
    (∀ t ∈ tables, t.1.getLast? ≠ some 47 ∧ SepTable d names.length t.2 ∧
      ∃ sel', Judged env (sepMode d) g names (t.2.map (rowLine d)) sel' ∧ ∀ r ∈ t.2, sel' (rowLine d r) = sel r) →
    grepMain env nameOk (sepMode d) (sepMode d) .matching opts (tables.map fun t => (t.1, sepHead d names ++ sepText d t.2)) =
      .ok (sepHead d (g.locs.map (·.colName) ++ names) ++ sepText d (tables.flatMap fun t => placedTable d names g.locs sel t.1 t.2))

theorem cells_text (v : List FileLoc) (path : Bytes) (k before : Nat) (r : List Bytes) (hr : r ≠ []) :
    placedRow v path k before (rowLine TAB r) = rowLine TAB (placeCells v path k before ++ r) := by
  unfold placedRow placeCells rowLine
  induction v with
  | nil => simp
  | cons x v ih =>
    rw [List.flatMap_cons, List.map_cons, List.cons_append, intercalate_cons_ne _ _ (by simp [hr])]
    simp only [List.append_assoc] at ih ⊢
    rw [ih]

theorem take_texts (rows : List (List Bytes)) (k : Nat) (d : UInt8) :
    ((rows.map (rowLine d)).take k).flatten = sepText d (rows.take k) := by
  rw [← List.map_take]
  induction rows.take k with
  | nil => rfl
  | cons r rs ih => rw [List.map_cons, List.flatten_cons, ih]; rfl

theorem cells_sep {d : UInt8} {v : List FileLoc} (h : d = TAB ∨ v = []) (path : Bytes) (k before : Nat) (r : List Bytes) (hr : r ≠ []) :
    placedRow v path k before (rowLine d r) = rowLine d (placeCells v path k before ++ r) := by
  rcases h with rfl | rfl
  · exact cells_text v path k before r hr
  · rfl

/-- It is so with tabs, and without locations. -/
theorem C150_sep_partial (env : MEnv) (nameOk : Bytes → Bool) (d : UInt8) (hd : SepByte d) (hu : d ≠ 95) (names : List Bytes) (g : GrepConf) (opts : List (Bytes × Bytes))
    (sel : List Bytes → Bool) (tables : List (Bytes × List (List Bytes))) (hne : names ≠ [])
    (hnd : (g.locs.map (·.colName) ++ names).Nodup) (hv : ∀ n ∈ g.locs.map (·.colName) ++ names, IsName n ∧ nameOk n = true)
    (hdl : d = TAB ∨ g.locs = []) (ho : grepOptions env ⟨.and, [], false, []⟩ opts = .ok (some g)) (ht : tables ≠ [])
    (htab : ∀ t ∈ tables, t.1.getLast? ≠ some 47 ∧ SepTable d names.length t.2 ∧
      ∃ sel', Judged env (sepMode d) g names (t.2.map (rowLine d)) sel' ∧ ∀ r ∈ t.2, sel' (rowLine d r) = sel r) :
    grepMain env nameOk (sepMode d) (sepMode d) .matching opts (tables.map fun t => (t.1, sepHead d names ++ sepText d t.2)) =
      .ok (sepHead d (g.locs.map (·.colName) ++ names) ++
        sepText d (tables.flatMap fun t => placedTable d names g.locs sel t.1 t.2)) := by
  have hsn : SepNames d names := ⟨hne, fun n hm => name_free hd hu (hv n (List.mem_append_right _ hm)).1⟩
  have hread := fun t (hr : t ∈ tables) => table_read d hd names hsn t.2 (htab t hr).2.1
  let mk : Bytes × List (List Bytes) → Bytes × Bytes := fun t => (t.1, sepHead d names ++ sepText d t.2)
  have hall : openable (sepMode d) (tables.map mk) = tables.map mk := by
    unfold openable
    rw [List.filter_eq_self]
    intro f hm
    obtain ⟨t, hr, rfl⟩ := List.mem_map.1 hm
    rw [(hread t hr).1]
    rfl
  have hdata : ∀ t ∈ tables, dataOf (sepMode d) (mk t).2 = t.2.map (rowLine d) := fun t hr => (hread t hr).2.2.1
  have hnames : ∀ t ∈ tables, namesOf (sepMode d) (mk t).2 = names := fun t hr => (hread t hr).2.1
  have hheadOf : ∀ t ∈ tables, headOf (sepMode d) (mk t).2 = sepHead d names := by
    intro t hr
    unfold headOf
    rw [(hread t hr).1]
  -- the lines are selected as the rows are
  let sel2 : Bytes → Bytes → Bool := fun f l => decide (∃ t ∈ tables, (mk t).2 = f ∧ ∃ r ∈ t.2, rowLine d r = l ∧ sel r = true)
  have hinj : ∀ t ∈ tables, ∀ r ∈ t.2, ∀ t' ∈ tables, ∀ r' ∈ t'.2, rowLine d r = rowLine d r' → r = r' := by
    intro t h1 r h2 t' h3 r' h4 h5
    have key : ∀ t ∈ tables, ∀ r ∈ t.2, ((decoded (sepMode d) (rowLine d r)).vec) = r := by
      intro t h1 r h2
      obtain ⟨h6, h7⟩ := (htab t h1).2.1 r h2
      exact row_vec d hd r (by rintro rfl; simp at h6; exact hne (List.length_eq_zero_iff.1 h6.symm)) h7
    rw [← key t h1 r h2, h5, key t' h3 r' h4]
  have hsel2 : ∀ t ∈ tables, ∀ r ∈ t.2, sel2 (mk t).2 (rowLine d r) = sel r := by
    intro t h1 r h2
    show decide _ = _
    rw [Bool.eq_iff_iff, decide_eq_true_iff]
    constructor
    · rintro ⟨t', h3, _, r', h4, h5, h6⟩
      rw [← hinj t' h3 r' h4 t h1 r h2 h5]
      exact h6
    · intro h
      exact ⟨t, h1, rfl, r, h2, rfl, h⟩
  have hfile : ∀ f ∈ openable (sepMode d) (tables.map mk), f.1.getLast? ≠ some 47 ∧
      Judged env (sepMode d) g (namesOf (sepMode d) f.2) (dataOf (sepMode d) f.2) (sel2 f.2) ∧ NamesFit (sepMode d) g.locs f.2 := by
    intro f hm
    rw [hall] at hm
    obtain ⟨t, hr, rfl⟩ := List.mem_map.1 hm
    obtain ⟨h1, h2, sel', ⟨ts, answer, h3, h4, h5⟩, h6⟩ := htab t hr
    refine ⟨h1, ?_, ?_⟩
    · rw [hnames t hr, hdata t hr]
      refine ⟨ts, answer, h3, h4, ?_⟩
      intro l hl
      obtain ⟨r, hr2, rfl⟩ := List.mem_map.1 hl
      rw [hsel2 t hr r hr2, ← h6 r hr2, h5 _ hl]
    · unfold NamesFit
      rw [hnames t hr]
      exact ⟨fun n hm => ((isValid_iff n).2 (hv n hm).1).2, hnd, by simp [hne]⟩
  have hhead : ∀ t ∈ tables, grepHead (sepMode d) (sepMode d) g.locs (mk t).2 = sepHead d (g.locs.map (·.colName) ++ names) := by
    intro t hr
    unfold grepHead
    rw [hheadOf t hr, hnames t hr, if_neg (by simp [sepHead]), sepHead_eq _ _ (by simp [hne])]
    simp [headText, sepMode, TextMode.default]
  have hbody : ∀ t ∈ tables, truePlaces (sepMode d) g.locs (sel2 (mk t).2) (mk t) =
      sepText d (placedTable d names g.locs sel t.1 t.2) := by
    intro t hr
    rw [← grepBody_places rfl rfl (by simp [sepMode, TextMode.default])]
    unfold grepBody placedTable
    rw [placedRows_eq, hdata t hr, hheadOf t hr]
    have e1 : ∀ L : List (List (List Bytes)), sepText d L.flatten = (L.map (sepText d)).flatten := by
      intro L
      induction L with
      | nil => rfl
      | cons x L ih => rw [List.flatten_cons, List.map_cons, List.flatten_cons, ← ih]; simp [sepText]
    rw [e1]
    congr 1
    apply List.ext_getElem
    · simp
    · intro i h1 h2
      have hi : i < t.2.length := by simpa using h1
      simp only [List.getElem_mapIdx, List.getElem_map, Nat.zero_add]
      rw [hsel2 t hr _ (List.getElem_mem hi), take_texts]
      by_cases hs : sel t.2[i] = true
      · simp only [hs, if_true]
        obtain ⟨h6, _⟩ := (htab t hr).2.1 _ (List.getElem_mem hi)
        show placedRow g.locs t.1 i _ _ = _
        rw [cells_sep hdl _ _ _ _ (by intro e; rw [e] at h6; simp at h6; exact hne (List.length_eq_zero_iff.1 h6.symm))]
        simp [sepText, rowLine]
      · simp [hs, sepText]
  obtain ⟨k, hk⟩ : ∃ k, tables.length = k + 1 := ⟨tables.length - 1, by have := List.length_pos_iff.2 ht; omega⟩
  have hon : g.locs.map (·.colName) ++ names ≠ [] := by simp [hne]
  have hosn : SepNames d (g.locs.map (·.colName) ++ names) := ⟨hon, fun n hm => name_free hd hu (hv n hm).1⟩
  have hcdx : isCdx (sepHead d (g.locs.map (·.colName) ++ names)) = true := by
    rw [sepHead_eq d _ hon]; simp [isCdx, cdxTag, List.isPrefixOf]
  have hmap : (tables.map mk).map (fun f => grepHead (sepMode d) (sepMode d) g.locs f.2) =
      List.replicate (k + 1) (sepHead d (g.locs.map (·.colName) ++ names)) := by
    rw [List.map_map, ← hk, List.eq_replicate_iff]
    refine ⟨by simp, ?_⟩
    intro b hb
    obtain ⟨t, hr, rfl⟩ := List.mem_map.1 hb
    exact hhead t hr
  have hmain := C149_places_partial env nameOk (sepMode d) (sepMode d) .matching opts g sel2 (tables.map mk) rfl rfl (by simp [sepMode, TextMode.default]) ho hfile
  rw [hall, hmap, checkAll_same nameOk _ (sepHead_ok nameOk d hd _ hosn fun n hm => (hv n hm).2) hcdx k] at hmain
  show grepMain env nameOk (sepMode d) (sepMode d) .matching opts (tables.map mk) = _
  rw [hmain]
  simp only [Res.ok.injEq]
  have htail : ∀ ts : List (Bytes × List (List Bytes)), (∀ t ∈ ts, t ∈ tables) →
      grepWanted (sepMode d) (sepMode d) g.locs sel2 (ts.map mk) (List.replicate ts.length false) =
      sepText d (ts.flatMap fun t => placedTable d names g.locs sel t.1 t.2) := by
    intro ts
    induction ts with
    | nil => intro _; rfl
    | cons t ts ih =>
      intro hsub
      have ih := ih (fun x hx => hsub x (by simp [hx]))
      unfold grepWanted at ih ⊢
      rw [List.map_cons, List.length_cons, List.replicate_succ, List.zip_cons_cons, List.flatMap_cons, ih]
      simp only [Bool.false_eq_true, if_false, List.nil_append]
      rw [hbody t (hsub t (by simp))]
      simp [sepText]
  cases tables with
  | nil => exact absurd rfl ht
  | cons t0 tables =>
    have hk' : tables.length = k := by simpa using hk
    have := htail tables (fun x hx => by simp [hx])
    rw [hk'] at this
    unfold grepWanted at this ⊢
    rw [List.map_cons, List.zip_cons_cons, List.flatMap_cons, this]
    simp only [if_true]
    rw [hbody t0 (by simp), hhead t0 (by simp)]
    simp [sepText]

/-- With tabs it is so. -/
theorem C150_table_partial (env : MEnv) (nameOk : Bytes → Bool) (names : List Bytes) (g : GrepConf) (opts : List (Bytes × Bytes))
    (sel : List Bytes → Bool) (tables : List (Bytes × List (List Bytes))) (hne : names ≠ [])
    (hnd : (g.locs.map (·.colName) ++ names).Nodup) (hv : ∀ n ∈ g.locs.map (·.colName) ++ names, IsName n ∧ nameOk n = true)
    (ho : grepOptions env ⟨.and, [], false, []⟩ opts = .ok (some g)) (ht : tables ≠ [])
    (htab : ∀ t ∈ tables, t.1.getLast? ≠ some 47 ∧ SepTable TAB names.length t.2 ∧
      ∃ sel', Judged env (sepMode TAB) g names (t.2.map (rowLine TAB)) sel' ∧ ∀ r ∈ t.2, sel' (rowLine TAB r) = sel r) :
    grepMain env nameOk (sepMode TAB) (sepMode TAB) .matching opts (tables.map fun t => (t.1, sepHead TAB names ++ sepText TAB t.2)) =
      .ok (sepHead TAB (g.locs.map (·.colName) ++ names) ++
        sepText TAB (tables.flatMap fun t => placedTable TAB names g.locs sel t.1 t.2)) :=
  C150_sep_partial env nameOk TAB (by decide) (by decide) names g opts sel tables hne hnd hv (.inl rfl) ho ht htab

/-- With any other separator the location fields are still ended by tabs. The code behaves so. -/
theorem C150_refuted : ¬ C150_statement := by
  intro h
  have := h MEnv.trivial (fun _ => true) 44 [ascii "a"] ⟨.and, [], false, [⟨ascii "line", .line⟩]⟩ [(ascii "location", ascii "line")]
    (fun _ => true) [(ascii "f", [[ascii "x"]])] (by decide) (by decide) (by simp) (by decide +kernel) (by
      intro n hn
      have : n = ascii "line" ∨ n = ascii "a" := by simpa using hn
      rcases this with rfl | rfl <;> exact ⟨(isValid_iff _).1 (by decide +kernel), rfl⟩) (by rfl) (by simp) (by
      intro t ht
      have : t = (ascii "f", [[ascii "x"]]) := by simpa using ht
      subst this
      exact ⟨by decide +kernel, by decide +kernel, fun _ => true, ⟨[], fun _ _ => true, rfl, by simp, by simp [Combined]⟩, by simp⟩)
  revert this
  decide +kernel

example : grepMain MEnv.trivial (fun _ => true) (sepMode TAB) (sepMode TAB) .matching grepOpts
    [(ascii "d/e", sepHead TAB [ascii "a", ascii "b"] ++ sepText TAB [[ascii "x", ascii "1"], [ascii "y", ascii "2"]]),
      (ascii "f", sepHead TAB [ascii "a", ascii "b"] ++ sepText TAB [[ascii "x", ascii "3"]])] =
    .ok (sepHead TAB [ascii "bytes", ascii "n", ascii "filename", ascii "a", ascii "b"] ++
      sepText TAB [[ascii "9", ascii "1", ascii "e", ascii "x", ascii "1"], [ascii "9", ascii "1", ascii "f", ascii "x", ascii "3"]]) := by
  decide +kernel

/-! ## C151: texts of locations -/

/-- The text of a kind of location, with any letters for the case. -/
inductive LocText : Bytes → LocItem → Prop
  | bytes (s : Bytes) : lower s = ascii "bytes" → LocText s .bytes
  | line (s : Bytes) : lower s = ascii "line" → LocText s .line
  | name (s : Bytes) : lower s = ascii "name" → LocText s (.name 0)
  | parts (s : Bytes) (n : Nat) : lower s = ascii "name" → n < 2 ^ 64 → LocText (s ++ 46 :: decText n) (.name n)

/-- The full claim: exactly these texts are accepted, with their meaning. -/
def C151_statement : Prop := ∀ (s : Bytes) (i : LocItem), LocItem.new s = .ok i ↔ LocText s i

theorem C151_refuted : ¬ C151_statement := by
  intro h
  have := (h (ascii "name.") (.name 0)).1 (by decide +kernel)
  generalize hs : ascii "name." = s at this
  generalize hi : LocItem.name 0 = i at this
  cases this with
  | bytes s h => subst hs; revert h; decide +kernel
  | line s h => subst hs; revert h; decide +kernel
  | name s h => subst hs; revert h; decide +kernel
  | parts s n h hn =>
    have hl : (ascii "name.").getLast? = some 46 := by decide +kernel
    rw [hs, List.getLast?_append, List.getLast?_cons] at hl
    have hd := decText_ne_nil n
    have hm := decText_free n 46 (by decide)
    apply hm
    have : (decText n).getLast hd = 46 := by
      have e := List.getLast?_eq_some_getLast hd
      rw [e] at hl
      simpa using hl
    rw [← this]
    exact List.getLast_mem hd

theorem lower_free (s t : Bytes) (d : UInt8) (hd : lowerByte d = d) (h : lower s = t) (ht : d ∉ t) : d ∉ s := by
  intro hm
  apply ht
  rw [← h, ← hd]
  exact List.mem_map_of_mem hm

theorem LocText.free {s : Bytes} {i : LocItem} (h : LocText s i) : 58 ∉ s ∧ 44 ∉ s := by
  cases h with
  | bytes s h => exact ⟨lower_free s _ 58 (by decide) h (by decide +kernel), lower_free s _ 44 (by decide) h (by decide +kernel)⟩
  | line s h => exact ⟨lower_free s _ 58 (by decide) h (by decide +kernel), lower_free s _ 44 (by decide) h (by decide +kernel)⟩
  | name s h => exact ⟨lower_free s _ 58 (by decide) h (by decide +kernel), lower_free s _ 44 (by decide) h (by decide +kernel)⟩
  | parts s n h hn =>
    have h1 := lower_free s _ 58 (by decide) h (by decide +kernel)
    have h2 := lower_free s _ 44 (by decide) h (by decide +kernel)
    have h3 := decText_free n 58 (by decide)
    have h4 := decText_free n 44 (by decide)
    simp [h1, h2, h3, h4]

theorem eqIgnore_eq (a b : Bytes) (h : lower b = b) : eqIgnoreCase a b = decide (lower a = b) := by
  unfold eqIgnoreCase
  rw [h]
  exact Bool.eq_iff_iff.2 (by simp)

theorem LocItem.new_eq (s : Bytes) : LocItem.new s =
    if lower s = ascii "bytes" then .ok .bytes
    else if lower s = ascii "line" then .ok .line
    else if lower s = ascii "name" then .ok (.name 0)
    else match splitOnce 46 s with
      | some (a, b) => if lower a = ascii "name" then (toUsizeWhole b).bind fun n => .ok (.name n) else .err
      | none => .err := by
  unfold LocItem.new
  simp only [eqIgnore_eq _ _ (show lower (ascii "bytes") = ascii "bytes" by decide +kernel),
    eqIgnore_eq _ _ (show lower (ascii "line") = ascii "line" by decide +kernel),
    eqIgnore_eq _ _ (show lower (ascii "name") = ascii "name" by decide +kernel), decide_eq_true_eq]
  rfl

/-- Every such text is accepted with its meaning. -/
theorem C151_meaning_partial (s : Bytes) (i : LocItem) (h : LocText s i) : LocItem.new s = .ok i := by
  rw [LocItem.new_eq]
  cases h with
  | bytes s h => rw [if_pos h]
  | line s h => rw [h, if_neg (by decide +kernel), if_pos rfl]
  | name s h => rw [h, if_neg (by decide +kernel), if_neg (by decide +kernel), if_pos rfl]
  | parts s n h hn =>
    have hm : (46 : UInt8) ∈ lower (s ++ 46 :: decText n) := by
      unfold lower
      rw [List.map_append, List.map_cons]
      exact List.mem_append_right _ (List.mem_cons.2 (.inl (by decide)))
    have hne : ∀ t : Bytes, 46 ∉ t → lower (s ++ 46 :: decText n) ≠ t := fun t ht e => ht (e ▸ hm)
    rw [if_neg (hne _ (by decide +kernel)), if_neg (hne _ (by decide +kernel)), if_neg (hne _ (by decide +kernel)),
      splitOnce_some 46 s _ (lower_free s _ 46 (by decide) h (by decide +kernel))]
    simp only [h, if_true, usizeWhole_decText n hn, Res.bind_ok]

/-- Nothing else is accepted but `name.` and a text that is read as a number. -/
theorem C151_only_partial (s : Bytes) (i : LocItem) (h : LocItem.new s = .ok i) :
    LocText s i ∨ ∃ a b n, s = a ++ 46 :: b ∧ lower a = ascii "name" ∧ toUsizeWhole b = .ok n ∧ i = .name n := by
  rw [LocItem.new_eq] at h
  split at h
  · rename_i h1; cases h; exact .inl (.bytes s h1)
  · split at h
    · rename_i h1; cases h; exact .inl (.line s h1)
    · split at h
      · rename_i h1; cases h; exact .inl (.name s h1)
      · split at h
        · rename_i a b hs
          split at h
          · rename_i h1
            obtain ⟨n, h2, h3⟩ := Res.bind_eq_ok h
            cases h3
            exact .inr ⟨a, b, n, (splitOnce_eq 46 s a b hs).1, h1, h2, rfl⟩
          · simp at h
        · simp at h

/-- The text of a location column: a kind, or a name for the column and a kind. -/
inductive LocSpec : Bytes → FileLoc → Prop
  | named (c t : Bytes) (i : LocItem) : 58 ∉ c → 44 ∉ c → LocText t i → LocSpec (c ++ 58 :: t) ⟨c, i⟩
  | bytes (t : Bytes) : LocText t .bytes → LocSpec t ⟨ascii "bytes", .bytes⟩
  | line (t : Bytes) : LocText t .line → LocSpec t ⟨ascii "line", .line⟩
  | name (t : Bytes) (n : Nat) : LocText t (.name n) → LocSpec t ⟨ascii "filename", .name n⟩

theorem LocSpec.free {s : Bytes} {l : FileLoc} (h : LocSpec s l) : 44 ∉ s := by
  cases h with
  | named c t i h1 h2 h3 => simp [h2, h3.free.2]
  | bytes t h => exact h.free.2
  | line t h => exact h.free.2
  | name t n h => exact h.free.2

theorem LocSpec.new {s : Bytes} {l : FileLoc} (h : LocSpec s l) : FileLoc.new s = .ok l := by
  unfold FileLoc.new
  cases h with
  | named c t i h1 h2 h3 => rw [splitOnce_some 58 c t h1]; simp [C151_meaning_partial t i h3]
  | bytes t h => rw [splitOnce_none 58 _ h.free.1]; simp [C151_meaning_partial _ _ h, LocItem.dfltName]
  | line t h => rw [splitOnce_none 58 _ h.free.1]; simp [C151_meaning_partial _ _ h, LocItem.dfltName]
  | name t n h => rw [splitOnce_none 58 _ h.free.1]; simp [C151_meaning_partial _ _ h, LocItem.dfltName]

/-- A list of such texts adds the columns in order. -/
theorem C151_list_partial (xs : List (Bytes × FileLoc)) (hne : xs ≠ []) (h : ∀ x ∈ xs, LocSpec x.1 x.2) (v : List FileLoc) :
    pushLoc v (List.intercalate [44] (xs.map (·.1))) = .ok (v ++ xs.map (·.2)) := by
  unfold pushLoc
  rw [sliceSplit_intercalate 44 _ (by simpa using hne) (by
    intro c hc
    obtain ⟨x, hx, rfl⟩ := List.mem_map.1 hc
    exact (h x hx).free)]
  clear hne
  induction xs generalizing v with
  | nil => simp [pushLocs]
  | cons x xs ih =>
    rw [List.map_cons, pushLocs, (h x (by simp)).new, Res.bind_ok, ih (fun y hy => h y (by simp [hy]))]
    simp

example : LocSpec (ascii "where:Name.2") ⟨ascii "where", .name 2⟩ := by
  have := LocSpec.named (ascii "where") (ascii "Name.2") (.name 2) (by decide +kernel) (by decide +kernel)
    (LocText.parts (ascii "Name") 2 (by decide +kernel) (by decide))
  exact this
example : pushLoc [] (ascii "bytes,where:Name.2") = .ok [⟨ascii "bytes", .bytes⟩, ⟨ascii "where", .name 2⟩] := by decide +kernel

/-! ## C152: the options of cgrep -/

/-- What the values of the options called `n` stand for, in order. -/
def valuesOf (n : String) (os : List (Bytes × Bytes)) : List Bytes := (os.filter fun o => o.1 = ascii n).map (·.2)

theorem valuesOf_hit (n : String) (v : Bytes) (os : List (Bytes × Bytes)) :
    valuesOf n ((ascii n, v) :: os) = v :: valuesOf n os := by simp [valuesOf]

theorem valuesOf_miss (n : String) (a v : Bytes) (os : List (Bytes × Bytes)) (h : a ≠ ascii n) :
    valuesOf n ((a, v) :: os) = valuesOf n os := by
  unfold valuesOf
  rw [List.filter_cons_of_neg (by simpa using h)]

/-- Patterns and locations are collected in order; `--or` and `--invert` count wherever they are. -/
theorem C152_options (env : MEnv) (os : List (Bytes × Bytes)) (mk : Bytes → LineMatcher) (lc : Bytes → List FileLoc)
    (hn : ∀ o ∈ os, o.1 ∈ [ascii "pattern", ascii "or", ascii "invert", ascii "location"])
    (hp : ∀ v ∈ valuesOf "pattern" os, makeLine env v = .ok (mk v))
    (hl : ∀ v ∈ valuesOf "location" os, ∀ w, pushLoc w v = .ok (w ++ lc v)) :
    grepOptions env ⟨.and, [], false, []⟩ os = .ok (some
      ⟨if valuesOf "or" os = [] then .and else .or, (valuesOf "pattern" os).map mk, decide (valuesOf "invert" os ≠ []),
        (valuesOf "location" os).flatMap lc⟩) := by
  have key : ∀ (os : List (Bytes × Bytes)), (∀ o ∈ os, o.1 ∈ [ascii "pattern", ascii "or", ascii "invert", ascii "location"]) →
      (∀ v ∈ valuesOf "pattern" os, makeLine env v = .ok (mk v)) →
      (∀ v ∈ valuesOf "location" os, ∀ w, pushLoc w v = .ok (w ++ lc v)) → ∀ g : GrepConf,
      grepOptions env g os = .ok (some ⟨if valuesOf "or" os = [] then g.multi else .or, g.matchers ++ (valuesOf "pattern" os).map mk,
        g.reverse || decide (valuesOf "invert" os ≠ []), g.locs ++ (valuesOf "location" os).flatMap lc⟩) := by
    intro os
    induction os with
    | nil => intro _ _ _ g; simp [grepOptions, valuesOf]
    | cons o os ih =>
      intro hn hp hl g
      obtain ⟨name, value⟩ := o
      have hname := hn (name, value) (by simp)
      have ih := ih (fun o ho => hn o (by simp [ho]))
        (fun v hv => hp v (by
          unfold valuesOf at hv ⊢
          rw [List.filter_cons]
          split
          · exact List.mem_cons_of_mem _ hv
          · exact hv))
        (fun v hv => hl v (by
          unfold valuesOf at hv ⊢
          rw [List.filter_cons]
          split
          · exact List.mem_cons_of_mem _ hv
          · exact hv))
      have e1 : ascii "or" ≠ ascii "pattern" := by decide +kernel
      have e2 : ascii "invert" ≠ ascii "pattern" := by decide +kernel
      have e3 : ascii "location" ≠ ascii "pattern" := by decide +kernel
      have e4 : ascii "invert" ≠ ascii "or" := by decide +kernel
      have e5 : ascii "location" ≠ ascii "or" := by decide +kernel
      have e6 : ascii "location" ≠ ascii "invert" := by decide +kernel
      simp only [List.mem_cons, List.not_mem_nil, or_false] at hname
      rcases hname with rfl | rfl | rfl | rfl
      · have hv := hp value (by rw [valuesOf_hit]; simp)
        rw [grepOptions, if_pos rfl, hv, Res.bind_ok, ih, valuesOf_hit, valuesOf_miss "or" _ _ _ e1.symm,
          valuesOf_miss "invert" _ _ _ e2.symm, valuesOf_miss "location" _ _ _ e3.symm]
        simp
      · rw [grepOptions, if_neg e1, if_pos rfl, ih, valuesOf_hit, valuesOf_miss "pattern" _ _ _ e1,
          valuesOf_miss "invert" _ _ _ e4.symm, valuesOf_miss "location" _ _ _ e5.symm]
        simp
      · rw [grepOptions, if_neg e2, if_neg e4, if_pos rfl, ih, valuesOf_hit, valuesOf_miss "pattern" _ _ _ e2,
          valuesOf_miss "or" _ _ _ e4, valuesOf_miss "location" _ _ _ e6.symm]
        simp
      · have hv := hl value (by rw [valuesOf_hit]; simp)
        rw [grepOptions, if_neg e3, if_neg e5, if_neg e6, if_pos rfl, hv, Res.bind_ok, ih, valuesOf_hit,
          valuesOf_miss "pattern" _ _ _ e3, valuesOf_miss "or" _ _ _ e5, valuesOf_miss "invert" _ _ _ e6]
        simp
  have := key os hn hp hl ⟨.and, [], false, []⟩
  simpa using this

example : valuesOf "location" grepOpts = [ascii "bytes,n:line,name.1"] ∧ valuesOf "pattern" grepOpts = [ascii "a,exact,x"] := by
  decide +kernel

example : grepOptions MEnv.trivial ⟨.and, [], false, []⟩ [(ascii "invert", []), (ascii "location", ascii "line"), (ascii "or", []),
    (ascii "location", ascii "bytes")] = .ok (some ⟨.or, [], true, [⟨ascii "line", .line⟩, ⟨ascii "bytes", .bytes⟩]⟩) := by rfl

end Cdx
