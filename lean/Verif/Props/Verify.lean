import Verif.Model.Verify
import Verif.Spec.Verify
import Verif.Lemmas.View
import Verif.Props.CatSlow
import Verif.Props.Ops
import Verif.Props.Match

/-!
C54: the check of order agrees with being sorted.
C53: `verify` reports every bad line.
-/

namespace Cdx

variable {α : Type} {m : TextMode}

/-! ## Order -/

theorem inOrder_nil (cmp : α → α → Ordering) (u : Bool) : InOrder cmp u [] := by
  intro p a b s h
  simp at h

theorem inOrder_single (cmp : α → α → Ordering) (u : Bool) (x : α) : InOrder cmp u [x] := by
  intro p a b s h
  have := congrArg List.length h
  simp at this
  omega

theorem inOrder_cons (cmp : α → α → Ordering) (u : Bool) (x y : α) (l : List α) :
    InOrder cmp u (x :: y :: l) ↔ compCheck (cmp x y) u = false ∧ InOrder cmp u (y :: l) := by
  constructor
  · intro h
    constructor
    · rcases h [] x y l rfl with h | ⟨h1, h2⟩
      · simp [compCheck, h]
      · simp [compCheck, h1, h2]
    · intro p a b s e
      exact h (x :: p) a b s (by simp [e])
  · rintro ⟨h1, h2⟩ p a b s e
    cases p with
    | nil =>
      simp only [List.nil_append, List.cons.injEq] at e
      obtain ⟨rfl, rfl, rfl⟩ := e
      cases hc : cmp x y with
      | lt => exact Or.inl rfl
      | eq => rw [hc] at h1; exact Or.inr ⟨h1, rfl⟩
      | gt => rw [hc] at h1; simp [compCheck] at h1
    | cons z p =>
      simp only [List.cons_append, List.cons.injEq] at e
      exact h2 p a b s e.2

/-- For an ordering, being in order step by step is being sorted. -/
theorem C54_sorted {S : α → Prop} {cmp : α → α → Ordering} (hc : PreorderOn S cmp) (u : Bool) (D : List α)
    (hS : ∀ x ∈ D, S x) : InOrder cmp u D ↔ LinesInOrder cmp u D := by
  induction D with
  | nil => simp [inOrder_nil, LinesInOrder, SortedBy]
  | cons x l ih =>
    have ih := ih fun y hy => hS y (by simp [hy])
    cases l with
    | nil => simp [inOrder_single, LinesInOrder, SortedBy]
    | cons y l =>
      rw [inOrder_cons, ih]
      have hx := hS x (by simp)
      have hy := hS y (by simp)
      unfold LinesInOrder SortedBy
      cases u with
      | false =>
        simp only [Bool.false_eq_true, if_false]
        rw [List.pairwise_cons (a := x)]
        have e : compCheck (cmp x y) false = false ↔ cmp x y ≠ .gt := by cases cmp x y <;> simp [compCheck]
        rw [e]
        constructor
        · rintro ⟨h1, h2⟩
          refine ⟨?_, h2⟩
          intro z hz
          rcases List.mem_cons.1 hz with rfl | hz
          · exact h1
          · exact hc.trans x y z hx hy (hS z (by simp [hz])) h1 ((List.pairwise_cons.1 h2).1 z hz)
        · rintro ⟨h1, h2⟩
          exact ⟨h1 y (by simp), h2⟩
      | true =>
        simp only [if_true]
        rw [List.pairwise_cons (a := x)]
        have e : compCheck (cmp x y) true = false ↔ cmp x y = .lt := by cases cmp x y <;> simp [compCheck]
        rw [e]
        constructor
        · rintro ⟨h1, h2⟩
          refine ⟨?_, h2⟩
          intro z hz
          rcases List.mem_cons.1 hz with rfl | hz
          · exact h1
          · have hz' := hS z (by simp [hz])
            have hyz := (List.pairwise_cons.1 h2).1 z hz
            have h3 := hc.trans x y z hx hy hz' (by rw [h1]; simp) (by rw [hyz]; simp)
            cases hxz : cmp x z with
            | lt => rfl
            | gt => exact absurd hxz h3
            | eq =>
              exfalso
              have h4 : cmp z x = .eq := by rw [hc.swap x z hx hz', hxz]; rfl
              have h5 := hc.trans y z x hy hz' hx (by rw [hyz]; simp) (by rw [h4]; simp)
              rw [hc.swap x y hx hy, h1] at h5
              exact h5 rfl
        · rintro ⟨h1, h2⟩
          exact ⟨h1 y (by simp), h2⟩

/-! ## `sort --check` -/

theorem putLine_decoded (o : TextLine) (l : Bytes) (ho : m.col = .plain → o.orig = []) :
    putLine m true o l = decoded m l := by
  simp only [putLine, if_true]
  exact split_setLine m o l ho

theorem decoded_orig (l : Bytes) (h : m.col = .plain) : (decoded m l).orig = [] := (decoded_plain h l).2

/-- The order of raw lines. -/
def cmpRaw (toF64 : Bytes → F64) (m : TextMode) (cs : List LineComp) (x y : Bytes) : Ordering :=
  compColsList toF64 cs (decoded m x) (decoded m y)

theorem checkLoop_spec (toF64 : Bytes → F64) (cs : List LineComp) (u : Bool) (mx : Nat) (ls : List Bytes) :
    ∀ (fuel : Nat) (r : Reader) (d : Bytes) (o : TextLine) (rep : Nat), ls.length < fuel →
      View m true (decoded m d) o ls r → (m.col = .plain → o.orig = []) →
      ∃ n, checkLoop toF64 cs u mx fuel r rep = some n ∧ rep ≤ n ∧
        (n = rep ↔ InOrder (cmpRaw toF64 m cs) u (d :: ls)) := by
  induction ls with
  | nil =>
    intro fuel r d o rep hf hv _
    cases fuel with
    | zero => simp at hf
    | succ fuel =>
      refine ⟨rep, ?_, Nat.le_refl _, ?_⟩
      · simp [checkLoop, hv.end_.1]
      · simp [inOrder_single]
  | cons l ls ih =>
    intro fuel r d o rep hf hv ho
    cases fuel with
    | zero => simp at hf
    | succ fuel =>
      have hn := hv.next
      rw [putLine_decoded o l ho] at hn
      have hf' : ls.length < fuel := by simp only [List.length_cons] at hf; omega
      rw [inOrder_cons]
      unfold checkLoop
      simp only [hn.more, Bool.false_eq_true, if_false, hn.prev, Option.bind_some, hn.cur]
      have ec : compColsList toF64 cs (decoded m d) (decoded m l) = cmpRaw toF64 m cs d l := rfl
      rw [ec]
      cases hb : compCheck (cmpRaw toF64 m cs d l) u with
      | false =>
        obtain ⟨n, h1, h2, h3⟩ := ih fuel _ l _ rep hf' hn (decoded_orig d)
        exact ⟨n, by simpa using h1, h2, by simpa using h3⟩
      | true =>
        by_cases hm : rep + 1 ≥ mx
        · exact ⟨rep + 1, by simp [hm], by omega, by simp⟩
        · obtain ⟨n, h1, h2, h3⟩ := ih fuel _ l _ (rep + 1) hf' hn (decoded_orig d)
          refine ⟨n, by simpa [hm] using h1, by omega, ?_⟩
          constructor
          · intro e; omega
          · simp

theorem newOpen_done (m : TextMode) (f : Bytes) : (Reader.newOpenWith f 1 m).isDone = (dataOf m f).isEmpty := by
  unfold dataOf Reader.newOpenWith Reader.open_
  have hmm : (Reader.newWith 1 m).mode = m := rfl
  simp only [hmm]
  cases hh : readHeader m f with
  | none => simp [Reader.newWith]
  | some p =>
    obtain ⟨h, rest⟩ := p
    simp only
    cases hr : readLine m.col m.eol rest with
    | none => simp [(readLine_none_iff _ _ _).1 hr, readLines_nil]
    | some q => simp [readLines_some _ _ _ _ _ hr]

theorem checkFiles_spec (toF64 : Bytes → F64) (m : TextMode) (cs : List LineComp) (u : Bool) (mx : Nat) (files : List Bytes) :
    ∀ rep, ∃ n, checkFiles toF64 m cs u mx rep files = some n ∧ rep ≤ n ∧
      (n = rep ↔ ∀ f ∈ files, InOrder (cmpRaw toF64 m cs) u (dataOf m f)) := by
  induction files with
  | nil => intro rep; exact ⟨rep, by simp [checkFiles]⟩
  | cons f fs ih =>
    intro rep
    unfold checkFiles
    simp only [newOpen_done]
    cases hD : dataOf m f with
    | nil =>
      obtain ⟨n, h1, h2, h3⟩ := ih rep
      refine ⟨n, by simpa using h1, h2, ?_⟩
      rw [h3, List.forall_mem_cons, hD]
      simp [inOrder_nil]
    | cons d D =>
      cases hh : readHeader m f with
      | none => simp [dataOf, hh] at hD
      | some p =>
        obtain ⟨h, rest⟩ := p
        have hD' : readLines m.col m.eol rest = d :: D := by simpa [dataOf, hh] using hD
        have hv := view_newOpen m f h rest d D hh hD'
        have hlen : D.length < (Reader.newOpenWith f 1 m).file.length + 1 := by
          have := readLines_length m.col m.eol (Reader.newOpenWith f 1 m).file
          rw [hv.file] at this
          omega
        obtain ⟨n, h1, h2, h3⟩ := checkLoop_spec toF64 cs u mx D _ _ _ _ rep hlen hv (fun _ => rfl)
        obtain ⟨n', g1, g2, g3⟩ := ih n
        refine ⟨n', by simp [h1, g1], by omega, ?_⟩
        rw [List.forall_mem_cons, hD, ← h3, ← g3]
        omega

/-- Full statement: the check succeeds exactly if each file is in order by the keys, its names being those of the file. -/
def C54_statement : Prop :=
  ∀ (toF64 : Bytes → F64) (m : TextMode) (keys : List Key) (u : Bool) (mx : Nat) (files : List Bytes) (b : Bool),
    sortCheck toF64 m keys u mx files = some b →
    (b = true ↔ ∀ f ∈ files, dataOf m f ≠ [] → ∃ cs, lookupKeys (Reader.newOpenWith f 1 m).names keys = .ok cs ∧
      InOrder (cmpRaw toF64 m cs) u (dataOf m f))

/-- The key names no column. -/
def Key.numbered : Key → Bool
  | .whole _ _ => true
  | .col _ c _ => c.name.isEmpty

theorem lookupKeys_numbered (names : List Bytes) (keys : List Key) (h : ∀ k ∈ keys, k.numbered = true) :
    lookupKeys names keys = .ok (keys.map (·.fresh)) := by
  induction keys with
  | nil => rfl
  | cons k ks ih =>
    have hk := h k (by simp)
    have : k.lookup names = .ok k.fresh := by
      cases k with
      | whole _ _ => rfl
      | col kd c r =>
        simp only [Key.numbered, List.isEmpty_iff] at hk
        simp [Key.lookup, NamedCol.lookup, hk, Key.fresh]
    simp [lookupKeys, this, ih fun x hx => h x (by simp [hx])]

/-- For keys given by column numbers. It also never panics. -/
theorem C54_check_partial (toF64 : Bytes → F64) (m : TextMode) (keys : List Key) (u : Bool) (mx : Nat) (files : List Bytes)
    (hk : ∀ k ∈ keys, k.numbered = true) :
    ∃ b, sortCheck toF64 m keys u mx files = some b ∧
      (b = true ↔ ∀ f ∈ files, dataOf m f ≠ [] → ∃ cs, lookupKeys (Reader.newOpenWith f 1 m).names keys = .ok cs ∧
        InOrder (cmpRaw toF64 m cs) u (dataOf m f)) := by
  obtain ⟨n, h1, h2, h3⟩ := checkFiles_spec toF64 m (keys.map (·.fresh)) u mx files 0
  refine ⟨n == 0, by simp [sortCheck, h1], ?_⟩
  simp only [beq_iff_eq, h3, lookupKeys_numbered _ keys hk, Res.ok.injEq, exists_eq_left']
  constructor
  · intro h f hf _
    exact h f hf
  · intro h f hf
    by_cases hd : dataOf m f = []
    · rw [hd]; exact inOrder_nil _ _
    · exact h f hf hd

/-- A key given by name compares the first column. -/
theorem C54_refuted : ¬ C54_statement := by
  intro h
  have h := h (fun _ => 0) .default [.col .plain ⟨ascii "b", 0⟩ false] false 1 [ascii " CDX\ta\tb\n2\t1\n1\t2\n"] false
    (by decide +kernel)
  have := h.2 (by
    intro f hf _
    have : f = ascii " CDX\ta\tb\n2\t1\n1\t2\n" := by simpa using hf
    subst this
    refine ⟨[⟨.col .plain fun _ => 1, false, TAB⟩], rfl, ?_⟩
    have e : dataOf .default (ascii " CDX\ta\tb\n2\t1\n1\t2\n") = [ascii "2\t1\n", ascii "1\t2\n"] := by decide +kernel
    rw [e, inOrder_cons]
    exact ⟨by decide +kernel, inOrder_single _ _ _⟩)
  simp at this

example : sortCheck (fun _ => 0) .default [.col .plain ⟨[], 1⟩ false] false 1 [ascii " CDX\ta\tb\n2\t1\n1\t2\n"] = some true := by
  decide +kernel
example : sortCheck (fun _ => 0) .default [.whole .plain false] true 3 [ascii "a\nb\n", ascii "a\na\n"] = some false := by
  decide +kernel

/-! ## `verify` -/

/-- The line has `n` columns and passes all tests. -/
def LineGood (env : MEnv) (m : TextMode) (ts : List LineTest) (n : Nat) (x : Bytes) : Prop :=
  (decoded m x).len = n ∧ ∀ t ∈ ts, t.ok env (decoded m x) = .ok true

/-- The line passes the check of the first or last line. -/
def EndGood (env : MEnv) (m : TextMode) (cs : List LineComp) (c : Option CheckLine) (x : Option Bytes) : Prop :=
  ∀ k y, c = some k → x = some y → k.lineOkVerbose env.toF64 cs (decoded m y) = .ok true

/-- What is asked of the lines `D` of a file, of which the lines `L` have to pass the tests. -/
structure Verified (env : MEnv) (m : TextMode) (conf : VerifyConf) (look : List Bytes → Res (List LineComp)) (names : List Bytes)
    (L D : List Bytes) : Prop where
  good : ∃ ts cs, lookupAll env names conf.matchers = .ok ts ∧ look names = .ok cs ∧
    (∀ x ∈ L, LineGood env m ts names.length x) ∧
    (conf.sort = true → InOrder (cmpRaw env.toF64 m cs) conf.unique D) ∧
    EndGood env m cs conf.first D.head? ∧ EndGood env m cs conf.last D.getLast?

theorem andVerbose_true (rs : List (Res Bool)) : ∀ (ret b : Bool), andVerbose ret rs = .ok b →
    (b = true ↔ ret = true ∧ ∀ r ∈ rs, r = .ok true) := by
  induction rs with
  | nil => intro ret b h; simp only [andVerbose, Res.ok.injEq] at h; simp [h]
  | cons r rs ih =>
    intro ret b h
    cases r with
    | err => simp [andVerbose] at h
    | panic => simp [andVerbose] at h
    | ok x =>
      simp only [andVerbose, Res.bind_ok] at h
      rw [ih _ _ h]
      cases x <;> simp

theorem checkOne_spec (env : MEnv) (cs : List LineComp) (c : Option CheckLine) (x : Bytes) (fails n : Nat)
    (h : checkOne env.toF64 cs c (decoded m x) fails = .ok n) :
    fails ≤ n ∧ (n = fails ↔ EndGood env m cs c (some x)) := by
  unfold checkOne at h
  cases c with
  | none =>
    simp only [Res.ok.injEq] at h
    simp [h, EndGood]
  | some k =>
    simp only at h
    cases hk : k.lineOkVerbose env.toF64 cs (decoded m x) with
    | err => rw [hk] at h; simp at h
    | panic => rw [hk] at h; simp at h
    | ok b =>
      rw [hk] at h
      simp only [Res.bind_ok, Res.ok.injEq] at h
      subst h
      constructor
      · split <;> omega
      · constructor
        · intro e k' y hk' hy
          simp only [Option.some.injEq] at hk' hy
          subst hk' hy
          rw [hk]
          cases b with
          | true => rfl
          | false => simp at e
        · intro e
          have := e k x rfl rfl
          rw [hk] at this
          simp only [Res.ok.injEq] at this
          simp [this]

theorem verifyLoop_spec (env : MEnv) (conf : VerifyConf) (cs : List LineComp) (ts : List LineTest) (nc : Nat)
    (ls : List Bytes) :
    ∀ (fuel : Nat) (r : Reader) (d : Bytes) (o : TextLine) (fails n : Nat), 
      View m true (decoded m d) o ls r → (m.col = .plain → o.orig = []) →
      verifyLoop env conf cs ts nc fuel r fails = .ok n →
      fails ≤ n ∧ (n = fails ↔ (∀ x ∈ (d :: ls).dropLast, LineGood env m ts nc x) ∧
        (conf.sort = true → InOrder (cmpRaw env.toF64 m cs) conf.unique (d :: ls)) ∧
        EndGood env m cs conf.last (d :: ls).getLast?) := by
  induction ls with
  | nil =>
    intro fuel r d o fails n hv _ h
    cases fuel with
    | zero => simp [verifyLoop] at h
    | succ fuel =>
      unfold verifyLoop at h
      obtain ⟨ok, _, h⟩ := Res.bind_eq_ok h
      simp only [hv.end_.2, hv.end_.1, if_true] at h
      obtain ⟨h1, h2⟩ := checkOne_spec env cs conf.last d fails n h
      refine ⟨h1, ?_⟩
      rw [h2]
      simp [inOrder_single]
  | cons l ls ih =>
    intro fuel r d o fails n hv ho h
    cases fuel with
    | zero => simp [verifyLoop] at h
    | succ fuel =>
      have hn := hv.next
      rw [putLine_decoded o l ho] at hn
      unfold verifyLoop at h
      obtain ⟨ok, hok, h⟩ := Res.bind_eq_ok h
      rw [hv.cur] at hok h
      simp only [hn.prev, hn.more, hn.cur, Bool.false_eq_true, if_false] at h
      have hok' := andVerbose_true _ _ _ hok
      have ec : compColsList env.toF64 cs (decoded m d) (decoded m l) = cmpRaw env.toF64 m cs d l := rfl
      rw [ec] at h
      rw [inOrder_cons]
      have hlast : (d :: l :: ls).getLast? = (l :: ls).getLast? := by simp [List.getLast?_cons_cons]
      have hdrop : (d :: l :: ls).dropLast = d :: (l :: ls).dropLast := by simp
      rw [hlast, hdrop, List.forall_mem_cons]
      have hgood : LineGood env m ts nc d ↔ ((decoded m d).len != nc || !ok) = false := by
        unfold LineGood
        have : (ok = true) ↔ ∀ t ∈ ts, t.ok env (decoded m d) = .ok true := by
          rw [hok']
          simp
        rw [← this]
        simp
      rw [hgood]
      cases hb1 : ((decoded m d).len != nc || !ok) with
      | true =>
        simp only [hb1, Bool.true_or, if_true] at h
        refine ⟨?_, ?_⟩
        · split at h
          · simp only [Res.ok.injEq] at h; omega
          · have := (ih fuel _ l _ _ n hn (decoded_orig d) h).1; omega
        · constructor
          · intro e
            exfalso
            split at h
            · simp only [Res.ok.injEq] at h; omega
            · have := (ih fuel _ l _ _ n hn (decoded_orig d) h).1; omega
          · simp
      | false =>
        simp only [hb1, Bool.false_or] at h
        cases hb2 : (conf.sort && compCheck (cmpRaw env.toF64 m cs d l) conf.unique) with
        | true =>
          simp only [hb2, if_true] at h
          have hs := Bool.and_eq_true_iff.1 hb2
          refine ⟨?_, ?_⟩
          · split at h
            · simp only [Res.ok.injEq] at h; omega
            · have := (ih fuel _ l _ _ n hn (decoded_orig d) h).1; omega
          · constructor
            · intro e
              exfalso
              split at h
              · simp only [Res.ok.injEq] at h; omega
              · have := (ih fuel _ l _ _ n hn (decoded_orig d) h).1; omega
            · rintro ⟨_, h2, _⟩
              have := (h2 hs.1).1
              rw [hs.2] at this
              simp at this
        | false =>
          simp only [hb2, Bool.false_eq_true, if_false] at h
          obtain ⟨g1, g2⟩ := ih fuel _ l _ _ n hn (decoded_orig d) h
          refine ⟨g1, ?_⟩
          rw [g2]
          constructor
          · rintro ⟨a1, a2, a3⟩
            refine ⟨⟨rfl, a1⟩, fun hs => ⟨?_, a2 hs⟩, a3⟩
            simpa [hs] using hb2
          · rintro ⟨⟨_, a1⟩, a2, a3⟩
            exact ⟨a1, fun hs => (a2 hs).2, a3⟩

/-- The names of the columns of a file. -/
def namesOf (m : TextMode) (f : Bytes) : List Bytes := ((Reader.newWith 1 m).open_ f).names

theorem verifyFile_spec (env : MEnv) (m : TextMode) (conf : VerifyConf) (look : List Bytes → Res (List LineComp)) (f : Bytes) (fails n : Nat)
    (h : verifyFile env m conf look f fails = .ok n) :
    fails ≤ n ∧ (n = fails ↔
      (dataOf m f ≠ [] → Verified env m conf look (namesOf m f) (dataOf m f).dropLast (dataOf m f))) := by
  have hdone : ((Reader.newWith 1 m).open_ f).isDone = (dataOf m f).isEmpty := newOpen_done m f
  unfold verifyFile at h
  simp only at h
  cases hD : dataOf m f with
  | nil =>
    rw [hD] at hdone
    have : n = fails := by
      split at h
      · simpa using h.symm
      · obtain ⟨ts, _, h⟩ := Res.bind_eq_ok h
        obtain ⟨cs, _, h⟩ := Res.bind_eq_ok h
        rw [hdone] at h
        simpa using h.symm
    simp [this]
  | cons d D =>
    rw [hD] at hdone
    cases hh : readHeader m f with
    | none => simp [dataOf, hh] at hD
    | some p =>
      obtain ⟨hd, rest⟩ := p
      have hD' : readLines m.col m.eol rest = d :: D := by simpa [dataOf, hh] using hD
      have hv := view_open m f hd rest d D hh hD'
      have hne : ((Reader.newWith 1 m).open_ f).isEmpty = false := by
        have := (newOpen_fields m f hd rest hh (by rw [hD']; simp)).1
        exact this
      rw [hne] at h
      simp only [Bool.false_eq_true, if_false] at h
      obtain ⟨ts, hts, h⟩ := Res.bind_eq_ok h
      obtain ⟨cs, hcs, h⟩ := Res.bind_eq_ok h
      rw [hdone] at h
      simp only [List.isEmpty_cons, Bool.false_eq_true, if_false] at h
      obtain ⟨n', hn', h⟩ := Res.bind_eq_ok h
      rw [hv.cur] at hn'
      obtain ⟨a1, a2⟩ := checkOne_spec env cs conf.first d fails n' hn'
      obtain ⟨b1, b2⟩ := verifyLoop_spec env conf cs ts _ D _ _ d _ n' n hv (fun _ => rfl) h
      refine ⟨by omega, ?_⟩
      constructor
      · intro e _
        have e1 : n' = fails := by omega
        have e2 : n = n' := by omega
        obtain ⟨c1, c2, c3⟩ := b2.1 e2
        exact ⟨⟨ts, cs, hts, hcs, c1, c2, a2.1 e1, c3⟩⟩
      · intro g
        obtain ⟨ts', cs', hts', hcs', c1, c2, c3, c4⟩ := (g (by simp)).good
        unfold namesOf at hts' hcs'
        rw [hts, Res.ok.injEq] at hts'
        rw [hcs, Res.ok.injEq] at hcs'
        subst hts' hcs'
        rw [b2.2 ⟨c1, c2, c4⟩, a2.2 c3]

theorem verifyFiles_spec (env : MEnv) (m : TextMode) (conf : VerifyConf) (look : List Bytes → Res (List LineComp)) (files : List Bytes) (b : Bool)
    (h : verifyFiles env m conf look 0 files = .ok b) :
    b = true ↔ ∀ f ∈ files, dataOf m f ≠ [] →
      Verified env m conf look (namesOf m f) (dataOf m f).dropLast (dataOf m f) := by
  induction files with
  | nil => simp only [verifyFiles, Res.ok.injEq] at h; simp [← h]
  | cons f fs ih =>
    unfold verifyFiles at h
    obtain ⟨n, hn, h⟩ := Res.bind_eq_ok h
    obtain ⟨h1, h2⟩ := verifyFile_spec env m conf look f 0 n hn
    rw [List.forall_mem_cons, ← h2]
    split at h
    · rename_i hp
      simp only [Res.ok.injEq] at h
      subst h
      simp
      omega
    · have : n = 0 := by omega
      subst this
      rw [ih h]
      simp

/-- Full statement: `verify` succeeds exactly if all files are as asked. -/
def C53_statement : Prop :=
  ∀ (env : MEnv) (m : TextMode) (conf : VerifyConf) (keys : List Key) (files : List Bytes) (b : Bool),
    verifyCmd env m conf keys files = .ok b →
    (b = true ↔ ∀ f ∈ files, dataOf m f ≠ [] → Verified env m conf (fun names => lookupKeys names keys) (namesOf m f) (dataOf m f) (dataOf m f))

/-- `verify` succeeds exactly if all files are as asked except that nothing is asked of the columns of the last line of each
file. -/
theorem C53_exact_partial (env : MEnv) (m : TextMode) (conf : VerifyConf) (keys : List Key) (files : List Bytes) (b : Bool)
    (h : verifyCmd env m conf keys files = .ok b) :
    b = true ↔ ∀ f ∈ files, dataOf m f ≠ [] →
      Verified env m conf (fun names => lookupKeys names keys) (namesOf m f) (dataOf m f).dropLast (dataOf m f) :=
  verifyFiles_spec env m conf _ files b h

/-- If the last line of each file is good, `verify` does what it should. -/
theorem C53_verify_partial (env : MEnv) (m : TextMode) (conf : VerifyConf) (keys : List Key) (files : List Bytes) (b : Bool)
    (h : verifyCmd env m conf keys files = .ok b)
    (hlast : ∀ f ∈ files, ∀ x ts, (dataOf m f).getLast? = some x → lookupAll env (namesOf m f) conf.matchers = .ok ts →
      LineGood env m ts (namesOf m f).length x) :
    b = true ↔ ∀ f ∈ files, dataOf m f ≠ [] → Verified env m conf (fun names => lookupKeys names keys) (namesOf m f) (dataOf m f) (dataOf m f) := by
  rw [C53_exact_partial env m conf keys files b h]
  constructor
  · intro g f hf hd
    obtain ⟨ts, cs, hts, hcs, c1, c2, c3, c4⟩ := (g f hf hd).good
    refine ⟨⟨ts, cs, hts, hcs, ?_, c2, c3, c4⟩⟩
    intro x hx
    have e : dataOf m f = (dataOf m f).dropLast ++ [(dataOf m f).getLast hd] := (List.dropLast_concat_getLast hd).symm
    rw [e] at hx
    rcases List.mem_append.1 hx with hx | hx
    · exact c1 x hx
    · have : x = (dataOf m f).getLast hd := by simpa using hx
      exact hlast f hf x ts (by rw [this, List.getLast?_eq_some_getLast hd]) hts
  · intro g f hf hd
    obtain ⟨ts, cs, hts, hcs, c1, c2, c3, c4⟩ := (g f hf hd).good
    exact ⟨⟨ts, cs, hts, hcs, fun x hx => c1 x (List.dropLast_subset _ hx), c2, c3, c4⟩⟩

/-- No requirement. -/
abbrev bareConf : VerifyConf := ⟨[], false, false, none, none⟩

/-- The default keys. -/
abbrev wholeKeys : List Key := [.whole .plain false]

/-- The last line has one column instead of two. -/
theorem C53_refuted : ¬ C53_statement := by
  intro h
  let f := ascii " CDX\ta\tb\n1\t2\n3\n"
  have h := (h MEnv.trivial .default bareConf wholeKeys [f] true (by decide +kernel)).1 rfl f (by simp) (by decide +kernel)
  obtain ⟨ts, cs, hts, hcs, c1, _⟩ := h.good
  have := (c1 (ascii "3\n") (by decide +kernel)).1
  exact absurd this (by decide +kernel)

example : verifyCmd MEnv.trivial .default ⟨[.count 2], true, true, none, none⟩ [.col .plain ⟨ascii "b", 0⟩ false]
    [ascii " CDX\ta\tb\n2\t1\n1\t2\n", ascii " CDX\tb\ta\n1\t2\n3\t2\n"] = .ok true := by decide +kernel
example : verifyCmd MEnv.trivial .default ⟨[.count 2], true, true, none, none⟩ [.col .plain ⟨ascii "b", 0⟩ false]
    [ascii " CDX\ta\tb\n2\t1\n1\t1\n"] = .ok false := by decide +kernel
example : verifyCmd MEnv.trivial .default ⟨[], false, false, some ⟨.lt, ascii "b", none, none⟩,
    some ⟨.gt, ascii "b", none, none⟩⟩ [.col .plain ⟨[], 0⟩ false] [ascii "a\nc\nc\n"] = .ok true := by decide +kernel
example : verifyCmd MEnv.trivial .default ⟨[], false, false, some ⟨.lt, ascii "b", none, none⟩,
    some ⟨.gt, ascii "b", none, none⟩⟩ [.col .plain ⟨[], 0⟩ false] [ascii "a\nc\na\n"] = .ok false := by decide +kernel

end Cdx
