import Verif.Props.PipesBin
import Verif.Props.GrepMain
import Verif.Props.Methods
import Verif.Props.MatchSpec

/-!
C214: choosing rows of tables with `cgrep`, from its patterns. C215: choosing rows before or after sorting, at once or one after another, and
searching a sorted table.
-/

namespace Cdx

/-! ## C214: tests of rows -/

/-- A test of a row: the value of a column is accepted. -/
structure RowTest where
  col : Bytes
  accepts : Bytes → Bool

/-- The row passes. -/
def RowTest.passes (names : List Bytes) (t : RowTest) (r : List Bytes) : Bool := t.accepts (cellOf names r t.col)

/-- The patterns for a test: a name or a number of a column, a method, and a text to compare with; with the word `not` the other values are
accepted. -/
def RowTest.Text (t : RowTest) (names : List Bytes) (spec : Bytes) : Prop :=
  ∃ ref method pattern, RefOf names ref t.col ∧ spec = ref ++ 44 :: method ++ 44 :: pattern ∧ ∃ x,
    (x ∈ plainMethods ∨ x ∈ caseMethods ∧ pattern ≠ []) ∧
      (method = x.1 ∧ (∀ v, t.accepts v = true ↔ x.2 pattern v) ∨
        WordAdded (ascii "not") x.1 method ∧ 44 ∉ method ∧ ∀ v, t.accepts v = true ↔ ¬ x.2 pattern v)

/-- The rows chosen: by all tests or, with `--or`, by one of them; with `--invert` the other rows. -/
def chosenRow (names : List Bytes) (ts : List RowTest) (either invert : Bool) (r : List Bytes) : Bool :=
  (if either then ts.any fun t => t.passes names r else ts.all fun t => t.passes names r) ^^ invert

/-- Options that ask for these tests. -/
structure GrepFits (names : List Bytes) (ts : List RowTest) (os : List (Bytes × Bytes)) : Prop where
  known : ∀ o ∈ os, o.1 ∈ [ascii "pattern", ascii "or", ascii "invert"]
  columns : ∀ t ∈ ts, t.col ∈ names
  texts : (valuesOf "pattern" os).length = ts.length ∧ ∀ x ∈ ts.zip (valuesOf "pattern" os), x.1.Text names x.2

theorem methods_bytes (x : Bytes × (Bytes → Bytes → Prop)) (h : x ∈ plainMethods ∨ x ∈ caseMethods) :
    44 ∉ x.1 ∧ x.1 ∉ lineMethods ∧ (MFlags.ofMethod x.1).multi = none ∧ (MFlags.ofMethod x.1).string = false ∧
      (MFlags.ofMethod x.1).negate = false := by
  simp only [plainMethods, caseMethods, List.mem_cons, List.not_mem_nil, or_false] at h
  rcases h with (rfl | rfl | rfl | rfl | rfl | rfl | rfl | rfl | rfl) | (rfl | rfl | rfl | rfl) <;> decide +kernel

theorem wordAdded_line {M method : Bytes} (h : WordAdded (ascii "not") M method) : method ∉ lineMethods := by
  obtain ⟨l, r, x, _, h2, hx⟩ := h
  have hm : x ∈ methodWords method := by rw [h2]; simp
  simp only [lineMethods, List.mem_cons, List.not_mem_nil, or_false, not_or]
  refine ⟨?_, ?_, ?_⟩
  all_goals
    rintro rfl
    revert hx
    simp only [show methodWords (ascii "expr") = [ascii "expr"] by decide +kernel, show methodWords (ascii "comp") = [ascii "comp"] by decide +kernel,
      show methodWords (ascii "count") = [ascii "count"] by decide +kernel, List.mem_singleton] at hm
    subst hm
    decide +kernel

/-- A matcher of one pattern tests bytes and does not negate unless it is told to. -/
theorem make2_bytes {env : MEnv} {M p : Bytes} {m : Matcher} (hm : (MFlags.ofMethod M).multi = none) (hs : (MFlags.ofMethod M).string = false)
    (h : Matcher.make2 env M p = .ok m) : m.flags.string = false ∧ m.flags.negate = (MFlags.ofMethod M).negate := by
  obtain ⟨x, h1, rfl⟩ := make2_one hm h
  have := makeKind_flags env (MFlags.ofMethod M) p
  rw [h1] at this
  rcases this _ rfl with h | h
  all_goals
    simp [h, hs]

/-- The pattern of a test makes a matcher that tests the column. -/
theorem test_made (env : MEnv) {names : List Bytes} (hn : ∀ n ∈ names, IsName n) (hl : names.length < 2 ^ 64) {t : RowTest} (hc : t.col ∈ names)
    {spec : Bytes} (h : t.Text names spec) : ∃ lm lt, makeLine env spec = .ok lm ∧ lm.lookup env names = .ok lt ∧
      ∀ line : TextLine, lt.ok env line = .ok (t.accepts (line.get (names.idxOf t.col))) := by
  obtain ⟨ref, method, pattern, h1, rfl, x, hx, hm⟩ := h
  obtain ⟨r1, _, r3, k, r4, r5⟩ := newFrom_ref hn hl hc h1
  have hx' : x ∈ plainMethods ∨ x ∈ caseMethods := hx.imp id (·.1)
  obtain ⟨b1, b2, b3, b4, b5⟩ := methods_bytes x hx'
  have hdec : Decides env x.1 pattern (x.2 pattern) := by
    rcases hx with hx | ⟨hx, hp⟩
    · exact C76_plain env x hx pattern
    · exact C76_case_partial env x hx pattern hp
  obtain ⟨m, hmk, hdo⟩ := hdec
  obtain ⟨m1, m2⟩ := make2_bytes b3 b4 hmk
  rw [b5] at m2
  have hlossy : ∀ v, ∃ b, m.lossyMatch env v = .ok b ∧ (b = true ↔ x.2 pattern v) := by
    intro v
    obtain ⟨b, d1, _, d3⟩ := hdo v
    refine ⟨b, ?_, d3⟩
    unfold Matcher.doMatch at d1
    unfold Matcher.lossyMatch
    rw [m1] at d1 ⊢
    exact d1
  have hmeth : 44 ∉ method ∧ method ∉ lineMethods ∧ ∃ m', Matcher.make2 env method pattern = .ok m' ∧
      ∀ v, (m'.lossyMatch env v).bind (fun b => .ok (m'.flags.negate ^^ b)) = .ok (t.accepts v) := by
    rcases hm with ⟨rfl, ha⟩ | ⟨hw, hc, ha⟩
    · refine ⟨b1, b2, m, hmk, fun v => ?_⟩
      obtain ⟨b, e1, e2⟩ := hlossy v
      rw [e1, Res.bind_ok, m2]
      have := ha v
      rw [← e2] at this
      cases b <;> cases hv : t.accepts v <;> simp_all
    · refine ⟨hc, wordAdded_line hw, m.negated, ?_, fun v => ?_⟩
      · rw [make2_negate env pattern (ofMethod_negate (fun x hx f => modify_not hx f) hw), hmk]
        rfl
      · obtain ⟨b, e1, e2⟩ := hlossy v
        rw [negated_lossy, e1, Res.bind_ok]
        have := ha v
        rw [← e2] at this
        show Res.ok (true ^^ b) = _
        cases b <;> cases hv : t.accepts v <;> simp_all
  obtain ⟨c1, c2, m', c3, c4⟩ := hmeth
  have hparse : ∃ rest, NamedCol.parse ref = .ok (k, rest) := by
    unfold NamedCol.newFrom at r4
    obtain ⟨y, y1, y2⟩ := Res.bind_eq_ok r4
    split at y2
    · injection y2 with y2
      exact ⟨y.2, by rw [y1, ← y2]⟩
    · cases y2
  obtain ⟨rest, hparse⟩ := hparse
  have hfirst : ∃ a s, ref = a :: s ∧ a ≠ 91 := by
    cases ref with
    | nil => exact absurd rfl r3
    | cons a s =>
      refine ⟨a, s, rfl, ?_⟩
      rintro rfl
      simp [NamedCol.parse, isDigit, isAlpha] at hparse
  have hmake : makeLine env (ref ++ 44 :: method ++ 44 :: pattern) = .ok (.col m' k) := by
    have e : makeLine env (ref ++ 44 :: method ++ 44 :: pattern) = makeLine3 env ref method pattern := by
      obtain ⟨a, s, e1, e2⟩ := hfirst
      have es : splitOnce 44 (ref ++ 44 :: method ++ 44 :: pattern) = some (ref, method ++ 44 :: pattern) := by
        rw [List.append_assoc]
        exact splitOnce_some 44 ref _ r1
      have es2 : splitOnce 44 (method ++ 44 :: pattern) = some (method, pattern) := splitOnce_some 44 method pattern c1
      unfold makeLine
      split
      · rename_i q heq
        rw [e1] at heq
        simp only [List.cons_append, List.cons.injEq] at heq
        exact absurd heq.1 e2
      · rw [es]
        simp only
        rw [es2]
    rw [e, makeLine3_col env ref method pattern c2 hfirst, hparse, Res.bind_ok, c3, Res.bind_ok]
  refine ⟨_, .col m' (names.idxOf t.col), hmake, ?_, fun line => ?_⟩
  · simp only [LineMatcher.lookup, r5, Res.bind_ok]
  · exact c4 _

/-- The matcher a text makes. -/
def madeOf (env : MEnv) (v : Bytes) : LineMatcher :=
  match makeLine env v with
  | .ok m => m
  | _ => .count 0

/-- The patterns of tests make matchers that test the columns. -/
theorem tests_made (env : MEnv) {names : List Bytes} (hn : ∀ n ∈ names, IsName n) (hl : names.length < 2 ^ 64) :
    ∀ (ts : List RowTest) (specs : List Bytes), (∀ t ∈ ts, t.col ∈ names) → specs.length = ts.length →
      (∀ x ∈ ts.zip specs, x.1.Text names x.2) → (∀ v ∈ specs, makeLine env v = .ok (madeOf env v)) ∧
        ∃ lts, lookupAll env names (specs.map (madeOf env)) = .ok lts ∧
          (∀ line : TextLine, lts.map (LineTest.ok env line) = ts.map fun t => .ok (t.accepts (line.get (names.idxOf t.col))))
  | [], [], _, _, _ => ⟨by simp, [], rfl, fun _ => rfl⟩
  | [], _ :: _, _, h, _ => by simp at h
  | _ :: _, [], _, h, _ => by simp at h
  | t :: ts, v :: specs, hc, h, hx => by
    obtain ⟨lm, lt, a1, a2, a3⟩ := test_made env hn hl (hc t (by simp)) (hx (t, v) (by simp))
    obtain ⟨b1, lts, b2, b3⟩ := tests_made env hn hl ts specs (fun u hu => hc u (by simp [hu])) (by simpa using h)
      (fun x hm => hx x (by simp [hm]))
    have e : madeOf env v = lm := by unfold madeOf; rw [a1]
    refine ⟨?_, lt :: lts, ?_, fun line => ?_⟩
    · intro w hw
      rcases List.mem_cons.1 hw with rfl | hw
      · rw [e, a1]
      · exact b1 w hw
    · simp only [List.map_cons, lookupAll, e, a2, b2, Res.bind_ok]
    · rw [List.map_cons, List.map_cons, a3, b3]

theorem placedTable_nil (d : UInt8) (names : List Bytes) (sel : List Bytes → Bool) (path : Bytes) (rows : List (List Bytes)) :
    placedTable d names [] sel path rows = rows.filter sel := by
  unfold placedTable
  simp only [placeCells, List.map_nil, List.nil_append]
  have : ∀ (rows : List (List Bytes)), (rows.mapIdx fun _ r => if sel r = true then [r] else []).flatten = rows.filter sel := by
    intro rows
    rw [show (rows.mapIdx fun _ r => if sel r = true then [r] else []) = rows.map fun r => if sel r = true then [r] else [] from
      List.mapIdx_eq_iff.2 fun i => by simp]
    induction rows with
    | nil => rfl
    | cons r rs ih =>
      rw [List.map_cons, List.flatten_cons, ih, List.filter_cons]
      split <;> rfl
  exact this rows

/-- From tables with the same header, `cgrep` writes the rows that pass, with any separator. -/
theorem C214_rows (env : MEnv) (nameOk : Bytes → Bool) (d : UInt8) (hd : SepByte d) (hu : d ≠ 95) (names : List Bytes) (ts : List RowTest) (opts : List (Bytes × Bytes))
    (tables : List (Bytes × List (List Bytes))) (hne : names ≠ []) (hnd : names.Nodup) (hv : ∀ n ∈ names, IsName n ∧ nameOk n = true)
    (hl : names.length < 2 ^ 64) (hf : GrepFits names ts opts) (ht : tables ≠ [])
    (htab : ∀ t ∈ tables, t.1.getLast? ≠ some 47 ∧ SepTable d names.length t.2) :
    grepMain env nameOk (sepMode d) (sepMode d) .matching opts (tables.map fun t => (t.1, sepHead d names ++ sepText d t.2)) =
      .ok (sepHead d names ++ sepText d ((tables.map (·.2)).flatten.filter
        (chosenRow names ts (decide (valuesOf "or" opts ≠ [])) (decide (valuesOf "invert" opts ≠ []))))) := by
  obtain ⟨made, lts, h1, h2⟩ := tests_made env (fun n hn => (hv n hn).1) hl ts _ hf.columns hf.texts.1 hf.texts.2
  have hnl : valuesOf "location" opts = [] := by
    unfold valuesOf
    rw [List.filter_eq_nil_iff.2, List.map_nil]
    intro o ho
    have := hf.known o ho
    simp only [List.mem_cons, List.not_mem_nil, or_false] at this
    rcases this with h | h | h <;> rw [h] <;> decide +kernel
  have hopt := C152_options env opts (madeOf env) (fun _ => []) (fun o ho => by
    have := hf.known o ho
    simp only [List.mem_cons, List.not_mem_nil, or_false] at this ⊢
    exact this.imp id (.imp id .inl)) made (by rw [hnl]; simp)
  rw [hnl, List.flatMap_nil] at hopt
  have hT := C150_sep_partial env nameOk d hd hu names _ opts
    (chosenRow names ts (decide (valuesOf "or" opts ≠ [])) (decide (valuesOf "invert" opts ≠ []))) tables hne (by simpa using hnd)
    (by simpa using hv) (.inr rfl) hopt ht ?_
  · rw [hT]
    simp only [placedTable_nil, List.map_nil, List.nil_append]
    congr 3
    clear hT htab ht
    induction tables with
    | nil => rfl
    | cons t ts ih => rw [List.flatMap_cons, List.map_cons, List.flatten_cons, List.filter_append, ih]
  · intro t hm
    obtain ⟨n1, n2⟩ := htab t hm
    have hget : ∀ r ∈ t.2, ∀ i, (decoded (sepMode d) (rowLine d r)).get i = r.getD i [] := by
      intro r hr i
      have hrn : r ≠ [] := by
        intro e
        have := (n2 r hr).1
        rw [e] at this
        exact hne (List.length_eq_zero_iff.1 this.symm)
      have := row_vec d hd r hrn (n2 r hr).2
      rw [get_getD, rowLine, this]
    refine ⟨n1, n2, fun l => (Combined (if valuesOf "or" opts = [] then .and else .or)
      (lts.map fun lt => lt.ok env (decoded (sepMode d) l) == .ok true)) ^^ decide (valuesOf "invert" opts ≠ []),
      ⟨lts, fun lt l => lt.ok env (decoded (sepMode d) l) == .ok true, h1, ?_, fun l _ => rfl⟩, ?_⟩
    · intro lt hlt l _
      have e := h2 (decoded (sepMode d) l)
      have hm' : lt.ok env (decoded (sepMode d) l) ∈ lts.map (LineTest.ok env (decoded (sepMode d) l)) := List.mem_map_of_mem hlt
      rw [e] at hm'
      obtain ⟨u, _, hu⟩ := List.mem_map.1 hm'
      show _ = Res.ok (lt.ok env (decoded (sepMode d) l) == .ok true)
      rw [← hu]
      cases u.accepts _ <;> rfl
    · intro r hr
      have e := h2 (decoded (sepMode d) (rowLine d r))
      have e2 : (lts.map fun lt => lt.ok env (decoded (sepMode d) (rowLine d r)) == .ok true) = ts.map fun u => u.passes names r := by
        have := congrArg (List.map fun x => x == Res.ok true) e
        rw [List.map_map, List.map_map] at this
        refine this.trans (List.map_congr_left fun u _ => ?_)
        show (Res.ok _ == Res.ok true) = _
        rw [hget r hr]
        show _ = u.accepts _
        unfold cellOf
        cases u.accepts _ <;> rfl
      show (Combined _ _ ^^ _) = _
      rw [e2]
      unfold chosenRow
      congr 1
      by_cases ho : valuesOf "or" opts = []
      · simp [ho, Combined, List.all_map, Function.comp_def]
      · simp [ho, Combined, List.any_map, Function.comp_def]

/-- Two tables; rows with `x` in the first column and no `2` in the second, given by its number. -/
def grepTests : List RowTest := [⟨ascii "a", fun v => v == ascii "x"⟩, ⟨ascii "b", fun v => !hasInfix (ascii "2") v⟩]

def grepRowOpts : List (Bytes × Bytes) := [(ascii "pattern", ascii "a,exact,x"), (ascii "pattern", ascii "2,infix.Not,2")]

theorem grepFits_example : GrepFits [ascii "a", ascii "b"] grepTests grepRowOpts := by
  refine ⟨by decide +kernel, by decide +kernel, by decide +kernel, ?_⟩
  intro x hx
  have : x = (⟨ascii "a", fun v => v == ascii "x"⟩, ascii "a,exact,x") ∨ x = (⟨ascii "b", fun v => !hasInfix (ascii "2") v⟩, ascii "2,infix.Not,2") := by
    rw [show valuesOf "pattern" grepRowOpts = [ascii "a,exact,x", ascii "2,infix.Not,2"] by decide +kernel] at hx
    simpa [grepTests] using hx
  rcases this with rfl | rfl
  · exact ⟨ascii "a", ascii "exact", ascii "x", .inl rfl, by decide +kernel, (ascii "exact", fun p v => v = p), .inl (by simp [plainMethods]),
      .inl ⟨rfl, fun v => by simp⟩⟩
  · exact ⟨ascii "2", ascii "infix.Not", ascii "2", .inr (by decide +kernel), by decide +kernel, (ascii "infix", fun p v => p <:+: v),
      .inl (by simp [plainMethods]), .inr ⟨⟨[ascii "infix"], [], ascii "Not", by decide +kernel⟩, by decide +kernel, fun v => by simp [← hasInfix_iff]⟩⟩

example : grepMain MEnv.trivial (fun _ => true) (sepMode 59) (sepMode 59) .matching grepRowOpts
    [(ascii "f", ascii " CDX;a;b\nx;1\ny;22\nx;12\n"), (ascii "g", ascii " CDX;a;b\nx;3\nxx;4\n")] = .ok (ascii " CDX;a;b\nx;1\nx;3\n") := by
  have := C214_rows MEnv.trivial (fun _ => true) 59 (by decide) (by decide) _ _ _
    [(ascii "f", [[ascii "x", ascii "1"], [ascii "y", ascii "22"], [ascii "x", ascii "12"]]), (ascii "g", [[ascii "x", ascii "3"], [ascii "xx", ascii "4"]])]
    (by simp) (by decide +kernel) (fun n hn => ⟨goodTable_example.2.1 n hn, rfl⟩) (by decide) grepFits_example (by simp) (by decide +kernel)
  have e : Res.ok (sepHead 59 [ascii "a", ascii "b"] ++ sepText 59 (List.filter (chosenRow [ascii "a", ascii "b"] grepTests
      (decide (valuesOf "or" grepRowOpts ≠ [])) (decide (valuesOf "invert" grepRowOpts ≠ [])))
      [[ascii "x", ascii "1"], [ascii "y", ascii "22"], [ascii "x", ascii "12"], [ascii "x", ascii "3"], [ascii "xx", ascii "4"]])) =
      Res.ok (ascii " CDX;a;b\nx;1\nx;3\n") := by decide +kernel
  exact this.trans e

/-! ## C215: choosing before or after -/

theorem sepTable_filter {d : UInt8} {k : Nat} {rows : List (List Bytes)} (p : List Bytes → Bool) (h : SepTable d k rows) : SepTable d k (rows.filter p) :=
  fun r hr => h r (List.mem_filter.1 hr).1

theorem valuesOf_append (n : String) (a b : List (Bytes × Bytes)) : valuesOf n (a ++ b) = valuesOf n a ++ valuesOf n b := by
  simp [valuesOf]

theorem GrepFits.append {names : List Bytes} {ts us : List RowTest} {as bs : List (Bytes × Bytes)} (h : GrepFits names ts as)
    (g : GrepFits names us bs) : GrepFits names (ts ++ us) (as ++ bs) := by
  refine ⟨?_, ?_, ?_, ?_⟩
  · intro o ho
    exact (List.mem_append.1 ho).elim (h.known o) (g.known o)
  · intro t ht
    exact (List.mem_append.1 ht).elim (h.columns t) (g.columns t)
  · rw [valuesOf_append, List.length_append, List.length_append, h.texts.1, g.texts.1]
  · intro x hx
    rw [valuesOf_append, List.zip_append h.texts.1.symm] at hx
    exact (List.mem_append.1 hx).elim (h.texts.2 x) (g.texts.2 x)

/-- Choosing twice is choosing once with the patterns of both. -/
theorem C215_twice (env : MEnv) (nameOk : Bytes → Bool) (d : UInt8) (hd : SepByte d) (hu : d ≠ 95) (names : List Bytes) (ts us : List RowTest)
    (as bs : List (Bytes × Bytes)) (tables : List (Bytes × List (List Bytes))) (fname : Bytes) (hne : names ≠ []) (hnd : names.Nodup)
    (hv : ∀ n ∈ names, IsName n ∧ nameOk n = true) (hl : names.length < 2 ^ 64) (ha : GrepFits names ts as) (hb : GrepFits names us bs)
    (hao : valuesOf "or" as = [] ∧ valuesOf "invert" as = []) (hbo : valuesOf "or" bs = [] ∧ valuesOf "invert" bs = []) (ht : tables ≠ [])
    (htab : ∀ t ∈ tables, t.1.getLast? ≠ some 47 ∧ SepTable d names.length t.2) (hf : fname.getLast? ≠ some 47) :
    ∃ mid out, grepMain env nameOk (sepMode d) (sepMode d) .matching as (tables.map fun t => (t.1, sepHead d names ++ sepText d t.2)) = .ok mid ∧
      grepMain env nameOk (sepMode d) (sepMode d) .matching bs [(fname, mid)] = .ok out ∧
      grepMain env nameOk (sepMode d) (sepMode d) .matching (as ++ bs) (tables.map fun t => (t.1, sepHead d names ++ sepText d t.2)) = .ok out := by
  have hall : SepTable d names.length (tables.map (·.2)).flatten := by
    intro r hr
    obtain ⟨l, hl, hr⟩ := List.mem_flatten.1 hr
    obtain ⟨t, htm, rfl⟩ := List.mem_map.1 hl
    exact (htab t htm).2 r hr
  have h1 := C214_rows env nameOk d hd hu names ts as tables hne hnd hv hl ha ht htab
  have h2 := C214_rows env nameOk d hd hu names us bs [(fname, (tables.map (·.2)).flatten.filter
        (chosenRow names ts (decide (valuesOf "or" as ≠ [])) (decide (valuesOf "invert" as ≠ []))))] hne hnd hv hl hb (by simp)
    (by intro t htm; rw [List.mem_singleton.1 htm]; exact ⟨hf, sepTable_filter _ hall⟩)
  have h3 := C214_rows env nameOk d hd hu names (ts ++ us) (as ++ bs) tables hne hnd hv hl (ha.append hb) ht htab
  refine ⟨_, _, h1, h2, h3.trans ?_⟩
  congr 3
  rw [List.map_singleton, List.flatten_singleton, List.filter_filter, valuesOf_append, valuesOf_append, hao.1, hao.2, hbo.1, hbo.2]
  congr 1
  funext r
  simp [chosenRow, List.all_append, Bool.and_comm]

/-- The rows chosen and, with `--invert`, the other rows are together all rows. -/
theorem C215_invert (env : MEnv) (nameOk : Bytes → Bool) (d : UInt8) (hd : SepByte d) (hu : d ≠ 95) (names : List Bytes) (ts : List RowTest)
    (opts : List (Bytes × Bytes)) (x : Bytes) (tables : List (Bytes × List (List Bytes))) (hne : names ≠ []) (hnd : names.Nodup)
    (hv : ∀ n ∈ names, IsName n ∧ nameOk n = true) (hl : names.length < 2 ^ 64) (hf : GrepFits names ts opts) (hi : valuesOf "invert" opts = [])
    (ht : tables ≠ []) (htab : ∀ t ∈ tables, t.1.getLast? ≠ some 47 ∧ SepTable d names.length t.2) :
    ∃ p : List Bytes → Bool,
      grepMain env nameOk (sepMode d) (sepMode d) .matching opts (tables.map fun t => (t.1, sepHead d names ++ sepText d t.2)) =
        .ok (sepHead d names ++ sepText d ((tables.map (·.2)).flatten.filter p)) ∧
      grepMain env nameOk (sepMode d) (sepMode d) .matching ((ascii "invert", x) :: opts)
          (tables.map fun t => (t.1, sepHead d names ++ sepText d t.2)) =
        .ok (sepHead d names ++ sepText d ((tables.map (·.2)).flatten.filter fun r => !p r)) := by
  have hp := valuesOf_miss "pattern" (ascii "invert") x opts (by decide +kernel)
  have ho := valuesOf_miss "or" (ascii "invert") x opts (by decide +kernel)
  have h1 := C214_rows env nameOk d hd hu names ts opts tables hne hnd hv hl hf ht htab
  have h2 := C214_rows env nameOk d hd hu names ts ((ascii "invert", x) :: opts) tables hne hnd hv hl
    ⟨fun o ho => (List.mem_cons.1 ho).elim (fun e => by rw [e]; simp) (hf.known o), hf.columns, by rw [hp]; exact hf.texts.1,
      by rw [hp]; exact hf.texts.2⟩ ht htab
  refine ⟨_, h1, h2.trans ?_⟩
  congr 4
  rw [ho, hi, valuesOf_hit]
  funext r
  simp [chosenRow]

/-- Two unique sorts of one list are equal. -/
theorem UniqueSort.same {α : Type} {cmp : α → α → Ordering} (h : TotalPreorder cmp) {inp a b : List α} (ha : UniqueSort cmp inp a)
    (hb : UniqueSort cmp inp b) : a = b := by
  have sorted : ∀ {l : List α}, UniqueSort cmp inp l → SortedBy cmp l := fun hl => hl.strict.imp fun e => by rw [e]; simp
  have hab : ∀ x, classOf cmp x a = classOf cmp x b := fun x => by rw [ha.first x, hb.first x]
  have hsub : ∀ {l m : List α}, UniqueSort cmp inp l → (∀ x, classOf cmp x l = classOf cmp x m) → ∀ y ∈ l, y ∈ m := by
    intro l m _ e y hy
    have : y ∈ classOf cmp y l := by
      unfold classOf
      rw [List.mem_filter, beq_iff_eq]
      exact ⟨hy, h.refl y⟩
    rw [e y] at this
    unfold classOf at this
    exact (List.mem_filter.1 this).1
  have nodup : ∀ {l : List α}, UniqueSort cmp inp l → l.Nodup := fun hl => hl.strict.imp fun e he => by
    subst he
    rw [h.refl] at e
    cases e
  have hperm : b.Perm a :=
    (List.perm_ext_iff_of_nodup (nodup hb) (nodup ha)).2 fun y => ⟨hsub hb (fun x => (hab x).symm) y, hsub ha hab y⟩
  exact (StableSort.unique h (inp := a) ⟨.refl _, sorted ha, fun _ => rfl⟩ ⟨hperm, sorted hb, fun x => (hab x).symm⟩)

/-- Rows that are equal by the keys have equal values in the columns of keys that compare bytes. -/
theorem tabCmp_plain {names : List Bytes} {col : Bytes} {rev : Bool} : ∀ {ks : List TabKey} {x y : List Bytes}, (⟨col, .plain, rev⟩ : TabKey) ∈ ks →
    tabCmp names ks x y = .eq → cellOf names x col = cellOf names y col
  | k :: ks, x, y, hm, h => by
    simp only [tabCmp] at h
    have h1 : ∀ p q : Ordering, p.then q = .eq → p = .eq ∧ q = .eq := by decide +kernel
    obtain ⟨h2, h3⟩ := h1 _ _ h
    rcases List.mem_cons.1 hm with rfl | hm
    · cases rev
      · simp only [Bool.false_eq_true, if_false, cellCmp, ← lexCmp_eq_listCmp] at h2
        exact lexCmp_eq.1 h2
      · simp only [if_true, cellCmp, ← lexCmp_eq_listCmp] at h2
        exact (lexCmp_eq.1 h2).symm
    · exact tabCmp_plain hm h3

theorem sepText_sublist (d : UInt8) {a b : List (List Bytes)} (h : a.Sublist b) : (sepText d a).length ≤ (sepText d b).length := by
  induction h with
  | slnil => exact Nat.le_refl _
  | cons x _ ih => simp only [sepText, List.flatMap_cons, List.length_append] at ih ⊢; omega
  | cons_cons x _ ih => simp only [sepText, List.flatMap_cons, List.length_append] at ih ⊢; omega

/-- Sorting what is chosen is choosing from what is sorted. With `--unique` this holds if the columns of the tests are keys that compare bytes. -/
theorem C215_sort (toF64 : Bytes → F64) (env : MEnv) (nameOk : Bytes → Bool) (pick : Nat → List (Nat × Bytes) → Nat) (rd : Nat → Nat → Nat)
    (cap : Nat) (m : TextMode) (names : List Bytes) (ts : List RowTest) (opts : List (Bytes × Bytes)) (ks : List TabKey) (os : List SortOpt)
    (tables : List (Bytes × List (List Bytes))) (fname : Bytes) (h : SortFits names ks os) (hg : GrepFits names ts opts)
    (ht : GoodTable names (tables.map (·.2)).flatten) (hok : ∀ n ∈ names, nameOk n = true) (htn : tables ≠ [])
    (hz : ∀ r ∈ (tables.map (·.2)).flatten, ∀ c ∈ r, 0 ∉ c) (hcap : 8 < cap) (hfit : (sepText TAB (tables.map (·.2)).flatten).length < cap)
    (hname : ∀ t ∈ tables, t.1.getLast? ≠ some 47) (hfn : fname.getLast? ≠ some 47)
    (hu : SortOpt.unique ∈ os → ∀ t ∈ ts, ∃ rev, (⟨t.col, .plain, rev⟩ : TabKey) ∈ ks) :
    ∃ sorted chosen out,
      sortMain toF64 nameOk pick rd cap m os (tables.map fun t => sepHead TAB names ++ sepText TAB t.2) = .ok sorted ∧
      grepMain env nameOk (sepMode TAB) (sepMode TAB) .matching opts [(fname, sorted)] = .ok out ∧
      grepMain env nameOk (sepMode TAB) (sepMode TAB) .matching opts (tables.map fun t => (t.1, sepHead TAB names ++ sepText TAB t.2)) = .ok chosen ∧
      sortMain toF64 nameOk pick rd cap m os [chosen] = .ok out := by
  obtain ⟨t1, t2, t3, t4, t5⟩ := ht
  have hp := tabCmp_preorder names ks
  have ht' : GoodTable names (tables.map (·.2)).flatten := ⟨t1, t2, t3, t4, t5⟩
  let p := chosenRow names ts (decide (valuesOf "or" opts ≠ [])) (decide (valuesOf "invert" opts ≠ []))
  obtain ⟨out, s1, s2, s3⟩ := sort_tables toF64 nameOk pick rd cap m h ht' hok (by simpa using htn) hz hcap hfit
  have hsub : ((tables.map (·.2)).flatten.filter p).Sublist (tables.map (·.2)).flatten := List.filter_sublist
  have hlen : (sepText TAB ((tables.map (·.2)).flatten.filter p)).length ≤ (sepText TAB (tables.map (·.2)).flatten).length :=
    sepText_sublist _ hsub
  obtain ⟨out', q1, q2, q3⟩ := sort_tables toF64 nameOk pick rd cap m (tables := [(tables.map (·.2)).flatten.filter p]) h
    (by rw [List.flatten_singleton]; exact ⟨t1, t2, t3, t4, sepTable_filter _ t5⟩) hok (by simp)
    (by rw [List.flatten_singleton]; exact fun r hr => hz r (hsub.subset hr)) hcap (by rw [List.flatten_singleton]; omega)
  rw [List.flatten_singleton] at q2 q3
  have hmem : ∀ r ∈ out, r ∈ (tables.map (·.2)).flatten := by
    intro r hr
    by_cases hq : SortOpt.unique ∈ os
    · exact (s3 hq).mem hp r hr
    · exact (s2 hq).perm.mem_iff.1 hr
  have hv : ∀ n ∈ names, IsName n ∧ nameOk n = true := fun n hn => ⟨t2 n hn, hok n hn⟩
  have g1 := C214_rows env nameOk TAB (by decide) (by decide) names ts opts [(fname, out)] t1 t3 hv t4 hg (by simp)
    (by intro t hm; rw [List.mem_singleton.1 hm]; exact ⟨hfn, fun r hr => t5 r (hmem r hr)⟩)
  rw [List.map_singleton, List.map_singleton, List.flatten_singleton] at g1
  have g2 := C214_rows env nameOk TAB (by decide) (by decide) names ts opts tables t1 t3 hv t4 hg htn
    (fun t hm => ⟨hname t hm, fun r hr => t5 r (List.mem_flatten.2 ⟨t.2, List.mem_map_of_mem hm, hr⟩)⟩)
  rw [List.map_map] at s1
  refine ⟨_, _, _, s1, g1, g2, ?_⟩
  rw [List.map_singleton] at q1
  refine q1.trans ?_
  have e : out' = out.filter p := by
    by_cases hq : SortOpt.unique ∈ os
    · refine UniqueSort.same hp (q3 hq) (uniqueSort_filter p (fun x y e => ?_) (s3 hq))
      have : ∀ t ∈ ts, t.passes names x = t.passes names y := by
        intro t hm
        obtain ⟨rev, hk⟩ := hu hq t hm
        unfold RowTest.passes
        rw [tabCmp_plain hk e]
      show (_ ^^ _) = (_ ^^ _)
      have e1 : (ts.any fun t => t.passes names x) = ts.any fun t => t.passes names y := by
        rw [Bool.eq_iff_iff, List.any_eq_true, List.any_eq_true]
        exact ⟨fun ⟨t, a, b⟩ => ⟨t, a, by rw [← this t a]; exact b⟩, fun ⟨t, a, b⟩ => ⟨t, a, by rw [this t a]; exact b⟩⟩
      have e2 : (ts.all fun t => t.passes names x) = ts.all fun t => t.passes names y := by
        rw [Bool.eq_iff_iff, List.all_eq_true, List.all_eq_true]
        exact ⟨fun a t b => by rw [← this t b]; exact a t b, fun a t b => by rw [this t b]; exact a t b⟩
      rw [e1, e2]
    · exact StableSort.unique hp (q2 hq) (stableSort_filter p (s2 hq))
  rw [e]

/-- Searching a table that is sorted by a column is choosing the rows with the value, byte for byte. -/
theorem C215_search (toF64 : Bytes → F64) (env : MEnv) (eval : Bytes → List Bytes → Res (Bytes → F64)) (compiles utf8 nameOk : Bytes → Bool)
    (names : List Bytes) (rows : List (List Bytes)) (col spec value fname : Bytes) (key : LineCompMade) (ht : GoodTable names rows)
    (hok : ∀ n ∈ names, nameOk n = true) (hu : utf8 (sepHead TAB names) = true) (hc : col ∈ names) (hspec : RefOf names spec col)
    (hkey : makeLineComp compiles spec = .ok key) (hfn : fname.getLast? ≠ some 47)
    (hs : rows.Pairwise fun r s => lexCmp (cellOf names r col) (cellOf names s col) ≠ .gt)
    (hv : lexCmp value ((ascii " CDX" :: names).getD (names.idxOf col) []) = .gt) (fuel : Nat) (hf : 2 * (rows.length + 1) + 1 < fuel) :
    ∃ out, binMain toF64 eval compiles utf8 nameOk fuel [key] none .new value [(fname, sepHead TAB names ++ sepText TAB rows)] = .ok (some out) ∧
      grepMain env nameOk (sepMode TAB) (sepMode TAB) .matching [(ascii "pattern", spec ++ ascii ",exact," ++ value)]
        [(fname, sepHead TAB names ++ sepText TAB rows)] = .ok out := by
  obtain ⟨t1, t2, t3, t4, t5⟩ := ht
  obtain ⟨key', k1, k2⟩ := ref_keyFor t2 t3 t4 hc hspec compiles
  rw [hkey, Res.ok.injEq] at k1
  subst k1
  have hb := C127_table_partial toF64 eval compiles utf8 nameOk names ⟨t1, fun n hn => name_free (d := TAB) (by decide) (by decide) (t2 n hn)⟩
    hok hu rows t5 (names.idxOf col) key k2 value fname hs hv fuel hf
  have hval : ∀ n : String, n ≠ "pattern" → ascii "pattern" ≠ ascii n → valuesOf n [(ascii "pattern", spec ++ ascii ",exact," ++ value)] = [] :=
    fun n _ h => valuesOf_miss n _ _ _ h
  have hfits : GrepFits names [⟨col, fun v => v == value⟩] [(ascii "pattern", spec ++ ascii ",exact," ++ value)] := by
    refine ⟨by simp, by simpa using hc, ?_⟩
    rw [valuesOf_hit, show valuesOf "pattern" [] = [] from rfl]
    refine ⟨rfl, ?_⟩
    intro x hx
    rw [List.zip_cons_cons, List.zip_nil_left, List.mem_singleton] at hx
    subst hx
    refine ⟨spec, ascii "exact", value, hspec, ?_, (ascii "exact", fun p v => v = p), .inl (by simp [plainMethods]), .inl ⟨rfl, fun v => by simp⟩⟩
    rw [show ascii ",exact," = 44 :: ascii "exact" ++ [44] by decide +kernel]
    simp
  have hg := C214_rows env nameOk TAB (by decide) (by decide) names _ _ [(fname, rows)] t1 t3 (fun n hn => ⟨t2 n hn, hok n hn⟩) t4 hfits (by simp)
    (by intro t hm; rw [List.mem_singleton.1 hm]; exact ⟨hfn, t5⟩)
  refine ⟨_, hb, hg.trans ?_⟩
  rw [List.map_singleton, List.flatten_singleton, hval "or" (by decide) (by decide +kernel), hval "invert" (by decide) (by decide +kernel)]
  congr 3
  refine List.filter_congr fun r _ => ?_
  simp only [chosenRow, ne_eq, not_true_eq_false, decide_false, Bool.false_eq_true, if_false, List.all_cons, List.all_nil, Bool.and_true, Bool.xor_false,
    RowTest.passes, cellOf]
  rw [Bool.eq_iff_iff]
  simp

/-- Rows chosen from a sorted table, and the chosen rows sorted. -/
example : ∃ sorted chosen out,
    sortMain (fun _ => 0) (fun _ => true) (fun _ _ => 0) (fun _ _ => 0) 100 .default [.key (ascii "b")]
      [ascii " CDX\ta\tb\nx\t1\ny\t22\n", ascii " CDX\ta\tb\nx\t3\ny\t44\n"] = .ok sorted ∧
    grepMain MEnv.trivial (fun _ => true) (sepMode TAB) (sepMode TAB) .matching grepRowOpts [([], sorted)] = .ok out ∧
    grepMain MEnv.trivial (fun _ => true) (sepMode TAB) (sepMode TAB) .matching grepRowOpts
      [([], ascii " CDX\ta\tb\nx\t1\ny\t22\n"), ([], ascii " CDX\ta\tb\nx\t3\ny\t44\n")] = .ok chosen ∧
    sortMain (fun _ => 0) (fun _ => true) (fun _ _ => 0) (fun _ _ => 0) 100 .default [.key (ascii "b")] [chosen] = .ok out ∧
    out = ascii " CDX\ta\tb\nx\t1\nx\t3\n" := by
  obtain ⟨s, c, o, h1, h2, h3, h4⟩ := C215_sort (fun _ => 0) MEnv.trivial (fun _ => true) (fun _ _ => 0) (fun _ _ => 0) 100 .default
    [ascii "a", ascii "b"] grepTests grepRowOpts [⟨ascii "b", .plain, false⟩] [.key (ascii "b")]
    [([], [[ascii "x", ascii "1"], [ascii "y", ascii "22"]]), ([], [[ascii "x", ascii "3"], [ascii "y", ascii "44"]])] []
    (sortFits_one _ _ (by decide +kernel)) grepFits_example goodTable_example (by simp) (by simp) (by decide +kernel) (by decide) (by decide +kernel)
    (by decide +kernel) (by decide) (by simp)
  refine ⟨s, c, o, h1, h2, h3, h4, ?_⟩
  have e1 := h3.symm.trans (by decide +kernel : _ = Res.ok (ascii " CDX\ta\tb\nx\t1\nx\t3\n"))
  rw [Res.ok.injEq] at e1
  subst e1
  exact Run.ok.inj (h4.symm.trans (by decide +kernel))

/-- The rows with `y`, searched for and chosen. -/
example : ∃ out, binMain (fun _ => 0) (fun _ _ => .err) (fun _ => true) (fun _ => true) (fun _ => true) 20 [colKey 0] none .new (ascii "y")
      [([], ascii " CDX\ta\tb\nx\t1\nx\t3\ny\t22\ny\t44\n")] = .ok (some out) ∧
    grepMain MEnv.trivial (fun _ => true) (sepMode TAB) (sepMode TAB) .matching [(ascii "pattern", ascii "1,exact,y")]
      [([], ascii " CDX\ta\tb\nx\t1\nx\t3\ny\t22\ny\t44\n")] = .ok out :=
  C215_search (fun _ => 0) MEnv.trivial (fun _ _ => .err) (fun _ => true) (fun _ => true) (fun _ => true) [ascii "a", ascii "b"]
    [[ascii "x", ascii "1"], [ascii "x", ascii "3"], [ascii "y", ascii "22"], [ascii "y", ascii "44"]] (ascii "a") (ascii "1") (ascii "y") [] (colKey 0)
    ⟨goodTable_example.1, goodTable_example.2.1, goodTable_example.2.2.1, goodTable_example.2.2.2.1, by decide +kernel⟩ (by simp) rfl
    (by decide +kernel) (.inr (by decide +kernel)) (by decide +kernel) (by decide) (by decide +kernel) (by decide +kernel) 20 (by decide)

/-- Chosen by both patterns again, and by all others. -/
example : (∃ mid out, grepMain MEnv.trivial (fun _ => true) (sepMode 59) (sepMode 59) .matching grepRowOpts
      [(ascii "f", ascii " CDX;a;b\nx;1\ny;22\n")] = .ok mid ∧
    grepMain MEnv.trivial (fun _ => true) (sepMode 59) (sepMode 59) .matching grepRowOpts [(ascii "g", mid)] = .ok out ∧
    grepMain MEnv.trivial (fun _ => true) (sepMode 59) (sepMode 59) .matching (grepRowOpts ++ grepRowOpts)
      [(ascii "f", ascii " CDX;a;b\nx;1\ny;22\n")] = .ok out) ∧
    ∃ p : List Bytes → Bool, grepMain MEnv.trivial (fun _ => true) (sepMode 59) (sepMode 59) .matching ((ascii "invert", []) :: grepRowOpts)
      [(ascii "f", ascii " CDX;a;b\nx;1\ny;22\n")] =
        .ok (sepHead 59 [ascii "a", ascii "b"] ++ sepText 59 ([[ascii "x", ascii "1"], [ascii "y", ascii "22"]].filter fun r => !p r)) := by
  have hn : ∀ n ∈ [ascii "a", ascii "b"], IsName n ∧ (fun _ : Bytes => true) n = true := fun n hn => ⟨goodTable_example.2.1 n hn, rfl⟩
  constructor
  · exact C215_twice MEnv.trivial (fun _ => true) 59 (by decide) (by decide) _ _ _ _ _ [(ascii "f", [[ascii "x", ascii "1"], [ascii "y", ascii "22"]])]
      (ascii "g") (by simp) (by decide +kernel) hn (by decide) grepFits_example grepFits_example (by decide +kernel) (by decide +kernel) (by simp)
      (by decide +kernel) (by decide +kernel)
  · obtain ⟨p, _, h⟩ := C215_invert MEnv.trivial (fun _ => true) 59 (by decide) (by decide) _ _ _ [] [(ascii "f", [[ascii "x", ascii "1"], [ascii "y", ascii "22"]])]
      (by simp) (by decide +kernel) hn (by decide) grepFits_example (by decide +kernel) (by simp) (by decide +kernel)
    exact ⟨p, h⟩

end Cdx
