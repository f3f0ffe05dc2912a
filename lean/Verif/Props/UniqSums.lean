import Verif.Props.UniqNums

/-!
C230: sums of groups of rows.
-/

namespace Cdx

/-! ## Runs -/

theorem isRuns_forward {α β : Type} (f : α → β) {eq : β → β → Bool} {eq' : α → α → Bool} {D : List α} {R : List (List α)}
    (h : IsRuns eq' D R) (he : ∀ a ∈ D, ∀ b ∈ D, eq (f a) (f b) = eq' a b) : IsRuns eq (D.map f) (R.map (·.map f)) := by
  have hin : ∀ g ∈ R, ∀ x ∈ g, x ∈ D := fun g hg x hx => by rw [← h.join]; exact List.mem_flatten.2 ⟨g, hg, hx⟩
  refine ⟨by rw [← h.join, List.map_flatten], ?_, ?_, ?_⟩
  · intro g hg
    obtain ⟨g', hg', rfl⟩ := List.mem_map.1 hg
    simpa using h.nonempty g' hg'
  · intro g hg a b x y e
    obtain ⟨g', hg', rfl⟩ := List.mem_map.1 hg
    obtain ⟨a', t, e1, -, e2⟩ := List.map_eq_append_iff.1 e
    obtain ⟨x', t2, e3, rfl, e4⟩ := List.map_eq_cons_iff.1 e2
    obtain ⟨y', b', e5, rfl, -⟩ := List.map_eq_cons_iff.1 e4
    subst e5 e3
    rw [he x' (hin g' hg' _ (by simp [e1])) y' (hin g' hg' _ (by simp [e1]))]
    exact h.inside g' hg' a' b' x' y' e1
  · intro A B g k x y e hx hy
    obtain ⟨A', t, e1, -, e2⟩ := List.map_eq_append_iff.1 e
    obtain ⟨g', t2, e3, rfl, e4⟩ := List.map_eq_cons_iff.1 e2
    obtain ⟨k', B', e5, rfl, -⟩ := List.map_eq_cons_iff.1 e4
    subst e5 e3
    rw [List.getLast?_map, Option.map_eq_some_iff] at hx
    rw [List.head?_map, Option.map_eq_some_iff] at hy
    obtain ⟨x', hx', rfl⟩ := hx
    obtain ⟨y', hy', rfl⟩ := hy
    rw [he x' (hin g' (by simp [e1]) _ (List.mem_of_getLast? hx')) y' (hin k' (by simp [e1]) _ (List.mem_of_head? hy'))]
    exact h.between A' B' g' k' x' y' e1 hx' hy'

theorem runs_of {α : Type} (eq : α → α → Bool) (x : α) (D : List α) : IsRuns eq (x :: D) (runsFrom eq [x] x D) := by
  refine runsFrom_isRuns eq D [] x ?_
  intro a b u v e
  have := congrArg List.length e
  simp at this
  omega

theorem runs_exist {α : Type} (eq : α → α → Bool) (D : List α) : ∃ R, IsRuns eq D R := by
  cases D with
  | nil => exact ⟨[], rfl, by simp, by simp, by simp⟩
  | cons x D =>
    exact ⟨_, runs_of eq x D⟩

/-! ## Rows of runs -/

theorem rowPerRun_text {cmp : Bytes → Bytes → Ordering} {delim : UInt8} {row : List Bytes → Bytes → List Bytes} (f : List Bytes → Bytes)
    (row' : List (List Bytes) → List Bytes) :
    ∀ (R : List (List (List Bytes))) (out : Bytes), RowPerRun .first cmp delim row (R.map (·.map f)) out →
      (∀ g ∈ R, ∀ x, g.head? = some x → row (g.map f) (f x) = row' g) → out = sepText delim (R.map row') := by
  intro R
  induction R with
  | nil =>
    intro out h _
    cases h
    rfl
  | cons g R ih =>
    intro out h hrow
    rw [List.map_cons] at h
    cases h with
    | cons _ _ x out h1 h2 =>
      have h1 : (g.map f).head? = some x := h1
      rw [List.head?_map, Option.map_eq_some_iff] at h1
      obtain ⟨x', hx, rfl⟩ := h1
      rw [hrow g (by simp) x' hx, ih out h2 fun g hg => hrow g (by simp [hg])]
      simp [sepText, NL]

/-! ## What is asked for -/

/-- A column with the sums of another one, before or after the columns that are there. -/
structure SumAsk where
  before : Bool
  name : Bytes
  col : Bytes

/-- The values of `--agg-pre` and `--agg-post`, in order. -/
def sumSpecs (os : List (Bytes × Bytes)) : List (Bool × Bytes) :=
  os.filterMap fun o => if o.1 = ascii "agg-pre" then some (true, o.2) else if o.1 = ascii "agg-post" then some (false, o.2) else none

/-- The texts that ask for it. A number of a column may be given instead of its name. -/
def SumAsk.Text (names : List Bytes) (q : SumAsk) (spec : Bool × Bytes) : Prop :=
  spec.1 = q.before ∧ 44 ∉ q.name ∧ ∃ r, RefOf names r q.col ∧ r ≠ ascii "expr" ∧ spec.2 = q.name ++ 44 :: (r ++ 44 :: ascii "sum")

/-- A whole number in the short format: in decimal if its size is from 1 to 999, and otherwise as `1.5e3` (C99). -/
def shortText (n : Int) : Bytes := (NumFormat.default.print n).getD []

/-- Cells before and after others. -/
def aroundBy (qs : List SumAsk) (cell : SumAsk → Bytes) (l : List Bytes) : List Bytes :=
  (qs.filter (·.before)).map cell ++ l ++ (qs.filter (!·.before)).map cell

/-- The sum of a column. -/
def sumOf (names : List Bytes) (num : Bytes → Int) (col : Bytes) (g : List (List Bytes)) : Int := (g.map fun r => num (cellOf names r col)).sum

/-- The row of a group: the first of its rows with the sums, and with the number of its rows. -/
def groupRow (names : List Bytes) (num : Bytes → Int) (qs : List SumAsk) (pos : CountPos) (g : List (List Bytes)) : List Bytes :=
  addAt pos (shortText g.length) (aroundBy qs (fun q => shortText (sumOf names num q.col g)) (g.headD []))

/-- Options of `uniq` that ask for these keys, sums and count. -/
structure AsksSums (names : List Bytes) (asks : List SortAsk) (qs : List SumAsk) (name : Bytes) (pos : CountPos) (os : List (Bytes × Bytes)) : Prop where
  known : ∀ o ∈ os, o.1 ∈ [ascii "key", ascii "count", ascii "agg-pre", ascii "agg-post"]
  some : asks ≠ [] ∧ qs ≠ []
  keys : (optVals "key" os).length = asks.length ∧ ∀ x ∈ asks.zip (optVals "key" os), x.1.Text names x.2
  sums : (sumSpecs os).length = qs.length ∧ ∀ x ∈ qs.zip (sumSpecs os), x.1.Text names x.2
  count : LastMeans CountMeans (optVals "count" os) ([], .none) (name, pos)
  countName : 44 ∉ name
  fresh : ∀ n ∈ addAt pos name (aroundBy qs (·.name) names), IsName n
  distinct : (addAt pos name (aroundBy qs (·.name) names)).Nodup

/-- The aggregator of a sum. -/
def SumAsk.agger (zero : F64) (names : List Bytes) (q : SumAsk) : LineAgger F64 :=
  ⟨if q.before then .pre q.name else .post q.name, .col (names.idxOf q.col) (.sum zero)⟩

theorem sums_made (env : AggEnv F64) (mkExpr : ExprMaker F64) {names : List Bytes} (hn : ∀ n ∈ names, IsName n) (hl : names.length < 2 ^ 64)
    (os : List (Bytes × Bytes)) : ∀ qs : List SumAsk, (∀ q ∈ qs, q.col ∈ names) → (sumSpecs os).length = qs.length →
      (∀ x ∈ qs.zip (sumSpecs os), x.1.Text names x.2) → (∀ o ∈ os, o.1 ∈ [ascii "key", ascii "count", ascii "agg-pre", ascii "agg-post"]) →
      ∃ aggs, aggOpts env mkExpr (os.filterMap aggOpt) = .ok aggs ∧ lookupAggers names aggs = .ok (qs.map (SumAsk.agger env.ops.zero names)) := by
  have made : ∀ (q : SumAsk) (spec : Bool × Bytes), q.col ∈ names → q.Text names spec →
      ∃ c, ((spec.1 = true → LineAggerSpec.newPre env mkExpr spec.2 = .ok ⟨.pre q.name, .col c (.sum env.ops.zero)⟩) ∧
        (spec.1 = false → LineAggerSpec.newPost env mkExpr spec.2 = .ok ⟨.post q.name, .col c (.sum env.ops.zero)⟩)) ∧
        c.lookup names = .ok (names.idxOf q.col) := by
    rintro q ⟨b, v⟩ hq ⟨h1, h2, r, h3, h4, h5⟩
    obtain ⟨r1, -, -, c, r4, r5⟩ := newFrom_ref hn hl hq h3
    obtain ⟨e1, e2, -⟩ := C117_column env mkExpr q.name r (ascii "sum") h2 r1 h4
    have es : aggMake env (ascii "sum") = .ok (.sum env.ops.zero) := by rfl
    simp only at h5
    subst h5
    exact ⟨c, ⟨fun _ => by rw [e1, r4, es]; rfl, fun _ => by rw [e2, r4, es]; rfl⟩, r5⟩
  induction os with
  | nil =>
    intro qs _ h _ _
    have : qs = [] := List.length_eq_zero_iff.1 h.symm
    subst this
    exact ⟨[], rfl, rfl⟩
  | cons o os ih =>
    intro qs hq hlen ht hk
    have ho := hk o (by simp)
    replace hk : ∀ o ∈ os, o.1 ∈ [ascii "key", ascii "count", ascii "agg-pre", ascii "agg-post"] := fun x hx => hk x (by simp [hx])
    obtain ⟨n, v⟩ := o
    simp only [List.mem_cons, List.not_mem_nil, or_false] at ho
    rcases ho with rfl | rfl | rfl | rfl
    · have e : sumSpecs ((ascii "key", v) :: os) = sumSpecs os := by
        unfold sumSpecs
        rw [List.filterMap_cons_none (by rfl)]
      rw [e] at hlen ht
      obtain ⟨aggs, a1, a2⟩ := ih qs hq hlen ht hk
      refine ⟨aggs, ?_, a2⟩
      rw [List.filterMap_cons_none (by rfl), a1]
    · have e : sumSpecs ((ascii "count", v) :: os) = sumSpecs os := by
        unfold sumSpecs
        rw [List.filterMap_cons_none (by rfl)]
      rw [e] at hlen ht
      obtain ⟨aggs, a1, a2⟩ := ih qs hq hlen ht hk
      refine ⟨aggs, ?_, a2⟩
      rw [List.filterMap_cons_none (by rfl), a1]
    · have e : sumSpecs ((ascii "agg-pre", v) :: os) = (true, v) :: sumSpecs os := by
        unfold sumSpecs
        rw [List.filterMap_cons_some (by rfl)]
      rw [e] at hlen ht
      cases qs with
      | nil => simp at hlen
      | cons q qs =>
        obtain ⟨aggs, a1, a2⟩ := ih qs (fun q h => hq q (by simp [h])) (by simpa using hlen) (fun x hx => ht x (by simp [hx])) hk
        have hx := ht (q, (true, v)) (by simp)
        obtain ⟨c, ⟨m1, -⟩, m2⟩ := made q (true, v) (hq q (by simp)) hx
        refine ⟨⟨.pre q.name, .col c (.sum env.ops.zero)⟩ :: aggs, ?_, ?_⟩
        · rw [List.filterMap_cons_some (by rfl)]
          simp only [aggOpts, m1 rfl, Res.bind_ok, a1]
        · simp only [lookupAggers, LineAggSpec.lookup, m2, Res.bind_ok, a2, List.map_cons, SumAsk.agger, (show q.before = true from hx.1.symm), if_true]
    · have e : sumSpecs ((ascii "agg-post", v) :: os) = (false, v) :: sumSpecs os := by
        unfold sumSpecs
        rw [List.filterMap_cons_some (by rfl)]
      rw [e] at hlen ht
      cases qs with
      | nil => simp at hlen
      | cons q qs =>
        obtain ⟨aggs, a1, a2⟩ := ih qs (fun q h => hq q (by simp [h])) (by simpa using hlen) (fun x hx => ht x (by simp [hx])) hk
        have hx := ht (q, (false, v)) (by simp)
        obtain ⟨c, ⟨-, m1⟩, m2⟩ := made q (false, v) (hq q (by simp)) hx
        refine ⟨⟨.post q.name, .col c (.sum env.ops.zero)⟩ :: aggs, ?_, ?_⟩
        · rw [List.filterMap_cons_some (by rfl)]
          simp only [aggOpts, m1 rfl, Res.bind_ok, a1]
        · simp only [lookupAggers, LineAggSpec.lookup, m2, Res.bind_ok, a2, List.map_cons, SumAsk.agger, (show q.before = false from hx.1.symm), Bool.false_eq_true, if_false]

/-! ## The values -/

theorem whole_parts {names : List Bytes} {num : Bytes → Int} {col : Bytes} : ∀ g : List (List Bytes), (∀ r ∈ g, WholeCell (cellOf names r col) (num (cellOf names r col))) →
    ∃ ps : List NumParts, (∀ p ∈ ps, p.Whole) ∧ g.map (fun r => cellOf names r col) = ps.map (·.text) ∧
      g.map (fun r => num (cellOf names r col)) = ps.map (·.int) := by
  intro g
  induction g with
  | nil => exact fun _ => ⟨[], by simp, rfl, rfl⟩
  | cons r g ih =>
    intro h
    obtain ⟨p, h1, h2, h3⟩ := h r (by simp)
    obtain ⟨ps, i1, i2, i3⟩ := ih fun r hr => h r (by simp [hr])
    refine ⟨p :: ps, ?_, ?_, ?_⟩
    · intro x hx
      rcases List.mem_cons.1 hx with rfl | hx
      · exact h1
      · exact i1 x hx
    · rw [List.map_cons, List.map_cons, h2, i2]
    · rw [List.map_cons, List.map_cons, h3, i3]

theorem tab_get {names : List Bytes} {rows : List (List Bytes)} (hg : GoodTable names rows) {r : List Bytes} (hr : r ∈ rows) (i : Nat) :
    colOf .default i (tabLine r) = r.getD i [] := by
  have h := table_rows hg r hr
  unfold colOf
  rw [show TextMode.default = sepMode TAB from rfl, TextLine.get_eq_vec, tabLine, row_vec TAB (by decide) r h.1 h.2]

theorem short_is {x : F64} {n : Int} (h : x.Is n) (h0 : n = 0 → x.isNeg = false) (hn : n.natAbs ≤ 2 ^ 53) : printNum .default x = shortText n := by
  unfold printNum shortText
  rw [printF_whole .default none rfl h h0 fun _ => hn]

theorem zero_pos : (F64.ofNat 0).isNeg = false := by decide +kernel

theorem agg_doubles (o : Outside) : o.agg.doubles o.rest o.exp10 = o.agg := rfl

theorem agg_ofNat (o : Outside) (n : Nat) : o.agg.ops.ofNat n = F64.ofNat n := rfl

theorem sum_result (o : Outside) (ps : List NumParts) (hp : ∀ p ∈ ps, p.Whole) (hs : (ps.map fun p => p.int.natAbs).sum ≤ 2 ^ 53) :
    ((Agg.sum (f64Ops o.rest).zero).addAll o.agg (ps.map (·.text))).result o.agg = .num (F64.quot (ps.map (·.int)).sum 1) := by
  have := (C193_partial o.rest o.exp10 o.agg ps hp hs).1
  rw [agg_doubles o] at this
  exact this

theorem shown_col {F : Type} (env : AggEnv F) (prn : F → Bytes) (m : TextMode) (g : List Bytes) (n : Nat) (a : Agg F) :
    (LineAgg.col n a).shown env prn m g = outText prn ((a.addAll env (g.map (colOf m n))).result env) := rfl

theorem outText_num {F : Type} (prn : F → Bytes) (x : F) : outText prn (.num x) = prn x := rfl

theorem sum_shown (o : Outside) {names : List Bytes} {num : Bytes → Int} {rows g : List (List Bytes)} (hg : GoodTable names rows)
    (hin : ∀ r ∈ g, r ∈ rows) {col : Bytes} (hw : ∀ r ∈ g, WholeCell (cellOf names r col) (num (cellOf names r col)))
    (hb : (g.map fun r => (num (cellOf names r col)).natAbs).sum ≤ 2 ^ 53) :
    (LineAgg.col (names.idxOf col) (.sum (f64Ops o.rest).zero)).shown o.agg (printNum .default) .default (g.map tabLine) =
      shortText (sumOf names num col g) := by
  obtain ⟨ps, p1, p2, p3⟩ := whole_parts g hw
  have hb' : (ps.map fun p => p.int.natAbs).sum ≤ 2 ^ 53 := by
    have : (ps.map fun p : NumParts => p.int.natAbs) = g.map fun r => (num (cellOf names r col)).natAbs := by
      have := congrArg (List.map Int.natAbs) p3
      rw [List.map_map, List.map_map] at this
      exact this.symm
    rw [this]
    exact hb
  have hc : (g.map tabLine).map (colOf .default (names.idxOf col)) = ps.map (·.text) := by
    rw [← p2, List.map_map]
    exact List.map_congr_left fun r hr => tab_get hg (hin r hr) _
  have hsum : (ps.map NumParts.int).sum.natAbs ≤ 2 ^ 53 := by
    have := sum_natAbs_le (ps.map NumParts.int)
    rw [List.map_map] at this
    exact Nat.le_trans this hb'
  rw [shown_col, hc, sum_result o ps p1 hb', outText_num]
  unfold sumOf
  rw [p3]
  exact short_is (quot_is hsum) (fun e => by rw [e, quot_zero]; exact zero_pos) hsum

theorem sum_part {α : Type} {R : List (List α)} {g : List α} (hg : g ∈ R) (f : α → Nat) : (g.map f).sum ≤ (R.flatten.map f).sum := by
  obtain ⟨A, B, rfl⟩ := List.append_of_mem hg
  simp only [List.flatten_append, List.flatten_cons, List.map_append, List.sum_append]
  omega

theorem length_part {α : Type} {R : List (List α)} {g : List α} (hg : g ∈ R) : g.length ≤ R.flatten.length := by
  obtain ⟨A, B, rfl⟩ := List.append_of_mem hg
  simp only [List.flatten_append, List.flatten_cons, List.length_append]
  omega

theorem plain_same (b : Bytes) (h : TAB ∉ b ∧ NL ∉ b) :
    writeCol TextMode.default.col TextMode.default.delim TextMode.default.eol TextMode.default.repl b = b := by
  change writePlain TAB NL SP b = b
  rw [writePlain_blanked]
  unfold blanked
  conv => rhs; rw [← List.map_id b]
  refine List.map_congr_left fun c hc => ?_
  have h1 : c ≠ TAB := fun e => h.1 (e ▸ hc)
  have h2 : c ≠ NL := fun e => h.2 (e ▸ hc)
  simp [h1, h2]

/-- The aggregators of the sums and of the count. -/
def allAggers (zero : F64) (names : List Bytes) (qs : List SumAsk) (name : Bytes) : CountPos → List (LineAgger F64)
  | .none => qs.map (SumAsk.agger zero names)
  | .begin => ⟨.pre name, .col 0 (.count 0 0)⟩ :: qs.map (SumAsk.agger zero names)
  | .stop => qs.map (SumAsk.agger zero names) ++ [⟨.post name, .col 0 (.count 0 0)⟩]

theorem aggers_pre (zero : F64) (names : List Bytes) (qs : List SumAsk) :
    (qs.map (SumAsk.agger zero names)).filter (fun a => a.out.isPre) = (qs.filter (·.before)).map (SumAsk.agger zero names) ∧
    (qs.map (SumAsk.agger zero names)).filter (fun a => a.out.isPost) = (qs.filter (!·.before)).map (SumAsk.agger zero names) := by
  induction qs with
  | nil => exact ⟨rfl, rfl⟩
  | cons q qs ih =>
    have h1 : (SumAsk.agger zero names q).out.isPre = q.before := by
      simp only [SumAsk.agger]
      cases q.before <;> rfl
    have h2 : (SumAsk.agger zero names q).out.isPost = !q.before := by
      simp only [SumAsk.agger]
      cases q.before <;> rfl
    cases hb : q.before <;> simp only [List.map_cons, List.filter_cons, h1, h2, hb, ih.1, ih.2] <;> simp

theorem pre_place (n : Bytes) : (AggPlace.pre n).isPre = true ∧ (AggPlace.pre n).isPost = false ∧ (AggPlace.pre n).newName = n := ⟨rfl, rfl, rfl⟩

theorem post_place (n : Bytes) : (AggPlace.post n).isPre = false ∧ (AggPlace.post n).isPost = true ∧ (AggPlace.post n).newName = n := ⟨rfl, rfl, rfl⟩

theorem aggers_names (zero : F64) (names : List Bytes) (qs : List SumAsk) (name : Bytes) (pos : CountPos) :
    newNames (allAggers zero names qs name pos) names = addAt pos name (aroundBy qs (·.name) names) := by
  obtain ⟨h1, h2⟩ := aggers_pre zero names qs
  have e : ∀ l : List SumAsk, (l.map (SumAsk.agger zero names)).map (fun a => a.out.newName) = l.map (·.name) := by
    intro l
    rw [List.map_map]
    refine List.map_congr_left fun q _ => ?_
    simp only [Function.comp, SumAsk.agger]
    cases q.before <;> rfl
  unfold newNames allAggers addAt aroundBy
  cases pos <;> simp only [List.filter_cons, List.filter_append, List.filter_nil, h1, h2, pre_place, post_place, Bool.false_eq_true, if_true, if_false,
    List.map_append, List.map_cons, List.map_nil, e, List.append_nil, List.cons_append, List.append_assoc]

theorem aggers_row (o : Outside) {names : List Bytes} {num : Bytes → Int} {rows g : List (List Bytes)} (hg : GoodTable names rows)
    (hin : ∀ r ∈ g, r ∈ rows) (qs : List SumAsk) (name : Bytes) (pos : CountPos)
    (hw : ∀ q ∈ qs, ∀ r ∈ g, WholeCell (cellOf names r q.col) (num (cellOf names r q.col)))
    (hb : ∀ q ∈ qs, (g.map fun r => (num (cellOf names r q.col)).natAbs).sum ≤ 2 ^ 53) (hlen : g.length ≤ 2 ^ 53)
    (hcount : ∀ l, (LineAgg.col 0 (.count 0 0)).shown o.agg (printNum .default) .default l = printNum .default (o.agg.ops.ofNat l.length))
    {x : List Bytes} (hx : g.head? = some x) :
    aggRow o.agg (printNum .default) .default .default (allAggers (f64Ops o.rest).zero names qs name pos) names.length (g.map tabLine) (tabLine x) =
      groupRow names num qs pos g := by
  obtain ⟨h1, h2⟩ := aggers_pre (f64Ops o.rest).zero names qs
  have hxin : x ∈ rows := hin x (List.mem_of_head? hx)
  have e : ∀ l : List SumAsk, (∀ q ∈ l, q ∈ qs) → (l.map (SumAsk.agger (f64Ops o.rest).zero names)).map
      (fun a => a.what.shown o.agg (printNum .default) .default (g.map tabLine)) = l.map fun q => shortText (sumOf names num q.col g) := by
    intro l hl
    rw [List.map_map]
    exact List.map_congr_left fun q hq => sum_shown o hg hin (hw q (hl q hq)) (hb q (hl q hq))
  have ec : (LineAgg.col 0 (.count 0 0)).shown o.agg (printNum .default) .default (g.map tabLine) = shortText g.length := by
    rw [hcount, List.length_map, agg_ofNat o]
    exact short_is (is_ofNat hlen) (fun e => by rw [Int.ofNat_eq_zero.1 e]; exact zero_pos) (by rw [Int.natAbs_natCast]; exact hlen)
  have hrep : ∀ i, replacedBy (allAggers (f64Ops o.rest).zero names qs name pos) i = none := by
    intro i
    unfold replacedBy
    rw [List.find?_eq_none]
    intro a ha
    have : a.out ≠ .replace := by
      have hq : ∀ a ∈ qs.map (SumAsk.agger (f64Ops o.rest).zero names), a.out ≠ .replace := by
        intro a ha
        obtain ⟨q, -, rfl⟩ := List.mem_map.1 ha
        simp only [SumAsk.agger]
        cases q.before <;> simp
      cases pos with
      | none => exact hq a ha
      | begin =>
        rcases List.mem_cons.1 ha with rfl | ha
        · simp
        · exact hq a ha
      | stop =>
        rcases List.mem_append.1 ha with ha | ha
        · exact hq a ha
        · rw [List.mem_singleton.1 ha]; simp
    simp [this]
  have hmid : ((List.range names.length).map fun i =>
      writeCol TextMode.default.col TextMode.default.delim TextMode.default.eol TextMode.default.repl (colOf .default i (tabLine x))) = x := by
    have hl := (hg.2.2.2.2 x hxin).1
    refine List.ext_getElem (by simp [hl]) fun i h1 h2 => ?_
    rw [List.getElem_map, List.getElem_range, tab_get hg hxin, List.getD_eq_getElem?_getD, List.getElem?_eq_getElem h2, Option.getD_some,
      plain_same _ ((hg.2.2.2.2 x hxin).2 _ (List.getElem_mem _))]
  have hhead : g.headD [] = x := by
    cases g with
    | nil => simp at hx
    | cons y g => simpa using hx
  unfold aggRow groupRow
  simp only [hrep]
  rw [hmid, hhead]
  have f1 := e (qs.filter (·.before)) fun q hq => (List.mem_filter.1 hq).1
  have f2 := e (qs.filter (!·.before)) fun q hq => (List.mem_filter.1 hq).1
  unfold allAggers addAt aroundBy
  cases pos <;> simp only [List.filter_cons, List.filter_append, List.filter_nil, h1, h2, pre_place, post_place, Bool.false_eq_true, if_true, if_false,
    List.map_append, List.map_cons, List.map_nil, f1, f2, ec, List.append_nil, List.cons_append, List.append_assoc]

/-! ## C230 -/

/-- C230: `uniq` with sums: of each run of adjacent rows with the same values of the keys the first row, with the sums of the columns asked for
and with the number of rows, in the short format. -/
theorem C230_sums (o : Outside) (s : Sys) (c : Cmd) (hc : c ∈ mainList) (hn : c.name = "uniq") (toks : List Tok)
    (opts : List (Bytes × Bytes)) (file : Bytes) (names : List Bytes) (rows : List (List Bytes)) (asks : List SortAsk) (qs : List SumAsk)
    (num : Bytes → Int) (val : WholeFormula → List Bytes → Int) (name : Bytes) (pos : CountPos)
    (h : Says (o.world s) c toks .default none opts [file]) (hr : getReader (o.world s).s3 (o.world s).gunzip s file = some (sepHead TAB names ++ sepText TAB rows))
    (hg : GoodTable names rows) (hrows : rows ≠ []) (hf : AsksSums names asks qs name pos opts) (hfit : ∀ k ∈ asks, k.Fits names num val rows)
    (hcol : ∀ q ∈ qs, q.col ∈ names) (hw : ∀ q ∈ qs, ∀ r ∈ rows, WholeCell (cellOf names r q.col) (num (cellOf names r q.col)))
    (hb : ∀ q ∈ qs, (rows.map fun r => (num (cellOf names r q.col)).natAbs).sum ≤ 2 ^ 53) (hlen : rows.length ≤ 2 ^ 53) :
    ∃ R, IsRuns (fun a b => askCmp names num val asks a b == .eq) rows R ∧
      o.run "uniq" toks s = .ok { s with stdout := s.stdout ++ (sepHead TAB (addAt pos name (aroundBy qs (·.name) names)) ++
        sepText TAB (R.map (groupRow names num qs pos))) } := by
  obtain ⟨ev, e1, e2⟩ := formula_values o s hg hfit hrows
  obtain ⟨ms, m1, m2⟩ := keyAsks_made (fun _ => true) hg.2.1 hg.2.2.2.1 (fun _ => rfl) asks _ (fits_there hfit) hf.keys.1 hf.keys.2
  have m3 := m2 (o.world s).eval ev e2
  obtain ⟨aggs, a1, a2⟩ := sums_made o.agg (o.world s).mkExpr hg.2.1 hg.2.2.2.1 opts qs hcol hf.sums.1 hf.sums.2 hf.known
  obtain ⟨specs, c1, c2, c3⟩ := C116_count (m := .default) o.agg (o.world s).mkExpr (printNum .default) ⟨name, pos, .first, ⟨.whole .plain, false, TAB⟩⟩ aggs names _ hf.countName a2
  have c2 : lookupAggers names specs = .ok (allAggers (f64Ops o.rest).zero names qs name pos) := by
    rw [c2]
    cases pos <;> rfl
  obtain ⟨R, hR⟩ := runs_exist (fun a b => askCmp names num val asks a b == .eq) rows
  refine ⟨R, hR, ?_⟩
  have hin : ∀ g ∈ R, ∀ r ∈ g, r ∈ rows := fun g hg r hr => by rw [← hR.join]; exact List.mem_flatten.2 ⟨g, hg, hr⟩
  have hsn : SepNames TAB names := ⟨hg.1, fun n hn => name_free (d := TAB) (by decide) (by decide) (hg.2.1 n hn)⟩
  obtain ⟨r1, r2, r3, r4⟩ := table_read TAB (by decide) names hsn rows hg.2.2.2.2
  have em : sepMode TAB = .default := rfl
  rw [em] at r1 r2 r3 r4
  have ho : UniqConf.opts o.agg (o.world s).mkExpr (fun _ => true) {} opts = .ok ⟨ms, name, pos, .first, ⟨{}, [], .whole (.kind .plain)⟩, aggs⟩ := by
    rw [C199_options]
    refine ⟨fun x hx => ?_, m1, hf.count, ?_, a1⟩
    · have hk := hf.known x hx
      have : ∀ n ∈ [ascii "key", ascii "count", ascii "agg-pre", ascii "agg-post"], n ∈ uniqNames.map ascii := by decide
      exact this _ hk
    · have : optVals "which" opts = [] := by
        unfold optVals
        rw [List.map_eq_nil_iff, List.filter_eq_nil_iff]
        intro x hx
        have hk := hf.known x hx
        have : ∀ n ∈ [ascii "key", ascii "count", ascii "agg-pre", ascii "agg-post"], n ≠ ascii "which" := by decide
        simpa using this _ hk
      rw [this]
      exact ⟨by simp, .inl ⟨rfl, rfl⟩⟩
  have haggs : aggs ≠ [] := by
    rintro rfl
    have := hf.some.2
    have a3 : (.ok [] : Res (List (LineAgger F64))) = _ := a2
    simp only [Res.ok.injEq] at a3
    exact this (List.map_eq_nil_iff.1 a3.symm)
  have hsplit : needSplit (asks.map (·.at names ev)) = true := by
    unfold needSplit
    rw [List.any_eq_true]
    obtain ⟨k, hk⟩ := List.exists_mem_of_ne_nil _ hf.some.1
    refine ⟨_, List.mem_map.2 ⟨k, hk, rfl⟩, ?_⟩
    cases k <;> rfl
  have hnn : newNames (allAggers (f64Ops o.rest).zero names qs name pos) (namesOf .default (sepHead TAB names ++ sepText TAB rows)) =
      addAt pos name (aroundBy qs (·.name) names) := by
    rw [r2]
    exact aggers_names _ names qs name pos
  have hnil : addAt pos name (aroundBy qs (·.name) names) ≠ [] := by
    have := hg.1
    unfold addAt aroundBy
    cases pos <;> simp [this]
  obtain ⟨out, R', o1, o2, o3⟩ := C115_command_partial o.agg (o.world s).mkExpr (printNum .default) .default .default (asks.map (·.at names ev))
    ⟨name, pos, .first, ⟨.whole .plain, false, TAB⟩⟩ _ aggs specs _ (sepHead TAB names ++ sepText TAB rows) rfl hsplit a1 c1 (by rw [r2]; exact c2)
    (by rw [r3]; simpa using hrows) (by rw [r2]; exact hg.2.2.1) (by rw [r2]; exact fun n hn => (isValid_iff n).2 (hg.2.1 n hn))
    (by
      rw [hnn]
      exact ⟨fun n hn => ((isValid_iff n).2 (hf.fresh n hn)).2, hf.distinct, hnil⟩)
    (by rintro (h | h) <;> cases h)
  rw [r3] at o2
  have hR' : R' = R.map (·.map tabLine) := by
    refine o2.unique (isRuns_forward tabLine hR fun a ha b hb => ?_)
    unfold eqLines
    rw [compColsList_equal]
    exact congrArg (· == .eq) (ask_cols o.exp10 hg.1 hg.2.2.2.2 ha hb hfit e1)
  subst hR'
  rw [r2] at o3
  have hout := rowPerRun_text tabLine (groupRow names num qs pos) R out o3 fun g hgR x hx =>
    aggers_row o hg (hin g hgR) qs name pos (fun q hq r hr => hw q hq r (hin g hgR r hr))
      (fun q hq => Nat.le_trans (by have := sum_part hgR fun r => (num (cellOf names r q.col)).natAbs; rwa [hR.join] at this) (hb q hq))
      (Nat.le_trans (by have := length_part hgR; rwa [hR.join] at this) hlen) c3 hx
  have hhd : headText .default (addAt pos name (aroundBy qs (·.name) names)) = sepHead TAB (addAt pos name (aroundBy qs (·.name) names)) := by
    rw [sepHead_eq TAB _ hnil]
    unfold headText
    rw [if_pos (by decide)]
    simp [TextMode.default]
  rw [r4, if_pos rfl, hnn, hout, hhd] at o1
  unfold Outside.run
  rw [← hn]
  refine run_writes (o.world s) hc (by rw [hn]; decide) (by rw [hn]; decide) h s (texts := [sepHead TAB names ++ sepText TAB rows]) (by simp [hr]) ?_
  rw [hn]
  unfold World.output
  simp only [if_false, if_true, String.reduceEq]
  rw [zip_snd (files := [file]) (texts := [_]) (by rfl), List.headD_cons]
  have hmain : uniqMain o.agg (o.world s).mkExpr (printNum .default) (fun _ => true) (o.world s).eval .default .default opts
      (sepHead TAB names ++ sepText TAB rows) = .ok (sepHead TAB (addAt pos name (aroundBy qs (·.name) names)) ++
        sepText TAB (R.map (groupRow names num qs pos))) := by
    have he : ((Reader.newWith 1 .default).open_ (sepHead TAB names ++ sepText TAB rows)).isEmpty = false := (open_fields _ _ _ _ r1).1
    have hrn : ((Reader.newWith 1 .default).open_ (sepHead TAB names ++ sepText TAB rows)).names = names := r2
    have hwh : (⟨{}, [], .whole (.kind .plain)⟩ : LineCompMade).resolve (o.world s).eval names = .ok ⟨.whole .plain, false, TAB⟩ := rfl
    unfold uniqMain
    simp only [ho, Res.bind_ok, he, Bool.false_eq_true, if_false, hrn, m3, hwh, (by simpa using haggs : aggs.isEmpty = false)]
    exact o1
  exact congrArg Res.run hmain

/-! ## An example -/

/-- The numbers of the second column. -/
def num8 (b : Bytes) : Int := if b = ascii "5" then 5 else if b = ascii "3" then 3 else 2

theorem whole8 : ∀ r ∈ rows8, WholeCell (cellOf [ascii "a", ascii "b"] r (ascii "b")) (num8 (cellOf [ascii "a", ascii "b"] r (ascii "b"))) := by
  intro r hr
  simp only [rows8, List.mem_cons, List.not_mem_nil, or_false] at hr
  rcases hr with rfl | rfl | rfl
  · exact wholeCell_digits false (ascii "5") (by decide) (by decide) _ (by decide +kernel)
  · exact wholeCell_digits false (ascii "3") (by decide) (by decide) _ (by decide +kernel)
  · exact wholeCell_digits false (ascii "2") (by decide) (by decide) _ (by decide +kernel)

theorem count9 : LastMeans CountMeans (optVals "count" [(ascii "key", ascii ",expr,a*b"), (ascii "agg-post", ascii "s,b,sum"), (ascii "count", ascii "n,End")])
    ([], .none) (ascii "n", .stop) := by
  have h := count8
  rwa [show optVals "count" [(ascii "key", ascii ",expr,a*b"), (ascii "count", ascii "n,End")] =
    optVals "count" [(ascii "key", ascii ",expr,a*b"), (ascii "agg-post", ascii "s,b,sum"), (ascii "count", ascii "n,End")] by decide +kernel] at h

/-- `cdx uniq --key ,expr,a*b --agg-post s,b,sum --count n,End t`. -/
example : outside0.run "uniq" [.opt "key" (ascii ",expr,a*b"), .opt "agg-post" (ascii "s,b,sum"), .opt "count" (ascii "n,End"), .pos "input_files" (ascii "t")] sys8 =
    .ok { sys8 with stdout := ascii "> CDX\ta\tb\ts\tn\n3\t5\t8\t2\n10\t2\t2\t1\n" } := by
  obtain ⟨R, hR, h⟩ := C230_sums outside0 sys8 (cmd0 "uniq") (cmd0_mem (by decide +kernel)) (by decide +kernel)
    [.opt "key" (ascii ",expr,a*b"), .opt "agg-post" (ascii "s,b,sum"), .opt "count" (ascii "n,End"), .pos "input_files" (ascii "t")]
    [(ascii "key", ascii ",expr,a*b"), (ascii "agg-post", ascii "s,b,sum"), (ascii "count", ascii "n,End")] (ascii "t") [ascii "a", ascii "b"] rows8
    [.formula product false] [⟨false, ascii "s", ascii "b"⟩] num8 val8 (ascii "n") .stop
    (says_plain (by decide +kernel) (by decide +kernel) (by decide +kernel) (by decide +kernel) (by decide +kernel)) (by decide +kernel)
    (goodTable_ab (by decide +kernel)) (by decide)
    { known := by decide +kernel
      some := by simp
      keys := ⟨rfl, text8⟩
      sums := ⟨by decide +kernel, by
        intro x hx
        have : x = (⟨false, ascii "s", ascii "b"⟩, false, ascii "s,b,sum") := by
          rw [show sumSpecs _ = [(false, ascii "s,b,sum")] by decide +kernel] at hx
          simpa using hx
        subst this
        exact ⟨rfl, by decide +kernel, ascii "b", .inl rfl, by decide +kernel, by decide +kernel⟩⟩
      count := count9
      countName := by decide +kernel
      fresh := by
        intro n hn
        have : n ∈ [ascii "a", ascii "b", ascii "s", ascii "n"] := hn
        simp only [List.mem_cons, List.not_mem_nil, or_false] at this
        rcases this with rfl | rfl | rfl | rfl
        · exact one_letter 97 (by unfold Letter; decide)
        · exact one_letter 98 (by unfold Letter; decide)
        · exact one_letter 115 (by unfold Letter; decide)
        · exact one_letter 110 (by unfold Letter; decide)
      distinct := by decide +kernel }
    (fits8 _) (by decide +kernel) (by intro q hq; rw [List.mem_singleton.1 hq]; exact whole8) (by decide +kernel) (by decide)
  have : R = [[[ascii "3", ascii "5"], [ascii "5", ascii "3"]], [[ascii "10", ascii "2"]]] := by
    rw [hR.unique (runs_of _ _ _)]
    decide +kernel
  rw [h, this]
  congr 2


end Cdx
