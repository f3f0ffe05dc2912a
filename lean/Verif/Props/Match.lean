import Verif.Spec.Match
import Verif.Props.Parts
import Verif.Props.Ops
import Verif.Props.Glob

/-!
C57 lists of matchers, C58 modifiers, C76 methods, C79 multi-patterns.
-/

namespace Cdx

/-! ## C57: lists -/

theorem andLoop_true (rs : List (Res Bool)) : andLoop rs = .ok true ↔ ∀ r ∈ rs, r = .ok true := by
  induction rs with
  | nil => simp [andLoop]
  | cons r rs ih =>
    cases r with
    | ok b => cases b <;> simp [andLoop, ih]
    | err => simp [andLoop]
    | panic => simp [andLoop]

theorem orLoop_false (rs : List (Res Bool)) : orLoop rs = .ok false ↔ ∀ r ∈ rs, r = .ok false := by
  induction rs with
  | nil => simp [orLoop]
  | cons r rs ih =>
    cases r with
    | ok b => cases b <;> simp [orLoop, ih]
    | err => simp [orLoop]
    | panic => simp [orLoop]

theorem andLoop_answers (bs : List Bool) : andLoop (bs.map .ok) = .ok (bs.all id) := by
  induction bs with
  | nil => rfl
  | cons b bs ih => cases b <;> simp [andLoop, ih]

theorem orLoop_answers (bs : List Bool) : orLoop (bs.map .ok) = .ok (bs.any id) := by
  induction bs with
  | nil => rfl
  | cons b bs ih => cases b <;> simp [orLoop, ih]

theorem andVerbose_answers (bs : List Bool) (ret : Bool) : andVerbose ret (bs.map .ok) = .ok (ret && bs.all id) := by
  induction bs generalizing ret with
  | nil => simp [andVerbose]
  | cons b bs ih => cases b <;> cases ret <;> simp [andVerbose, ih]

/-- If every matcher of a list has an answer for the line, the list combined with And (Or) accepts the line exactly if
all (some) of them do, in the quiet and the verbose form. -/
theorem C57_lines (env : MEnv) (ts : List LineTest) (line : TextLine) (answer : LineTest → Bool)
    (h : ∀ t ∈ ts, t.ok env line = .ok (answer t)) :
    (lineListOk env .and ts line = .ok true ↔ ∀ t ∈ ts, answer t = true) ∧
    (lineListOk env .or ts line = .ok true ↔ ∃ t ∈ ts, answer t = true) ∧
    (∀ c, lineListVerbose env c ts line = lineListOk env c ts line) ∧
    (∀ c, ∃ b, lineListOk env c ts line = .ok b) := by
  have e : ts.map (LineTest.ok env line) = (ts.map answer).map .ok := by
    rw [List.map_map]
    exact List.map_congr_left fun t ht => h t ht
  simp only [lineListOk, lineListVerbose, Combiner.loop, e]
  refine ⟨?_, ?_, ?_, ?_⟩
  · rw [andLoop_answers]; simp
  · rw [orLoop_answers]; simp
  · rintro (_ | _)
    · rfl
    · simp only [andVerbose_answers, andLoop_answers, Bool.true_and]
  · rintro (_ | _)
    · exact ⟨_, orLoop_answers _⟩
    · exact ⟨_, andLoop_answers _⟩

/-- The same for matchers of texts. -/
theorem C57_texts (env : MEnv) (ms : List Matcher) (v : Bytes) (answer : Matcher → Bool)
    (h : ∀ m ∈ ms, m.umatch env v = .ok (answer m)) :
    (matcherListUmatch env .and ms v = .ok true ↔ ∀ m ∈ ms, answer m = true) ∧
    (matcherListUmatch env .or ms v = .ok true ↔ ∃ m ∈ ms, answer m = true) := by
  have e : ms.map (fun m => m.umatch env v) = (ms.map answer).map .ok := by
    rw [List.map_map]
    exact List.map_congr_left fun t ht => h t ht
  simp only [matcherListUmatch, Combiner.loop, e, andLoop_answers, orLoop_answers]
  simp

/-- Acceptance by And means that every matcher of the list was asked and accepted, whatever panics there may be. -/
theorem C57_all (env : MEnv) (ts : List LineTest) (line : TextLine) :
    (lineListOk env .and ts line = .ok true ↔ ∀ t ∈ ts, t.ok env line = .ok true) ∧
    (lineListOk env .or ts line = .ok false ↔ ∀ t ∈ ts, t.ok env line = .ok false) := by
  simp only [lineListOk, Combiner.loop, andLoop_true, orLoop_false]
  simp

example (env : MEnv) : lineListOk env .and [.count 2, .count 3] (mergeLine (ascii "a\tb\n")) = .ok false ∧
    lineListOk env .or [.count 2, .count 3] (mergeLine (ascii "a\tb\n")) = .ok true := by
  constructor <;> rfl

/-! ## Methods and flags -/

theorem ofMethod_words (method : Bytes) :
    MFlags.ofMethod method = { (methodWords method).foldl MFlags.modify .default with
      ctype := matchAlias ((methodWords method).foldl MFlags.modify .default).ctype } := by
  unfold MFlags.ofMethod methodWords
  split
  · decide
  · rfl

theorem modify_negate (f : MFlags) (x : Bytes) (b : Bool) (hb : b = true) :
    MFlags.modify { f with negate := b } x = { MFlags.modify f x with negate := b } := by
  subst hb
  unfold MFlags.modify
  repeat' split
  all_goals rfl

theorem foldl_negate (ws : List Bytes) (f : MFlags) :
    ws.foldl MFlags.modify { f with negate := true } = { ws.foldl MFlags.modify f with negate := true } := by
  induction ws generalizing f with
  | nil => rfl
  | cons w ws ih => rw [List.foldl_cons, List.foldl_cons, modify_negate _ _ _ rfl, ih]

theorem eqIgnoreCase_trans {x a b : Bytes} (h : eqIgnoreCase x a = true) : eqIgnoreCase x b = eqIgnoreCase a b := by
  simp only [eqIgnoreCase, beq_iff_eq] at h ⊢
  rw [h]

theorem modify_not {x : Bytes} (h : eqIgnoreCase x (ascii "not") = true) (f : MFlags) :
    f.modify x = { f with negate := true } := by
  unfold MFlags.modify
  rw [if_neg (by rw [eqIgnoreCase_trans h]; decide), if_pos h]

theorem modify_null {x : Bytes} (h : eqIgnoreCase x (ascii "null") = true) (f : MFlags) :
    f.modify x = { f with negate := true } := by
  unfold MFlags.modify
  rw [if_neg (by rw [eqIgnoreCase_trans h]; decide), if_neg (by rw [eqIgnoreCase_trans h]; decide),
    if_neg (by rw [eqIgnoreCase_trans h]; decide), if_pos h]

theorem modify_and {x : Bytes} (h : eqIgnoreCase x (ascii "and") = true) (f : MFlags) :
    f.modify x = { f with multi := some .and } := by
  unfold MFlags.modify
  rw [if_neg (by rw [eqIgnoreCase_trans h]; decide), if_neg (by rw [eqIgnoreCase_trans h]; decide),
    if_neg (by rw [eqIgnoreCase_trans h]; decide), if_neg (by rw [eqIgnoreCase_trans h]; decide),
    if_neg (by rw [eqIgnoreCase_trans h]; decide), if_pos h]

theorem modify_or {x : Bytes} (h : eqIgnoreCase x (ascii "or") = true) (f : MFlags) :
    f.modify x = { f with multi := some .or } := by
  unfold MFlags.modify
  rw [if_neg (by rw [eqIgnoreCase_trans h]; decide), if_neg (by rw [eqIgnoreCase_trans h]; decide),
    if_neg (by rw [eqIgnoreCase_trans h]; decide), if_neg (by rw [eqIgnoreCase_trans h]; decide),
    if_neg (by rw [eqIgnoreCase_trans h]; decide), if_neg (by rw [eqIgnoreCase_trans h]; decide), if_pos h]

theorem ofMethod_negate {word M M' : Bytes} (hw : ∀ x, eqIgnoreCase x word = true → ∀ f : MFlags, f.modify x = { f with negate := true })
    (h : WordAdded word M M') : MFlags.ofMethod M' = { MFlags.ofMethod M with negate := true } := by
  obtain ⟨l, r, x, h1, h2, hx⟩ := h
  rw [ofMethod_words, ofMethod_words, h1, h2, List.foldl_append, List.foldl_cons, hw x hx, foldl_negate,
    List.foldl_append]

theorem ite_map' {α β : Type} {c : Prop} [Decidable c] {a b : Res α} {a' b' : Res β} {g : α → β}
    (h : a' = a.map' g) (h' : b' = b.map' g) : (if c then a' else b') = (if c then a else b).map' g := by
  split
  · exact h
  · exact h'

theorem bind_map' {α β γ : Type} {r : Res γ} {a : γ → Res α} {a' : γ → Res β} {g : α → β}
    (h : ∀ x, a' x = (a x).map' g) : r.bind a' = (r.bind a).map' g := by
  cases r with
  | ok x => exact h x
  | err => rfl
  | panic => rfl

/-- A change of flags that makers do not look at goes through them. -/
theorem makeKind_map (env : MEnv) (g : MFlags → MFlags) (f : MFlags) (p : Bytes) (h1 : (g f).ctype = f.ctype)
    (h2 : (g f).insens = f.insens) (h3 : (g f).string = f.string)
    (h4 : ({ g f with trim := true, empty := true } : MFlags) = g { f with trim := true, empty := true }) :
    makeKind env (g f) p = (makeKind env f p).map' fun m => (g m.1, m.2) := by
  unfold makeKind
  rw [h4]
  simp only [h1, h2, h3]
  repeat' refine ite_map' ?_ ?_
  all_goals first
    | rfl
    | refine bind_map' fun _ => ?_
  all_goals first
    | rfl
    | refine ite_map' ?_ ?_
  all_goals first
    | rfl
    | exact bind_map' fun _ => rfl

theorem makeAll_map (env : MEnv) (g : MFlags → MFlags) (f : MFlags) (ps : List Bytes) (h1 : (g f).ctype = f.ctype)
    (h2 : (g f).insens = f.insens) (h3 : (g f).string = f.string)
    (h4 : ({ g f with trim := true, empty := true } : MFlags) = g { f with trim := true, empty := true })
    (h5 : ({ g f with multi := none } : MFlags) = g { f with multi := none })
    (h6 : ({ g { f with multi := none } with trim := true, empty := true } : MFlags) =
      g { f with multi := none, trim := true, empty := true }) :
    makeAll env (g f) ps = (makeAll env f ps).map' (List.map fun m => (g m.1, m.2)) := by
  induction ps with
  | nil => rfl
  | cons p ps ih =>
    rw [makeAll, makeAll, h5, ih]
    have := makeKind_map env g { f with multi := none } p (by rw [← h5]; exact h1) (by rw [← h5]; exact h2)
      (by rw [← h5]; exact h3) h6
    rw [this]
    cases makeKind env { f with multi := none } p <;> cases makeAll env f ps <;> rfl

/-! ## C58: modifiers -/

/-- The matcher with its decision inverted. -/
def Matcher.negated (m : Matcher) : Matcher :=
  ⟨{ m.flags with negate := true }, match m.body with
    | .one k => .one k
    | .many c ms => .many c (ms.map fun x => ({ x.1 with negate := true }, x.2))⟩

theorem make2_negate (env : MEnv) {M M' : Bytes} (p : Bytes)
    (h : MFlags.ofMethod M' = { MFlags.ofMethod M with negate := true }) :
    Matcher.make2 env M' p = (Matcher.make2 env M p).map' Matcher.negated := by
  unfold Matcher.make2
  simp only [h]
  cases hm : (MFlags.ofMethod M).multi with
  | none =>
    simp only
    have := makeKind_map env (fun f => { f with negate := true }) (MFlags.ofMethod M) p rfl rfl rfl rfl
    simp only [hm] at this
    rw [this]
    cases makeKind env (MFlags.ofMethod M) p <;> rfl
  | some c =>
    cases p with
    | nil => rfl
    | cons d ps =>
      simp only
      have := makeAll_map env (fun f => { f with negate := true }) (MFlags.ofMethod M) (sliceSplit d ps)
        rfl rfl rfl rfl rfl rfl
      simp only [hm] at this
      rw [this]
      have e : ({ MFlags.ofMethod M with negate := true } : MFlags) =
          { MFlags.ofMethod M with negate := true, multi := some c } := by rw [← hm]
      cases makeAll env (MFlags.ofMethod M) (sliceSplit d ps) with
      | ok a => simp only [Res.map', Res.bind_ok, Matcher.negated, hm]
      | err => rfl
      | panic => rfl

theorem negated_umatch (env : MEnv) (m : Matcher) (v : Bytes) :
    m.negated.umatch env v = m.umatch env v ∧ m.negated.smatch env v = m.smatch env v := by
  obtain ⟨f, b⟩ := m
  cases b with
  | one k => exact ⟨rfl, rfl⟩
  | many c ms =>
    constructor
    · simp only [Matcher.umatch, Matcher.negated, MFlags.apply, List.map_map]
      rfl
    · simp only [Matcher.smatch, Matcher.negated, MFlags.apply, List.map_map]
      rfl

theorem negated_lossy (env : MEnv) (m : Matcher) (v : Bytes) :
    m.negated.lossyMatch env v = m.lossyMatch env v := by
  unfold Matcher.lossyMatch
  rw [(negated_umatch env m v).1, (negated_umatch env m _).2]
  rfl

/-- C58 in full: `not` inverts the decision, and `null` adds empty values, for matchers of texts and of lines. -/
def C58_statement : Prop :=
  ∀ (env : MEnv) (M M' p : Bytes) (m m' : Matcher),
    Matcher.make2 env M p = .ok m → Matcher.make2 env M' p = .ok m' → m.flags.negate = false →
    (WordAdded (ascii "not") M M' →
      (∀ v, m'.doMatch env v = (m.doMatch env v).map' not) ∧
      (∀ line n, (LineTest.col m' n).ok env line = ((LineTest.col m n).ok env line).map' not)) ∧
    (WordAdded (ascii "null") M M' → ∀ v, m'.doMatch env v = if v = [] then .ok true else m.doMatch env v)

/-- Where lines are matched, a matcher with `not` is made exactly if the one without can be, and answers the opposite on
every line: for one column, for the whole line, and for a set of columns. Missing from the full statement: other uses
(`C58_not_ignored`), and `null` (`C58_null_inverts`). -/
theorem C58_not_lines_partial (env : MEnv) (M M' p : Bytes) (h : WordAdded (ascii "not") M M')
    (hn : (MFlags.ofMethod M).negate = false) :
    ((∀ m', Matcher.make2 env M' p ≠ .ok m') ∧ (∀ m, Matcher.make2 env M p ≠ .ok m)) ∨
    ∃ m m', Matcher.make2 env M p = .ok m ∧ Matcher.make2 env M' p = .ok m' ∧ ∀ line : TextLine,
      (∀ n, (LineTest.col m' n).ok env line = ((LineTest.col m n).ok env line).map' not) ∧
      (LineTest.whole m').ok env line = ((LineTest.whole m).ok env line).map' not ∧
      (∀ ns d, (LineTest.set m' ns d).ok env line = ((LineTest.set m ns d).ok env line).map' not) := by
  rw [make2_negate env p (ofMethod_negate (fun x hx f => modify_not hx f) h)]
  cases hm : Matcher.make2 env M p with
  | err => exact .inl ⟨by simp [Res.map'], by simp⟩
  | panic => exact .inl ⟨by simp [Res.map'], by simp⟩
  | ok m =>
    right
    refine ⟨m, m.negated, rfl, rfl, ?_⟩
    have hneg : m.flags.negate = false := by
      unfold Matcher.make2 at hm
      cases hc : (MFlags.ofMethod M).multi with
      | none =>
        simp only [hc] at hm
        obtain ⟨a, h1, h2⟩ := Res.bind_eq_ok hm
        injection h2 with h2
        subst h2
        have := makeKind_map env (fun f => { f with negate := false }) (MFlags.ofMethod M) p rfl rfl rfl rfl
        have e : ({ MFlags.ofMethod M with negate := false } : MFlags) = MFlags.ofMethod M := by
          rw [← hn]
        simp only [e, h1, Res.map', Res.ok.injEq] at this
        rw [this]
      | some c =>
        cases p with
        | nil => simp [hc] at hm
        | cons d ps =>
          simp only [hc] at hm
          obtain ⟨a, h1, h2⟩ := Res.bind_eq_ok hm
          injection h2 with h2
          subst h2
          exact hn
    intro line
    have e : ∀ r : Res Bool, (r.bind fun b => .ok (true ^^ b)) = Res.map' not (r.bind fun b => .ok (false ^^ b)) := by
      intro r
      cases r with
      | ok b => cases b <;> rfl
      | err => rfl
      | panic => rfl
    refine ⟨?_, ?_, ?_⟩
    · intro n
      simp only [LineTest.ok, negated_lossy, hneg]
      exact e _
    · simp only [LineTest.ok, negated_lossy, hneg]
      cases line.lineNl with
      | ok v => exact e _
      | err => rfl
      | panic => rfl
    · intro ns d
      simp only [LineTest.ok, negated_lossy, hneg]
      exact e _

/-- In every other use (`do_match`, `do_match_safe`, lists of matchers) a matcher with `not` answers as the one
without. -/
theorem C58_not_ignored (env : MEnv) (M M' p : Bytes) (h : WordAdded (ascii "not") M M') (m : Matcher)
    (hm : Matcher.make2 env M p = .ok m) :
    ∃ m', Matcher.make2 env M' p = .ok m' ∧ ∀ v, m'.doMatch env v = m.doMatch env v ∧
      m'.doMatchSafe env v = m.doMatchSafe env v ∧ (∀ c, matcherListUmatch env c [m'] v = matcherListUmatch env c [m] v) := by
  rw [make2_negate env p (ofMethod_negate (fun x hx f => modify_not hx f) h), hm]
  refine ⟨_, rfl, ?_⟩
  intro v
  refine ⟨?_, ?_, ?_⟩
  · unfold Matcher.doMatch
    rw [(negated_umatch env m v).1, (negated_umatch env m v).2]
    rfl
  · unfold Matcher.doMatchSafe
    rw [(negated_umatch env m v).1, (negated_umatch env m v).2]
    rfl
  · intro c
    simp only [matcherListUmatch, List.map_cons, List.map_nil, (negated_umatch env m v).1]

/-- `null` does what `not` does: the flags it leads to are the same. -/
theorem C58_null_inverts (env : MEnv) (M M1 M2 p : Bytes) (h1 : WordAdded (ascii "not") M M1)
    (h2 : WordAdded (ascii "null") M M2) : Matcher.make2 env M1 p = Matcher.make2 env M2 p := by
  rw [make2_negate env p (ofMethod_negate (fun x hx f => modify_not hx f) h1),
    make2_negate env p (ofMethod_negate (fun x hx f => modify_null hx f) h2)]

/-- Something for the parts of `MEnv` that play no role in an example. -/
def MEnv.trivial : MEnv :=
  { str := ⟨id, fun _ => true, fun b => b.map fun c => Char.ofNat c.toNat, fun s => s.map fun c => UInt8.ofNat c.toNat,
      fun c => [c.toLower], lower, trimw⟩
    toF64 := fun _ => 0
    regex := fun _ _ => .err
    file := fun _ => .err
    comp := fun _ => .ok .plain
    transOk := fun _ => false
    expr := fun _ => .err }

/-- `not.exact,a` accepts `a`, except where lines are matched. -/
theorem C58_refuted : ¬ C58_statement := by
  intro h
  have := (h MEnv.trivial (ascii "exact") (ascii "not.exact") (ascii "a") _ _ rfl rfl rfl).1
    ⟨[], [ascii "exact"], ascii "not", by decide, by decide, by decide⟩
  exact absurd (this.1 (ascii "a")) (by decide)

example : WordAdded (ascii "not") (ascii "exact.case") (ascii "exact.Not.case") ∧
    (MFlags.ofMethod (ascii "exact.case")).negate = false :=
  ⟨⟨[ascii "exact"], [ascii "case"], ascii "Not", by decide, by decide, by decide⟩, by decide⟩

end Cdx
