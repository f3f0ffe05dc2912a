import Verif.Model.UniqMain
import Verif.Props.Uniq
import Verif.Props.UniqAgg
import Verif.Props.Parts
import Verif.Props.Trans

/-!
C199: the options of `uniq`.
-/

namespace Cdx

/-! ## Specification -/

/-- The values given for an option. -/
def optVals (name : String) (os : List (Bytes × Bytes)) : List Bytes := (os.filter fun o => o.1 = ascii name).map (·.2)

/-- A text up to its first comma and after it; without a comma nothing is after it. -/
def CommaParts (v a b : Bytes) : Prop := (v = a ++ 44 :: b ∧ (44 : UInt8) ∉ a) ∨ (v = a ∧ (44 : UInt8) ∉ v ∧ b = [])

/-- What `--count` asks for: a name, and after a comma the place. -/
def CountMeans (v : Bytes) (c : Bytes × CountPos) : Prop :=
  ∃ a b, CommaParts v a b ∧ c.1 = (if a = [] then ascii "count" else a) ∧
    ((c.2 = .begin ∧ (b = [] ∨ ∃ w ∈ ["begin", "start", "first"], lower b = ascii w)) ∨
      (c.2 = .stop ∧ ∃ w ∈ ["stop", "end", "last"], lower b = ascii w))

/-- What `--which` asks for: a word, and after a comma the comparator. -/
def WhichMeans (compiles : Bytes → Bool) (v : Bytes) (c : Which × LineCompMade) : Prop :=
  ∃ a b, CommaParts v a b ∧ (lower a, c.1) ∈ [(ascii "first", Which.first), (ascii "last", .last), (ascii "min", .min), (ascii "max", .max)] ∧
    makeLineComp compiles b = .ok c.2

/-- Every value has a meaning, and the last one counts; without values it is `s`. -/
def LastMeans {α β : Type} (R : α → β → Prop) (xs : List α) (s t : β) : Prop :=
  (∀ x ∈ xs, ∃ u, R x u) ∧ (xs = [] ∧ t = s ∨ ∃ x, xs.getLast? = some x ∧ R x t)

/-- The aggregators among the options. -/
def aggOpt (o : Bytes × Bytes) : Option AggOpt :=
  if o.1 = ascii "agg" then some (.replace o.2) else if o.1 = ascii "agg-pre" then some (.pre o.2)
  else if o.1 = ascii "agg-post" then some (.post o.2) else none

/-- The options that mean something. -/
def uniqNames : List String := ["key", "count", "which", "agg", "agg-post", "agg-pre"]

/-! ## Proof -/

theorem lastMeans_nil {α β : Type} {R : α → β → Prop} {s t : β} : LastMeans R [] s t ↔ t = s := by simp [LastMeans]

theorem lastMeans_cons {α β : Type} {R : α → β → Prop} {x : α} {xs : List α} {s t : β} :
    LastMeans R (x :: xs) s t ↔ ∃ u, R x u ∧ LastMeans R xs u t := by
  unfold LastMeans
  cases xs with
  | nil =>
    simp only [List.mem_singleton, forall_eq, List.getLast?_singleton, Option.some.injEq, reduceCtorEq, false_and, false_or, exists_eq_left',
      List.not_mem_nil, true_and, or_false, List.getLast?_nil, exists_false, false_implies, implies_true]
    constructor
    · rintro ⟨_, h⟩
      exact ⟨t, h, rfl⟩
    · rintro ⟨u, h, rfl⟩
      exact ⟨⟨_, h⟩, h⟩
  | cons y ys =>
    rw [List.getLast?_cons_cons]
    simp only [List.mem_cons, forall_eq_or_imp, reduceCtorEq, false_and, false_or]
    constructor
    · rintro ⟨⟨⟨u, h1⟩, h2⟩, h3⟩
      exact ⟨u, h1, h2, h3⟩
    · rintro ⟨u, h1, h2, h3⟩
      exact ⟨⟨⟨u, h1⟩, h2⟩, h3⟩

theorem commaParts_iff (v a b : Bytes) : CommaParts v a b ↔ (splitOnce 44 v).getD (v, []) = (a, b) := by
  unfold CommaParts
  cases h : splitOnce 44 v with
  | none =>
    have hn : (44 : UInt8) ∉ v := by
      intro hm
      obtain ⟨l, r, e, hl⟩ : ∃ l r, v = l ++ 44 :: r ∧ (44 : UInt8) ∉ l := by
        obtain ⟨l, r, e, hl⟩ := List.eq_append_cons_of_mem hm
        exact ⟨l, r, e, hl⟩
      rw [e, splitOnce_some 44 l r hl] at h
      cases h
    simp only [Option.getD_none, Prod.mk.injEq]
    constructor
    · rintro (⟨e, _⟩ | ⟨e, _, e2⟩)
      · exact absurd (by rw [e]; simp) hn
      · exact ⟨e, e2.symm⟩
    · rintro ⟨e, e2⟩
      exact .inr ⟨e, hn, e2.symm⟩
  | some p =>
    obtain ⟨e, hn⟩ := splitOnce_eq 44 v p.1 p.2 h
    simp only [Option.getD_some]
    constructor
    · rintro (⟨e', hn'⟩ | ⟨_, hn', _⟩)
      · rw [e', splitOnce_some 44 a b hn'] at h
        exact (Option.some.inj h).symm
      · exact absurd (by rw [e]; simp) hn'
    · intro hp
      subst hp
      exact .inl ⟨e, hn⟩

theorem whichNamed_ok (a : Bytes) (w : Which) :
    whichNamed a = .ok w ↔ (lower a, w) ∈ [(ascii "first", Which.first), (ascii "last", .last), (ascii "min", .min), (ascii "max", .max)] := by
  unfold whichNamed
  simp only [List.mem_cons, Prod.mk.injEq, List.not_mem_nil, or_false]
  have d : ascii "first" ≠ ascii "last" ∧ ascii "first" ≠ ascii "min" ∧ ascii "first" ≠ ascii "max" ∧ ascii "last" ≠ ascii "min" ∧
    ascii "last" ≠ ascii "max" ∧ ascii "min" ≠ ascii "max" := by decide
  obtain ⟨d1, d2, d3, d4, d5, d6⟩ := d
  by_cases h1 : lower a = ascii "first"
  · rw [if_pos h1, h1]; cases w <;> simp [d1, d2, d3]
  rw [if_neg h1]
  by_cases h2 : lower a = ascii "last"
  · rw [if_pos h2, h2]; cases w <;> simp [d1.symm, d4, d5]
  rw [if_neg h2]
  by_cases h3 : lower a = ascii "min"
  · rw [if_pos h3, h3]; cases w <;> simp [d2.symm, d4.symm, d6]
  rw [if_neg h3]
  by_cases h4 : lower a = ascii "max"
  · rw [if_pos h4, h4]; cases w <;> simp [d3.symm, d5.symm, d6.symm]
  rw [if_neg h4]
  simp [h1, h2, h3, h4]

theorem posNamed_ok (b : Bytes) (p : CountPos) :
    posNamed b = .ok p ↔ (p = .begin ∧ (b = [] ∨ ∃ w ∈ ["begin", "start", "first"], lower b = ascii w)) ∨
      (p = .stop ∧ ∃ w ∈ ["stop", "end", "last"], lower b = ascii w) := by
  unfold posNamed
  simp only [List.mem_cons, List.not_mem_nil, or_false, exists_eq_or_imp, exists_eq_left]
  by_cases h1 : b = [] ∨ lower b = ascii "begin" ∨ lower b = ascii "start" ∨ lower b = ascii "first"
  · rw [if_pos h1]
    have h2 : ¬ (lower b = ascii "stop" ∨ lower b = ascii "end" ∨ lower b = ascii "last") := by
      rcases h1 with rfl | h | h | h
      · decide
      · rw [h]; decide
      · rw [h]; decide
      · rw [h]; decide
    simp only [Res.ok.injEq, h1, h2, and_true, and_false, or_false]
    exact eq_comm
  · rw [if_neg h1]
    by_cases h2 : lower b = ascii "stop" ∨ lower b = ascii "end" ∨ lower b = ascii "last"
    · rw [if_pos h2]
      simp only [Res.ok.injEq, h1, h2, and_true, and_false, false_or]
      exact eq_comm
    · rw [if_neg h2]
      simp [h1, h2]

variable {F : Type}

theorem bind_ok_iff {α β : Type} (r : Res α) (f : α → Res β) (y : β) : r.bind f = .ok y ↔ ∃ x, r = .ok x ∧ f x = .ok y := by
  cases r <;> simp [Res.bind]

theorem getCount_ok (k k' : UniqConf F) (v : Bytes) :
    k.getCount v = .ok k' ↔ ∃ c, CountMeans v c ∧ k' = { k with pos := c.2, name := c.1 } := by
  unfold UniqConf.getCount CountMeans
  simp only [bind_ok_iff, posNamed_ok, Res.ok.injEq]
  constructor
  · rintro ⟨p, h1, h2⟩
    exact ⟨(_, p), ⟨_, _, (commaParts_iff _ _ _).2 rfl, rfl, h1⟩, h2.symm⟩
  · rintro ⟨⟨n, p⟩, ⟨a, b, h1, h2, h3⟩, h4⟩
    rw [(commaParts_iff _ _ _).1 h1]
    refine ⟨p, h3, ?_⟩
    rw [h4]
    simp only at h2 ⊢
    rw [h2]

theorem getWhich_ok (compiles : Bytes → Bool) (k k' : UniqConf F) (v : Bytes) :
    k.getWhich compiles v = .ok k' ↔ ∃ c, WhichMeans compiles v c ∧ k' = { k with which := c.1, comp := c.2 } := by
  unfold UniqConf.getWhich WhichMeans
  simp only [bind_ok_iff, whichNamed_ok, Res.ok.injEq]
  constructor
  · rintro ⟨w, h1, c, h2, h3⟩
    exact ⟨(w, c), ⟨_, _, (commaParts_iff _ _ _).2 rfl, h1, h2⟩, h3.symm⟩
  · rintro ⟨⟨w, c⟩, ⟨a, b, h1, h2, h3⟩, h4⟩
    rw [(commaParts_iff _ _ _).1 h1]
    exact ⟨w, h2, c, h3, h4.symm⟩

/-- The options that change a configuration `k` to `k'`. -/
def Changes (env : AggEnv F) (mkExpr : ExprMaker F) (compiles : Bytes → Bool) (k : UniqConf F) (os : List (Bytes × Bytes)) (k' : UniqConf F) : Prop :=
  (∀ o ∈ os, o.1 ∈ uniqNames.map ascii) ∧
  (∃ ks, (optVals "key" os).map (makeLineComp compiles) = ks.map .ok ∧ k'.keys = k.keys ++ ks) ∧
  LastMeans CountMeans (optVals "count" os) (k.name, k.pos) (k'.name, k'.pos) ∧
  LastMeans (WhichMeans compiles) (optVals "which" os) (k.which, k.comp) (k'.which, k'.comp) ∧
  ∃ as, aggOpts env mkExpr (os.filterMap aggOpt) = .ok as ∧ k'.aggs = k.aggs ++ as

theorem optVals_cons (n : String) (o : Bytes × Bytes) (os : List (Bytes × Bytes)) :
    optVals n (o :: os) = if o.1 = ascii n then o.2 :: optVals n os else optVals n os := by
  unfold optVals
  rw [List.filter_cons]
  by_cases h : o.1 = ascii n <;> simp [h]

theorem aggCase (env : AggEnv F) (mkExpr : ExprMaker F) (r : Res (LineAggerSpec F)) (o : AggOpt) (ox : Bytes × Bytes)
    (hr : ∀ ts, aggOpts env mkExpr (o :: ts) = r.bind fun a => (aggOpts env mkExpr ts).bind fun as => .ok (a :: as)) (ho : aggOpt ox = some o) (os : List (Bytes × Bytes)) (k k' : UniqConf F) :
    (∃ a, r = .ok a ∧ ∃ as, aggOpts env mkExpr (os.filterMap aggOpt) = .ok as ∧ k'.aggs = (k.aggs ++ [a]) ++ as) ↔
      ∃ as, aggOpts env mkExpr ((ox :: os).filterMap aggOpt) = .ok as ∧ k'.aggs = k.aggs ++ as := by
  rw [List.filterMap_cons_some ho, hr]
  simp only [bind_ok_iff, Res.ok.injEq]
  constructor
  · rintro ⟨a, h1, as, h2, h3⟩
    exact ⟨a :: as, ⟨a, h1, as, h2, rfl⟩, by simpa using h3⟩
  · rintro ⟨_, ⟨a, h1, as, h2, rfl⟩, h3⟩
    exact ⟨a, h1, as, h2, by simpa using h3⟩

theorem names_distinct : (uniqNames.map ascii).Nodup := by decide

theorem opts_iff (env : AggEnv F) (mkExpr : ExprMaker F) (compiles : Bytes → Bool) (os : List (Bytes × Bytes)) :
    ∀ k k' : UniqConf F, UniqConf.opts env mkExpr compiles k os = .ok k' ↔ Changes env mkExpr compiles k os k' := by
  induction os with
  | nil =>
    intro k k'
    unfold UniqConf.opts Changes
    simp only [optVals, List.filter_nil, List.map_nil, List.filterMap_nil, lastMeans_nil, aggOpts, Res.ok.injEq, Prod.mk.injEq]
    constructor
    · rintro rfl
      exact ⟨by simp, ⟨[], rfl, by simp⟩, ⟨rfl, rfl⟩, ⟨rfl, rfl⟩, [], rfl, by simp⟩
    · rintro ⟨-, ⟨ks, h1, h2⟩, ⟨h3, h4⟩, ⟨h5, h6⟩, as, h7, h8⟩
      have : ks = [] := by simpa using h1.symm
      subst this
      subst h7
      cases k; cases k'
      simp_all
  | cons o os ih =>
    intro k k'
    unfold UniqConf.opts
    rw [bind_ok_iff]
    simp only [ih]
    obtain ⟨n, v⟩ := o
    have dist : ∀ a ∈ uniqNames, ∀ b ∈ uniqNames, a ≠ b → ascii a ≠ ascii b := by decide
    unfold UniqConf.opt Changes
    simp only [List.forall_mem_cons, optVals_cons]
    by_cases c1 : n = ascii "key"
    · subst c1
      have e1 := dist "key" (by decide) "count" (by decide) (by decide)
      have e2 := dist "key" (by decide) "which" (by decide) (by decide)
      have e3 : aggOpt (ascii "key", v) = none := by simp only [aggOpt]; rw [if_neg (by decide), if_neg (by decide), if_neg (by decide)]
      rw [if_pos rfl, if_pos rfl, if_neg e1, if_neg e2, List.filterMap_cons_none e3]
      simp only [bind_ok_iff, Res.ok.injEq]
      constructor
      · rintro ⟨_, ⟨c, h1, rfl⟩, h2, ⟨ks, h3, h4⟩, h5⟩
        exact ⟨⟨by decide, h2⟩, ⟨c :: ks, by simp [h1, h3], by simpa using h4⟩, h5⟩
      · rintro ⟨⟨-, h2⟩, ⟨ks, h3, h4⟩, h5⟩
        cases ks with
        | nil => simp at h3
        | cons c ks =>
          simp only [List.map_cons, List.cons.injEq] at h3
          exact ⟨_, ⟨c, h3.1, rfl⟩, h2, ⟨ks, h3.2, by simpa using h4⟩, h5⟩
    rw [if_neg c1, if_neg c1]
    by_cases c2 : n = ascii "count"
    · subst c2
      have e2 := dist "count" (by decide) "which" (by decide) (by decide)
      have e3 : aggOpt (ascii "count", v) = none := by simp only [aggOpt]; rw [if_neg (by decide), if_neg (by decide), if_neg (by decide)]
      rw [if_pos rfl, if_pos rfl, if_neg e2, List.filterMap_cons_none e3]
      simp only [getCount_ok, lastMeans_cons]
      constructor
      · rintro ⟨_, ⟨c, h1, rfl⟩, h2, h3, h4, h5⟩
        exact ⟨⟨by decide, h2⟩, h3, ⟨c, h1, h4⟩, h5⟩
      · rintro ⟨⟨-, h2⟩, h3, ⟨c, h1, h4⟩, h5⟩
        exact ⟨_, ⟨c, h1, rfl⟩, h2, h3, h4, h5⟩
    rw [if_neg c2, if_neg c2]
    by_cases c3 : n = ascii "which"
    · subst c3
      have e3 : aggOpt (ascii "which", v) = none := by simp only [aggOpt]; rw [if_neg (by decide), if_neg (by decide), if_neg (by decide)]
      rw [if_pos rfl, if_pos rfl, List.filterMap_cons_none e3]
      simp only [getWhich_ok, lastMeans_cons]
      constructor
      · rintro ⟨_, ⟨c, h1, rfl⟩, h2, h3, h4, h5, h6⟩
        exact ⟨⟨by decide, h2⟩, h3, h4, ⟨c, h1, h5⟩, h6⟩
      · rintro ⟨⟨-, h2⟩, h3, h4, ⟨c, h1, h5⟩, h6⟩
        exact ⟨_, ⟨c, h1, rfl⟩, h2, h3, h4, h5, h6⟩
    rw [if_neg c3, if_neg c3]
    by_cases c4 : n = ascii "agg"
    · subst c4
      rw [if_pos rfl, ← aggCase env mkExpr _ (.replace v) (ascii "agg", v) (fun _ => rfl) (by simp [aggOpt])]
      simp only [bind_ok_iff, Res.ok.injEq]
      constructor
      · rintro ⟨_, ⟨a, h1, rfl⟩, h2, h3, h4, h5, h6⟩
        exact ⟨⟨by decide, h2⟩, h3, h4, h5, a, h1, h6⟩
      · rintro ⟨⟨-, h2⟩, h3, h4, h5, a, h1, h6⟩
        exact ⟨_, ⟨a, h1, rfl⟩, h2, h3, h4, h5, h6⟩
    rw [if_neg c4]
    by_cases c5 : n = ascii "agg-post"
    · subst c5
      rw [if_pos rfl, ← aggCase env mkExpr _ (.post v) (ascii "agg-post", v) (fun _ => rfl) (by simp only [aggOpt]; rw [if_neg (by decide), if_neg (by decide)]; rfl)]
      simp only [bind_ok_iff, Res.ok.injEq]
      constructor
      · rintro ⟨_, ⟨a, h1, rfl⟩, h2, h3, h4, h5, h6⟩
        exact ⟨⟨by decide, h2⟩, h3, h4, h5, a, h1, h6⟩
      · rintro ⟨⟨-, h2⟩, h3, h4, h5, a, h1, h6⟩
        exact ⟨_, ⟨a, h1, rfl⟩, h2, h3, h4, h5, h6⟩
    rw [if_neg c5]
    by_cases c6 : n = ascii "agg-pre"
    · subst c6
      rw [if_pos rfl, ← aggCase env mkExpr _ (.pre v) (ascii "agg-pre", v) (fun _ => rfl) (by simp only [aggOpt]; rw [if_neg (by decide)]; rfl)]
      simp only [bind_ok_iff, Res.ok.injEq]
      constructor
      · rintro ⟨_, ⟨a, h1, rfl⟩, h2, h3, h4, h5, h6⟩
        exact ⟨⟨by decide, h2⟩, h3, h4, h5, a, h1, h6⟩
      · rintro ⟨⟨-, h2⟩, h3, h4, h5, a, h1, h6⟩
        exact ⟨_, ⟨a, h1, rfl⟩, h2, h3, h4, h5, h6⟩
    rw [if_neg c6]
    constructor
    · rintro ⟨_, h, _⟩
      cases h
    · rintro ⟨⟨h, _⟩, _⟩
      simp [uniqNames] at h
      simp_all

/-- C199: what the options ask for. -/
theorem C199_options (env : AggEnv F) (mkExpr : ExprMaker F) (compiles : Bytes → Bool) (os : List (Bytes × Bytes)) (k : UniqConf F) :
    UniqConf.opts env mkExpr compiles {} os = .ok k ↔
      (∀ o ∈ os, o.1 ∈ uniqNames.map ascii) ∧
      (optVals "key" os).map (makeLineComp compiles) = k.keys.map .ok ∧
      LastMeans CountMeans (optVals "count" os) ([], .none) (k.name, k.pos) ∧
      LastMeans (WhichMeans compiles) (optVals "which" os) (.first, ⟨{}, [], .whole (.kind .plain)⟩) (k.which, k.comp) ∧
      aggOpts env mkExpr (os.filterMap aggOpt) = .ok k.aggs := by
  rw [opts_iff]
  unfold Changes
  simp

/-- C199: only the order of keys, the order of aggregators and the last of the others count. -/
theorem C199_order (env : AggEnv F) (mkExpr : ExprMaker F) (prn : F → Bytes) (compiles : Bytes → Bool)
    (eval : Bytes → List Bytes → Res (Bytes → F64)) (m t : TextMode) (os os' : List (Bytes × Bytes)) (content : Bytes) (k : UniqConf F)
    (h : UniqConf.opts env mkExpr compiles {} os = .ok k) (hp : os'.Perm os) (hk : optVals "key" os' = optVals "key" os)
    (hc : (optVals "count" os').getLast? = (optVals "count" os).getLast?) (hw : (optVals "which" os').getLast? = (optVals "which" os).getLast?)
    (ha : os'.filterMap aggOpt = os.filterMap aggOpt) :
    uniqMain env mkExpr prn compiles eval m t os' content = uniqMain env mkExpr prn compiles eval m t os content := by
  have last : ∀ {α β : Type} {R : α → β → Prop} {xs xs' : List α} {s u : β}, LastMeans R xs s u → xs'.Perm xs → xs'.getLast? = xs.getLast? →
      LastMeans R xs' s u := by
    intro α β R xs xs' s u ⟨h1, h2⟩ h3 h4
    refine ⟨fun x hx => h1 x (h3.mem_iff.1 hx), ?_⟩
    rcases h2 with ⟨rfl, h2⟩ | h2
    · exact .inl ⟨h3.eq_nil, h2⟩
    · rw [h4]
      exact .inr h2
  have vals : ∀ n, (optVals n os').Perm (optVals n os) := fun n => (hp.filter _).map _
  have h' : UniqConf.opts env mkExpr compiles {} os' = .ok k := by
    rw [C199_options] at h ⊢
    obtain ⟨h1, h2, h3, h4, h5⟩ := h
    exact ⟨fun o ho => h1 o (hp.mem_iff.1 ho), by rw [hk]; exact h2, last h3 (vals _) hc, last h4 (vals _) hw, by rw [ha]; exact h5⟩
  unfold uniqMain
  rw [h, h']

/-- C199: without aggregators the command writes one line for each run, as the options say. -/
theorem C199_runs_partial (env : AggEnv F) (mkExpr : ExprMaker F) (prn : F → Bytes) (compiles : Bytes → Bool)
    (eval : Bytes → List Bytes → Res (Bytes → F64)) (m t : TextMode) (os : List (Bytes × Bytes)) (content h rest head : Bytes) (k : UniqConf F)
    (cs : List LineComp) (comp : LineComp) (ho : UniqConf.opts env mkExpr compiles {} os = .ok k) (ha : k.aggs = [])
    (hk : resolveKeys eval (namesOf m content) k.keys = .ok cs) (hw : k.comp.resolve eval (namesOf m content) = .ok comp)
    (hm : m.col = .plain) (heol : m.eol = NL) (hh : readHeader m content = some (h, rest)) (hne : readLines m.col m.eol rest ≠ [])
    (hs : k.which = .min ∨ k.which = .max → comp.needSplit = true → needSplit cs = true)
    (hc : k.which = .min ∨ k.which = .max → PreorderOn (· ∈ readLines m.col m.eol rest) (cmpLines env.toF64 m comp))
    (hhead : if h = [] then head = [] else uniqHead ⟨k.name, k.pos, k.which, comp⟩ (headNames h m.delim) = .ok head) :
    ∃ out R, uniqMain env mkExpr prn compiles eval m t os content = .ok (head ++ out) ∧
      IsRuns (eqLines env.toF64 m cs) (readLines m.col m.eol rest) R ∧
      OnePerRun k.which (cmpLines env.toF64 m comp) k.pos m.delim R out := by
  obtain ⟨out, R, h1, h2, h3⟩ := C51_command_partial env.toF64 m cs ⟨k.name, k.pos, k.which, comp⟩ content h rest head hm heol hh hne hs hc hhead
  refine ⟨out, R, ?_, h2, h3⟩
  have he : ((Reader.newWith 1 m).open_ content).isEmpty = false := by rw [open_isEmpty, hh]; rfl
  have hnames : ((Reader.newWith 1 m).open_ content).names = namesOf m content := rfl
  unfold uniqMain
  simp only [ho, Res.bind_ok, he, Bool.false_eq_true, if_false, hnames, hk, hw, ha, List.isEmpty_nil, if_true]
  exact h1

/-- Keys, the last `--count`, and the largest line of each run. -/
example : uniqMain AggEnv.plain (fun _ => .err) (fun n => decText n) (fun _ => false) (fun _ _ => .err) .default .default
    [(ascii "count", ascii "x,end"), (ascii "which", ascii "MAX,2"), (ascii "key", ascii "a"), (ascii "count", ascii ",First")]
    (ascii " CDX\ta\tb\nx\t1\nx\t3\nx\t2\ny\t1\n") = .ok (ascii " CDX\tcount\ta\tb\n3\tx\t3\n1\ty\t1\n") := by decide +kernel

/-- The hypotheses of `C199_order`: the options in another order. -/
example : ((ascii "count", ascii "x,end") :: [(ascii "which", ascii "last"), (ascii "key", ascii "a")]).Perm
      [(ascii "key", ascii "a"), (ascii "count", ascii "x,end"), (ascii "which", ascii "last")] ∧
    ∃ k, UniqConf.opts AggEnv.plain (fun _ => .err) (fun _ => false) {}
      [(ascii "key", ascii "a"), (ascii "count", ascii "x,end"), (ascii "which", ascii "last")] = .ok k ∧ k.pos = .stop ∧ k.which = .last :=
  ⟨by decide +kernel, _, rfl, rfl, rfl⟩

end Cdx
