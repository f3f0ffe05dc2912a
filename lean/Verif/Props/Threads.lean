import Verif.Model.Threads
import Verif.Props.Registry

/-!
# C166, C167: makers and threads

What threads get that look for makers while others are still filling the tables.
-/

namespace Cdx

variable {M : Type}

/-- What a name makes if the standard makers are all there. -/
def builtIn (mods : List Bytes) (inits : List (RegOp M)) (name : Bytes) : Option M :=
  lastOf (RegOp.makes mods ((lastOf (RegOp.means mods name) inits).getD name)) inits

/-- A list of standard makers like those of the modules: aliases come first, and each name is given once. -/
structure Standard (inits : List (RegOp M)) : Prop where
  first : ∃ (as : List (Bytes × Bytes)) (ps : List (Bytes × M)),
    inits = as.map (fun a => RegOp.alias a.1 a.2) ++ ps.map fun p => RegOp.push p.1 p.2
  once : ∀ t m m', RegOp.push t m ∈ inits → RegOp.push t m' ∈ inits → m = m'
  clear : ∀ n o o', RegOp.alias o n ∈ inits → RegOp.alias o' n ∈ inits → o = o'

/-- The thread only looks for makers. -/
def Looks (p : List (RegCall M)) : Prop := ∀ c ∈ p, ∃ n, c = .find n

/-- Full statement of C166: a thread that looks for a maker finds what the standard makers are, whatever other threads do that also
look for makers. -/
def C166_statement : Prop :=
  ∀ (mods : List Bytes) (inits : List (RegOp Nat)) (prog : Nat → List (RegCall Nat)) (order : List Nat) (i : Nat)
    (name : Bytes) (a : Option Nat), Standard inits → (∀ j, Looks (prog j)) →
    (name, a) ∈ (((RegSys.start prog).run mods inits order).threads i).answers → a = builtIn mods inits name

/-- Full statement of C167: what a thread pushes under a name that no other thread pushes is what it finds under that name then. -/
def C167_statement : Prop :=
  ∀ (mods : List Bytes) (inits : List (RegOp Nat)) (prog : Nat → List (RegCall Nat)) (order : List Nat) (i : Nat)
    (tag : Bytes) (m : Nat), Standard inits → tag ∉ mods → (∀ o, RegOp.alias o tag ∉ inits) → prog i = [.push tag m, .find tag] →
    (∀ j, j ≠ i → (∀ m', RegCall.push tag m' ∉ prog j) ∧ ∀ o, RegCall.alias o tag ∉ prog j) →
    (((RegSys.start prog).run mods inits order).threads i).calls = [] →
    (((RegSys.start prog).run mods inits order).threads i).answers = [(tag, some m)]

/-- Two standard makers, as in `src/trans.rs` 283-292. -/
def twoMakers : List (RegOp Nat) :=
  [.alias (ascii "lower") (ascii "lowercase"), .push (ascii "normspace") 1, .push (ascii "lower") 2]

theorem standard_two : Standard twoMakers := by
  refine ⟨⟨[(ascii "lower", ascii "lowercase")], [(ascii "normspace", 1), (ascii "lower", 2)], rfl⟩, ?_, ?_⟩
  · intro t m m' h h'
    simp only [twoMakers, List.mem_cons, List.not_mem_nil, or_false, RegOp.push.injEq, reduceCtorEq, false_or] at h h'
    rcases h with ⟨rfl, rfl⟩ | ⟨rfl, rfl⟩ <;> rcases h' with ⟨h1, rfl⟩ | ⟨h1, rfl⟩ <;> first
      | rfl
      | exact absurd h1 (by decide +kernel)
  · intro n o o' h h'
    simp only [twoMakers, List.mem_cons, List.not_mem_nil, or_false, RegOp.alias.injEq, reduceCtorEq] at h h'
    exact h.1.trans h'.1.symm

/-- A thread looks while another has pushed only some of the makers: it believes that all are there. -/
theorem C166_refuted : ¬ C166_statement := by
  intro h
  have := h [] twoMakers (fun i => if i < 2 then [.find (ascii "lower")] else []) [0, 0, 0, 1, 1, 1] 1 (ascii "lower") none
    standard_two (by
      intro j c hc
      by_cases hj : j < 2
      · simp only [hj, if_true, List.mem_singleton] at hc
        exact ⟨_, hc⟩
      · simp [hj] at hc) (by decide +kernel)
  revert this
  decide +kernel

/-- A thread pushes while another is still filling the table, which then replaces what was pushed. -/
theorem C167_refuted : ¬ C167_statement := by
  intro h
  have := h [] twoMakers (fun i => if i = 0 then [.find (ascii "x")] else if i = 1 then [.push (ascii "lower") 7, .find (ascii "lower")] else [])
    [0, 0, 0, 1, 1, 0, 1, 1, 1] 1 (ascii "lower") 7 standard_two (by simp) (by
      intro o ho
      simp only [twoMakers, List.mem_cons, List.not_mem_nil, or_false, RegOp.alias.injEq, reduceCtorEq] at ho
      exact absurd ho.2 (by decide +kernel)) (by simp) (by
      intro j hj
      by_cases h0 : j = 0
      · simp [h0]
      · simp [h0, hj]) (by decide +kernel)
  revert this
  decide +kernel

/-! ## Tables that are partly filled -/

theorem lastOf_mem {α β : Type} {f : α → Option β} {l : List α} {b : β} (h : lastOf f l = some b) : ∃ x ∈ l, f x = some b := by
  induction l with
  | nil => simp [lastOf] at h
  | cons x xs ih =>
    rw [lastOf] at h
    cases hx : lastOf f xs with
    | none =>
      rw [hx] at h
      exact ⟨x, by simp, by simpa using h⟩
    | some c =>
      rw [hx] at h
      obtain ⟨y, hy, h2⟩ := ih (by simpa [hx] using h)
      exact ⟨y, List.mem_cons_of_mem _ hy, h2⟩

theorem lastOf_some {α β : Type} {f : α → Option β} {l : List α} {x : α} (hx : x ∈ l) (h : f x ≠ none) : lastOf f l ≠ none := by
  induction l with
  | nil => simp at hx
  | cons y ys ih =>
    rw [lastOf]
    rcases List.mem_cons.1 hx with rfl | hx
    · cases lastOf f ys <;> simp_all
    · have := ih hx
      cases hl : lastOf f ys with
      | none => exact absurd hl this
      | some b => simp

theorem makes_iff {mods : List Bytes} {tag : Bytes} {op : RegOp M} {m : M} :
    op.makes mods tag = some m ↔ op = .push tag m ∧ tag ∉ mods := by
  cases op with
  | push t x =>
    simp only [RegOp.makes]
    constructor
    · intro h
      by_cases ht : t = tag ∧ t ∉ mods
      · rw [if_pos ht] at h
        obtain ⟨rfl, h2⟩ := ht
        exact ⟨by simpa using h, h2⟩
      · rw [if_neg ht] at h
        simp at h
    · rintro ⟨h, h2⟩
      injection h with h3 h4
      subst h3 h4
      simp [h2]
  | alias o n => simp [RegOp.makes]

theorem means_iff {mods : List Bytes} {name : Bytes} {op : RegOp M} {o : Bytes} :
    op.means mods name = some o ↔ op = .alias o name ∧ name ∉ mods := by
  cases op with
  | push t x => simp [RegOp.means]
  | alias o' n =>
    simp only [RegOp.means]
    constructor
    · intro h
      by_cases ht : n = name ∧ n ∉ mods
      · rw [if_pos ht] at h
        obtain ⟨rfl, h2⟩ := ht
        exact ⟨by simpa using h, h2⟩
      · rw [if_neg ht] at h
        simp at h
    · rintro ⟨h, h2⟩
      injection h with h3 h4
      subst h3 h4
      simp [h2]

/-- A standard change makes of a name what all standard changes make of it. -/
theorem Standard.makes {mods : List Bytes} {inits : List (RegOp M)} (h : Standard inits) {op : RegOp M} (ho : op ∈ inits) {tag : Bytes}
    {m : M} (hm : op.makes mods tag = some m) : lastOf (RegOp.makes mods tag) inits = some m := by
  cases hl : lastOf (RegOp.makes mods tag) inits with
  | none => exact absurd hl (lastOf_some ho (by simp [hm]))
  | some x =>
    obtain ⟨op', h1, h2⟩ := lastOf_mem hl
    rw [makes_iff] at hm h2
    rw [hm.1] at ho
    rw [h2.1] at h1
    rw [h.once _ _ _ ho h1]

theorem Standard.means {mods : List Bytes} {inits : List (RegOp M)} (h : Standard inits) {op : RegOp M} (ho : op ∈ inits) {name : Bytes}
    {o : Bytes} (hm : op.means mods name = some o) : lastOf (RegOp.means mods name) inits = some o := by
  cases hl : lastOf (RegOp.means mods name) inits with
  | none => exact absurd hl (lastOf_some ho (by simp [hm]))
  | some x =>
    obtain ⟨op', h1, h2⟩ := lastOf_mem hl
    rw [means_iff] at hm h2
    rw [hm.1] at ho
    rw [h2.1] at h1
    rw [h.clear _ _ _ ho h1]

/-- All standard aliases are known. -/
def AllAliases (mods : List Bytes) (inits : List (RegOp M)) (r : Registry M) : Prop :=
  ∀ n, getEntry n r.aliases = lastOf (RegOp.means mods n) inits

/-- All standard makers are known. -/
def AllItems (mods : List Bytes) (inits : List (RegOp M)) (r : Registry M) : Prop :=
  ∀ t, getEntry t r.items = lastOf (RegOp.makes mods t) inits

/-- What is in the tables while they are filled. -/
structure Filling (mods : List Bytes) (inits : List (RegOp M)) (r : Registry M) : Prop where
  items : ∀ t, getEntry t r.items = none ∨ getEntry t r.items = lastOf (RegOp.makes mods t) inits
  aliases : ∀ n, getEntry n r.aliases = none ∨ getEntry n r.aliases = lastOf (RegOp.means mods n) inits
  after : r.items ≠ [] → AllAliases mods inits r

/-- The standard aliases among the first changes are known. -/
def AliasesOf (mods : List Bytes) (inits done : List (RegOp M)) (r : Registry M) : Prop :=
  ∀ n, lastOf (RegOp.means mods n) done ≠ none → getEntry n r.aliases = lastOf (RegOp.means mods n) inits

/-- A thread in such a table. -/
def Okay (mods : List Bytes) (inits : List (RegOp M)) (r : Registry M) (t : RegThread M) : Prop :=
  (match t.phase with
  | .idle => True
  | .loading rest => ∃ done, inits = done ++ rest ∧ AliasesOf mods inits done r
  | .loaded => AllAliases mods inits r
  | .resolved n => ∃ name cs, t.calls = .find name :: cs ∧ n = (lastOf (RegOp.means mods name) inits).getD name) ∧
  Looks t.calls ∧ ∀ x ∈ t.answers, x.2 = none ∨ x.2 = builtIn mods inits x.1

theorem step_keeps {mods : List Bytes} {inits : List (RegOp M)} (h : Standard inits) {r : Registry M} {op : RegOp M} (ho : op ∈ inits)
    {n : Bytes} (hk : getEntry n r.aliases = lastOf (RegOp.means mods n) inits) :
    getEntry n (r.step mods op).aliases = lastOf (RegOp.means mods n) inits := by
  rw [step_aliases]
  cases hm : op.means mods n with
  | none => simpa using hk
  | some o => simp [h.means ho hm]

theorem step_keeps_items {mods : List Bytes} {inits : List (RegOp M)} (h : Standard inits) {r : Registry M} {op : RegOp M}
    (ho : op ∈ inits) {t : Bytes} (hk : getEntry t r.items = lastOf (RegOp.makes mods t) inits) :
    getEntry t (r.step mods op).items = lastOf (RegOp.makes mods t) inits := by
  rw [step_items]
  cases hm : op.makes mods t with
  | none => simpa using hk
  | some o => simp [h.makes ho hm]

/-- All aliases are among the changes before the first push. -/
theorem Standard.before {inits : List (RegOp M)} (h : Standard inits) {done rest : List (RegOp M)} {t : Bytes} {m : M}
    (hd : inits = done ++ .push t m :: rest) (o n : Bytes) (ha : RegOp.alias o n ∈ inits) : RegOp.alias o n ∈ done := by
  obtain ⟨as, ps, hi⟩ := h.first
  rw [hi] at hd
  rcases List.append_eq_append_iff.1 hd with ⟨a, h1, h2⟩ | ⟨c, h1, h2⟩
  · rw [hi] at ha
    rcases List.mem_append.1 ha with ha | ha
    · rw [h1]
      exact List.mem_append_left _ ha
    · simp at ha
  · cases c with
    | nil =>
      rw [List.append_nil] at h1
      rw [hi] at ha
      rcases List.mem_append.1 ha with ha | ha
      · rw [← h1]
        exact ha
      · simp at ha
    | cons c cs =>
      have : c ∈ as.map fun a => (RegOp.alias a.1 a.2 : RegOp M) := by simp [h1]
      injection h2 with h3 _
      rw [← h3] at this
      simp at this

theorem AliasesOf.all {mods : List Bytes} {inits done : List (RegOp M)} {r : Registry M} (hf : Filling mods inits r)
    (ha : AliasesOf mods inits done r) (hd : ∀ o n, RegOp.alias o n ∈ inits → RegOp.alias o n ∈ done) : AllAliases mods inits r := by
  intro n
  cases hl : lastOf (RegOp.means mods n) inits with
  | none =>
    rcases hf.aliases n with h | h
    · exact h
    · rw [h, hl]
  | some o =>
    obtain ⟨op, h1, h2⟩ := lastOf_mem hl
    have h3 := h2
    rw [means_iff] at h3
    rw [h3.1] at h1 h2
    rw [ha n (lastOf_some (hd _ _ h1) (by simp [h2])), hl]

theorem step_filling {mods : List Bytes} {inits done rest : List (RegOp M)} (h : Standard inits) {r : Registry M} {op : RegOp M}
    (hd : inits = done ++ op :: rest) (hf : Filling mods inits r) (ha : AliasesOf mods inits done r) :
    Filling mods inits (r.step mods op) := by
  have ho : op ∈ inits := by simp [hd]
  refine ⟨fun t => ?_, fun n => ?_, fun hne => ?_⟩
  · rcases hf.items t with hk | hk
    · rw [step_items, hk]
      cases hm : op.makes mods t with
      | none => exact .inl rfl
      | some m =>
        right
        simp [h.makes ho hm]
    · exact .inr (step_keeps_items h ho hk)
  · rcases hf.aliases n with hk | hk
    · rw [step_aliases, hk]
      cases hm : op.means mods n with
      | none => exact .inl rfl
      | some m =>
        right
        simp [h.means ho hm]
    · exact .inr (step_keeps h ho hk)
  · cases op with
    | push t m =>
      intro n
      exact step_keeps h ho (ha.all hf (h.before hd) n)
    | alias o n =>
      intro k
      refine step_keeps h ho (hf.after ?_ k)
      intro he
      apply hne
      simp only [Registry.step, Registry.doAddAlias]
      by_cases hc : mods.contains n = true
      · simp only [hc, if_true]
        exact he
      · simp only [hc]
        exact he

theorem step_aliasesOf {mods : List Bytes} {inits done rest : List (RegOp M)} (h : Standard inits) {r : Registry M} {op : RegOp M}
    (hd : inits = done ++ op :: rest) (ha : AliasesOf mods inits done r) : AliasesOf mods inits (done ++ [op]) (r.step mods op) := by
  have ho : op ∈ inits := by simp [hd]
  intro n hn
  rw [lastOf_snoc] at hn
  cases hm : op.means mods n with
  | none =>
    rw [hm] at hn
    exact step_keeps h ho (ha n (by simpa using hn))
  | some o =>
    rw [step_aliases, hm]
    simp [h.means ho hm]

/-- The steps of one thread leave the other threads as they should be. -/
theorem okay_step {mods : List Bytes} {inits : List (RegOp M)} (h : Standard inits) {r : Registry M} {op : RegOp M} (ho : op ∈ inits)
    {t : RegThread M} (hk : Okay mods inits r t) : Okay mods inits (r.step mods op) t := by
  obtain ⟨h1, h2, h3⟩ := hk
  refine ⟨?_, h2, h3⟩
  cases hp : t.phase with
  | idle => trivial
  | loading rest =>
    rw [hp] at h1
    obtain ⟨done, hd, ha⟩ := h1
    exact ⟨done, hd, fun n hn => step_keeps h ho (ha n hn)⟩
  | loaded =>
    rw [hp] at h1
    exact fun n => step_keeps h ho (h1 n)
  | resolved n =>
    rw [hp] at h1
    exact h1

theorem filling_step {mods : List Bytes} {inits : List (RegOp M)} (h : Standard inits) {r : Registry M} {t : RegThread M}
    (hf : Filling mods inits r) (hk : Okay mods inits r t) :
    Filling mods inits (regStep mods inits r t).1 ∧ Okay mods inits (regStep mods inits r t).1 (regStep mods inits r t).2 ∧
      ∀ t', Okay mods inits r t' → Okay mods inits (regStep mods inits r t).1 t' := by
  obtain ⟨h1, h2, h3⟩ := hk
  obtain ⟨calls, phase, answers⟩ := t
  cases calls with
  | nil => exact ⟨hf, ⟨h1, h2, h3⟩, fun t' ht => ht⟩
  | cons c cs =>
    obtain ⟨name, rfl⟩ := h2 c (by simp)
    cases phase with
    | idle =>
      refine ⟨hf, ⟨?_, h2, h3⟩, fun t' ht => ht⟩
      by_cases he : r.items.isEmpty = true
      · simp only [regStep, he, if_true]
        exact ⟨[], rfl, fun n hn => absurd rfl hn⟩
      · simp only [regStep, he]
        exact hf.after (fun x => he (by simp [x]))
    | loading rest =>
      obtain ⟨done, hd, ha⟩ := h1
      cases rest with
      | nil =>
        refine ⟨hf, ⟨?_, h2, h3⟩, fun t' ht => ht⟩
        rw [List.append_nil] at hd
        exact ha.all hf (by rw [hd]; exact fun _ _ x => x)
      | cons op rest =>
        have ho : op ∈ inits := by simp [hd]
        refine ⟨step_filling h hd hf ha, ⟨⟨done ++ [op], by simp [hd], step_aliasesOf h hd ha⟩, h2, h3⟩, fun t' ht => okay_step h ho ht⟩
    | loaded =>
      refine ⟨hf, ⟨⟨name, cs, rfl, ?_⟩, h2, h3⟩, fun t' ht => ht⟩
      rw [Registry.resolve, h1 name]
    | resolved n =>
      obtain ⟨name', cs', he, hn⟩ := h1
      injection he with he1 he2
      injection he1 with he1
      subst he1
      refine ⟨hf, ⟨trivial, fun c hc => h2 c (List.mem_cons_of_mem _ hc), ?_⟩, fun t' ht => ht⟩
      intro x hx
      rcases List.mem_append.1 hx with hx | hx
      · exact h3 x hx
      · rw [List.mem_singleton] at hx
        subst hx
        rw [hn]
        exact hf.items _

theorem filling_run {mods : List Bytes} {inits : List (RegOp M)} (h : Standard inits) (order : List Nat) : ∀ s : RegSys M,
    Filling mods inits s.reg → (∀ j, Okay mods inits s.reg (s.threads j)) →
    Filling mods inits (s.run mods inits order).reg ∧
      ∀ j, Okay mods inits (s.run mods inits order).reg ((s.run mods inits order).threads j) := by
  induction order with
  | nil => exact fun s h1 h2 => ⟨h1, h2⟩
  | cons i order ih =>
    intro s h1 h2
    obtain ⟨a, b, c⟩ := filling_step h h1 (h2 i)
    refine ih (s.step mods inits i) a fun j => ?_
    by_cases hj : j = i
    · simp only [RegSys.step, hj, if_true]
      exact b
    · simp only [RegSys.step, hj, if_false]
      exact c _ (h2 j)

theorem okay_start {mods : List Bytes} {inits : List (RegOp M)} {prog : Nat → List (RegCall M)} (hl : ∀ j, Looks (prog j)) :
    Filling mods inits (RegSys.start prog).reg ∧ ∀ j, Okay mods inits (RegSys.start prog).reg ((RegSys.start prog).threads j) :=
  ⟨⟨fun _ => .inl rfl, fun _ => .inl rfl, fun h => absurd rfl h⟩, fun j => ⟨trivial, hl j, by simp [RegSys.start]⟩⟩

/-- C166, what holds in any order of steps: what a thread finds is never the wrong maker. It may find none although there is one. -/
theorem C166_never_wrong_partial (mods : List Bytes) (inits : List (RegOp M)) (prog : Nat → List (RegCall M)) (order : List Nat) (i : Nat)
    (name : Bytes) (m : M) (hs : Standard inits) (hl : ∀ j, Looks (prog j))
    (ha : (name, some m) ∈ (((RegSys.start prog).run mods inits order).threads i).answers) : builtIn mods inits name = some m := by
  have h := (filling_run (mods := mods) hs order (RegSys.start prog) (okay_start hl).1 (okay_start hl).2).2 i
  rcases h.2.2 _ ha with h | h
  · simp at h
  · exact h.symm

/-! ## Once one thread has filled the tables -/

/-- All standard makers and aliases are known. -/
def Full (mods : List Bytes) (inits : List (RegOp M)) (r : Registry M) : Prop := AllItems mods inits r ∧ AllAliases mods inits r

/-- A thread in full tables. -/
def Fine (mods : List Bytes) (inits : List (RegOp M)) (t : RegThread M) : Prop :=
  (match t.phase with
  | .idle => True
  | .loading rest => ∀ op ∈ rest, op ∈ inits
  | .loaded => True
  | .resolved n => ∃ name cs, t.calls = .find name :: cs ∧ n = (lastOf (RegOp.means mods name) inits).getD name) ∧
  Looks t.calls ∧ ∀ x ∈ t.answers, x.2 = builtIn mods inits x.1

theorem full_step {mods : List Bytes} {inits : List (RegOp M)} (h : Standard inits) {r : Registry M} {t : RegThread M}
    (hf : Full mods inits r) (hk : Fine mods inits t) :
    Full mods inits (regStep mods inits r t).1 ∧ Fine mods inits (regStep mods inits r t).2 := by
  obtain ⟨h1, h2, h3⟩ := hk
  obtain ⟨calls, phase, answers⟩ := t
  cases calls with
  | nil => exact ⟨hf, ⟨h1, h2, h3⟩⟩
  | cons c cs =>
    obtain ⟨name, rfl⟩ := h2 c (by simp)
    cases phase with
    | idle =>
      refine ⟨hf, ⟨?_, h2, h3⟩⟩
      by_cases he : r.items.isEmpty = true
      · simp only [regStep, he, if_true]
        exact fun _ x => x
      · simp only [regStep, he]
        trivial
    | loading rest =>
      cases rest with
      | nil => exact ⟨hf, ⟨trivial, h2, h3⟩⟩
      | cons op rest =>
        have ho : op ∈ inits := h1 op (by simp)
        exact ⟨⟨fun t => step_keeps_items h ho (hf.1 t), fun n => step_keeps h ho (hf.2 n)⟩,
          ⟨fun x hx => h1 x (List.mem_cons_of_mem _ hx), h2, h3⟩⟩
    | loaded =>
      refine ⟨hf, ⟨⟨name, cs, rfl, ?_⟩, h2, h3⟩⟩
      rw [Registry.resolve, hf.2 name]
    | resolved n =>
      obtain ⟨name', cs', he, hn⟩ := h1
      injection he with he1 he2
      injection he1 with he1
      subst he1
      refine ⟨hf, ⟨trivial, fun c hc => h2 c (List.mem_cons_of_mem _ hc), ?_⟩⟩
      intro x hx
      rcases List.mem_append.1 hx with hx | hx
      · exact h3 x hx
      · rw [List.mem_singleton] at hx
        subst hx
        rw [hn]
        exact hf.1 _

theorem full_run {mods : List Bytes} {inits : List (RegOp M)} (h : Standard inits) (order : List Nat) : ∀ s : RegSys M,
    Full mods inits s.reg → (∀ j, Fine mods inits (s.threads j)) → ∀ j, Fine mods inits ((s.run mods inits order).threads j) := by
  induction order with
  | nil => exact fun s _ h2 => h2
  | cons i order ih =>
    intro s h1 h2
    obtain ⟨a, b⟩ := full_step h h1 (h2 i)
    refine ih (s.step mods inits i) a fun j => ?_
    by_cases hj : j = i
    · simp only [RegSys.step, hj, if_true]
      exact b
    · simp only [RegSys.step, hj, if_false]
      exact h2 j

/-- The first thread, alone with the tables. -/
def Alone (mods : List Bytes) (inits : List (RegOp M)) (r : Registry M) (t : RegThread M) : Prop :=
  match t.phase with
  | .idle => (t.answers = [] ∧ r = ⟨[], []⟩) ∨ Full mods inits r
  | .loading rest => t.answers = [] ∧ (∃ done, inits = done ++ rest ∧ r = Registry.run mods done) ∨ Full mods inits r
  | _ => Full mods inits r

theorem full_of_run (mods : List Bytes) (inits : List (RegOp M)) : Full mods inits (Registry.run mods inits) :=
  ⟨fun t => by rw [Registry.run, run_items]; simp [getEntry], fun n => by rw [Registry.run, run_aliases]; simp [getEntry]⟩

theorem alone_step {mods : List Bytes} {inits : List (RegOp M)} (h : Standard inits) {r : Registry M} {t : RegThread M}
    (hf : Alone mods inits r t) (hk : Fine mods inits t) :
    Alone mods inits (regStep mods inits r t).1 (regStep mods inits r t).2 ∧ Fine mods inits (regStep mods inits r t).2 := by
  obtain ⟨calls, phase, answers⟩ := t
  cases calls with
  | nil => exact ⟨hf, hk⟩
  | cons c cs =>
    by_cases hfull : Full mods inits r
    · obtain ⟨a, b⟩ := full_step h hfull hk
      refine ⟨?_, b⟩
      unfold Alone
      split
      · exact .inr a
      · exact .inr a
      · exact a
    · obtain ⟨h1, h2, h3⟩ := hk
      cases phase with
      | idle =>
        rcases hf with ⟨ha, hr⟩ | hf
        · subst hr
          refine ⟨.inl ⟨ha, [], rfl, rfl⟩, fun _ x => x, h2, h3⟩
        · exact absurd hf hfull
      | loading rest =>
        rcases hf with ⟨ha, done, hd, hr⟩ | hf
        · cases rest with
          | nil =>
            rw [List.append_nil] at hd
            rw [hr, ← hd] at hfull
            exact absurd (full_of_run mods inits) hfull
          | cons op rest =>
            refine ⟨.inl ⟨ha, done ++ [op], by simp [hd], ?_⟩, fun x hx => h1 x (List.mem_cons_of_mem _ hx), h2, h3⟩
            simp only [regStep, hr, Registry.run, List.foldl_append, List.foldl_cons, List.foldl_nil]
        · exact absurd hf hfull
      | loaded => exact absurd hf hfull
      | resolved n => exact absurd hf hfull

theorem alone_run {mods : List Bytes} {inits : List (RegOp M)} (h : Standard inits) (i : Nat) (k : Nat) : ∀ s : RegSys M,
    Alone mods inits s.reg (s.threads i) → (∀ j, Fine mods inits (s.threads j)) →
    Alone mods inits (s.run mods inits (List.replicate k i)).reg ((s.run mods inits (List.replicate k i)).threads i) ∧
      ∀ j, Fine mods inits ((s.run mods inits (List.replicate k i)).threads j) := by
  induction k with
  | zero => exact fun s h1 h2 => ⟨h1, h2⟩
  | succ k ih =>
    intro s h1 h2
    obtain ⟨a, b⟩ := alone_step h h1 (h2 i)
    refine ih (s.step mods inits i) ?_ fun j => ?_
    · simp only [RegSys.step, if_true]
      exact a
    · by_cases hj : j = i
      · simp only [RegSys.step, hj, if_true]
        exact b
      · simp only [RegSys.step, hj, if_false]
        exact h2 j

/-- C166 once one thread has had its first answer before the others begin: from then on every thread finds what there is, in any order of
steps. -/
theorem C166_first_alone_partial (mods : List Bytes) (inits : List (RegOp M)) (prog : Nat → List (RegCall M)) (first k : Nat)
    (order : List Nat) (i : Nat) (name : Bytes) (a : Option M) (hs : Standard inits) (hl : ∀ j, Looks (prog j))
    (hk : (((RegSys.start prog).run mods inits (List.replicate k first)).threads first).answers ≠ [])
    (ha : (name, a) ∈ (((RegSys.start prog).run mods inits (List.replicate k first ++ order)).threads i).answers) :
    a = builtIn mods inits name := by
  have hstart : ∀ j, Fine mods inits ((RegSys.start prog).threads j) := fun j => ⟨trivial, hl j, by simp [RegSys.start]⟩
  obtain ⟨h1, h2⟩ := alone_run (mods := mods) hs first k (RegSys.start prog) (.inl ⟨rfl, rfl⟩) hstart
  have hfull : Full mods inits ((RegSys.start prog).run mods inits (List.replicate k first)).reg := by
    unfold Alone at h1
    split at h1
    · rcases h1 with h1 | h1
      · exact absurd h1.1 hk
      · exact h1
    · rcases h1 with h1 | h1
      · exact absurd h1.1 hk
      · exact h1
    · exact h1
  rw [RegSys.run, List.foldl_append] at ha
  exact (full_run hs order _ hfull h2 i).2.2 _ ha

/-! ## Every call comes to an end -/

/-- Steps a thread needs at most. -/
def stepsLeft (inits : List (RegOp M)) (t : RegThread M) : Nat :=
  match t.calls with
  | [] => 0
  | _ :: cs => cs.length * (inits.length + 4) + match t.phase with
    | .idle => inits.length + 4
    | .loading rest => rest.length + 3
    | .loaded => 2
    | .resolved _ => 1

/-- A thread behind `resolve_alias` looks for a maker, and what it has to do in `init` is a part of it. -/
def SoundTable (inits : List (RegOp M)) (t : RegThread M) : Prop :=
  match t.phase with
  | .resolved _ => ∃ name cs, t.calls = .find name :: cs
  | _ => True

theorem stepsLeft_step (mods : List Bytes) (inits : List (RegOp M)) (r : Registry M) (t : RegThread M) (hs : SoundTable inits t) :
    SoundTable inits (regStep mods inits r t).2 ∧
      (t.calls ≠ [] → stepsLeft inits (regStep mods inits r t).2 < stepsLeft inits t) ∧
      (t.calls = [] → (regStep mods inits r t).2 = t) := by
  obtain ⟨calls, phase, answers⟩ := t
  cases calls with
  | nil => exact ⟨hs, fun h => absurd rfl h, fun _ => rfl⟩
  | cons c cs =>
    have hlen : ∀ (a : List (Bytes × Option M)), stepsLeft inits ⟨cs, .idle, a⟩ = cs.length * (inits.length + 4) := by
      intro a
      cases cs with
      | nil => simp [stepsLeft]
      | cons d ds => simp [stepsLeft, Nat.succ_mul]
    cases phase with
    | idle =>
      by_cases he : r.items.isEmpty = true
      · simp only [regStep, he, if_true]
        exact ⟨trivial, fun _ => by simp [stepsLeft], fun h => absurd h (by simp)⟩
      · simp only [regStep, he]
        exact ⟨trivial, fun _ => by simp [stepsLeft], fun h => absurd h (by simp)⟩
    | loading rest =>
      cases rest with
      | nil => exact ⟨trivial, fun _ => by simp [stepsLeft, regStep], fun h => absurd h (by simp)⟩
      | cons op rest => exact ⟨trivial, fun _ => by simp [stepsLeft, regStep], fun h => absurd h (by simp)⟩
    | loaded =>
      cases c with
      | push tag m =>
        refine ⟨trivial, fun _ => ?_, fun h => absurd h (by simp)⟩
        simp only [regStep, hlen]
        simp [stepsLeft]
      | alias o n =>
        refine ⟨trivial, fun _ => ?_, fun h => absurd h (by simp)⟩
        simp only [regStep, hlen]
        simp [stepsLeft]
      | find name => exact ⟨⟨name, cs, rfl⟩, fun _ => by simp [stepsLeft, regStep], fun h => absurd h (by simp)⟩
    | resolved n =>
      obtain ⟨name, cs', he⟩ := hs
      injection he with h1 h2
      subst h1 h2
      refine ⟨trivial, fun _ => ?_, fun h => absurd h (by simp)⟩
      simp only [regStep, hlen]
      simp [stepsLeft]

theorem finishes_run (mods : List Bytes) (inits : List (RegOp M)) (i : Nat) (order : List Nat) : ∀ s : RegSys M,
    SoundTable inits (s.threads i) → stepsLeft inits (s.threads i) ≤ order.count i → ((s.run mods inits order).threads i).calls = [] := by
  induction order with
  | nil =>
    intro s _ h
    change (s.threads i).calls = []
    cases hc : (s.threads i).calls with
    | nil => rfl
    | cons c cs =>
      have : 0 < stepsLeft inits (s.threads i) := by
        unfold stepsLeft
        rw [hc]
        simp only
        split <;> omega
      simp at h
      omega
  | cons j order ih =>
    intro s hs h
    by_cases hj : j = i
    · subst hj
      obtain ⟨a, b, c⟩ := stepsLeft_step mods inits s.reg (s.threads j) hs
      refine ih (s.step mods inits j) ?_ ?_
      · simp only [RegSys.step, if_true]
        exact a
      · simp only [RegSys.step, if_true]
        rw [List.count_cons_self] at h
        cases hc : (s.threads j).calls with
        | nil =>
          rw [c hc]
          have : stepsLeft inits (s.threads j) = 0 := by
            unfold stepsLeft
            rw [hc]
          omega
        | cons x xs =>
          have := b (by simp [hc])
          omega
    · have hji : ¬ i = j := fun x => hj x.symm
      rw [List.count_cons_of_ne hj] at h
      refine ih (s.step mods inits j) ?_ ?_
      · simp only [RegSys.step, hji, if_false]
        exact hs
      · simp only [RegSys.step, hji, if_false]
        exact h

/-- Every call comes to an end whatever the other threads do: a thread that gets its steps has made all its calls. -/
theorem C166_finishes (mods : List Bytes) (inits : List (RegOp M)) (prog : Nat → List (RegCall M)) (order : List Nat) (i : Nat)
    (h : (prog i).length * (inits.length + 4) ≤ order.count i) :
    (((RegSys.start prog).run mods inits order).threads i).calls = [] := by
  refine finishes_run mods inits i order _ trivial (Nat.le_trans ?_ h)
  simp only [RegSys.start]
  cases prog i with
  | nil => simp [stepsLeft]
  | cons c cs => simp [stepsLeft, Nat.succ_mul]

/-! ## Pushing -/

/-- The tables are in use, this name is no alias and a thread that is not `i` leaves it alone. -/
structure Owned (mods : List Bytes) (tag : Bytes) (i : Nat) (s : RegSys M) : Prop where
  filled : s.reg.items ≠ []
  none : getEntry tag s.reg.aliases = none
  past : ∀ j, ∀ rest, (s.threads j).phase ≠ .loading rest
  sound : ∀ j, ∀ n, (s.threads j).phase = .resolved n → ∃ name cs, (s.threads j).calls = .find name :: cs
  others : ∀ j, j ≠ i → ∀ m, RegCall.push tag m ∉ (s.threads j).calls
  aliases : ∀ j o, RegCall.alias o tag ∉ (s.threads j).calls

/-- How far thread `i` is: it has yet to push, has pushed, or has its answer. -/
def Pushing (tag : Bytes) (m : M) (r : Registry M) (t : RegThread M) : Prop :=
  (∃ pre, t.calls = pre ++ [.push tag m, .find tag]) ∨
  (t.calls = [.find tag] ∧ getEntry tag r.items = some m ∧ ∀ n, t.phase = .resolved n → n = tag) ∨
  (t.calls = [] ∧ t.answers.getLast? = some (tag, some m))

theorem putEntry_ne {α : Type} (k : Bytes) (v : α) (l : List (Bytes × α)) : putEntry k v l ≠ [] := by
  cases l with
  | nil => simp [putEntry]
  | cons e es =>
    rw [putEntry]
    split <;> simp

theorem step_ne {mods : List Bytes} {r : Registry M} {op : RegOp M} (h : r.items ≠ []) : (r.step mods op).items ≠ [] := by
  cases op with
  | push t m =>
    simp only [Registry.step, Registry.doPush]
    by_cases hc : mods.contains t = true
    · simp only [hc, if_true]
      exact h
    · simp only [hc]
      exact putEntry_ne _ _ _
  | alias o n =>
    simp only [Registry.step, Registry.doAddAlias]
    by_cases hc : mods.contains n = true
    · simp only [hc, if_true]
      exact h
    · simp only [hc]
      exact h

/-- What a step does to a thread in tables that are in use. -/
theorem used_step (mods : List Bytes) (inits : List (RegOp M)) (r : Registry M) (t : RegThread M) (hne : r.items ≠ [])
    (hp : ∀ rest, t.phase ≠ .loading rest) (hs : ∀ n, t.phase = .resolved n → ∃ name cs, t.calls = .find name :: cs) :
    let p := regStep mods inits r t
    (t.calls = [] ∧ p = (r, t)) ∨ (t.phase = .idle ∧ p = (r, { t with phase := .loaded })) ∨
    (∃ tag m cs, t.calls = .push tag m :: cs ∧ p = (r.step mods (.push tag m), ⟨cs, .idle, t.answers⟩)) ∨
    (∃ o n cs, t.calls = .alias o n :: cs ∧ p = (r.step mods (.alias o n), ⟨cs, .idle, t.answers⟩)) ∨
    (∃ name cs, t.calls = .find name :: cs ∧ p = (r, { t with phase := .resolved (r.resolve name) })) ∨
    (∃ name cs n, t.calls = .find name :: cs ∧ t.phase = .resolved n ∧
      p = (r, ⟨cs, .idle, t.answers ++ [(name, getEntry n r.items)]⟩)) := by
  obtain ⟨calls, phase, answers⟩ := t
  cases calls with
  | nil => exact .inl ⟨rfl, rfl⟩
  | cons c cs =>
    cases phase with
    | idle =>
      refine .inr (.inl ⟨rfl, ?_⟩)
      have : r.items.isEmpty = false := by
        cases h : r.items with
        | nil => exact absurd h hne
        | cons _ _ => rfl
      simp only [regStep, this, Bool.false_eq_true, if_false]
    | loading rest => exact absurd rfl (hp rest)
    | loaded =>
      cases c with
      | push tag m => exact .inr (.inr (.inl ⟨tag, m, cs, rfl, rfl⟩))
      | alias o n => exact .inr (.inr (.inr (.inl ⟨o, n, cs, rfl, rfl⟩)))
      | find name => exact .inr (.inr (.inr (.inr (.inl ⟨name, cs, rfl, rfl⟩))))
    | resolved n =>
      obtain ⟨name, cs', he⟩ := hs n rfl
      injection he with h1 h2
      subst h1 h2
      exact .inr (.inr (.inr (.inr (.inr ⟨name, cs, n, rfl, rfl, rfl⟩))))

theorem owned_step {mods : List Bytes} {inits : List (RegOp M)} {tag : Bytes} {m : M} {i : Nat} {s : RegSys M} (hm : tag ∉ mods)
    (h : Owned mods tag i s) (hp : Pushing tag m s.reg (s.threads i)) (k : Nat) :
    Owned mods tag i (s.step mods inits k) ∧ Pushing tag m (s.step mods inits k).reg ((s.step mods inits k).threads i) := by
  have hu := used_step mods inits s.reg (s.threads k) h.filled (h.past k) (h.sound k)
  have hres : s.reg.resolve tag = tag := by rw [Registry.resolve, h.none]; rfl
  generalize hq : regStep mods inits s.reg (s.threads k) = p at hu
  have hstep : s.step mods inits k = ⟨p.1, fun j => if j = k then p.2 else s.threads j⟩ := by rw [← hq]; rfl
  -- what is needed of the step
  have build : p.1.items ≠ [] → getEntry tag p.1.aliases = none → (∀ rest, p.2.phase ≠ .loading rest) →
      (∀ n, p.2.phase = .resolved n → ∃ name cs, p.2.calls = .find name :: cs) → (∀ c ∈ p.2.calls, c ∈ (s.threads k).calls) →
      (k ≠ i → getEntry tag p.1.items = getEntry tag s.reg.items) → (k = i → Pushing tag m p.1 p.2) →
      Owned mods tag i (s.step mods inits k) ∧ Pushing tag m (s.step mods inits k).reg ((s.step mods inits k).threads i) := by
    intro h1 h2 h3 h4 h5 h6 h7
    rw [hstep]
    refine ⟨⟨h1, h2, fun j => ?_, fun j => ?_, fun j hj m' => ?_, fun j o => ?_⟩, ?_⟩
    · by_cases hj : j = k
      · simp only [hj, if_true]; exact h3
      · simp only [hj, if_false]; exact h.past j
    · by_cases hj : j = k
      · simp only [hj, if_true]; exact h4
      · simp only [hj, if_false]; exact h.sound j
    · by_cases hjk : j = k
      · simp only [hjk, if_true]
        exact fun hc => h.others k (hjk ▸ hj) m' (h5 _ hc)
      · simp only [hjk, if_false]; exact h.others j hj m'
    · by_cases hjk : j = k
      · simp only [hjk, if_true]
        exact fun hc => h.aliases k o (h5 _ hc)
      · simp only [hjk, if_false]; exact h.aliases j o
    · by_cases hik : i = k
      · simp only [hik, if_true]
        exact h7 hik.symm
      · simp only [hik, if_false]
        rcases hp with hp | ⟨a, b, c⟩ | hp
        · exact .inl hp
        · exact .inr (.inl ⟨a, by rw [h6 (fun x => hik x.symm)]; exact b, c⟩)
        · exact .inr (.inr hp)
  rcases hu with ⟨hc, rfl⟩ | ⟨hph, rfl⟩ | ⟨t, x, cs, hc, rfl⟩ | ⟨o, n, cs, hc, rfl⟩ | ⟨name, cs, hc, rfl⟩ | ⟨name, cs, n, hc, hph, rfl⟩
  · exact build h.filled h.none (h.past k) (h.sound k) (fun _ x => x) (fun _ => rfl) (fun hk => hk ▸ hp)
  · refine build h.filled h.none (by simp) (by simp) (fun _ x => x) (fun _ => rfl) fun hk => ?_
    subst hk
    rcases hp with hp | ⟨a, b, c⟩ | hp
    · exact .inl hp
    · exact .inr (.inl ⟨a, b, by simp⟩)
    · exact .inr (.inr hp)
  · refine build (step_ne h.filled) ?_ (by simp) (by simp) (fun c hx => by rw [hc]; exact List.mem_cons_of_mem _ hx) (fun hk => ?_) fun hk => ?_
    · rw [step_aliases]
      simpa [RegOp.means] using h.none
    · rw [step_items]
      have : t ≠ tag := fun e => h.others k hk x (by rw [hc, ← e]; simp)
      simp [RegOp.makes, this]
    · subst hk
      rcases hp with ⟨pre, hp⟩ | ⟨a, b, c⟩ | hp
      · rw [hc] at hp
        cases pre with
        | nil =>
          rw [List.nil_append] at hp
          injection hp with h1 h2
          injection h1 with h3 h4
          subst h3 h4 h2
          refine .inr (.inl ⟨rfl, ?_, by simp⟩)
          rw [step_items]
          simp [RegOp.makes, hm]
        | cons c pre =>
          rw [List.cons_append] at hp
          injection hp with h1 h2
          exact .inl ⟨pre, h2⟩
      · rw [hc] at a
        injection a with a1 _
        simp at a1
      · rw [hc] at hp
        simp at hp
  · refine build (step_ne h.filled) ?_ (by simp) (by simp) (fun c hx => by rw [hc]; exact List.mem_cons_of_mem _ hx) (fun hk => ?_) fun hk => ?_
    · rw [step_aliases]
      have : n ≠ tag := fun x => h.aliases k o (by rw [hc, ← x]; simp)
      simpa [RegOp.means, this] using h.none
    · rw [step_items]
      simp [RegOp.makes]
    · subst hk
      rcases hp with ⟨pre, hp⟩ | ⟨a, b, c⟩ | hp
      · rw [hc] at hp
        cases pre with
        | nil =>
          rw [List.nil_append] at hp
          injection hp with h1 h2
          simp at h1
        | cons c pre =>
          rw [List.cons_append] at hp
          injection hp with h1 h2
          exact .inl ⟨pre, h2⟩
      · rw [hc] at a
        injection a with a1 _
        simp at a1
      · rw [hc] at hp
        simp at hp
  · refine build h.filled h.none (by simp) (fun n _ => ⟨name, cs, hc⟩) (fun _ x => x) (fun _ => rfl) fun hk => ?_
    subst hk
    rcases hp with hp | ⟨a, b, c⟩ | hp
    · exact .inl hp
    · refine .inr (.inl ⟨a, b, fun n hn => ?_⟩)
      rw [hc] at a
      injection a with a1 _
      injection a1 with a1
      injection hn with hn
      rw [← hn, a1, hres]
    · exact .inr (.inr hp)
  · refine build h.filled h.none (by simp) (by simp) (fun c hx => by rw [hc]; exact List.mem_cons_of_mem _ hx) (fun _ => rfl) fun hk => ?_
    subst hk
    rcases hp with ⟨pre, hp⟩ | ⟨a, b, c⟩ | hp
    · rw [hc] at hp
      cases pre with
      | nil =>
        rw [List.nil_append] at hp
        injection hp with h1 h2
        simp at h1
      | cons c pre =>
        rw [List.cons_append] at hp
        injection hp with h1 h2
        exact .inl ⟨pre, h2⟩
    · rw [hc] at a
      injection a with a1 a2
      injection a1 with a1
      subst a1 a2
      refine .inr (.inr ⟨rfl, ?_⟩)
      rw [c n hph, b]
      simp
    · rw [hc] at hp
      simp at hp

theorem owned_run {mods : List Bytes} {inits : List (RegOp M)} {tag : Bytes} {m : M} {i : Nat} (hm : tag ∉ mods) (order : List Nat) :
    ∀ s : RegSys M, Owned mods tag i s → Pushing tag m s.reg (s.threads i) →
      Pushing tag m (s.run mods inits order).reg ((s.run mods inits order).threads i) := by
  induction order with
  | nil => exact fun s _ h => h
  | cons k order ih =>
    intro s h1 h2
    obtain ⟨a, b⟩ := owned_step (inits := inits) hm h1 h2 k
    exact ih _ a b

/-- C167 in tables that are in use: what a thread pushes under a name of its own is what it finds, in any order of steps. -/
theorem C167_in_use_partial (mods : List Bytes) (inits : List (RegOp M)) (reg : Registry M) (prog : Nat → List (RegCall M))
    (order : List Nat) (i : Nat) (tag : Bytes) (m : M) (pre : List (RegCall M)) (hr : reg.items ≠ []) (hm : tag ∉ mods)
    (ha : getEntry tag reg.aliases = none) (hi : prog i = pre ++ [.push tag m, .find tag])
    (ho : ∀ j, j ≠ i → ∀ m', RegCall.push tag m' ∉ prog j) (hal : ∀ j o, RegCall.alias o tag ∉ prog j)
    (hd : ((RegSys.run mods inits ⟨reg, fun j => ⟨prog j, .idle, []⟩⟩ order).threads i).calls = []) :
    ((RegSys.run mods inits ⟨reg, fun j => ⟨prog j, .idle, []⟩⟩ order).threads i).answers.getLast? = some (tag, some m) := by
  have := owned_run (inits := inits) hm order ⟨reg, fun j => ⟨prog j, .idle, []⟩⟩ (i := i)
    ⟨hr, ha, by simp, by simp, ho, hal⟩ (.inl ⟨pre, hi⟩)
  rcases this with ⟨p, hp⟩ | ⟨hp, _⟩ | ⟨_, hp⟩
  · rw [hd] at hp
    simp at hp
  · rw [hd] at hp
    simp at hp
  · exact hp

/-- Two threads that look for `lowercase`, the first alone at first. -/
example : (((RegSys.start fun i => if i < 2 then [.find (ascii "lowercase")] else []).run [] twoMakers
      (List.replicate 7 0 ++ [1, 1, 1])).threads 1).answers = [(ascii "lowercase", some 2)] ∧
    (((RegSys.start fun i => if i < 2 then [.find (ascii "lowercase")] else []).run [] twoMakers
      (List.replicate 7 0)).threads 0).answers ≠ [] ∧
    builtIn [] twoMakers (ascii "lowercase") = some 2 := by decide +kernel

/-- Two threads that push different names at the same time. -/
example : (((RegSys.run [] twoMakers ⟨⟨[(ascii "x", 1)], []⟩,
      fun j => if j < 2 then ⟨[.push [97 + j.toUInt8] j, .find [97 + j.toUInt8]], .idle, []⟩ else ⟨[], .idle, []⟩⟩
      [0, 1, 1, 0, 1, 0, 0, 1, 0, 1]).threads 1)).answers = [([98], some 1)] := by decide +kernel

end Cdx
