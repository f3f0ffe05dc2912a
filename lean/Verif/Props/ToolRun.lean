import Verif.Props.ToolTest

/-! C162 to C165: verdicts of tests, tests after one another, the report and the words of the command. -/

namespace Cdx

/-! ## C162: when a test passes -/

/-- The files before the program runs: those given, and the standard input. -/
def prepared (t : ToolTest) (d : Dir) : Dir := (t.inFiles.foldl (fun d x => d.put x.1 x.2) d).set (ascii "stdin") t.stdin

/-- What is in a file, after unpacking. -/
def ToolEnv.unpack (e : ToolEnv) (b : Bytes) : Bytes := if startsWith b gzMagic then e.gunzip b else b

/-- Every matcher of the test gives an answer. -/
def ToolTest.Answers (e : ToolEnv) (t : ToolTest) : Prop :=
  ∀ o ∈ t.stdout :: t.stderr :: t.outFiles, ∀ v, ∃ b, o.matcher.doMatchSafe e.env v = .ok b

/-- The names of the input files. -/
def ToolTest.inputs (t : ToolTest) : List Bytes := ascii "stdin" :: t.inFiles.map (·.1)

/-- The names of the output files. -/
def ToolTest.outputs (t : ToolTest) : List Bytes := t.outFiles.map (·.name)

/-- Status and outputs are as expected. -/
structure AsWanted (e : ToolEnv) (t : ToolTest) (o : Ran) : Prop where
  code : o.code = some t.code
  stdout : t.stdout.matcher.doMatchSafe e.env o.stdout = .ok true
  stderr : t.stderr.matcher.doMatchSafe e.env o.stderr = .ok true
  files : ∀ x ∈ t.outFiles, ∃ b, o.dir.get x.name = some b ∧ x.matcher.doMatchSafe e.env (e.unpack b) = .ok true

/-- The inputs are still there, and nothing but the inputs and the expected files. -/
structure Tidy (t : ToolTest) (o : Ran) : Prop where
  inputs : ∀ n ∈ t.inputs, ∃ b, o.dir.get n = some b
  rest : ∀ f ∈ o.dir, f.1 ∈ t.inputs ++ t.outputs

/-- C162 in full: a test passes if and only if everything is as expected and nothing is left over. -/
def C162_statement : Prop :=
  ∀ (e : ToolEnv) (t : ToolTest) (d : Dir) (o : Ran), e.keep = false → t.Answers e → e.exec (e.words t.cmd) t.stdin (prepared t d) = some o →
    ((∃ d', t.run e d = .ok (d', some true)) ↔ AsWanted e t o ∧ Tidy t o)

theorem dir_get_del (d : Dir) (p : Bytes → Bool) (m : Bytes) : Dir.get (d.filter fun x => p x.1) m = if p m then d.get m else none := by
  simp only [Dir.get]
  induction d with
  | nil => simp
  | cons x xs ih =>
    rw [List.filter_cons]
    by_cases hm : x.1 = m
    · subst hm
      by_cases hx : p x.1 = true
      · simp [hx]
      · rw [if_neg hx, ih, if_neg hx, if_neg hx]
    · have hm := beq_eq_false_iff_ne.2 hm
      by_cases hx : p x.1 = true
      · rw [if_pos hx, List.find?_cons, List.find?_cons, hm]; exact ih
      · rw [if_neg hx, List.find?_cons, hm]; exact ih

theorem nuke_some {names : List Bytes} {n : Bytes} {d : Dir} (h : ∃ b, d.get n = some b) :
    nuke false names n d = (names.filter fun x => x != n, some (d.filter fun x => x.1 != n)) := by
  obtain ⟨b, hb⟩ := h
  simp [nuke, Dir.del, hb]

theorem nuke_none {names : List Bytes} {n : Bytes} {d : Dir} (h : d.get n = none) :
    nuke false names n d = (names.filter fun x => x != n, none) := by
  simp [nuke, Dir.del, h]

theorem filter_rest (ns : List Bytes) (n : Bytes) (f : α → Bytes) (l : List α) :
    (l.filter fun x => f x != n).filter (fun x => !ns.contains (f x)) = l.filter fun x => !(n :: ns).contains (f x) := by
  rw [List.filter_filter]
  congr 1
  funext x
  rw [Bool.eq_iff_iff]
  simp [and_comm]

theorem nukeAll_spec (ns : List Bytes) (hn : ns.Nodup) (names : List Bytes) (d : Dir) :
    ((∀ n ∈ ns, ∃ b, d.get n = some b) →
      nukeAll false ns names d = .ok (names.filter (fun x => !ns.contains x), d.filter fun x => !ns.contains x.1)) ∧
    ((∃ n ∈ ns, d.get n = none) → ∃ d', nukeAll false ns names d = .error d') := by
  induction ns generalizing names d with
  | nil =>
    refine ⟨fun _ => ?_, fun h => by simp at h⟩
    have h1 : names.filter (fun x => !([] : List Bytes).contains x) = names := List.filter_eq_self.2 (by simp)
    have h2 : d.filter (fun x => !([] : List Bytes).contains x.1) = d := List.filter_eq_self.2 (by simp)
    rw [h1, h2]; rfl
  | cons n ns ih =>
    obtain ⟨hn1, hn2⟩ := List.nodup_cons.1 hn
    have key : ∀ m ∈ ns, Dir.get (d.filter fun x => x.1 != n) m = d.get m := by
      intro m hm
      rw [dir_get_del d (fun x => x != n) m, if_pos]
      simp only [bne_iff_ne, ne_eq]
      rintro rfl
      exact hn1 hm
    constructor
    · intro h
      rw [nukeAll, nuke_some (h n (by simp))]
      show nukeAll false ns _ _ = _
      rw [(ih hn2 _ _).1 (fun m hm => by rw [key m hm]; exact h m (by simp [hm])), filter_rest ns n (fun x => x), filter_rest ns n (fun x : Bytes × Bytes => x.1)]
    · rintro ⟨m, hm, hd⟩
      cases hg : d.get n with
      | none => exact ⟨d, by rw [nukeAll, nuke_none hg]⟩
      | some b =>
        rw [nukeAll, nuke_some ⟨b, hg⟩]
        refine (ih hn2 _ _).2 ⟨m, ?_, ?_⟩
        · rcases List.mem_cons.1 hm with rfl | hm
          · rw [hd] at hg; exact absurd hg (by simp)
          · exact hm
        · rcases List.mem_cons.1 hm with rfl | hm
          · rw [hd] at hg; exact absurd hg (by simp)
          · rw [key m hm]; exact hd

/-- The test of one output file. -/
theorem outLoop_step (e : ToolEnv) (x : OutSpec) (xs : List OutSpec) (failed : Bool) (names : List Bytes) (d : Dir)
    (hx : ∀ v, ∃ b, x.matcher.doMatchSafe e.env v = .ok b) :
    ∃ bad, (bad = false ↔ ∃ b, d.get x.name = some b ∧ x.matcher.doMatchSafe e.env (e.unpack b) = .ok true) ∧
      outLoop e (x :: xs) failed names d = match nuke e.keep names x.name d with
        | (_, none) => .ok (.error d)
        | (names, some d) => outLoop e xs (failed || bad) names d := by
  cases hg : d.get x.name with
  | none => exact ⟨true, by simp, by simp only [outLoop, hg, Res.bind_ok]; rfl⟩
  | some b =>
    obtain ⟨ok, hok⟩ := hx (e.unpack b)
    refine ⟨!ok, ?_, ?_⟩
    · constructor
      · intro h
        exact ⟨b, rfl, by rw [hok]; cases ok <;> simp_all⟩
      · rintro ⟨b', h1, h2⟩
        injection h1 with h1
        subst h1
        rw [hok] at h2
        injection h2 with h2
        simp [h2]
    · have : x.matcher.doMatchSafe e.env (if startsWith b gzMagic then e.gunzip b else b) = .ok ok := hok
      simp only [outLoop, hg, this, Res.bind_ok]
      rfl

theorem outLoop_spec (e : ToolEnv) (hk : e.keep = false) (xs : List OutSpec) (hn : (xs.map (·.name)).Nodup)
    (hx : ∀ x ∈ xs, ∀ v, ∃ b, x.matcher.doMatchSafe e.env v = .ok b) (failed : Bool) (names : List Bytes) (d : Dir) :
    ((∀ x ∈ xs, ∃ b, d.get x.name = some b) → ∃ f, outLoop e xs failed names d =
        .ok (.ok (f, names.filter (fun x => !(xs.map (·.name)).contains x), d.filter fun x => !(xs.map (·.name)).contains x.1)) ∧
      (f = false ↔ failed = false ∧ ∀ x ∈ xs, ∃ b, d.get x.name = some b ∧ x.matcher.doMatchSafe e.env (e.unpack b) = .ok true)) ∧
    ((∃ x ∈ xs, d.get x.name = none) → ∃ d', outLoop e xs failed names d = .ok (.error d')) := by
  induction xs generalizing failed names d with
  | nil =>
    refine ⟨fun _ => ⟨failed, ?_, by simp⟩, fun h => by simp at h⟩
    have h1 : names.filter (fun x => !([] : List Bytes).contains x) = names := List.filter_eq_self.2 (by simp)
    have h2 : d.filter (fun x => !([] : List Bytes).contains x.1) = d := List.filter_eq_self.2 (by simp)
    simp only [List.map_nil, h1, h2]
    rfl
  | cons x xs ih =>
    obtain ⟨hn1, hn2⟩ := List.nodup_cons.1 hn
    have ih := ih hn2 fun y hy => hx y (by simp [hy])
    obtain ⟨bad, hb, hs⟩ := outLoop_step e x xs failed names d (hx x (by simp))
    have key : ∀ y ∈ xs, Dir.get (d.filter fun z => z.1 != x.name) y.name = d.get y.name := by
      intro y hy
      rw [dir_get_del d (fun z => z != x.name) y.name, if_pos]
      simp only [bne_iff_ne, ne_eq]
      intro he
      exact hn1 (List.mem_map.2 ⟨y, hy, he⟩)
    rw [hk] at hs
    constructor
    · intro h
      rw [nuke_some (h x (by simp))] at hs
      obtain ⟨f, h1, h2⟩ := (ih (failed || bad) (names.filter fun z => z != x.name) (d.filter fun z => z.1 != x.name)).1
        fun y hy => by rw [key y hy]; exact h y (by simp [hy])
      refine ⟨f, ?_, ?_⟩
      · rw [hs]
        show outLoop e xs _ _ _ = _
        rw [h1, filter_rest _ x.name (fun x => x), filter_rest _ x.name (fun x : Bytes × Bytes => x.1)]
        rfl
      · rw [h2, Bool.or_eq_false_iff, hb, and_assoc]
        constructor
        · rintro ⟨h3, h4, h5⟩
          refine ⟨h3, fun y hy => ?_⟩
          rcases List.mem_cons.1 hy with rfl | hy
          · exact h4
          · have := h5 y hy
            rwa [key y hy] at this
        · rintro ⟨h3, h4⟩
          exact ⟨h3, h4 x (by simp), fun y hy => by rw [key y hy]; exact h4 y (by simp [hy])⟩
    · rintro ⟨y, hy, hd⟩
      cases hg : d.get x.name with
      | none =>
        rw [nuke_none hg] at hs
        exact ⟨d, hs⟩
      | some b =>
        rw [nuke_some ⟨b, hg⟩] at hs
        rw [hs]
        rcases List.mem_cons.1 hy with rfl | hy
        · rw [hd] at hg; exact absurd hg (by simp)
        · exact (ih _ _ _).2 ⟨y, hy, by rw [key y hy]; exact hd⟩

theorem run_check (e : ToolEnv) (t : ToolTest) (d : Dir) (o : Ran) (h : e.exec (e.words t.cmd) t.stdin (prepared t d) = some o) :
    t.run e d = t.check e o := by
  unfold ToolTest.run
  simp only
  unfold prepared at h
  rw [h]

/-- What comes of a test whose files have different names. -/
theorem check_spec (e : ToolEnv) (t : ToolTest) (o : Ran) (hk : e.keep = false) (ha : t.Answers e) (hn : (t.inputs ++ t.outputs).Nodup) :
    ((∀ n ∈ t.inputs ++ t.outputs, ∃ b, o.dir.get n = some b) →
      ∃ b, t.check e o = .ok ([], some b) ∧ (b = true ↔ AsWanted e t o ∧ Tidy t o)) ∧
    ((∃ n ∈ t.inputs ++ t.outputs, o.dir.get n = none) → ∃ d', t.check e o = .ok (d', none)) := by
  obtain ⟨n1, n2, n3⟩ := List.nodup_append.1 hn
  obtain ⟨bo, hbo⟩ := ha t.stdout (by simp) o.stdout
  obtain ⟨be, hbe⟩ := ha t.stderr (by simp) o.stderr
  obtain ⟨i1, i2⟩ := nukeAll_spec t.inputs n1 (o.dir.map (·.1)) o.dir
  have hxs : ∀ x ∈ t.outFiles, ∀ v, ∃ b, x.matcher.doMatchSafe e.env v = .ok b := fun x hx => ha x (by simp [hx])
  have key : ∀ x ∈ t.outFiles, Dir.get (o.dir.filter fun z => !t.inputs.contains z.1) x.name = o.dir.get x.name := by
    intro x hx
    rw [dir_get_del o.dir (fun z => !t.inputs.contains z) x.name, if_pos]
    simp only [Bool.not_eq_true', List.contains_eq_mem, decide_eq_false_iff_not]
    intro hi
    exact n3 _ hi _ (List.mem_map.2 ⟨x, hx, rfl⟩) rfl
  obtain ⟨o1, o2⟩ := outLoop_spec e hk t.outFiles n2 hxs (decide (o.code ≠ some t.code) || !be || !bo)
    ((o.dir.map (·.1)).filter fun x => !t.inputs.contains x) (o.dir.filter fun x => !t.inputs.contains x.1)
  constructor
  · intro h
    have i1 := i1 fun n hn => h n (by simp [hn])
    obtain ⟨f, h1, h2⟩ := o1 fun x hx => by
      rw [key x hx]; exact h _ (List.mem_append_right _ (List.mem_map.2 ⟨x, hx, rfl⟩))
    unfold ToolTest.check
    unfold ToolTest.inputs at i1
    rw [hk, i1]
    simp only [hbe, hbo, Res.bind_ok]
    unfold ToolTest.inputs at h1
    rw [h1]
    simp only [Res.bind_ok, hk, Bool.false_eq_true, if_false]
    refine ⟨_, congrArg Res.ok (Prod.ext ?_ rfl), ?_⟩
    · refine List.filter_eq_nil_iff.2 fun x hx => ?_
      rw [List.mem_filter, List.mem_filter] at hx
      simp only [Bool.not_eq_true', Bool.not_eq_false, List.contains_iff_mem]
      rw [List.mem_filter, List.mem_filter]
      exact ⟨⟨List.mem_map.2 ⟨x, hx.1.1, rfl⟩, hx.1.2⟩, hx.2⟩
    · rw [Bool.not_eq_true', Bool.or_eq_false_iff, h2, decide_eq_false_iff_not, Decidable.not_not, Bool.or_eq_false_iff, Bool.or_eq_false_iff,
        decide_eq_false_iff_not, Decidable.not_not, Bool.not_eq_false', Bool.not_eq_false']
      constructor
      · rintro ⟨⟨⟨⟨c1, c2⟩, c3⟩, c4⟩, c5⟩
        refine ⟨⟨c1, by rw [hbo, c3], by rw [hbe, c2], fun x hx => by have := c4 x hx; rwa [key x hx] at this⟩,
          fun n hn => h n (by simp [hn]), fun x hx => ?_⟩
        have := (List.filter_eq_nil_iff.1 c5)
        refine Classical.byContradiction fun hc => ?_
        rw [List.mem_append, not_or] at hc
        refine this x.1 ?_ ?_
        · rw [List.mem_filter]
          refine ⟨List.mem_map.2 ⟨x, hx, rfl⟩, ?_⟩
          have := hc.1
          unfold ToolTest.inputs at this
          simpa using this
        · have := hc.2
          unfold ToolTest.outputs at this
          simpa using this
      · rintro ⟨⟨c1, c2, c3, c4⟩, -, c5⟩
        rw [hbo] at c2
        rw [hbe] at c3
        injection c2 with c2
        injection c3 with c3
        refine ⟨⟨⟨⟨c1, c3⟩, c2⟩, fun x hx => by rw [key x hx]; exact c4 x hx⟩, ?_⟩
        refine List.filter_eq_nil_iff.2 fun x hx => ?_
        rw [List.mem_filter] at hx
        obtain ⟨y, hy, rfl⟩ := List.mem_map.1 hx.1
        have hy := c5 y hy
        rcases List.mem_append.1 hy with hy | hy
        · have := hx.2
          simp only [Bool.not_eq_true', List.contains_eq_mem, decide_eq_false_iff_not] at this
          exact absurd hy this
        · unfold ToolTest.outputs at hy
          simpa using hy
  · rintro ⟨n, hn, hd⟩
    by_cases hi : ∃ n ∈ t.inputs, o.dir.get n = none
    · obtain ⟨d', hd'⟩ := i2 hi
      refine ⟨d', ?_⟩
      unfold ToolTest.check
      unfold ToolTest.inputs at hd'
      rw [hk, hd']
    · have hall : ∀ n ∈ t.inputs, ∃ b, o.dir.get n = some b := by
        intro m hm
        cases hg : o.dir.get m with
        | none => exact absurd ⟨m, hm, hg⟩ hi
        | some b => exact ⟨b, rfl⟩
      have i1 := i1 hall
      have : n ∈ t.outputs := by
        rcases List.mem_append.1 hn with hn | hn
        · exact absurd ⟨n, hn, hd⟩ hi
        · exact hn
      obtain ⟨x, hx, rfl⟩ := List.mem_map.1 this
      obtain ⟨d', hd'⟩ := o2 ⟨x, hx, by rw [key x hx]; exact hd⟩
      refine ⟨d', ?_⟩
      unfold ToolTest.check
      unfold ToolTest.inputs at i1 hd'
      rw [hk, i1]
      simp only [hbe, hbo, Res.bind_ok]
      rw [hd']
      rfl

/-- C162 for tests whose input and output files have different names. Missing from the full statement: a file that is input and output,
which is deleted before it is looked at. -/
theorem C162_passes_partial (e : ToolEnv) (t : ToolTest) (d : Dir) (o : Ran) (hk : e.keep = false) (ha : t.Answers e)
    (hn : (t.inputs ++ t.outputs).Nodup) (ho : e.exec (e.words t.cmd) t.stdin (prepared t d) = some o) :
    (∃ d', t.run e d = .ok (d', some true)) ↔ AsWanted e t o ∧ Tidy t o := by
  rw [run_check e t d o ho]
  obtain ⟨h1, h2⟩ := check_spec e t o hk ha hn
  by_cases h : ∃ n ∈ t.inputs ++ t.outputs, o.dir.get n = none
  · obtain ⟨d', hd'⟩ := h2 h
    rw [hd']
    constructor
    · rintro ⟨d'', he⟩
      injection he with he
      injection he with _ he
      exact absurd he (by simp)
    · rintro ⟨h3, h4⟩
      obtain ⟨n, hm, hd⟩ := h
      rcases List.mem_append.1 hm with hm | hm
      · obtain ⟨b, hb⟩ := h4.inputs n hm
        rw [hd] at hb
        exact absurd hb (by simp)
      · obtain ⟨x, hx, rfl⟩ := List.mem_map.1 hm
        obtain ⟨b, hb, -⟩ := h3.files x hx
        rw [hd] at hb
        exact absurd hb (by simp)
  · obtain ⟨b, h3, h4⟩ := h1 fun m hm => by
      cases hg : o.dir.get m with
      | none => exact absurd ⟨m, hm, hg⟩ h
      | some b => exact ⟨b, rfl⟩
    rw [h3]
    constructor
    · rintro ⟨d'', he⟩
      injection he with he
      injection he with _ he
      injection he with he
      exact h4.1 he
    · intro h5
      exact ⟨[], by rw [h4.2 h5]⟩

/-- A world in which every program is the same function of the words, the input and the files. -/
def toolWorld (keep : Bool) (exec : List Bytes → Bytes → Dir → Option Ran) : ToolEnv :=
  ⟨MEnv.trivial, id, exec, ascii "/t/", ascii "./", keep⟩

/-- A program that edits a file in place, and a test that says what should come of it. -/
def inPlaceWorld : ToolEnv := toolWorld false fun _ _ d => some ⟨some 0, [], [], d.set (ascii "f") (ascii "new\n")⟩

def inPlaceTest : ToolTest :=
  { ToolTest.new with cmd := ascii "edit", inFiles := [(ascii "f", ascii "old\n")], outFiles := [⟨ascii "f", ascii "new\n", exactMatcher (ascii "new\n")⟩] }

theorem inPlace_answers : inPlaceTest.Answers inPlaceWorld := by
  intro o ho v
  simp only [inPlaceTest, ToolTest.new, OutSpec.default, List.mem_cons, List.not_mem_nil, or_false] at ho
  rcases ho with rfl | rfl | rfl
  · exact ⟨_, empty_expects _ v⟩
  · exact ⟨_, empty_expects _ v⟩
  · exact ⟨_, exact_expects _ _ v⟩

/-- A file that is input and output is deleted before it is looked at. -/
theorem C162_refuted : ¬ C162_statement := by
  intro h
  have ho : inPlaceWorld.exec (inPlaceWorld.words inPlaceTest.cmd) inPlaceTest.stdin (prepared inPlaceTest []) =
      some ⟨some 0, [], [], [(ascii "f", ascii "new\n"), (ascii "stdin", [])]⟩ := by rfl
  obtain ⟨d', hd'⟩ := (h inPlaceWorld inPlaceTest [] _ rfl inPlace_answers ho).2 (by
    refine ⟨⟨rfl, empty_expects _ _, empty_expects _ _, ?_⟩, ?_, ?_⟩
    · intro x hx
      simp only [inPlaceTest, List.mem_cons, List.not_mem_nil, or_false] at hx
      subst hx
      exact ⟨ascii "new\n", by decide +kernel, by
        have e : inPlaceWorld.unpack (ascii "new\n") = ascii "new\n" := by decide +kernel
        rw [e, exact_expects]; rfl⟩
    · have : ∀ n ∈ inPlaceTest.inputs, (Dir.get [(ascii "f", ascii "new\n"), (ascii "stdin", [])] n).isSome = true := by decide +kernel
      intro n hn
      exact Option.isSome_iff_exists.1 (this n hn)
    · decide +kernel)
  have : inPlaceTest.run inPlaceWorld [] = .ok ([], none) := by rfl
  rw [this] at hd'
  injection hd' with hd'
  injection hd' with _ hd'
  exact absurd hd' (by simp)

/-- The same with the output in another file. -/
def copyWorld : ToolEnv := toolWorld false fun _ _ d => some ⟨some 0, [], [], d.set (ascii "g") (ascii "new\n")⟩

def copyTest : ToolTest :=
  { ToolTest.new with cmd := ascii "edit", inFiles := [(ascii "f", ascii "old\n")], outFiles := [⟨ascii "g", ascii "new\n", exactMatcher (ascii "new\n")⟩] }

example : (copyTest.inputs ++ copyTest.outputs).Nodup ∧ copyTest.run copyWorld [] = .ok ([], some true) := by
  refine ⟨by decide +kernel, by rfl⟩

theorem dir_get_set (d : Dir) (n c m : Bytes) : (d.set n c).get m = if m = n then some c else d.get m := by
  unfold Dir.set
  by_cases hm : m = n
  · subst hm; simp [Dir.get]
  · rw [if_neg hm]
    have h1 : Dir.get ((n, c) :: d.filter fun x => x.1 != n) m = Dir.get (d.filter fun x => x.1 != n) m := by
      simp [Dir.get, List.find?_cons, beq_eq_false_iff_ne.2 (Ne.symm hm)]
    rw [h1, dir_get_del d (fun x => x != n) m, if_pos (by simpa using hm)]

/-- C162: in an empty directory, the program finds the input files, with their contents, and the standard input, and nothing else. -/
theorem C162_prepared (t : ToolTest) (hn : t.inputs.Nodup) (n c : Bytes) :
    (prepared t []).get n = some c ↔ (n, c) ∈ (ascii "stdin", t.stdin) :: t.inFiles := by
  unfold prepared
  obtain ⟨h1, h2⟩ := List.nodup_cons.1 hn
  rw [dir_get_set]
  have key : ∀ (fs : List (Bytes × Bytes)) (d : Dir), (fs.map (·.1)).Nodup → (∀ f ∈ fs, d.get f.1 = none) →
      ((fs.foldl (fun d x => d.put x.1 x.2) d).get n = some c ↔ (n, c) ∈ fs ∨ d.get n = some c) := by
    intro fs
    induction fs with
    | nil => intro d _ _; simp
    | cons f fs ih =>
      intro d hnd hd
      obtain ⟨h3, h4⟩ := List.nodup_cons.1 hnd
      have hput : d.put f.1 f.2 = d.set f.1 f.2 := by
        unfold Dir.put
        rw [hd f (by simp)]
        simp [overwrite]
      rw [List.foldl_cons, hput, ih _ h4 ?_, dir_get_set]
      · by_cases hx : n = f.1
        · subst hx
          rw [if_pos rfl]
          have : (f.1, c) ∉ fs := fun hm => h3 (List.mem_map.2 ⟨_, hm, rfl⟩)
          rw [List.mem_cons, hd f (by simp)]
          simp only [this, false_or, Option.some.injEq, or_false]
          constructor
          · intro e; rw [← e]; simp
          · intro h
            rcases h with h | h
            · rw [← h]
            · exact absurd h (by simp)
        · rw [if_neg hx, List.mem_cons]
          have : (n, c) ≠ f := fun e => hx (by rw [← e])
          simp [this]
      · intro g hg
        rw [dir_get_set, if_neg, hd g (by simp [hg])]
        intro e
        exact h3 (List.mem_map.2 ⟨g, hg, e⟩)
  by_cases hs : n = ascii "stdin"
  · subst hs
    rw [if_pos rfl, List.mem_cons]
    have : (ascii "stdin", c) ∉ t.inFiles := fun hm => h1 (List.mem_map.2 ⟨_, hm, rfl⟩)
    simp [this, eq_comm]
  · rw [if_neg hs, key t.inFiles [] h2 (by intros; rfl), List.mem_cons]
    simp [hs, Dir.get]

/-- C162 with `--tmp`: nothing is deleted, and nothing left over or missing counts. -/
theorem C162_keep (e : ToolEnv) (t : ToolTest) (d : Dir) (o : Ran) (hk : e.keep = true) (ha : t.Answers e)
    (ho : e.exec (e.words t.cmd) t.stdin (prepared t d) = some o) :
    ∃ b, t.run e d = .ok ((o.dir.put (ascii "stdout") o.stdout).put (ascii "stderr") o.stderr, some b) ∧ (b = true ↔ AsWanted e t o) := by
  rw [run_check e t d o ho]
  obtain ⟨bo, hbo⟩ := ha t.stdout (by simp) o.stdout
  obtain ⟨be, hbe⟩ := ha t.stderr (by simp) o.stderr
  have hin : ∀ ns names, ∃ names', nukeAll true ns names o.dir = .ok (names', o.dir) := by
    intro ns
    induction ns with
    | nil => intro names; exact ⟨names, rfl⟩
    | cons n ns ih => intro names; exact ih _
  have hout : ∀ xs : List OutSpec, (∀ x ∈ xs, x ∈ t.outFiles) → ∀ failed names, ∃ f names', outLoop e xs failed names o.dir = .ok (.ok (f, names', o.dir)) ∧
      (f = false ↔ failed = false ∧ ∀ x ∈ xs, ∃ b, o.dir.get x.name = some b ∧ x.matcher.doMatchSafe e.env (e.unpack b) = .ok true) := by
    intro xs
    induction xs with
    | nil => intro _ failed names; exact ⟨failed, names, rfl, by simp⟩
    | cons x xs ih =>
      intro hx failed names
      obtain ⟨bad, hb, hs⟩ := outLoop_step e x xs failed names o.dir (ha x (by simp [hx x (by simp)]))
      obtain ⟨f, names', h1, h2⟩ := ih (fun y hy => hx y (by simp [hy])) (failed || bad) (names.filter fun z => z != x.name)
      refine ⟨f, names', ?_, ?_⟩
      · rw [hs, hk]; exact h1
      · rw [h2, Bool.or_eq_false_iff, hb, and_assoc, List.forall_mem_cons]
  obtain ⟨names', hn⟩ := hin (ascii "stdin" :: t.inFiles.map (·.1)) (o.dir.map (·.1))
  obtain ⟨f, names'', h1, h2⟩ := hout t.outFiles (fun _ h => h) (decide (o.code ≠ some t.code) || !be || !bo) names'
  unfold ToolTest.check
  rw [hk, hn]
  simp only [hbe, hbo, Res.bind_ok, h1, if_true]
  refine ⟨!f, rfl, ?_⟩
  rw [Bool.not_eq_true', h2, Bool.or_eq_false_iff, Bool.or_eq_false_iff,
        decide_eq_false_iff_not, Decidable.not_not, Bool.not_eq_false', Bool.not_eq_false']
  constructor
  · rintro ⟨⟨⟨c1, c2⟩, c3⟩, c4⟩
    exact ⟨c1, by rw [hbo, c3], by rw [hbe, c2], c4⟩
  · rintro ⟨c1, c2, c3, c4⟩
    rw [hbo] at c2
    rw [hbe] at c3
    injection c2 with c2
    injection c3 with c3
    exact ⟨⟨⟨c1, c3⟩, c2⟩, c4⟩

example : copyTest.run { copyWorld with keep := true } [] =
    .ok ([(ascii "stderr", []), (ascii "stdout", []), (ascii "g", ascii "new\n"), (ascii "stdin", []), (ascii "f", ascii "old\n")], some true) := by
  rfl

/-! ## C163: tests after one another -/

/-- The test file passes in the directory. -/
def Passes (e : ToolEnv) (d : Dir) (text : Bytes) : Prop := ∃ t d', ToolTest.open e.env text = .ok t ∧ t.run e d = .ok (d', some true)

/-- C163 in full: the tests before have no effect on the result. -/
def C163_statement : Prop :=
  ∀ (e : ToolEnv) (texts : List Bytes) (text : Bytes) (s : Nat × Nat × Dir), e.keep = false → runTests e (0, 0, []) texts = .ok s →
    (Passes e s.2.2 text ↔ Passes e [] text)

/-- The first program makes only the second of two files; the other does nothing. -/
def leakWorld : ToolEnv := toolWorld false fun ws _ d =>
  some ⟨some 0, [], [], if ws = [ascii "./make"] then d.set (ascii "two") [] else d⟩

/-- After the missing file, the test is given up and the other file stays in the directory. -/
theorem C163_refuted : ¬ C163_statement := by
  intro h
  have h1 : runTests leakWorld (0, 0, []) [ascii "#command make\n#outfile one\n#outfile two\n"] = .ok (0, 1, [(ascii "two", [])]) := by
    decide +kernel
  have h2 := (h leakWorld _ (ascii "#command true\n") _ rfl h1).2 ⟨{ ToolTest.new with cmd := ascii "true" }, [], by rfl, by rfl⟩
  obtain ⟨t, d', h3, h4⟩ := h2
  have h5 : ToolTest.open leakWorld.env (ascii "#command true\n") = .ok { ToolTest.new with cmd := ascii "true" } := by rfl
  rw [h5] at h3
  injection h3 with h3
  subst h3
  have h6 : ToolTest.run leakWorld { ToolTest.new with cmd := ascii "true" } [(ascii "two", [])] = .ok ([], some false) := by rfl
  have h4 : ToolTest.run leakWorld { ToolTest.new with cmd := ascii "true" } [(ascii "two", [])] = .ok (d', some true) := h4
  rw [h6] at h4
  injection h4 with h4
  injection h4 with _ h4
  exact absurd h4 (by simp)

theorem nuke_names (n : Bytes) (d d' : Dir) (names : List Bytes) (h : nuke false (d.map (·.1)) n d = (names, some d')) : names = d'.map (·.1) := by
  simp only [nuke, Dir.del, Bool.false_eq_true, if_false, Prod.mk.injEq] at h
  obtain ⟨h1, h2⟩ := h
  split at h2
  · injection h2 with h2
    rw [← h1, ← h2, List.filter_map]
    rfl
  · exact absurd h2 (by simp)

theorem nukeAll_names (ns : List Bytes) (d d' : Dir) (names : List Bytes) (h : nukeAll false ns (d.map (·.1)) d = .ok (names, d')) :
    names = d'.map (·.1) := by
  induction ns generalizing d with
  | nil =>
    simp only [nukeAll, Except.ok.injEq, Prod.mk.injEq] at h
    rw [← h.1, ← h.2]
  | cons n ns ih =>
    rw [nukeAll] at h
    split at h
    · exact absurd h (by simp)
    · rename_i names1 d1 h1
      rw [nuke_names n d d1 names1 h1] at h
      exact ih d1 h

theorem outLoop_names (e : ToolEnv) (hk : e.keep = false) (xs : List OutSpec) (f f' : Bool) (d d' : Dir) (names : List Bytes)
    (h : outLoop e xs f (d.map (·.1)) d = .ok (.ok (f', names, d'))) : names = d'.map (·.1) := by
  induction xs generalizing d f with
  | nil =>
    simp only [outLoop, Res.ok.injEq, Except.ok.injEq, Prod.mk.injEq] at h
    rw [← h.2.1, ← h.2.2]
  | cons x xs ih =>
    rw [outLoop] at h
    obtain ⟨bad, -, h⟩ := Res.bind_eq_ok h
    rw [hk] at h
    split at h
    · exact absurd h (by simp)
    · rename_i names1 d1 h1
      rw [nuke_names x.name d d1 names1 h1] at h
      exact ih _ d1 h

/-- A test that comes to a result leaves nothing behind. -/
theorem C163_clean (e : ToolEnv) (hk : e.keep = false) (t : ToolTest) (d d' : Dir) (b : Bool) (h : t.run e d = .ok (d', some b)) : d' = [] := by
  unfold ToolTest.run at h
  simp only at h
  split at h
  · injection h with h
    injection h with _ h
    exact absurd h (by simp)
  · rename_i o _
    unfold ToolTest.check at h
    split at h
    · injection h with h
      injection h with _ h
      exact absurd h (by simp)
    · rename_i names d1 h1
      rw [hk] at h1
      have h1 := nukeAll_names _ _ _ _ h1
      subst h1
      obtain ⟨be, -, h⟩ := Res.bind_eq_ok h
      obtain ⟨bo, -, h⟩ := Res.bind_eq_ok h
      obtain ⟨r, h2, h⟩ := Res.bind_eq_ok h
      split at h
      · injection h with h
        injection h with _ h
        exact absurd h (by simp)
      · rename_i failed names2 d2
        have h2 := outLoop_names e hk _ _ _ _ _ _ h2
        subst h2
        simp only [hk, Bool.false_eq_true, if_false, Res.ok.injEq, Prod.mk.injEq] at h
        rw [← h.1]
        refine List.filter_eq_nil_iff.2 fun x hx => ?_
        simp only [Bool.not_eq_true', Bool.not_eq_false, List.contains_iff_mem]
        exact List.mem_map.2 ⟨x, hx, rfl⟩

/-- C163 if every test before came to a result, pass or fail. Missing from the full statement: a test given up because of a missing
file. -/
theorem C163_alone_partial (e : ToolEnv) (hk : e.keep = false) (texts : List Bytes)
    (h : ∀ x ∈ texts, ∀ t, ToolTest.open e.env x = .ok t → ∃ d' b, t.run e [] = .ok (d', some b))
    (p f : Nat) (s : Nat × Nat × Dir) (hs : runTests e (p, f, []) texts = .ok s) (text : Bytes) : Passes e s.2.2 text ↔ Passes e [] text := by
  have : s.2.2 = [] := by
    induction texts generalizing p f with
    | nil =>
      simp only [runTests, Res.ok.injEq] at hs
      rw [← hs]
    | cons x texts ih =>
      rw [runTests] at hs
      obtain ⟨s1, h1, hs⟩ := Res.bind_eq_ok hs
      have : s1.2.2 = [] := by
        unfold runOne at h1
        split at h1
        · exact absurd h1 (by simp)
        · injection h1 with h1
          rw [← h1]
        · rename_i t ht
          obtain ⟨d', b, hr⟩ := h x (by simp) t ht
          have hd := C163_clean e hk t [] d' b hr
          subst hd
          simp only [hr, Res.bind_ok] at h1
          split at h1
          · injection h1 with h1
            rw [← h1]
          · injection h1 with h1
            rw [← h1]
      obtain ⟨p1, f1, d1⟩ := s1
      subst this
      exact ih (fun x hx => h x (by simp [hx])) p1 f1 hs
  rw [this]

example : ∃ s, runTests leakWorld (0, 0, []) [ascii "#command make\n#outfile two\n", ascii "#command make\n"] = .ok s ∧ s = (1, 1, []) := by
  exact ⟨_, by decide +kernel, rfl⟩

/-- When a test comes to a result, and when it is given up: all its files must be there. -/
theorem C163_verdict (e : ToolEnv) (t : ToolTest) (d : Dir) (o : Ran) (hk : e.keep = false) (ha : t.Answers e)
    (hn : (t.inputs ++ t.outputs).Nodup) (ho : e.exec (e.words t.cmd) t.stdin (prepared t d) = some o) :
    (∃ d' b, t.run e d = .ok (d', some b)) ↔ ∀ n ∈ t.inputs ++ t.outputs, ∃ b, o.dir.get n = some b := by
  rw [run_check e t d o ho]
  obtain ⟨h1, h2⟩ := check_spec e t o hk ha hn
  constructor
  · rintro ⟨d', b, hr⟩ m hm
    cases hg : o.dir.get m with
    | none =>
      obtain ⟨d'', hd⟩ := h2 ⟨m, hm, hg⟩
      rw [hd] at hr
      injection hr with hr
      injection hr with _ hr
      exact absurd hr (by simp)
    | some b => exact ⟨b, rfl⟩
  · intro h
    obtain ⟨b, hb, -⟩ := h1 h
    exact ⟨[], b, hb⟩

/-! ## C164: the report -/

/-- The results of tests after one another. -/
inductive Verdicts (e : ToolEnv) : Dir → List Bytes → List Bool → Prop
  | done (d : Dir) : Verdicts e d [] []
  | bad (d : Dir) (x : Bytes) (xs : List Bytes) (vs : List Bool) : ToolTest.open e.env x = .err → Verdicts e d xs vs → Verdicts e d (x :: xs) (false :: vs)
  | run (d d' : Dir) (x : Bytes) (xs : List Bytes) (vs : List Bool) (t : ToolTest) (r : Option Bool) : ToolTest.open e.env x = .ok t →
      t.run e d = .ok (d', r) → Verdicts e d' xs vs → Verdicts e d (x :: xs) (decide (r = some true) :: vs)

/-- C164: the report counts all tests, those passed and those failed, and the command succeeds if and only if all passed. -/
theorem C164_report (e : ToolEnv) (d : Dir) (texts : List Bytes) (out : Bytes) (ok : Bool) (h : toolTestMain e d texts = .ok (out, ok)) :
    ∃ vs, Verdicts e d texts vs ∧ vs.length = texts.length ∧
      out = decText texts.length ++ ascii " test run, " ++ decText (vs.count true) ++ ascii " pass, " ++ decText (vs.count false) ++ ascii " failed\n" ∧
      (ok = true ↔ ∀ v ∈ vs, v = true) := by
  have key : ∀ (texts : List Bytes) (p f : Nat) (d : Dir) (s : Nat × Nat × Dir), runTests e (p, f, d) texts = .ok s →
      ∃ vs, Verdicts e d texts vs ∧ vs.length = texts.length ∧ s.1 = p + vs.count true ∧ s.2.1 = f + vs.count false := by
    intro texts
    induction texts with
    | nil =>
      intro p f d s h
      injection h with h
      exact ⟨[], .done d, rfl, by rw [← h]; rfl, by rw [← h]; rfl⟩
    | cons x texts ih =>
      intro p f d s h
      rw [runTests] at h
      obtain ⟨⟨p1, f1, d1⟩, h1, h2⟩ := Res.bind_eq_ok h
      obtain ⟨vs, v1, v2, v3, v4⟩ := ih p1 f1 d1 s h2
      unfold runOne at h1
      split at h1
      · exact absurd h1 (by simp)
      · rename_i ho
        simp only [Res.ok.injEq, Prod.mk.injEq] at h1
        obtain ⟨e1, e2, e3⟩ := h1
        subst e1; subst e2; subst e3
        refine ⟨false :: vs, .bad _ x texts vs ho v1, by simp [v2], by simp [v3], by simp [v4]; omega⟩
      · rename_i t ho
        obtain ⟨⟨d2, r⟩, hr, h1⟩ := Res.bind_eq_ok h1
        split at h1
        · rename_i hp
          have hp : r = some true := hp
          simp only [Res.ok.injEq, Prod.mk.injEq] at h1
          obtain ⟨e1, e2, e3⟩ := h1
          subst e1; subst e2; subst e3
          have := Verdicts.run d d2 x texts vs t r ho hr v1
          subst hp
          exact ⟨true :: vs, by simpa using this, by simp [v2], by simp [v3]; omega, by simp [v4]⟩
        · rename_i hp
          have hp : ¬ r = some true := hp
          simp only [Res.ok.injEq, Prod.mk.injEq] at h1
          obtain ⟨e1, e2, e3⟩ := h1
          subst e1; subst e2; subst e3
          have := Verdicts.run d d2 x texts vs t r ho hr v1
          rw [decide_eq_false hp] at this
          exact ⟨false :: vs, this, by simp [v2], by simp [v3], by simp [v4]; omega⟩
  unfold toolTestMain at h
  obtain ⟨s, h1, h2⟩ := Res.bind_eq_ok h
  obtain ⟨vs, v1, v2, v3, v4⟩ := key texts 0 0 d s h1
  simp only [report, Res.ok.injEq, Prod.mk.injEq] at h2
  obtain ⟨h2, h3⟩ := h2
  rw [Nat.zero_add] at v3 v4
  have hlen : vs.count true + vs.count false = texts.length := by
    rw [← v2]
    clear v1 v2 v3 v4
    induction vs with
    | nil => rfl
    | cons v vs ih => cases v <;> simp <;> omega
  refine ⟨vs, v1, v2, ?_, ?_⟩
  · rw [← h2, v3, v4, hlen]
  · rw [← h3, v4, decide_eq_true_eq, List.count_eq_zero]
    constructor
    · intro hc v hv
      cases v with
      | true => rfl
      | false => exact absurd hv hc
    · intro hc hf
      exact absurd (hc false hf) (by simp)

example : toolTestMain leakWorld [] [ascii "#command make\n#outfile two\n", ascii "#command make\n", ascii "bad"] =
    .ok (ascii "3 test run, 1 pass, 2 failed\n", false) := by decide +kernel

/-! ## C165: the words of the command -/

/-- A piece of a word: a text, or `$TMP`. -/
inductive WordPiece
  | lit (b : Bytes)
  | tmp

def WordPiece.text : WordPiece → Bytes
  | .lit b => b
  | .tmp => ascii "$TMP"

def WordPiece.value (dir : Bytes) : WordPiece → Bytes
  | .lit b => b
  | .tmp => dir

/-- A text without white space and dollar signs. -/
def WordPiece.Plain : WordPiece → Prop
  | .lit b => ∀ c ∈ b, 32 < c ∧ c ≠ 36
  | .tmp => True

/-- Words with white space after each but the last. -/
inductive Spaced : List Bytes → Bytes → Prop
  | one (w : Bytes) : Spaced [w] w
  | more (w : Bytes) (ws : List Bytes) (gap text : Bytes) : gap ≠ [] → (∀ c ∈ gap, c ≤ 32) → Spaced ws text → Spaced (w :: ws) (w ++ (gap ++ text))

/-- C165 in full: the program gets the words of the command, with the directory in place of `$TMP`. -/
def C165_statement : Prop :=
  ∀ (e : ToolEnv) (ws : List (List WordPiece)) (cmd : Bytes), (∀ b, e.env.str.lossy b = b) → (∀ c ∈ e.dirName, 32 < c) →
    (∀ w ∈ ws, ∀ p ∈ w, p.Plain) → (∀ w ∈ ws, w.flatMap WordPiece.text ≠ []) → Spaced (ws.map fun w => w.flatMap WordPiece.text) cmd →
    ∃ w us, ws.map (fun w => w.flatMap (WordPiece.value e.dirName)) = w :: us ∧ e.words cmd = (e.binDir ++ w) :: us

/-- Two spaces make an empty word. -/
theorem C165_refuted : ¬ C165_statement := by
  intro h
  have := h leakWorld [[.lit [97]], [.lit [98]]] [97, 32, 32, 98] (fun _ => rfl) (by decide +kernel)
    (by
      intro w hw p hp
      simp only [List.mem_cons, List.not_mem_nil, or_false] at hw
      rcases hw with rfl | rfl
      · simp only [List.mem_cons, List.not_mem_nil, or_false] at hp
        subst hp
        intro c hc
        simp only [List.mem_cons, List.not_mem_nil, or_false] at hc
        subst hc
        decide
      · simp only [List.mem_cons, List.not_mem_nil, or_false] at hp
        subst hp
        intro c hc
        simp only [List.mem_cons, List.not_mem_nil, or_false] at hc
        subst hc
        decide)
    (by decide) (.more [97] [[98]] [32, 32] [98] (by decide) (by decide) (.one _))
  obtain ⟨w, us, h1, h2⟩ := this
  have h3 : leakWorld.words [97, 32, 32, 98] = [ascii "./a", [], [98]] := by decide +kernel
  rw [h3] at h2
  injection h1 with h1 h1'
  injection h2 with h2 h2'
  rw [← h1'] at h2'
  exact absurd h2' (by decide)

/-- Words with one byte of white space after each but the last. -/
inductive OneSpaced : List Bytes → Bytes → Prop
  | one (w : Bytes) : OneSpaced [w] w
  | more (w : Bytes) (ws : List Bytes) (gap : UInt8) (text : Bytes) : gap ≤ 32 → OneSpaced ws text → OneSpaced (w :: ws) (w ++ gap :: text)

theorem replaceText_lit (dir : Bytes) (c : UInt8) (cs : Bytes) (f : Nat) (h : c ≠ 36) :
    replaceText (ascii "$TMP") dir (f + 1) (c :: cs) = c :: replaceText (ascii "$TMP") dir f cs := by
  have : startsWith (c :: cs) (ascii "$TMP") = false := by
    have e : ascii "$TMP" = [36, 84, 77, 80] := by decide +kernel
    simp [startsWith, e, h]
  simp [replaceText, this]

theorem replaceText_tmp (dir cs : Bytes) (f : Nat) :
    replaceText (ascii "$TMP") dir (f + 1) (ascii "$TMP" ++ cs) = dir ++ replaceText (ascii "$TMP") dir f cs := by
  have e : ascii "$TMP" = [36, 84, 77, 80] := by decide +kernel
  rw [e]
  simp [replaceText, startsWith]

theorem replaceText_pieces (dir : Bytes) (ps : List WordPiece) (h : ∀ p ∈ ps, p.Plain) (rest : Bytes) (f : Nat)
    (hf : (ps.flatMap WordPiece.text ++ rest).length < f) :
    ∃ f', rest.length < f' ∧ replaceText (ascii "$TMP") dir f (ps.flatMap WordPiece.text ++ rest) =
      ps.flatMap (WordPiece.value dir) ++ replaceText (ascii "$TMP") dir f' rest := by
  have lit : ∀ (b : Bytes), (∀ c ∈ b, c ≠ 36) → ∀ (r : Bytes) (f : Nat), (b ++ r).length < f →
      ∃ f', r.length < f' ∧ replaceText (ascii "$TMP") dir f (b ++ r) = b ++ replaceText (ascii "$TMP") dir f' r := by
    intro b
    induction b with
    | nil => intro _ r f hf; exact ⟨f, hf, rfl⟩
    | cons c cs ih =>
      intro hb r f hf
      obtain ⟨k, rfl⟩ : ∃ k, f = k + 1 := ⟨f - 1, by omega⟩
      obtain ⟨f', h1, h2⟩ := ih (fun c hc => hb c (by simp [hc])) r k (by simp only [List.cons_append, List.length_cons] at hf; omega)
      exact ⟨f', h1, by rw [List.cons_append, replaceText_lit dir c _ k (hb c (by simp)), h2]; rfl⟩
  induction ps generalizing f with
  | nil => exact ⟨f, hf, rfl⟩
  | cons p ps ih =>
    rw [List.flatMap_cons, List.append_assoc] at hf ⊢
    have ih := ih fun p hp => h p (by simp [hp])
    cases p with
    | lit b =>
      obtain ⟨f1, h1, h2⟩ := lit b (fun c hc => (h (.lit b) (by simp) c hc).2) _ f hf
      obtain ⟨f2, h3, h4⟩ := ih f1 h1
      refine ⟨f2, h3, ?_⟩
      show replaceText _ _ _ (b ++ _) = _
      rw [h2, h4]
      simp [WordPiece.value]
    | tmp =>
      obtain ⟨k, rfl⟩ : ∃ k, f = k + 1 := ⟨f - 1, by omega⟩
      have : (WordPiece.text .tmp).length = 4 := by decide +kernel
      obtain ⟨f2, h3, h4⟩ := ih k (by rw [List.length_append, this] at hf; omega)
      refine ⟨f2, h3, ?_⟩
      show replaceText _ _ _ (ascii "$TMP" ++ _) = _
      rw [replaceText_tmp, h4]
      simp [WordPiece.value]

theorem replaceText_joined (dir : Bytes) (ws : List (List WordPiece)) (hp : ∀ w ∈ ws, ∀ p ∈ w, p.Plain) (cmd : Bytes) (f : Nat)
    (hf : cmd.length < f) (h : OneSpaced (ws.map fun w => w.flatMap WordPiece.text) cmd) :
    OneSpaced (ws.map fun w => w.flatMap (WordPiece.value dir)) (replaceText (ascii "$TMP") dir f cmd) := by
  induction ws generalizing cmd f with
  | nil => cases h
  | cons w ws ih =>
    have hw := hp w (by simp)
    have ih := ih fun w hw => hp w (by simp [hw])
    generalize hl : (w :: ws).map (fun w => w.flatMap WordPiece.text) = l at h
    cases h with
    | one v =>
      cases ws with
      | cons _ _ => simp at hl
      | nil =>
        simp only [List.map_cons, List.map_nil, List.cons.injEq, and_true] at hl
        subst hl
        obtain ⟨f', h1, h2⟩ := replaceText_pieces dir w hw [] f (by simpa using hf)
        rw [List.append_nil] at h2
        rw [h2]
        have : replaceText (ascii "$TMP") dir f' [] = [] := by cases f' <;> rfl
        rw [this, List.append_nil]
        exact .one _
    | more v vs gap text hg hj =>
      simp only [List.map_cons, List.cons.injEq] at hl
      obtain ⟨rfl, rfl⟩ := hl
      obtain ⟨f', h1, h2⟩ := replaceText_pieces dir w hw (gap :: text) f hf
      rw [h2]
      obtain ⟨k, rfl⟩ : ∃ k, f' = k + 1 := ⟨f' - 1, by omega⟩
      rw [replaceText_lit dir gap text k (by rintro rfl; exact absurd hg (by decide))]
      exact .more _ _ _ _ hg (ih text k (by simp only [List.length_cons] at h1; omega) hj)

theorem splitWords_word (w : Bytes) (hw : ∀ c ∈ w, 32 < c) : splitWords w = [w] := by
  induction w with
  | nil => rfl
  | cons c cs ih =>
    rw [splitWords, if_neg (UInt8.not_le.2 (hw c (by simp))), ih fun c hc => hw c (by simp [hc])]

theorem splitWords_more (w : Bytes) (hw : ∀ c ∈ w, 32 < c) (gap : UInt8) (hg : gap ≤ 32) (text : Bytes) :
    splitWords (w ++ gap :: text) = w :: splitWords text := by
  induction w with
  | nil => rw [List.nil_append, splitWords, if_pos hg]
  | cons c cs ih =>
    rw [List.cons_append, splitWords, if_neg (UInt8.not_le.2 (hw c (by simp))), ih fun c hc => hw c (by simp [hc])]

theorem splitWords_joined (ws : List Bytes) (text : Bytes) (h : OneSpaced ws text) (hw : ∀ w ∈ ws, ∀ c ∈ w, 32 < c) : splitWords text = ws := by
  induction h with
  | one w => exact splitWords_word w (hw w (by simp))
  | more w ws gap text hg _ ih => rw [splitWords_more w (hw w (by simp)) gap hg, ih fun w h => hw w (by simp [h])]

/-- C165 for words with one byte of white space in between. Missing from the full statement: more white space, which makes empty words. -/
theorem C165_words_partial (e : ToolEnv) (ws : List (List WordPiece)) (cmd : Bytes) (hl : e.env.str.lossy cmd = cmd)
    (hd : ∀ c ∈ e.dirName, 32 < c) (hp : ∀ w ∈ ws, ∀ p ∈ w, p.Plain) (hj : OneSpaced (ws.map fun w => w.flatMap WordPiece.text) cmd) :
    ∃ w us, ws.map (fun w => w.flatMap (WordPiece.value e.dirName)) = w :: us ∧ e.words cmd = (e.binDir ++ w) :: us := by
  have h1 := replaceText_joined e.dirName ws hp cmd (cmd.length + 1) (by omega) hj
  have h2 := splitWords_joined _ _ h1 (by
    intro w hw c hc
    obtain ⟨x, hx, rfl⟩ := List.mem_map.1 hw
    obtain ⟨p, hpx, hcp⟩ := List.mem_flatMap.1 hc
    have := hp x hx p hpx
    cases p with
    | lit b => exact (this c hcp).1
    | tmp => exact hd c hcp)
  cases ws with
  | nil => cases hj
  | cons w ws =>
    refine ⟨_, _, List.map_cons, ?_⟩
    simp only [ToolEnv.words, hl, h2, List.map_cons]

example : leakWorld.words (ascii "cat -x $TMP/a b$TMP/c") = [ascii "./cat", ascii "-x", ascii "/t//a", ascii "b/t//c"] := by decide +kernel

end Cdx
