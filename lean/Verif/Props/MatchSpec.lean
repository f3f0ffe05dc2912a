import Verif.Props.Methods

/-!
C79 multi-patterns, C80 specifications of line matchers.
-/

namespace Cdx

/-! ## C79 -/

theorem modify_multi_none {f : MFlags} {x : Bytes} (h : (f.modify x).multi = none) :
    f.multi = none ∧ eqIgnoreCase x (ascii "and") = false ∧ eqIgnoreCase x (ascii "or") = false := by
  cases h1 : eqIgnoreCase x (ascii "and") with
  | true => rw [modify_and h1] at h; simp at h
  | false =>
    cases h2 : eqIgnoreCase x (ascii "or") with
    | true => rw [modify_or h2] at h; simp at h
    | false =>
      refine ⟨?_, rfl, rfl⟩
      unfold MFlags.modify at h
      simp only [h1, h2, Bool.false_eq_true, if_false] at h
      repeat' split at h
      all_goals exact h

theorem modify_multi {x : Bytes} (h1 : eqIgnoreCase x (ascii "and") = false) (h2 : eqIgnoreCase x (ascii "or") = false)
    (f : MFlags) (c : Option Combiner) : MFlags.modify { f with multi := c } x = { f.modify x with multi := c } := by
  unfold MFlags.modify
  simp only [h1, h2, Bool.false_eq_true, if_false]
  repeat' split
  all_goals rfl

theorem foldl_multi_none {ws : List Bytes} {f : MFlags} (h : (ws.foldl MFlags.modify f).multi = none) :
    f.multi = none ∧ ∀ c, ws.foldl MFlags.modify { f with multi := c } = { ws.foldl MFlags.modify f with multi := c } := by
  induction ws generalizing f with
  | nil => exact ⟨h, fun c => rfl⟩
  | cons w ws ih =>
    obtain ⟨h1, h2⟩ := ih (f := f.modify w) h
    obtain ⟨h3, h4, h5⟩ := modify_multi_none h1
    refine ⟨h3, fun c => ?_⟩
    rw [List.foldl_cons, modify_multi h4 h5, h2]
    rfl

theorem ofMethod_multi {word M M' : Bytes} {c : Combiner}
    (hw : ∀ x, eqIgnoreCase x word = true → ∀ f : MFlags, f.modify x = { f with multi := some c })
    (h : WordAdded word M M') (hm : (MFlags.ofMethod M).multi = none) :
    MFlags.ofMethod M' = { MFlags.ofMethod M with multi := some c } := by
  obtain ⟨l, r, x, h1, h2, hx⟩ := h
  rw [ofMethod_words, h1, List.foldl_append] at hm
  rw [ofMethod_words, ofMethod_words, h1, h2, List.foldl_append, List.foldl_cons, hw x hx,
    (foldl_multi_none hm).2, List.foldl_append]

/-- What a successful result satisfies. -/
def Res.Post {α : Type} (r : Res α) (P : α → Prop) : Prop := ∀ x, r = .ok x → P x

theorem Res.Post.ite {α : Type} {c : Prop} [Decidable c] {a b : Res α} {P : α → Prop} (h : a.Post P) (h' : b.Post P) :
    (if c then a else b).Post P := by
  split
  · exact h
  · exact h'

theorem Res.Post.bind {α β : Type} {r : Res β} {k : β → Res α} {P : α → Prop} (h : ∀ x, (k x).Post P) :
    (r.bind k).Post P := by
  intro x hx
  obtain ⟨a, _, h2⟩ := Res.bind_eq_ok hx
  exact h a x h2

theorem Res.Post.ok {α : Type} {x : α} {P : α → Prop} (h : P x) : (Res.ok x).Post P := by
  intro y hy
  injection hy with hy
  exact hy ▸ h

theorem Res.Post.err {α : Type} {P : α → Prop} : (Res.err : Res α).Post P := by
  intro y hy
  simp at hy

/-- The makers only ever turn `trim` and `empty` on. -/
theorem makeKind_flags (env : MEnv) (f : MFlags) (p : Bytes) :
    (makeKind env f p).Post fun r => r.1 = f ∨ r.1 = { f with trim := true, empty := true } := by
  unfold makeKind
  simp only
  repeat' refine Res.Post.ite ?_ ?_
  all_goals first
    | exact .err
    | exact .ok (.inl rfl)
    | exact .ok (.inr rfl)
    | exact .bind fun _ => .ok (.inl rfl)
    | exact .bind fun _ => .ite (.bind fun _ => .ok (.inl rfl)) (.ok (.inl rfl))

theorem modify_empty (f : MFlags) (x : Bytes) : (f.modify x).empty = f.empty := by
  unfold MFlags.modify
  repeat' split
  all_goals rfl

theorem ofMethod_empty (M : Bytes) : (MFlags.ofMethod M).empty = false := by
  rw [ofMethod_words]
  show (List.foldl MFlags.modify MFlags.default (methodWords M)).empty = false
  have : ∀ (ws : List Bytes) (f : MFlags), (ws.foldl MFlags.modify f).empty = f.empty := by
    intro ws
    induction ws with
    | nil => intro f; rfl
    | cons w ws ih => intro f; rw [List.foldl_cons, ih, modify_empty]
  rw [this]
  rfl

theorem apply_twice {f g : MFlags} {tr : Bytes → Bytes} (htr : ∀ s, tr (tr s) = tr s) (hfg : f.trim = true → g.trim = true)
    (t : Bytes → Res Bool) (v : Bytes) : g.apply tr t (if f.trim then tr v else v) = g.apply tr t v := by
  cases hf : f.trim with
  | false => rfl
  | true => simp only [MFlags.apply, hfg hf, if_true, htr]

theorem makeAll_ok (env : MEnv) (f : MFlags) (k : Bytes → MFlags × MKind) (ps : List Bytes)
    (h : ∀ p ∈ ps, makeKind env { f with multi := none } p = .ok (k p)) : makeAll env f ps = .ok (ps.map k) := by
  induction ps with
  | nil => rfl
  | cons p ps ih =>
    rw [makeAll, h p List.mem_cons_self, ih fun q hq => h q (List.mem_cons_of_mem _ hq)]
    rfl

theorem make2_one {env : MEnv} {M p : Bytes} {m : Matcher} (hm : (MFlags.ofMethod M).multi = none)
    (h : Matcher.make2 env M p = .ok m) :
    ∃ x, makeKind env (MFlags.ofMethod M) p = .ok x ∧ m = ⟨x.1, .one x.2⟩ := by
  unfold Matcher.make2 at h
  simp only [hm] at h
  obtain ⟨x, h1, h2⟩ := Res.bind_eq_ok h
  injection h2 with h2
  exact ⟨x, h1, h2.symm⟩

/-- The two words that make a multi-pattern. -/
def multiWords : List (Bytes × Combiner) := [(ascii "and", .and), (ascii "or", .or)]

theorem multi_doMatch (env : MEnv) (htr : ∀ s, env.str.trim (env.str.trim s) = env.str.trim s) {word : Bytes}
    {c : Combiner} (hwc : (word, c) ∈ multiWords) {M M' : Bytes} (h : WordAdded word M M')
    (hm : (MFlags.ofMethod M).multi = none) (d : UInt8) (ps : Bytes) (g : Bytes → Matcher)
    (hg : ∀ p ∈ sliceSplit d ps, Matcher.make2 env M p = .ok (g p)) :
    ∃ m', Matcher.make2 env M' (d :: ps) = .ok m' ∧
      ∀ v, m'.doMatch env v = c.loop ((sliceSplit d ps).map fun p => (g p).doMatch env v) := by
  have hM' : MFlags.ofMethod M' = { MFlags.ofMethod M with multi := some c } := by
    simp only [multiWords, List.mem_cons, Prod.mk.injEq, List.not_mem_nil, or_false] at hwc
    rcases hwc with ⟨rfl, rfl⟩ | ⟨rfl, rfl⟩
    · exact ofMethod_multi (fun x hx f => modify_and hx f) h hm
    · exact ofMethod_multi (fun x hx f => modify_or hx f) h hm
  generalize hf : MFlags.ofMethod M = f at *
  have hfe : f.empty = false := hf ▸ ofMethod_empty M
  have hk : ∃ k : Bytes → MFlags × MKind, ∀ p ∈ sliceSplit d ps, makeKind env f p = .ok (k p) ∧
      g p = ⟨(k p).1, .one (k p).2⟩ ∧ ((k p).1 = f ∨ (k p).1 = { f with trim := true, empty := true }) := by
    refine ⟨fun p => match makeKind env f p with
      | .ok x => x
      | _ => (f, .no), ?_⟩
    intro p hp
    obtain ⟨x, h1, h2⟩ := make2_one (by rw [hf]; exact hm) (hg p hp)
    rw [hf] at h1
    simp only [h1, true_and]
    exact ⟨h2, makeKind_flags env f p x h1⟩
  obtain ⟨k, hk⟩ := hk
  have hall : makeAll env { f with multi := some c } (sliceSplit d ps) = .ok ((sliceSplit d ps).map k) := by
    refine makeAll_ok _ _ _ _ fun p hp => ?_
    have e : ({ f with multi := none } : MFlags) = f := by rw [← hm]
    show makeKind env ({ f with multi := none } : MFlags) p = _
    rw [e]
    exact (hk p hp).1
  refine ⟨⟨{ f with multi := some c }, .many c ((sliceSplit d ps).map k)⟩, ?_, ?_⟩
  · unfold Matcher.make2
    simp only [hM', hall, Res.bind_ok]
  · intro v
    have hu : ∀ (tr : Bytes → Bytes) (t : MKind → Bytes → Res Bool), (∀ s, tr (tr s) = tr s) →
        MFlags.apply { f with multi := some c } tr
          (fun w => c.loop (((sliceSplit d ps).map k).map fun x => x.1.apply tr (t x.2) w)) v
        = c.loop ((sliceSplit d ps).map fun p => (k p).1.apply tr (t (k p).2) v) := by
      intro tr t htr
      unfold MFlags.apply
      simp only [hfe, Bool.false_and, Bool.false_eq_true, if_false]
      rw [List.map_map]
      congr 1
      refine List.map_congr_left fun p hp => ?_
      exact apply_twice htr (fun hft => by
        rcases (hk p hp).2.2 with h1 | h1
        · rw [h1]; exact hft
        · rw [h1]) _ _
    have hstr : ∀ p ∈ sliceSplit d ps, (k p).1.string = f.string := by
      intro p hp
      rcases (hk p hp).2.2 with h1 | h1 <;> rw [h1]
    have hmap : ((sliceSplit d ps).map fun p => (g p).doMatch env v) = (sliceSplit d ps).map fun p =>
        if f.string then (if env.str.valid v then (k p).1.apply env.str.trim ((k p).2.smatch env) v else .err)
        else (k p).1.apply trimw ((k p).2.umatch env) v := by
      refine List.map_congr_left fun p hp => ?_
      rw [(hk p hp).2.1]
      simp only [Matcher.doMatch, hstr p hp, Matcher.smatch, Matcher.umatch]
    rw [hmap]
    simp only [Matcher.doMatch, Matcher.smatch, Matcher.umatch]
    cases hs : f.string with
    | false =>
      simp only [Bool.false_eq_true, if_false]
      exact hu trimw (fun k => k.umatch env) trimw_trimw
    | true =>
      simp only [if_true]
      cases hv : env.str.valid v with
      | true =>
        simp only [if_true]
        exact hu env.str.trim (fun k => k.smatch env) htr
      | false =>
        simp only [Bool.false_eq_true, if_false]
        cases hsp : sliceSplit d ps with
        | nil => exact absurd hsp (sliceSplit_ne_nil d ps)
        | cons a l => cases c <;> rfl

/-- C79 in full. -/
def C79_statement : Prop :=
  ∀ (env : MEnv), (∀ s, env.str.trim (env.str.trim s) = env.str.trim s) →
  ∀ (M M' : Bytes), (MFlags.ofMethod M).multi = none → ∀ pattern,
    (WordAdded (ascii "and") M M' ∨ WordAdded (ascii "or") M M' → Matcher.make2 env M' pattern ≠ .panic) ∧
    ∀ (d : UInt8) (ps : Bytes) (g : Bytes → Matcher) (answer : Bytes → Bytes → Bool), pattern = d :: ps →
      (∀ p ∈ sliceSplit d ps, Matcher.make2 env M p = .ok (g p) ∧ ∀ v, (g p).doMatch env v = .ok (answer p v)) →
      (WordAdded (ascii "and") M M' → Decides env M' pattern fun v => ∀ p ∈ sliceSplit d ps, answer p v = true) ∧
      (WordAdded (ascii "or") M M' → Decides env M' pattern fun v => ∃ p ∈ sliceSplit d ps, answer p v = true)

/-- A method with `and` and no pattern panics. -/
theorem C79_refuted : ¬ C79_statement := by
  intro h
  refine (h MEnv.trivial trimw_trimw (ascii "exact") (ascii "exact.and") rfl []).1 (.inl ?_) rfl
  exact ⟨[ascii "exact"], [], ascii "and", by decide, by decide, by decide⟩

theorem doMatchSafe_of_doMatch {env : MEnv} {m : Matcher} {v : Bytes} {b : Bool} (h : m.doMatch env v = .ok b) :
    m.doMatchSafe env v = .ok b := by
  unfold Matcher.doMatch at h
  unfold Matcher.doMatchSafe
  split
  · rename_i hs
    rw [if_pos hs] at h
    split
    · rename_i hv
      rw [if_pos hv] at h
      exact h
    · rename_i hv
      rw [if_neg hv] at h
      simp at h
  · rename_i hs
    rw [if_neg hs] at h
    exact h

/-- With `and` (`or`) added to a method, the pattern is cut at each occurrence of its first character, and a value is
accepted if all (some) of the parts, used with the method alone, accept it. Missing from the full statement: an empty
pattern, which panics (`C79_refuted`). -/
theorem C79_multi_partial (env : MEnv) (htr : ∀ s, env.str.trim (env.str.trim s) = env.str.trim s) (M M' : Bytes)
    (hm : (MFlags.ofMethod M).multi = none) (d : UInt8) (ps : Bytes) (g : Bytes → Matcher)
    (answer : Bytes → Bytes → Bool)
    (hg : ∀ p ∈ sliceSplit d ps, Matcher.make2 env M p = .ok (g p) ∧ ∀ v, (g p).doMatch env v = .ok (answer p v)) :
    (WordAdded (ascii "and") M M' → Decides env M' (d :: ps) fun v => ∀ p ∈ sliceSplit d ps, answer p v = true) ∧
    (WordAdded (ascii "or") M M' → Decides env M' (d :: ps) fun v => ∃ p ∈ sliceSplit d ps, answer p v = true) := by
  have hmap : ∀ v, ((sliceSplit d ps).map fun p => (g p).doMatch env v) =
      ((sliceSplit d ps).map fun p => answer p v).map .ok := by
    intro v
    rw [List.map_map]
    exact List.map_congr_left fun p hp => (hg p hp).2 v
  constructor
  · intro h
    obtain ⟨m', h1, h2⟩ := multi_doMatch env htr (word := ascii "and") (c := .and) (by decide) h hm d ps g
      fun p hp => (hg p hp).1
    refine ⟨m', h1, fun v => ?_⟩
    have h3 := h2 v
    rw [hmap, Combiner.loop, andLoop_answers] at h3
    exact ⟨_, h3, doMatchSafe_of_doMatch h3, by simp⟩
  · intro h
    obtain ⟨m', h1, h2⟩ := multi_doMatch env htr (word := ascii "or") (c := .or) (by decide) h hm d ps g
      fun p hp => (hg p hp).1
    refine ⟨m', h1, fun v => ?_⟩
    have h3 := h2 v
    rw [hmap, Combiner.loop, orLoop_answers] at h3
    exact ⟨_, h3, doMatchSafe_of_doMatch h3, by simp⟩

example : WordAdded (ascii "or") (ascii "trim.prefix") (ascii "trim.or.prefix") ∧
    (MFlags.ofMethod (ascii "trim.prefix")).multi = none ∧ sliceSplit 47 (ascii "a/b") = [ascii "a", ascii "b"] ∧
    (∀ s, MEnv.trivial.str.trim (MEnv.trivial.str.trim s) = MEnv.trivial.str.trim s) :=
  ⟨⟨[ascii "trim"], [ascii "prefix"], ascii "or", by decide, by decide, by decide⟩, by decide, by decide, trimw_trimw⟩

/-! ## C80 -/

/-- The methods that are not matchers of texts. -/
def lineMethods : List Bytes := [ascii "expr", ascii "comp", ascii "count"]

/-- C80 in full: a specification of a line matcher tests one column, the whole line, or a set of columns with a
determiner, depending on what comes before the method. -/
def C80_statement : Prop :=
  ∀ (env : MEnv) (method pattern : Bytes) (m : Matcher), method ∉ lineMethods → 44 ∉ method →
    Matcher.make2 env method pattern = .ok m →
    (∀ c, isValidColumnName c = true → c ≠ [] →
      makeLine env (c ++ 44 :: method ++ 44 :: pattern) = .ok (.col m ⟨c, 0⟩)) ∧
    makeLine env (44 :: method ++ 44 :: pattern) = .ok (.whole m) ∧
    (∀ det d cols cs, Determiner.new det = .ok d → 44 ∉ det → ColumnSet.fromSpec env cols = .ok cs → 91 ∉ cols → 93 ∉ cols →
      makeLine env (91 :: det ++ 44 :: cols ++ 93 :: 44 :: method ++ 44 :: pattern) = .ok (.set m cs d))

theorem makeLine3_whole (env : MEnv) (method pattern : Bytes) (h : method ∉ lineMethods) :
    makeLine3 env [] method pattern = (Matcher.make2 env method pattern).bind fun m => .ok (.whole m) := by
  simp only [lineMethods, List.mem_cons, List.not_mem_nil, or_false, not_or] at h
  simp only [makeLine3, h, if_false]

theorem makeLine3_col (env : MEnv) (cols method pattern : Bytes) (h : method ∉ lineMethods)
    (hc : ∃ a t, cols = a :: t ∧ a ≠ 91) :
    makeLine3 env cols method pattern = (NamedCol.parse cols).bind fun c =>
      (Matcher.make2 env method pattern).bind fun m => .ok (.col m c.1) := by
  obtain ⟨a, t, rfl, ha⟩ := hc
  simp only [lineMethods, List.mem_cons, List.not_mem_nil, or_false, not_or] at h
  simp only [makeLine3, h, if_false]
  split
  · rename_i e; simp at e
  · rename_i e
    injection e with e _
    exact absurd e ha
  · rfl

theorem isAlpha_facts (a : UInt8) (h : isAlpha a = true) : a ≠ 91 ∧ a ≠ 44 ∧ a ≠ 93 ∧ isDigit a = false := by
  have := byte_forall (P := fun a => isAlpha a = true → a ≠ 91 ∧ a ≠ 44 ∧ a ≠ 93 ∧ isDigit a = false)
    (by decide +kernel) a
  exact this h

theorem isNameChar_facts (a : UInt8) (h : isNameChar a = true) : a ≠ 91 ∧ a ≠ 44 ∧ a ≠ 93 := by
  have := byte_forall (P := fun a => isNameChar a = true → a ≠ 91 ∧ a ≠ 44 ∧ a ≠ 93) (by decide +kernel) a
  exact this h

theorem validName_cases {c : Bytes} (h : isValidColumnName c = true) (hc : c ≠ []) :
    ∃ a t, c = a :: t ∧ isAlpha a = true ∧ ∀ x ∈ t, isNameChar x = true := by
  cases c with
  | nil => exact absurd rfl hc
  | cons a t =>
    simp only [isValidColumnName, getColName] at h
    cases ha : isAlpha a with
    | false => simp [ha] at h
    | true =>
      refine ⟨a, t, rfl, ha, ?_⟩
      simp only [ha, List.length_cons] at h
      have h2 : (t.takeWhile isNameChar).length = t.length := by
        rw [if_neg (by decide)] at h
        have h := of_decide_eq_true h
        omega
      have h3 : t.takeWhile isNameChar = t :=
        (List.takeWhile_prefix isNameChar).eq_of_length h2
      have h4 : ∀ l : Bytes, l.takeWhile isNameChar = l → ∀ x ∈ l, isNameChar x = true := by
        intro l
        induction l with
        | nil => simp
        | cons y l ih =>
          intro h5 x hx
          cases hy : isNameChar y with
          | false => simp [hy] at h5
          | true =>
            rw [List.takeWhile_cons_of_pos hy] at h5
            injection h5 with _ h5
            rcases List.mem_cons.1 hx with rfl | hx
            · exact hy
            · exact ih h5 x hx
      exact h4 t h3

theorem parse_name {c : Bytes} (h : isValidColumnName c = true) (hc : c ≠ []) (rest : Bytes)
    (hr : ∀ x, rest.head? = some x → isNameChar x = false) : NamedCol.parse (c ++ rest) = .ok (⟨c, 0⟩, rest) := by
  obtain ⟨a, t, rfl, ha, ht⟩ := validName_cases h hc
  have h1 : (t ++ rest).takeWhile isNameChar = t := by
    clear h hc
    induction t with
    | nil =>
      cases rest with
      | nil => rfl
      | cons x r => simp [hr x rfl]
    | cons y t ih =>
      rw [List.cons_append, List.takeWhile_cons_of_pos (ht y (by simp)), ih fun x hx => ht x (by simp [hx])]
  have h2 : getColName (a :: t ++ rest) = (a :: t).length := by
    simp only [List.cons_append, getColName, ha, Bool.true_eq_false, if_false, h1, List.length_cons]
    omega
  unfold NamedCol.parse
  rw [h2]
  simp only [List.cons_append, (isAlpha_facts a ha).2.2.2, Bool.false_eq_true, false_and, if_false, ha, if_true]
  simp

theorem validName_free {c : Bytes} (h : isValidColumnName c = true) (hc : c ≠ []) : 44 ∉ c ∧ 91 ∉ c ∧ 93 ∉ c := by
  obtain ⟨a, t, rfl, ha, ht⟩ := validName_cases h hc
  have h1 := isAlpha_facts a ha
  refine ⟨?_, ?_, ?_⟩
  all_goals
    intro hm
    rcases List.mem_cons.1 hm with e | hm
    · simp [← e] at h1
    · have := isNameChar_facts _ (ht _ hm)
      simp at this

/-- Specifications of one column and of the whole line are understood. Missing from the full statement: sets of columns,
which are never understood (`C80_set_lost`). -/
theorem C80_forms_partial (env : MEnv) (method pattern : Bytes) (m : Matcher) (hm : method ∉ lineMethods)
    (hc : 44 ∉ method) (hk : Matcher.make2 env method pattern = .ok m) :
    (∀ c, isValidColumnName c = true → c ≠ [] →
      makeLine env (c ++ 44 :: method ++ 44 :: pattern) = .ok (.col m ⟨c, 0⟩)) ∧
    makeLine env (44 :: method ++ 44 :: pattern) = .ok (.whole m) := by
  have h2 := splitOnce_some 44 method pattern hc
  constructor
  · intro c hv h0
    obtain ⟨a, t, hat, ha, -⟩ := validName_cases hv h0
    have h1 := splitOnce_some 44 c (method ++ 44 :: pattern) (validName_free hv h0).1
    have h3 := makeLine3_col env c method pattern hm ⟨a, t, hat, (isAlpha_facts a ha).1⟩
    have h4 := parse_name hv h0 [] (by simp)
    rw [List.append_nil] at h4
    rw [h4, hk] at h3
    rw [List.append_assoc, List.cons_append]
    unfold makeLine
    split
    · rename_i e
      rw [hat] at e
      injection e with e _
      exact absurd e (isAlpha_facts a ha).1
    · rw [h1]
      simp only [h2]
      exact h3
  · have h1 := splitOnce_some 44 [] (method ++ 44 :: pattern) (by simp)
    rw [List.nil_append] at h1
    unfold makeLine
    rw [List.cons_append]
    simp only [h1, h2]
    rw [makeLine3_whole env method pattern hm, hk]
    rfl

/-- The column-set form with any determiner is read as a test of the one column that is called like the determiner. The method is a
string, so it does not begin inside a character. -/
theorem C80_set_lost (env : MEnv) (method pattern det cols : Bytes) (m : Matcher) (hm : method ∉ lineMethods)
    (hc : 44 ∉ method) (hk : Matcher.make2 env method pattern = .ok m) (hd : isValidColumnName det = true)
    (h0 : det ≠ []) (h1 : 91 ∉ cols) (h2 : 93 ∉ cols) (hs : cutsChar method 0 = false) :
    makeLine env (91 :: det ++ 44 :: cols ++ 93 :: 44 :: method ++ 44 :: pattern) = .ok (.col m ⟨det, 0⟩) := by
  obtain ⟨a, t, hat, ha, -⟩ := validName_cases hd h0
  obtain ⟨f1, f2, f3⟩ := validName_free hd h0
  have hfree : ∀ (l : Bytes) (rest : Bytes) (i : Nat), 91 ∉ l → 93 ∉ l →
      findCloseLoop 91 93 (l ++ 93 :: rest) i 1 = some (i + l.length + 1) := by
    intro l
    induction l with
    | nil =>
      intro rest i _ _
      simp [findCloseLoop]
    | cons x l ih =>
      intro rest i g1 g2
      simp only [List.mem_cons, not_or] at g1 g2
      have e1 : x ≠ 91 := fun e => g1.1 e.symm
      have e2 : x ≠ 93 := fun e => g2.1 e.symm
      rw [List.cons_append, findCloseLoop]
      simp only [e1, e2, if_false]
      rw [if_neg (by decide), ih rest (i + 1) g1.2 g2.2]
      simp only [List.length_cons, Option.some.injEq]
      omega
  have hspec : 91 :: det ++ 44 :: cols ++ 93 :: 44 :: method ++ 44 :: pattern =
      91 :: ((det ++ 44 :: cols) ++ 93 :: (44 :: (method ++ 44 :: pattern))) := by simp
  have hb : 91 ∉ det ++ 44 :: cols ∧ 93 ∉ det ++ 44 :: cols := by
    constructor <;> simp [f2, f3, h1, h2]
  have hlen : findClose (91 :: ((det ++ 44 :: cols) ++ 93 :: (44 :: (method ++ 44 :: pattern)))) =
      some ((det ++ 44 :: cols).length + 2) := by
    simp only [findClose, closer, findCloseLoop]
    rw [if_neg (by decide)]
    refine (hfree _ _ 1 hb.1 hb.2).trans ?_
    simp only [Option.some.injEq]
    omega
  rw [hspec]
  unfold makeLine
  simp only [hlen]
  have hcut : cutsChar (91 :: ((det ++ 44 :: cols) ++ 93 :: (44 :: (method ++ 44 :: pattern)))) ((det ++ 44 :: cols).length + 2 + 1) = false := by
    unfold cutsChar at hs ⊢
    rw [List.getElem?_cons_succ, List.getElem?_append_right (by omega)]
    have : (det ++ 44 :: cols).length + 2 - (det ++ 44 :: cols).length = 2 := by omega
    rw [this]
    cases method with
    | nil => simp +decide
    | cons x xs => simpa using hs
  have hlong : ¬ (91 :: ((det ++ 44 :: cols) ++ 93 :: (44 :: (method ++ 44 :: pattern)))).length < (det ++ 44 :: cols).length + 2 + 1 := by
    simp only [List.length_cons, List.length_append]; omega
  rw [hcut, decide_eq_false hlong, Bool.or_false, if_neg (by decide)]
  have e1 : (91 :: ((det ++ 44 :: cols) ++ 93 :: (44 :: (method ++ 44 :: pattern)))).drop
      ((det ++ 44 :: cols).length + 2 + 1) = method ++ 44 :: pattern := by
    rw [List.drop_succ_cons, List.drop_append]
    simp
  have e2 : ((91 :: ((det ++ 44 :: cols) ++ 93 :: (44 :: (method ++ 44 :: pattern)))).take
      ((det ++ 44 :: cols).length + 2)).drop 1 = det ++ (44 :: cols ++ [93]) := by
    rw [List.take_succ_cons, List.drop_succ_cons, List.drop_zero, List.take_append,
      List.take_of_length_le (by omega)]
    simp
  rw [e1, e2, splitOnce_some 44 method pattern hc]
  simp only
  rw [makeLine3_col env _ method pattern hm ⟨a, t ++ (44 :: cols ++ [93]), by rw [hat]; rfl, (isAlpha_facts a ha).1⟩,
    parse_name hd h0 (44 :: cols ++ [93]) (by
      intro x hx
      simp at hx
      subst hx
      decide), hk]
  rfl

/-- `[all,a],exact,x` tests the column called `all`. -/
theorem C80_refuted : ¬ C80_statement := by
  intro h
  have h1 := (h MEnv.trivial (ascii "exact") (ascii "x") _ (by decide) (by decide) rfl).2.2 (ascii "all") .all (ascii "a") _
    (by decide) (by decide) rfl (by decide) (by decide)
  have h2 := C80_set_lost MEnv.trivial (ascii "exact") (ascii "x") (ascii "all") (ascii "a") _ (by decide) (by decide) rfl
    (by decide) (by decide) (by decide) (by decide) (by decide)
  rw [h2] at h1
  simp at h1

/-- Matching whole lines sees the line without its newline in a file without quoting. -/
theorem C80_whole_text (env : MEnv) (m : Matcher) (body : Bytes) :
    (LineTest.whole m).ok env (mergeLine (body ++ [NL])) =
      (m.lossyMatch env body).bind fun b => .ok (m.flags.negate ^^ b) := by
  have : (mergeLine (body ++ [NL])).lineNl = .ok body := by
    simp [mergeLine, TextLine.ofRaw, TextLine.split, TextLine.lineNl]
  simp only [LineTest.ok, this, Res.bind_ok]

/-- With backslash quoting the last character of the line is not seen, and an empty line panics. -/
theorem C80_whole_backslash :
    ((TextLine.ofRaw (ascii "ab\n")).split .backslash TAB).lineNl = .ok (ascii "a") ∧
    ((TextLine.ofRaw (ascii "\n")).split .backslash TAB).lineNl = .panic := by
  decide

example : isValidColumnName (ascii "all") = true ∧ ascii "exact" ∉ lineMethods ∧ 44 ∉ ascii "exact" ∧
    cutsChar (ascii "exact") 0 = false := by decide

end Cdx
