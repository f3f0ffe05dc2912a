import Verif.Props.Settings

/-!
Choosing the command, exit status, and texts of options: C122 to C126.
-/

namespace Cdx

/-! ## C122: the command and the status -/

/-- The program runs a command exactly when the first argument is its name, and passes it all other arguments, the name of
the program extended by that of the command. -/
theorem C122_choose (args : List Bytes) (n : String) (rest : List Bytes) :
    chooseMain args = .run n rest ↔ ∃ a0 c tail, c ∈ mainList ∧ n = c.name ∧ args = a0 :: ascii n :: tail ∧
      rest = (a0 ++ 32 :: ascii n) :: tail := by
  have hd : ∀ c ∈ mainList, ∀ c' ∈ mainList, ascii c.name = ascii c'.name → c.name = c'.name := by decide +kernel
  have hh : ∀ c ∈ mainList, ascii c.name ≠ ascii "help" ∧ ascii c.name ≠ ascii "--help" ∧ ascii c.name ≠ ascii "version" ∧
      ascii c.name ≠ ascii "--version" := by decide +kernel
  constructor
  · intro h
    unfold chooseMain at h
    split at h
    · rename_i a0 a1 tail
      split at h
      · cases h
      split at h
      · cases h
      cases hf : mainList.find? (fun x => decide (a1 = ascii x.name)) with
      | none => rw [hf] at h; cases h
      | some x =>
        rw [hf] at h
        have hx := List.mem_of_find?_eq_some hf
        have hp := List.find?_some hf
        simp only [decide_eq_true_eq] at hp
        cases h
        exact ⟨a0, x, tail, hx, rfl, by rw [hp], by rw [hp]; simp [SP]⟩
    · cases h
  · rintro ⟨a0, c, tail, hc, rfl, rfl, rfl⟩
    have hn := hh c hc
    simp only [chooseMain, hn.1, hn.2.1, hn.2.2.1, hn.2.2.2, or_self, if_false]
    cases hf : mainList.find? (fun x => decide (ascii c.name = ascii x.name)) with
    | none =>
      have := List.find?_eq_none.1 hf c hc
      simp at this
    | some x =>
      have hx := List.mem_of_find?_eq_some hf
      have hp := List.find?_some hf
      simp only [decide_eq_true_eq] at hp
      simp [hd c hc x hx hp, SP]

/-- The status is zero exactly if the command succeeded, was told to stop early without error, or nobody reads its output;
nothing is written about an error in these cases and if the command has done so. -/
theorem C122_status (r : Run Unit) :
    ((exitOf r).1 = 0 ↔ r = .ok () ∨ r = .fail .noError ∨ r = .fail .brokenPipe) ∧
      ((exitOf r).2 = false ↔ (exitOf r).1 = 0 ∨ r = .fail .silent) ∧ ((exitOf r).1 ≤ 1 ↔ r ≠ .panic) := by
  cases r with
  | ok a => cases a; decide
  | fail e => cases e <;> decide
  | panic => decide

/-- Without a command, and with an unknown one, the status is 1; asking for help or the version succeeds. -/
theorem C122_other (proc : String → List Bytes → Run Unit) (args : List Bytes) :
    (args.length < 2 → exitOf (innerMain proc args) = (1, false)) ∧
    (∀ a0 a1 rest, args = a0 :: a1 :: rest → (∀ c ∈ mainList, a1 ≠ ascii c.name) →
      exitOf (innerMain proc args) =
        (if a1 = ascii "help" ∨ a1 = ascii "--help" ∨ a1 = ascii "version" ∨ a1 = ascii "--version" then (0, false)
          else (1, false))) := by
  refine ⟨fun h => ?_, ?_⟩
  · match args, h with
    | [], _ => rfl
    | [a], _ => rfl
  · rintro a0 a1 rest rfl hn
    have hf : mainList.find? (fun x => decide (a1 = ascii x.name)) = none := by
      rw [List.find?_eq_none]
      intro c hc
      simpa using hn c hc
    by_cases h1 : a1 = ascii "help" ∨ a1 = ascii "--help"
    · have : chooseMain (a0 :: a1 :: rest) = .help := by simp only [chooseMain, h1, if_true]
      rw [if_pos (by rcases h1 with h | h <;> simp [h])]
      simp [innerMain, this, exitOf]
    · by_cases h2 : a1 = ascii "version" ∨ a1 = ascii "--version"
      · have : chooseMain (a0 :: a1 :: rest) = .version := by simp only [chooseMain, h1, h2, if_true, if_false]
        rw [if_pos (by rcases h2 with h | h <;> simp [h])]
        simp [innerMain, this, exitOf]
      · have : chooseMain (a0 :: a1 :: rest) = .unknown := by simp only [chooseMain, h1, h2, if_false, hf]
        rw [if_neg (by simp only [not_or] at h1 h2 ⊢; exact ⟨h1.1, h1.2, h2.1, h2.2⟩)]
        simp [innerMain, this, exitOf, suppress, silent]

/-- All commands can be reached. -/
theorem C122_all : mainList.length = 16 ∧ (mainList.map fun c => ascii c.name).Nodup := by decide +kernel

example : chooseMain [ascii "cdx", ascii "cut", ascii "-f", ascii "1"] = .run "cut" [ascii "cdx cut", ascii "-f", ascii "1"] := by
  decide +kernel

/-! ## C123: words -/

/-- The words for yes, no and maybe, in any case, and no others. -/
theorem C123_tri (x : Bytes) (t : Tri) : Tri.new x = .ok t ↔ (lower x, t) ∈ triWords := by
  have e : ∀ w : Bytes, lower w = w → eqIgnoreCase x w = decide (lower x = w) := by
    intro w hw
    rw [eqIgnore_lower x w hw]
    by_cases h : lower x = w <;> simp [h]
  unfold Tri.new
  rw [e _ (by decide +kernel), e _ (by decide +kernel), e _ (by decide +kernel), e _ (by decide +kernel), e _ (by decide +kernel),
    e _ (by decide +kernel), e _ (by decide +kernel), e _ (by decide +kernel), e _ (by decide +kernel), e _ (by decide +kernel)]
  generalize lower x = y
  simp only [Bool.or_eq_true, decide_eq_true_eq]
  constructor
  · intro h
    split at h
    · rename_i hh
      cases h
      rcases hh with ((rfl | rfl) | rfl) | rfl <;> decide +kernel
    split at h
    · rename_i hh
      cases h
      rcases hh with ((rfl | rfl) | rfl) | rfl <;> decide +kernel
    split at h
    · rename_i hh
      cases h
      rcases hh with rfl | rfl <;> decide +kernel
    · cases h
  · intro h
    simp only [triWords, List.mem_cons, Prod.mk.injEq, List.not_mem_nil, or_false] at h
    rcases h with h | h | h | h | h | h | h | h | h | h <;> (obtain ⟨rfl, rfl⟩ := h; decide +kernel)

/-- The words for columns with the same name. -/
theorem C123_dups (x : Bytes) (t : DupColHandling) : DupColHandling.new x = .ok t ↔ (lower x, t) ∈ dupWords := by
  unfold DupColHandling.new
  generalize lower x = y
  constructor
  · intro h
    split at h
    · cases h; rename_i hh; rw [hh]; decide +kernel
    split at h
    · cases h; rename_i hh; rw [hh]; decide +kernel
    split at h
    · cases h; rename_i hh; rw [hh]; decide +kernel
    · cases h
  · intro h
    simp only [dupWords, List.mem_cons, Prod.mk.injEq, List.not_mem_nil, or_false] at h
    rcases h with h | h | h <;> (obtain ⟨rfl, rfl⟩ := h; decide +kernel)

/-- The words for when to stop. -/
theorem C123_end (x : Bytes) (t : EndMode) : EndMode.new x = .ok t ↔ (lower x, t) ∈ endWords := by
  have e : ∀ w : Bytes, lower w = w → eqIgnoreCase x w = decide (lower x = w) := by
    intro w hw
    rw [eqIgnore_lower x w hw]
    by_cases h : lower x = w <;> simp [h]
  unfold EndMode.new
  rw [e _ (by decide +kernel), e _ (by decide +kernel), e _ (by decide +kernel)]
  generalize lower x = y
  simp only [decide_eq_true_eq]
  constructor
  · intro h
    split at h
    · cases h; rename_i hh; rw [hh]; decide +kernel
    split at h
    · cases h; rename_i hh; rw [hh]; decide +kernel
    split at h
    · cases h; rename_i hh; rw [hh]; decide +kernel
    · cases h
  · intro h
    simp only [endWords, List.mem_cons, Prod.mk.injEq, List.not_mem_nil, or_false] at h
    rcases h with h | h | h <;> (obtain ⟨rfl, rfl⟩ := h; decide +kernel)

/-- The words for missing newlines. -/
theorem C123_pad (x : Bytes) (t : PadMode) : PadMode.new x = .ok t ↔ (lower x, t) ∈ padWords := by
  unfold PadMode.new
  generalize lower x = y
  constructor
  · intro h
    split at h
    · cases h; rename_i hh; rw [hh]; decide +kernel
    split at h
    · cases h; rename_i hh; rw [hh]; decide +kernel
    split at h
    · cases h; rename_i hh; rw [hh]; decide +kernel
    · cases h
  · intro h
    simp only [padWords, List.mem_cons, Prod.mk.injEq, List.not_mem_nil, or_false] at h
    rcases h with h | h | h <;> (obtain ⟨rfl, rfl⟩ := h; decide +kernel)

example : Tri.new (ascii "SomeTimes") = .ok .maybe ∧ EndMode.new (ascii "LATE") = .ok .late := by decide +kernel

/-! ## C124: context and file names -/

theorem decText_free (n : Nat) (c : UInt8) (h : isDigit c = false) : c ∉ decText n := by
  intro hc
  have := (isDigit_iff c).2 (decText_digits n c hc)
  rw [h] at this
  cases this

theorem PairText.free {t : Bytes} {p : Nat × Nat} (h : PairText t p) : 44 ∉ t := by
  cases h with
  | one n h => exact decText_free n 44 (by decide)
  | two n k h hk =>
    simp only [List.mem_append, List.mem_cons, not_or]
    exact ⟨decText_free n 44 (by decide), by decide, decText_free k 44 (by decide)⟩

theorem sliceSplit_two (d : UInt8) (a b : Bytes) (ha : d ∉ a) (hb : d ∉ b) : sliceSplit d (a ++ d :: b) = [a, b] := by
  have := sliceSplit_intercalate d [a, b] (by simp) (by
    intro c hc
    simp only [List.mem_cons, List.not_mem_nil, or_false] at hc
    rcases hc with rfl | rfl
    · exact ha
    · exact hb)
  simpa [List.intercalate] using this

theorem doSet_pair {t : Bytes} {p : Nat × Nat} (h : PairText t p) : doSet t = .ok p := by
  cases h with
  | one n h =>
    unfold doSet
    rw [sliceSplit_free 46 _ (decText_free n 46 (by decide))]
    simp [usizeWhole_decText n h]
  | two n k h hk =>
    unfold doSet
    rw [sliceSplit_two 46 _ _ (decText_free n 46 (by decide)) (decText_free k 46 (by decide))]
    simp [usizeWhole_decText n h, usizeWhole_decText k hk]

/-- `--context` takes `before,after`, each a number of lines or two of them, for lines found and for none found; one part
stands for both. -/
theorem C124_context (t : Bytes) (c : Context) (h : ContextText t c) : Context.set t = .ok c := by
  cases h with
  | both t p h =>
    unfold Context.set
    rw [sliceSplit_free 44 _ h.free]
    simp [doSet_pair h]
  | each t u p q h h' =>
    unfold Context.set
    rw [sliceSplit_two 44 _ _ h.free h'.free]
    simp [doSet_pair h, doSet_pair h']

/-- More than two parts are refused. -/
theorem C124_parts (t : Bytes) (c : Context) (h : Context.set t = .ok c) : (sliceSplit 44 t).length ≤ 2 ∧
    ∀ u ∈ sliceSplit 44 t, (sliceSplit 46 u).length ≤ 2 := by
  have hd : ∀ u p, doSet u = .ok p → (sliceSplit 46 u).length ≤ 2 := by
    intro u p h
    unfold doSet at h
    split at h
    · rename_i e; simp [e]
    · rename_i e; simp [e]
    · cases h
  unfold Context.set at h
  split at h
  · rename_i a e
    obtain ⟨p, hp, -⟩ := Res.bind_eq_ok h
    rw [e]
    refine ⟨by simp, fun u hu => ?_⟩
    simp only [List.mem_cons, List.not_mem_nil, or_false] at hu
    subst hu
    exact hd _ _ hp
  · rename_i a b e
    obtain ⟨p, hp, h⟩ := Res.bind_eq_ok h
    obtain ⟨q, hq, -⟩ := Res.bind_eq_ok h
    rw [e]
    refine ⟨by simp, fun u hu => ?_⟩
    simp only [List.mem_cons, List.not_mem_nil, or_false] at hu
    rcases hu with rfl | rfl
    · exact hd _ _ hp
    · exact hd _ _ hq
  · cases h

/-- `--filename` takes a name, a number of parts, or both. -/
theorem C124_filename (f : FileNameColumn) (name : Bytes) (n : Nat) (hn : n < 2 ^ 64) (hc : 58 ∉ name) :
    f.set (name ++ 58 :: decText n) = .ok ⟨name, n⟩ ∧ f.set (decText n) = .ok ⟨[], n⟩ ∧
      ((∀ c, name.head? = some c → isDigit c = false) → f.set name = .ok ⟨name, 0⟩) := by
  refine ⟨?_, ?_, ?_⟩
  · obtain ⟨c, cs, e⟩ : ∃ c cs, name ++ 58 :: decText n = c :: cs := by cases name <;> simp
    have hs := splitOnce_some 58 name (decText n) hc
    rw [e] at hs ⊢
    simp only [FileNameColumn.set, hs, usizeWhole_decText n hn, Res.bind_ok]
  · obtain ⟨c, cs, e⟩ : ∃ c cs, decText n = c :: cs := by
      cases h : decText n with
      | nil => exact absurd h (decText_ne_nil n)
      | cons c cs => exact ⟨c, cs, rfl⟩
    have hs := splitOnce_none 58 (decText n) (decText_free n 58 (by decide))
    have hd : isDigit c = true := (isDigit_iff c).2 (decText_digits n c (by rw [e]; simp))
    have hu := usizeWhole_decText n hn
    rw [e] at hs hu ⊢
    simp only [FileNameColumn.set, hs, hd, if_true, hu, Res.bind_ok]
  · intro hd
    cases name with
    | nil => rfl
    | cons c cs =>
      have hs := splitOnce_none 58 (c :: cs) hc
      simp only [FileNameColumn.set, hs, hd c rfl, Bool.false_eq_true, if_false]

/-- A name alone leaves the number of parts at zero, and then the column is empty for every file. -/
theorem C124_name_alone (f g : FileNameColumn) (name path : Bytes) (hc : 58 ∉ name)
    (hd : ∀ c, name.head? = some c → isDigit c = false) (h : f.set name = .ok g) : tailPath path g.tail 47 = [] := by
  rw [(C124_filename f name 0 (by decide) hc).2.2 hd] at h
  cases h
  rcases path.eq_nil_or_concat with rfl | ⟨init, last, rfl⟩
  · rfl
  · rw [List.concat_eq_append]
    by_cases e : last = 47
    · subst e; rw [(C62_tail_path init 0 47).1]; rfl
    · rw [(C62_tail_path (init ++ [last]) 0 47).2 (by simpa using e), C62_tail]
      simp

/-- Which numbers are used depends on whether lines were found. -/
theorem C124_get (a b c d : Nat) : (⟨a, b, c, d⟩ : Context).get false = (a, c) ∧ (⟨a, b, c, d⟩ : Context).get true = (b, d) :=
  ⟨rfl, rfl⟩

example : ContextText (ascii "1.2,3") ⟨1, 2, 3, 3⟩ :=
  .each (ascii "1.2") (ascii "3") (1, 2) (3, 3) (.two 1 2 (by decide) (by decide)) (.one 3 (by decide))
example : Context.set (ascii "1.2,3") = .ok ⟨1, 2, 3, 3⟩ := by decide +kernel
example : (⟨[], 0⟩ : FileNameColumn).set (ascii "f:2") = .ok ⟨ascii "f", 2⟩ := by decide +kernel

/-! ## C125: the column of numbers -/

/-- The text of a number column: name, start and place. -/
def numberText (name : Bytes) (s : Sign) (n : Nat) (atEnd : Bool) : Bytes :=
  name ++ 44 :: (s.text ++ decText n ++ 44 :: (if atEnd then ascii "end" else ascii "begin"))

theorem sliceSplit_three (d : UInt8) (a b c : Bytes) (ha : d ∉ a) (hb : d ∉ b) (hc : d ∉ c) :
    sliceSplit d (a ++ d :: (b ++ d :: c)) = [a, b, c] := by
  have := sliceSplit_intercalate d [a, b, c] (by simp) (by
    intro x hx
    simp only [List.mem_cons, List.not_mem_nil, or_false] at hx
    rcases hx with rfl | rfl | rfl
    · exact ha
    · exact hb
    · exact hc)
  simpa [List.intercalate] using this

/-- A full text says everything. -/
theorem C125_full (ln : LineNumber) (name : Bytes) (hn : 44 ∉ name) (s : Sign) (n : Nat) (hv : n ≤ 2 ^ 63 - 1) (e : Bool) :
    ln.set (numberText name s n e) = .ok ⟨true, s.value * n, name, e⟩ := by
  have hs : (44 : UInt8) ∉ s.text ++ decText n := by
    simp only [List.mem_append, not_or]
    exact ⟨by cases s <;> decide, decText_free n 44 (by decide)⟩
  have hw : (44 : UInt8) ∉ (if e then ascii "end" else ascii "begin") := by cases e <;> decide +kernel
  have hnum : toIsizeWhole (s.text ++ decText n) = .ok (s.value * n) := by
    have := C88_signed_partial s (decText n) (decText_ne_nil n) (fun c hc => (isDigit_iff c).2 (decText_digits n c hc))
      (by rw [decVal_decText]; exact hv)
    rwa [decVal_decText] at this
  unfold LineNumber.set numberText
  rw [sliceSplit_three 44 _ _ _ hn hs hw]
  simp only [hnum, Res.bind_ok, LineNumber.setWhere]
  cases e
  · have : eqIgnoreCase (ascii "begin") (ascii "begin") = true := by decide +kernel
    simp [this]
  · have h1 : eqIgnoreCase (ascii "begin") (ascii "end") = false := by decide +kernel
    have h2 : eqIgnoreCase (ascii "end") (ascii "end") = true := by decide +kernel
    simp [h1, h2]

/-- The last option alone says how lines are numbered. -/
def C125_statement : Prop := ∀ (ss : List Bytes) (s : Bytes) (a b : LineNumber),
  LineNumber.sets .new (ss ++ [s]) = .ok a → LineNumber.new.set s = .ok b → a = b

/-- What a later option leaves out stays as an earlier one set it. -/
theorem C125_refuted : ¬ C125_statement := by
  intro h
  have := h [ascii "a,5,end"] (ascii "b") ⟨true, 5, ascii "b", true⟩ ⟨true, 0, ascii "b", false⟩ (by rfl) (by rfl)
  simp at this

theorem sets_append (a b : List Bytes) : ∀ ln : LineNumber, ln.sets (a ++ b) = (ln.sets a).bind fun ln => ln.sets b := by
  induction a with
  | nil => intro ln; rfl
  | cons x xs ih =>
    intro ln
    simp only [List.cons_append, LineNumber.sets]
    cases ln.set x with
    | ok l => simp only [Res.bind_ok]; exact ih l
    | err => rfl
    | panic => rfl

/-- C125 if the last option says all three. -/
theorem C125_last_partial (ss : List Bytes) (s : Bytes) (a b : LineNumber) (h3 : 3 ≤ (sliceSplit 44 s).length)
    (ha : LineNumber.sets .new (ss ++ [s]) = .ok a) (hb : LineNumber.new.set s = .ok b) : a = b := by
  rw [sets_append] at ha
  obtain ⟨l, -, ha⟩ := Res.bind_eq_ok ha
  simp only [LineNumber.sets] at ha
  obtain ⟨a', ha', e⟩ := Res.bind_eq_ok ha
  cases e
  unfold LineNumber.set at ha' hb
  rcases h : sliceSplit 44 s with _ | ⟨x, _ | ⟨y, _ | ⟨z, r⟩⟩⟩
  · simp [h] at h3
  · simp [h] at h3
  · simp [h] at h3
  · simp only [h] at ha' hb
    obtain ⟨n, hn, ha'⟩ := Res.bind_eq_ok ha'
    rw [hn] at hb
    simp only [Res.bind_ok, LineNumber.setWhere] at ha' hb
    split at ha'
    · rename_i h1
      simp only [h1, if_true] at hb
      split at ha'
      · rename_i h2
        simp only [h2, if_true] at hb
        cases ha'; cases hb; rfl
      · cases ha'
    · rename_i h1
      simp only [h1, Bool.false_eq_true, if_false] at hb
      split at ha'
      · rename_i h2
        simp only [h2, if_true] at hb
        split at ha'
        · rename_i h4
          simp only [h4, if_true] at hb
          cases ha'; cases hb; rfl
        · cases ha'
      · cases ha'

/-- More than three parts are refused, and so is any other word for the place. -/
theorem C125_parts (ln ln' : LineNumber) (s : Bytes) (h : ln.set s = .ok ln') : (sliceSplit 44 s).length ≤ 3 ∧
    ∀ w, (sliceSplit 44 s)[2]? = some w → (lower w = ascii "begin" ∧ ln'.atEnd = false) ∨ (lower w = ascii "end" ∧ ln'.atEnd = true) := by
  unfold LineNumber.set at h
  rcases e : sliceSplit 44 s with _ | ⟨x, _ | ⟨y, _ | ⟨z, r⟩⟩⟩
  · simp
  · simp
  · simp
  · simp only [e] at h
    obtain ⟨n, hn, h⟩ := Res.bind_eq_ok h
    simp only [LineNumber.setWhere] at h
    have hb : lower (ascii "begin") = ascii "begin" := by decide +kernel
    have he : lower (ascii "end") = ascii "end" := by decide +kernel
    split at h
    · rename_i h1
      simp only [eqIgnoreCase, beq_iff_eq, hb] at h1
      split at h
      · rename_i hr
        cases h
        subst hr
        refine ⟨by simp, fun w hw => ?_⟩
        simp only [List.getElem?_cons_succ, List.getElem?_cons_zero, Option.some_inj] at hw
        subst hw
        exact Or.inl ⟨h1.symm, rfl⟩
      · cases h
    · split at h
      · rename_i h1
        simp only [eqIgnoreCase, beq_iff_eq, he] at h1
        split at h
        · rename_i hr
          cases h
          subst hr
          refine ⟨by simp, fun w hw => ?_⟩
          simp only [List.getElem?_cons_succ, List.getElem?_cons_zero, Option.some_inj] at hw
          subst hw
          exact Or.inr ⟨h1.symm, rfl⟩
        · cases h
      · cases h

example : LineNumber.new.set (ascii "n,-3,End") = .ok ⟨true, -3, ascii "n", true⟩ := by rfl
example : 3 ≤ (sliceSplit 44 (ascii "number,1,begin")).length := by decide +kernel

/-! ## C126: output columns and other files of a join -/

theorem findTransLoop_plain (spec : Bytes) (h : 43 ∉ spec) : ∀ seen, findTransLoop seen false spec = none := by
  induction spec with
  | nil => intro seen; rfl
  | cons c cs ih =>
    intro seen
    simp only [List.mem_cons, not_or] at h
    have : (c == 43) = false := by simpa using fun e => h.1 e.symm
    simp only [findTransLoop, this]
    exact ih h.2 _

theorem addOne_simple (set : ColumnSet) (c : Bytes) (h : c.head? ≠ some 126) (t : Option Nat) :
    set.addOne c false t = { set with pos := set.pos ++ [⟨c, t⟩] } := by
  unfold ColumnSet.addOne
  split
  · simp at h
  · simp

theorem add_simple (transOk : Bytes → Bool) (set : ColumnSet) (c : Bytes) (h : SimpleCol c) :
    set.add transOk c false = .ok { set with pos := set.pos ++ [⟨c, none⟩] } := by
  obtain ⟨h0, h1, h2, h3, h4, h5⟩ := h
  unfold ColumnSet.add findTrans
  rw [findTransLoop_plain c h3]
  simp only
  cases c with
  | nil => exact absurd rfl h0
  | cons x xs =>
    have hx : x ≠ 40 := by simpa using h4
    simp only [ColumnSet.addLoop, hx, if_false, splitOnce_none 44 _ h1]
    rw [addOne_simple _ _ h5]

/-- Columns without a file belong to the file before. -/
theorem joinOutput_more (transOk : Bytes → Bool) (f : Nat) (cols more : List Bytes) (h : ∀ c ∈ cols, SimpleCol c) :
    ∀ set : ColumnSet, joinOutput transOk (some f) set (cols ++ more) =
      joinOutput transOk (some f) { set with pos := set.pos ++ cols.map fun c => ⟨c, none⟩ } more := by
  induction cols with
  | nil => intro set; simp
  | cons c cs ih =>
    intro set
    have hc := h c (by simp)
    rw [List.cons_append]
    conv => lhs; unfold joinOutput
    simp only [splitOnce_none 46 c hc.2.2.1, add_simple transOk set c hc, Res.bind_ok]
    rw [ih fun c hc => h c (by simp [hc])]
    simp

/-- The columns of the output asked for: files counted from zero, columns in order. -/
def outputMeaning (l : List (Nat × Bytes × List Bytes)) : List (Nat × ColumnSet) :=
  l.map fun p => (p.1, ⟨(p.2.1 :: p.2.2).map fun c => ⟨c, none⟩, [], [], []⟩)

theorem joinOutput_groups (transOk : Bytes → Bool) (l : List (Nat × Bytes × List Bytes))
    (hl : ∀ p ∈ l, p.1 + 1 < 2 ^ 64 ∧ ∀ c ∈ p.2.1 :: p.2.2, SimpleCol c) : ∀ (file : Option Nat) (set : ColumnSet),
    (∀ f, file = some f → set.isEmpty = false) → (file = none → set = ColumnSet.empty) →
    joinOutput transOk file set (l.flatMap fun p => (decText (p.1 + 1) ++ 46 :: p.2.1) :: p.2.2) =
      .ok ((match file with | none => [] | some f => [(f, set)]) ++ outputMeaning l) := by
  induction l with
  | nil =>
    intro file set hf hn
    cases file with
    | none => rw [hn rfl]; rfl
    | some f =>
      simp [List.flatMap_nil, joinOutput, hf f rfl, outputMeaning]
  | cons p ps ih =>
    intro file set hf hn
    obtain ⟨hp, hc⟩ := hl p (by simp)
    have hfirst := hc p.2.1 (by simp)
    rw [List.flatMap_cons, List.cons_append]
    conv => lhs; unfold joinOutput
    have hs : splitOnce 46 (decText (p.1 + 1) ++ 46 :: p.2.1) = some (decText (p.1 + 1), p.2.1) :=
      splitOnce_some 46 _ _ (decText_free _ 46 (by decide))
    simp only [hs, usizeWhole_decText _ hp, Res.bind_ok, Nat.succ_ne_zero, if_false, Nat.add_sub_cancel]
    have key : ((ColumnSet.empty.add transOk p.2.1 false).bind fun set => joinOutput transOk (some p.1) set
        (p.2.2 ++ ps.flatMap fun p => (decText (p.1 + 1) ++ 46 :: p.2.1) :: p.2.2)) = .ok (outputMeaning (p :: ps)) := by
      rw [add_simple transOk _ _ hfirst, Res.bind_ok, joinOutput_more _ _ _ _ fun c hc' => hc c (by simp [hc'])]
      rw [ih (fun q hq => hl q (by simp [hq])) (some p.1) _ (by intro f _; simp [ColumnSet.isEmpty]) (by simp)]
      simp [outputMeaning, ColumnSet.empty]
    cases file with
    | none =>
      rw [hn rfl]
      have : ColumnSet.empty.isEmpty = true := rfl
      simp only [this, if_true]
      exact key
    | some f =>
      simp only [hf f rfl, Bool.false_eq_true, if_false]
      rw [key]
      rfl

/-- `--output` of join: every list of files with columns is read back from its text, whatever their number. -/
theorem C126_round (transOk : Bytes → Bool) (l : List (Nat × Bytes × List Bytes)) (hne : l ≠ [])
    (hl : ∀ p ∈ l, p.1 + 1 < 2 ^ 64 ∧ ∀ c ∈ p.2.1 :: p.2.2, SimpleCol c) :
    joinOutputs transOk (outputText l) = .ok (outputMeaning l) := by
  unfold joinOutputs outputText
  rw [sliceSplit_intercalate 44]
  · exact joinOutput_groups transOk l hl none ColumnSet.empty (by simp) (by simp)
  · cases l with
    | nil => exact absurd rfl hne
    | cons p ps => simp
  · intro c hc
    obtain ⟨p, hp, hc⟩ := List.mem_flatMap.1 hc
    rcases List.mem_cons.1 hc with rfl | hc
    · simp only [List.mem_append, List.mem_cons, not_or]
      exact ⟨decText_free _ 44 (by decide), by decide, ((hl p hp).2 _ (by simp)).2.1⟩
    · exact ((hl p hp).2 c (by simp [hc])).2.1

/-- No text makes `--output` panic. -/
def C126_statement : Prop := ∀ (transOk : Bytes → Bool) (value : Bytes), joinOutputs transOk value ≠ .panic

/-- An empty name of a column does. -/
theorem C126_refuted : ¬ C126_statement := fun h => h (fun _ => true) (ascii "1.") (by decide +kernel)

theorem add_plain_no_panic (transOk : Bytes → Bool) (set : ColumnSet) (c : Bytes) (h0 : c ≠ []) (h1 : 44 ∉ c) (h2 : 43 ∉ c)
    (h3 : c.head? ≠ some 40) : ∃ set', set.add transOk c false = .ok set' ∧ set'.isEmpty = false := by
  unfold ColumnSet.add findTrans
  rw [findTransLoop_plain c h2]
  simp only
  cases c with
  | nil => exact absurd rfl h0
  | cons x xs =>
    have hx : x ≠ 40 := by simpa using h3
    simp only [ColumnSet.addLoop, hx, if_false, splitOnce_none 44 _ h1]
    refine ⟨_, rfl, ?_⟩
    unfold ColumnSet.addOne
    split <;> simp [ColumnSet.isEmpty]

/-- The text of a column in a part of `--output`. -/
def outCol (y : Bytes) : Bytes := match splitOnce 46 y with
  | some p => p.2
  | none => y

theorem joinOutput_no_panic (transOk : Bytes → Bool) (parts : List Bytes)
    (h : ∀ y ∈ parts, outCol y ≠ [] ∧ 44 ∉ outCol y ∧ 43 ∉ outCol y ∧ (outCol y).head? ≠ some 40 ∧
      ∀ p, splitOnce 46 y = some p → toUsizeWhole p.1 ≠ .panic) : ∀ (file : Option Nat) (set : ColumnSet),
    (file = none → set.isEmpty = true) → joinOutput transOk file set parts ≠ .panic := by
  induction parts with
  | nil =>
    intro file set hf
    cases file with
    | none => simp [joinOutput, hf rfl]
    | some f => simp only [joinOutput]; split <;> simp
  | cons y ys ih =>
    intro file set hf
    obtain ⟨h0, h1, h2, h3, h4⟩ := h y (by simp)
    have ih := ih fun z hz => h z (by simp [hz])
    unfold joinOutput
    cases hs : splitOnce 46 y with
    | none =>
      simp only
      cases file with
      | none => simp
      | some f =>
        have e : outCol y = y := by unfold outCol; rw [hs]
        rw [e] at h0 h1 h2 h3
        obtain ⟨set', ha, -⟩ := add_plain_no_panic transOk set y h0 h1 h2 h3
        simp only [ha, Res.bind_ok]
        exact ih (some f) set' (by simp)
    | some p =>
      have e : outCol y = p.2 := by unfold outCol; rw [hs]
      rw [e] at h0 h1 h2 h3
      have hnum := h4 p hs
      have hnext : ∀ set : ColumnSet, ((toUsizeWhole p.1).bind fun n =>
          if n = 0 then Res.err
          else (set.add transOk p.2 false).bind fun set => joinOutput transOk (some (n - 1)) set ys) ≠ .panic := by
        intro set
        cases hn : toUsizeWhole p.1 with
        | panic => exact absurd hn hnum
        | err => simp
        | ok n =>
          simp only [Res.bind_ok]
          split
          · simp
          · obtain ⟨set', ha, -⟩ := add_plain_no_panic transOk set p.2 h0 h1 h2 h3
            simp only [ha, Res.bind_ok]
            exact ih (some (n - 1)) set' (by simp)
      simp only
      split
      · exact hnext set
      · cases file with
        | none => rename_i hh; exact absurd (hf rfl) hh
        | some f =>
          simp only
          have := hnext ColumnSet.empty
          generalize ((toUsizeWhole p.1).bind fun n =>
            if n = 0 then Res.err
            else (ColumnSet.empty.add transOk p.2 false).bind fun set => joinOutput transOk (some (n - 1)) set ys) = r at this
          cases r with
          | ok a => simp
          | err => simp
          | panic => exact absurd rfl this

/-- C126 if all columns are named, without modifiers and matchers, and the numbers are not too large. -/
theorem C126_output_partial (transOk : Bytes → Bool) (value : Bytes)
    (h : ∀ y ∈ sliceSplit 44 value, outCol y ≠ [] ∧ 44 ∉ outCol y ∧ 43 ∉ outCol y ∧ (outCol y).head? ≠ some 40 ∧
      ∀ p, splitOnce 46 y = some p → toUsizeWhole p.1 ≠ .panic) : joinOutputs transOk value ≠ .panic :=
  joinOutput_no_panic transOk _ h none _ (fun _ => rfl)

/-- `--also` of join takes a number and a name; the name may contain commas. -/
theorem C126_also (n : Nat) (hn : n < 2 ^ 64) (name : Bytes) : joinAlso (decText n ++ 44 :: name) = .ok (n, name) := by
  unfold joinAlso
  rw [splitOnce_some 44 _ _ (decText_free n 44 (by decide))]
  simp [usizeWhole_decText n hn]

example : joinOutputs (fun _ => true) (ascii "2.a,b,1.c-d") =
    .ok [(1, ⟨[⟨ascii "a", none⟩, ⟨ascii "b", none⟩], [], [], []⟩), (0, ⟨[⟨ascii "c-d", none⟩], [], [], []⟩)] := by decide +kernel
example : SimpleCol (ascii "c-d") := by unfold SimpleCol; decide +kernel
example : outputText [(1, ascii "a", [ascii "b"]), (0, ascii "c-d", [])] = ascii "2.a,b,1.c-d" := by decide +kernel
example : ∀ y ∈ sliceSplit 44 (ascii "2.a,~b"), outCol y ≠ [] ∧ 44 ∉ outCol y ∧ 43 ∉ outCol y ∧ (outCol y).head? ≠ some 40 := by
  decide +kernel

end Cdx
