import Verif.Props.ExprLine

/-!
Lists of columns in formulas: C143.
-/

namespace Cdx

variable {F : Type}

/-! ## C143: brackets -/

theorem findCloseLoop_ge (o c : UInt8) (l : Bytes) : ∀ (i : Nat) (d : Int) (n : Nat), findCloseLoop o c l i d = some n → i + 1 ≤ n := by
  induction l with
  | nil => intro i d n h; simp [findCloseLoop] at h
  | cons x xs ih =>
    intro i d n h
    rw [findCloseLoop] at h
    generalize (if x = o then d + 1 else if x = c then d - 1 else d) = d' at h
    by_cases hd : d' = 0
    · rw [if_pos hd] at h; simp at h; omega
    · rw [if_neg hd] at h
      have := ih (i + 1) d' n h
      omega

theorem findClose_ge (n : Bytes) (k : Nat) (h : findClose n = some k) : 1 ≤ k := by
  unfold findClose at h
  cases n with
  | nil => simp at h
  | cons x xs =>
    simp only at h
    cases hc : closer x with
    | none => rw [hc] at h; simp at h
    | some c =>
      rw [hc] at h
      have := findCloseLoop_ge x c _ 0 0 k h
      omega

theorem findCloseLoop_inner (s rest : Bytes) (hs : ∀ c ∈ s, c ≠ 91 ∧ c ≠ 93) : ∀ i, findCloseLoop 91 93 (s ++ 93 :: rest) i 1 =
    some (i + s.length + 1) := by
  induction s with
  | nil => intro i; simp [findCloseLoop]
  | cons x xs ih =>
    intro i
    obtain ⟨h1, h2⟩ := hs x (by simp)
    rw [List.cons_append, findCloseLoop]
    simp only [h1, h2, if_false]
    rw [if_neg (by decide), ih (fun c hc => hs c (by simp [hc]))]
    simp; omega

theorem findClose_bracket (s rest : Bytes) (hs : ∀ c ∈ s, c ≠ 91 ∧ c ≠ 93) : findClose (91 :: (s ++ 93 :: rest)) = some (s.length + 2) := by
  unfold findClose
  simp only [closer]
  simp only [show ¬ ((91 : UInt8) = 40) from by decide, show ¬ ((91 : UInt8) = 123) from by decide, if_false, if_true]
  rw [findCloseLoop]
  simp only [if_true]
  rw [if_neg (by decide)]
  rw [show (0 : Int) + 1 = 1 from rfl, findCloseLoop_inner s rest hs]
  congr 1; omega

theorem bracketText_free (v : List Nat) : (91 : UInt8) ∉ bracketText v := by
  intro h
  unfold bracketText at h
  rcases mem_intercalate h with h1 | ⟨c, hc, h1⟩
  · revert h1; decide
  · obtain ⟨i, _, rfl⟩ := List.mem_map.1 hc
    rcases List.mem_cons.1 h1 with h2 | h2
    · revert h2; decide
    · have := decText_digits (i + 1) 91 h2
      revert this; decide

theorem findIdx_bracket (p rest : Bytes) (hp : (91 : UInt8) ∉ p) : (p ++ 91 :: rest).findIdx? (· == 91) = some p.length := by
  rw [List.findIdx?_eq_some_iff_getElem]
  refine ⟨by simp, by simp, ?_⟩
  intro j hj
  rw [List.getElem_append_left hj]
  simp only [beq_iff_eq]
  intro h
  exact hp (h ▸ List.getElem_mem hj)

/-- Any text: the loop ends, and leaves no opening bracket. -/
theorem expandLoop_total (sel : Bytes → Res (List Nat)) (hsel : ∀ s, sel s ≠ .panic) : ∀ (fuel : Nat) (n : Bytes),
    n.count 91 < fuel → expandLoop sel fuel n = .err ∨ ∃ o, expandLoop sel fuel n = .ok o ∧ (91 : UInt8) ∉ o := by
  intro fuel
  induction fuel with
  | zero => intro n h; omega
  | succ fuel ih =>
    intro n h
    rw [expandLoop]
    cases hf : n.findIdx? (· == 91) with
    | none =>
      refine .inr ⟨n, rfl, fun hm => ?_⟩
      rw [List.findIdx?_eq_none_iff] at hf
      have := hf _ hm
      simp at this
    | some pos =>
      simp only
      cases hc : findClose (n.drop pos) with
      | none => exact .inl rfl
      | some len =>
        simp only
        cases hs : sel ((n.drop (pos + 1)).take (len - 2)) with
        | err => exact .inl rfl
        | panic => exact absurd hs (hsel _)
        | ok v =>
          rw [Res.bind_ok]
          apply ih
          obtain ⟨hpos, hx, hpre⟩ := List.findIdx?_eq_some_iff_getElem.1 hf
          simp at hx
          have hlen := findClose_ge _ _ hc
          have h1 : n = n.take pos ++ 91 :: n.drop (pos + 1) := by
            have h0 := List.take_append_drop pos n
            rw [List.drop_eq_getElem_cons hpos, hx] at h0
            exact h0.symm
          have h2 : n.drop (pos + len) = (n.drop (pos + 1)).drop (len - 1) := by
            rw [List.drop_drop]; congr 1; omega
          have h3 : ((n.drop (pos + 1)).drop (len - 1)).count 91 ≤ (n.drop (pos + 1)).count 91 :=
            (List.drop_sublist _ _).count_le _
          have h4 : (bracketText v).count 91 = 0 := List.count_eq_zero.2 (bracketText_free v)
          have h5 : n.count 91 = (n.take pos).count 91 + ((n.drop (pos + 1)).count 91 + 1) := by
            have := congrArg (List.count 91) h1
            rw [List.count_append, List.count_cons_self] at this
            exact this
          rw [List.count_append, List.count_append, h2, h4]
          omega

/-- Whatever the text: the brackets are all replaced, or there is an error; never anything else. -/
theorem C143_total (sel : Bytes → Res (List Nat)) (hsel : ∀ s, sel s ≠ .panic) (n : Bytes) :
    expandText sel n = .err ∨ ∃ o, expandText sel n = .ok o ∧ (91 : UInt8) ∉ o :=
  expandLoop_total sel hsel _ n (Nat.lt_succ_of_le (List.count_le_length))

/-- A text with lists of columns in brackets: each pair is a text without brackets and a list of columns; then a last text. -/
def bracketed (ps : List (Bytes × Bytes)) (last : Bytes) : Bytes :=
  (ps.flatMap fun p => p.1 ++ [91] ++ p.2 ++ [93]) ++ last

theorem expandLoop_pieces (sel : Bytes → Res (List Nat)) (cols : Bytes → List Nat) (last : Bytes) (hlast : (91 : UInt8) ∉ last)
    (ps : List (Bytes × Bytes)) : ∀ (fuel : Nat) (pre : Bytes), ps.length < fuel → (91 : UInt8) ∉ pre →
    (∀ p ∈ ps, (91 : UInt8) ∉ p.1 ∧ (∀ c ∈ p.2, c ≠ 91 ∧ c ≠ 93) ∧ sel p.2 = .ok (cols p.2)) →
    expandLoop sel fuel (pre ++ bracketed ps last) = .ok (pre ++ (ps.flatMap fun p => p.1 ++ bracketText (cols p.2)) ++ last) := by
  induction ps with
  | nil =>
    intro fuel pre hf hpre _
    obtain ⟨fuel, rfl⟩ : ∃ k, fuel = k + 1 := ⟨fuel - 1, by omega⟩
    have : (pre ++ bracketed [] last).findIdx? (· == 91) = none := by
      rw [List.findIdx?_eq_none_iff]
      intro x hx
      simp only [beq_eq_false_iff_ne]
      rintro rfl
      simp only [bracketed, List.flatMap_nil, List.nil_append, List.mem_append] at hx
      exact hx.elim hpre hlast
    rw [expandLoop, this]
    simp [bracketed]
  | cons p ps ih =>
    intro fuel pre hf hpre hps
    obtain ⟨fuel, rfl⟩ : ∃ k, fuel = k + 1 := ⟨fuel - 1, by omega⟩
    obtain ⟨h1, h2, h3⟩ := hps p (by simp)
    have hshape : pre ++ bracketed (p :: ps) last = (pre ++ p.1) ++ 91 :: (p.2 ++ 93 :: bracketed ps last) := by
      simp [bracketed]
    have hfree : (91 : UInt8) ∉ pre ++ p.1 := by simp [hpre, h1]
    have htail : (p.2 ++ 93 :: bracketed ps last).drop (p.2.length + 1) = bracketed ps last := by
      rw [show p.2 ++ 93 :: bracketed ps last = (p.2 ++ [93]) ++ bracketed ps last by simp]
      exact List.drop_left' (by simp)
    have hspec : ((p.2 ++ 93 :: bracketed ps last).take (p.2.length + 2 - 2)) = p.2 := by simp
    rw [hshape, expandLoop, findIdx_bracket _ _ hfree]
    simp only [List.drop_left]
    rw [findClose_bracket _ _ h2]
    simp only
    have hd1 : (pre ++ p.1 ++ 91 :: (p.2 ++ 93 :: bracketed ps last)).drop ((pre ++ p.1).length + 1) = p.2 ++ 93 :: bracketed ps last := by
      rw [List.drop_append, List.drop_eq_nil_of_le (by omega)]
      simp
    have hd2 : (pre ++ p.1 ++ 91 :: (p.2 ++ 93 :: bracketed ps last)).drop ((pre ++ p.1).length + (p.2.length + 2)) = bracketed ps last := by
      rw [show (pre ++ p.1).length + (p.2.length + 2) = ((pre ++ p.1).length + 1) + (p.2.length + 1) by omega, ← List.drop_drop, hd1, htail]
    rw [hd1, hd2, hspec, h3, Res.bind_ok, List.take_left,
      ih fuel (pre ++ p.1 ++ bracketText (cols p.2)) (by simp at hf; omega)
        (by simp only [List.mem_append, not_or]; exact ⟨⟨hpre, h1⟩, bracketText_free _⟩) (fun q hq => hps q (by simp [hq]))]
    simp

/-- Each list of columns in brackets is replaced by its columns, `c1` for the first column and so on, with commas; all else stays. -/
theorem C143_replaced (sel : Bytes → Res (List Nat)) (cols : Bytes → List Nat) (ps : List (Bytes × Bytes)) (last : Bytes)
    (hlast : (91 : UInt8) ∉ last)
    (hps : ∀ p ∈ ps, (91 : UInt8) ∉ p.1 ∧ (∀ c ∈ p.2, c ≠ 91 ∧ c ≠ 93) ∧ sel p.2 = .ok (cols p.2)) :
    expandText sel (bracketed ps last) = .ok ((ps.flatMap fun p => p.1 ++ bracketText (cols p.2)) ++ last) := by
  have hlen : ps.length < (bracketed ps last).length + 1 := by
    have : ps.length ≤ (ps.flatMap fun p => p.1 ++ [91] ++ p.2 ++ [93]).length := by
      clear hps hlast
      induction ps with
      | nil => simp
      | cons p ps ih => simp only [List.flatMap_cons, List.length_append, List.length_cons] at *; omega
    simp only [bracketed, List.length_append]; omega
  have := expandLoop_pieces sel cols last hlast ps ((bracketed ps last).length + 1) [] hlen (by simp) hps
  simpa [expandText] using this

/-- A list of columns that cannot be looked up makes the lookup fail. -/
theorem C143_unknown (sel : Bytes → Res (List Nat)) (p s rest : Bytes) (hp : (91 : UInt8) ∉ p) (hs : ∀ c ∈ s, c ≠ 91 ∧ c ≠ 93)
    (h : sel s = .err) : expandText sel (p ++ 91 :: (s ++ 93 :: rest)) = .err := by
  unfold expandText
  rw [expandLoop, findIdx_bracket _ _ hp]
  simp only [List.drop_left]
  rw [findClose_bracket _ _ hs]
  simp only
  have hd1 : (p ++ 91 :: (s ++ 93 :: rest)).drop (p.length + 1) = s ++ 93 :: rest := by
    rw [List.drop_append, List.drop_eq_nil_of_le (by omega)]
    simp
  rw [hd1, show s.length + 2 - 2 = s.length by omega, List.take_left, h]
  rfl

theorem findCloseLoop_open (s : Bytes) (hs : (93 : UInt8) ∉ s) : ∀ (i : Nat) (d : Int), 1 ≤ d → findCloseLoop 91 93 s i d = none := by
  induction s with
  | nil => intro i d _; rfl
  | cons x xs ih =>
    intro i d hd
    rw [findCloseLoop]
    have h2 : ¬ x = 93 := fun h => hs (by simp [h])
    simp only [h2, if_false]
    by_cases h1 : x = 91
    · simp only [h1, if_true]
      rw [if_neg (by omega)]
      exact ih (fun h => hs (by simp [h])) _ _ (by omega)
    · simp only [h1, if_false]
      rw [if_neg (by omega)]
      exact ih (fun h => hs (by simp [h])) _ _ hd

/-- A bracket that is never closed makes the lookup fail. -/
theorem C143_unclosed (sel : Bytes → Res (List Nat)) (p s : Bytes) (hp : (91 : UInt8) ∉ p) (hs : (93 : UInt8) ∉ s) :
    expandText sel (p ++ 91 :: s) = .err := by
  unfold expandText
  rw [expandLoop, findIdx_bracket _ _ hp]
  simp only [List.drop_left]
  have : findClose (91 :: s) = none := by
    unfold findClose
    simp only [closer]
    simp only [show ¬ ((91 : UInt8) = 40) from by decide, show ¬ ((91 : UInt8) = 123) from by decide, if_false, if_true]
    rw [findCloseLoop]
    simp only [if_true]
    rw [if_neg (by decide)]
    exact findCloseLoop_open s hs _ _ (by decide)
  rw [this]

/-- The tokens of a call with columns as arguments. -/
def colTokens (v : List Nat) : List (Token F) :=
  match v with
  | [] => []
  | i :: is => .var (99 :: decText (i + 1)) :: is.flatMap fun j => [.comma, .var (99 :: decText (j + 1))]

theorem colTokens_text (lit : F → Bytes) (v : List Nat) : formulaText lit (colTokens v) = bracketText v := by
  cases v with
  | nil => rfl
  | cons i is =>
    simp only [colTokens, formulaText, List.flatMap_cons, tokText, bracketText, List.map_cons]
    have : ∀ (x : Bytes) (l : List Bytes), List.intercalate [44] (x :: l) = x ++ l.flatMap fun y => 44 :: y := by
      intro x l
      induction l generalizing x with
      | nil => simp [List.intercalate]
      | cons y l ih => rw [intercalate_cons_cons, ih]; simp
    rw [this, List.flatMap_map]
    congr 1
    rw [List.flatMap_assoc]
    apply flatMap_same
    intro j _
    simp [tokText]

theorem colTokens_args (is : List Nat) : ∀ i : Nat, Writes 0 (colTokens (F := F) (i :: is))
    ((i :: is).map fun j => .var (99 :: decText (j + 1))) := by
  have one : ∀ i, Writes 1 [(.var (99 :: decText (i + 1)) : Token F)] [.var (99 :: decText (i + 1))] := by
    intro i
    have h7 := Writes.var (F := F) (99 :: decText (i + 1))
    exact .up (by omega) (by omega) (.up (by omega) (by omega) (.up (by omega) (by omega) (.up (by omega) (by omega)
      (.up (by omega) (by omega) (.up (by omega) (by omega) h7)))))
  induction is with
  | nil => intro i; exact .arg (one i)
  | cons k is ih =>
    intro i
    have := Writes.args (one i) (ih k)
    simpa [colTokens] using this

theorem treeVals_cols (ops : FloatOps F) (val : Bytes → F) (is : List Nat) (hc : ∀ i ∈ is, (99 :: decText (i + 1)) ∉ constNames) :
    treeVals ops val (is.map fun j => .var (99 :: decText (j + 1))) = .ok (is.map fun j => val (99 :: decText (j + 1))) := by
  induction is with
  | nil => rfl
  | cons i is ih =>
    simp only [List.map_cons, treeVals, treeVal, Res.bind_ok]
    rw [ih (fun j hj => hc j (by simp [hj]))]
    simp only [Res.map', nameVal]
    rw [if_neg (by simpa using hc i (by simp))]

theorem cN_not_const (i : Nat) : (99 :: decText i) ∉ constNames := by
  intro h
  simp [constNames] at h

theorem treeNamesAll_cols (is : List Nat) : treeNamesAll (is.map fun j => (.var (99 :: decText (j + 1)) : Tree F)) =
    is.map fun j => 99 :: decText (j + 1) := by
  induction is with
  | nil => rfl
  | cons i is ih => simp [treeNamesAll, treeNames, cN_not_const, ih]

theorem nameOk_free (s : Bytes) (h : NameOk s) : (91 : UInt8) ∉ s ∧ (93 : UInt8) ∉ s := by
  obtain ⟨c, r, rfl, h1, h2⟩ := h
  have key : ∀ x ∈ c :: r, (isAlpha x || isDigit x) = true := by
    intro x hx
    rcases List.mem_cons.1 hx with rfl | hx
    · simp [h1]
    · exact List.all_eq_true.1 h2 x hx
  exact ⟨fun h => absurd (key _ h) (by decide), fun h => absurd (key _ h) (by decide)⟩

theorem cN_nameOk (i : Nat) : NameOk (99 :: decText i) := by
  refine ⟨99, decText i, rfl, by decide, ?_⟩
  rw [List.all_eq_true]
  intro c hc
  have : isDigit c = true := by simpa [isDigit] using decText_digits i c hc
  simp [this]

theorem mem_colTokens (v : List Nat) (tok : Token F) (h : tok ∈ colTokens v) : tok = .comma ∨ ∃ i ∈ v, tok = .var (99 :: decText (i + 1)) := by
  cases v with
  | nil => simp [colTokens] at h
  | cons i is =>
    rcases List.mem_cons.1 h with h | h
    · exact .inr ⟨i, by simp, h⟩
    · obtain ⟨j, hj, h⟩ := List.mem_flatMap.1 h
      simp only [List.mem_cons, List.not_mem_nil, or_false] at h
      rcases h with h | h
      · exact .inl h
      · exact .inr ⟨j, by simp [hj], h⟩

theorem noClash_cols (is : List Nat) (i : Nat) (last : Token F) (hl : ∀ s, clash (.var s) last = false) :
    NoClash (colTokens (i :: is) ++ [last]) := by
  induction is generalizing i with
  | nil => exact ⟨hl _, trivial⟩
  | cons k is ih =>
    have := ih k
    simp only [colTokens, List.flatMap_cons, List.cons_append, List.nil_append] at this ⊢
    exact ⟨rfl, rfl, this⟩

/-- A function of a list of columns: it is called with the numbers in those columns, in that order. No column may have the name `cN` of
one of the columns (C72 says what happens if one has). -/
theorem C143_call (env : ExprEnv F) (names : List Bytes) (f s : Bytes) (hf : NameOk f) (hs : ∀ c ∈ s, c ≠ 91 ∧ c ≠ 93) (i : Nat)
    (is : List Nat) (hsel : env.sel s names = .ok (i :: is))
    (hc : ∀ j ∈ i :: is, j + 1 ≤ usizeMax ∧ (99 :: decText (j + 1)) ∉ names) (line : TextLine) :
    ((ExprSt.new (f ++ [40, 91] ++ s ++ [93, 41])).lookup env names).bind (·.eval env line) =
      callVal env.ops f ((i :: is).map fun j => (env.toF64 (line.get j)).1) := by
  have lit : F → Bytes := fun _ => []
  have htext : f ++ [40, 91] ++ s ++ [93, 41] = bracketed [(f ++ [40], s)] [41] := by simp [bracketed]
  have hexp : expandText (fun s => env.sel s names) (f ++ [40, 91] ++ s ++ [93, 41]) =
      .ok (formulaText lit (.func f none :: (colTokens (i :: is) ++ [.rparen]))) := by
    rw [htext, C143_replaced (fun s => env.sel s names) (fun _ => i :: is) [(f ++ [40], s)] [41] (by decide) (by
      intro p hp
      simp only [List.mem_singleton] at hp
      subst hp
      refine ⟨?_, hs, hsel⟩
      simp only [List.mem_append, not_or]
      exact ⟨(nameOk_free f hf).1, by decide⟩)]
    have := colTokens_text lit (i :: is)
    simp only [formulaText] at this
    simp [formulaText, tokText, this]
  have hw : Writes 1 (.func f none :: (colTokens (F := F) (i :: is) ++ [.rparen]))
      [.call f (.var (99 :: decText (i + 1))) (is.map fun j => .var (99 :: decText (j + 1)))] := by
    have h7 := Writes.call (s := f) (colTokens_args (F := F) is i)
    exact .up (by omega) (by omega) (.up (by omega) (by omega) (.up (by omega) (by omega) (.up (by omega) (by omega)
      (.up (by omega) (by omega) (.up (by omega) (by omega) h7)))))
  have htok : tokenize env.toF64 (formulaText lit (.func f none :: (colTokens (i :: is) ++ [.rparen]))) =
      .ok (.func f none :: (colTokens (i :: is) ++ [.rparen])) := by
    refine tokenize_text env.toF64 lit hw ?_ ?_
    · intro tok ht
      rcases List.mem_cons.1 ht with rfl | ht
      · exact ⟨hf, rfl⟩
      · rcases List.mem_append.1 ht with ht | ht
        · rcases mem_colTokens _ _ ht with rfl | ⟨j, _, rfl⟩
          · trivial
          · exact cN_nameOk _
        · simp only [List.mem_singleton] at ht
          subst ht; trivial
    · have := noClash_cols is i (.rparen : Token F) (fun _ => rfl)
      exact ⟨rfl, this⟩
  have hnum : ∀ x, (∃ j ∈ i :: is, x = 99 :: decText (j + 1)) → VarCol names x (decVal x.tail - 1) := by
    rintro x ⟨j, hj, rfl⟩
    refine .inr ⟨(hc j hj).2, ?_, ?_⟩
    · simp only [List.tail_cons, decVal_decText]; have := (hc j hj).1; omega
    · simp only [List.tail_cons, decVal_decText]; rfl
  have hcol : ∀ x ∈ treeNames (.call f (.var (99 :: decText (i + 1))) (is.map fun j => .var (99 :: decText (j + 1))) : Tree F),
      VarCol names x (decVal x.tail - 1) := by
    intro x hx
    apply hnum
    simp only [treeNames, cN_not_const, if_false, treeNamesAll_cols, List.mem_append, List.mem_singleton, List.mem_map] at hx
    rcases hx with rfl | ⟨j, hj, rfl⟩
    · exact ⟨i, by simp, rfl⟩
    · exact ⟨j, by simp [hj], rfl⟩
  have := lookup_value env names (ExprSt.new (f ++ [40, 91] ++ s ++ [93, 41])) hexp htok hw (fun x => decVal x.tail - 1)
    (fun x hx _ => hcol x hx) line.get (fun x => (env.toF64 (line.get (decVal x.tail - 1))).1) (by simp [ExprSt.new]) (fun x _ _ => rfl)
  refine Eq.trans this ?_
  simp only [treeVal, Res.bind_ok]
  rw [treeVals_cols _ _ _ (fun j _ => cN_not_const _), Res.bind_ok]
  simp only [nameVal]
  rw [if_neg (by simpa using cN_not_const (i + 1))]
  simp [decVal_decText]

/-- `max([a-b])` on the row `5`, `7`. -/
example : exprEnvNat.sel (ascii "a-b") [ascii "a", ascii "b"] = .ok [0, 1] ∧
    ((ExprSt.new (ascii "max([a-b])")).lookup exprEnvNat [ascii "a", ascii "b"]).bind (·.eval exprEnvNat (plainLine (ascii "5\t7\n") TAB)) =
      .ok 7 := by decide +kernel

end Cdx
