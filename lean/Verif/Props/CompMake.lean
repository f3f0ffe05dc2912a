import Verif.Model.CompMake
import Verif.Props.Comp
import Verif.Props.Match

/-!
# C110, C111, C112: comparators from specifications, and lists of comparators of values
-/

namespace Cdx

/-! ## Names and words -/

/-- The methods by name, in small letters. -/
def methodNames : List (Bytes × Method) :=
  [(ascii "length", .kind .length), (ascii "len", .kind .length), (ascii "random", .random), (ascii "ip", .kind .ip),
   (ascii "plain", .kind .plain), ([], .kind .plain), (ascii "lower", .kind .lower), (ascii "float", .kind .float),
   (ascii "numeric", .kind .numeric), (ascii "num", .kind .numeric), (ascii "equal", .kind .equal)]

/-- The method of a name. -/
def MethodOf (name : Bytes) (m : Method) : Prop := (lower name, m) ∈ methodNames

/-- A word that is no name. -/
def isModWord (x : Bytes) : Bool := [ascii "rev", ascii "strict", ascii "trail", ascii "low"].contains (lower x)

/-- The words of a method. -/
def wordsOf (method : Bytes) : List Bytes := sliceSplit 46 method

/-- The name among the words: the last that is no modifier. -/
def nameOf (method : Bytes) : Bytes := ((wordsOf method).filter fun x => !isModWord x).getLastD []

/-- The last word about junk. -/
def junkOf (method : Bytes) : JunkType :=
  match ((wordsOf method).map lower).reverse.find? fun x => x == ascii "strict" || x == ascii "trail" with
  | none => .any
  | some x => if x = ascii "strict" then .none else .trailing

/-- The settings the words ask for. -/
def confOf (method : Bytes) : CompConf :=
  { junk := junkOf method, junkMin := ((wordsOf method).map lower).contains (ascii "low"), ctype := nameOf method
    reverse := ((wordsOf method).map lower).contains (ascii "rev") }

/-- Full statement: a method means what its words say, and small and capital letters are the same. -/
def C110_statement : Prop := ∀ (method pattern : Bytes) (m : Method),
  makeCompParts method pattern = .ok ⟨confOf method, pattern, m⟩ ↔ MethodOf (nameOf method) m

theorem eqIgnore_lower (x y : Bytes) (hy : lower y = y) : eqIgnoreCase x y = (lower x == y) := by
  unfold eqIgnoreCase; rw [hy]

theorem fold_reverse (ws : List Bytes) : ∀ c : CompConf,
    (ws.foldl CompConf.word c).reverse = (c.reverse || (ws.map lower).contains (ascii "rev")) := by
  induction ws with
  | nil => intro c; simp
  | cons w ws ih =>
    intro c
    rw [List.foldl_cons, ih, List.map_cons, List.contains_cons]
    have : (c.word w).reverse = (c.reverse || (ascii "rev" == lower w)) := by
      unfold CompConf.word
      rw [eqIgnore_lower _ _ (by decide +kernel : lower (ascii "rev") = ascii "rev")]
      by_cases h : lower w = ascii "rev"
      · simp [h]
      · have h' : (ascii "rev" == lower w) = false := by
          simp only [beq_eq_false_iff_ne, ne_eq]; exact fun e => h e.symm
        simp only [beq_iff_eq, h, if_false, h', Bool.or_false]
        split
        · rfl
        · split
          · rfl
          · split <;> rfl
    rw [this, Bool.or_assoc]

theorem mods_lower : lower (ascii "rev") = ascii "rev" ∧ lower (ascii "strict") = ascii "strict" ∧ lower (ascii "trail") = ascii "trail" ∧
    lower (ascii "low") = ascii "low" := by decide +kernel

theorem mods_distinct : [ascii "rev", ascii "strict", ascii "trail", ascii "low"].Nodup := by decide +kernel

theorem word_cases (c : CompConf) (w : Bytes) : c.word w =
    if lower w = ascii "rev" then { c with reverse := true } else if lower w = ascii "strict" then { c with junk := .none }
    else if lower w = ascii "trail" then { c with junk := .trailing } else if lower w = ascii "low" then { c with junkMin := true }
    else { c with ctype := w } := by
  obtain ⟨h1, h2, h3, h4⟩ := mods_lower
  unfold CompConf.word
  rw [eqIgnore_lower _ _ h1, eqIgnore_lower _ _ h2, eqIgnore_lower _ _ h3, eqIgnore_lower _ _ h4]
  simp only [beq_iff_eq]

theorem fold_low (ws : List Bytes) : ∀ c : CompConf,
    (ws.foldl CompConf.word c).junkMin = (c.junkMin || (ws.map lower).contains (ascii "low")) := by
  have hd := mods_distinct
  simp only [List.nodup_cons, List.mem_cons, not_or, List.not_mem_nil, not_false_eq_true, and_true] at hd
  induction ws with
  | nil => intro c; simp
  | cons w ws ih =>
    intro c
    rw [List.foldl_cons, ih, List.map_cons, List.contains_cons, word_cases]
    by_cases h1 : lower w = ascii "rev"
    · rw [if_pos h1, h1]
      have : (ascii "low" == ascii "rev") = false := by decide +kernel
      rw [this, Bool.false_or]
    · rw [if_neg h1]
      by_cases h2 : lower w = ascii "strict"
      · rw [if_pos h2, h2]
        have : (ascii "low" == ascii "strict") = false := by decide +kernel
        rw [this, Bool.false_or]
      · rw [if_neg h2]
        by_cases h3 : lower w = ascii "trail"
        · rw [if_pos h3, h3]
          have : (ascii "low" == ascii "trail") = false := by decide +kernel
          rw [this, Bool.false_or]
        · rw [if_neg h3]
          by_cases h4 : lower w = ascii "low"
          · rw [if_pos h4, h4]; simp
          · rw [if_neg h4]
            have : (ascii "low" == lower w) = false := by
              simp only [beq_eq_false_iff_ne, ne_eq]; exact fun e => h4 e.symm
            rw [this, Bool.false_or]

theorem isModWord_iff (w : Bytes) : isModWord w = true ↔
    lower w = ascii "rev" ∨ lower w = ascii "strict" ∨ lower w = ascii "trail" ∨ lower w = ascii "low" := by
  simp [isModWord]

theorem fold_ctype (ws : List Bytes) : ∀ c : CompConf,
    (ws.foldl CompConf.word c).ctype = (ws.filter fun x => !isModWord x).getLastD c.ctype := by
  induction ws with
  | nil => intro c; rfl
  | cons w ws ih =>
    intro c
    rw [List.foldl_cons, ih]
    by_cases h : isModWord w = true
    · have : (c.word w).ctype = c.ctype := by
        rw [word_cases]
        rcases (isModWord_iff w).1 h with h | h | h | h <;> rw [h] <;> simp +decide
      rw [this, List.filter_cons_of_neg (by simp [h])]
    · have hn := mt (isModWord_iff w).2 h
      simp only [not_or] at hn
      have : c.word w = { c with ctype := w } := by
        rw [word_cases, if_neg hn.1, if_neg hn.2.1, if_neg hn.2.2.1, if_neg hn.2.2.2]
      rw [this, List.filter_cons_of_pos (by simpa using h), List.getLastD_cons]

theorem fold_junk (ws : List Bytes) : ∀ c : CompConf,
    (ws.foldl CompConf.word c).junk =
      match (ws.map lower).reverse.find? fun x => x == ascii "strict" || x == ascii "trail" with
      | none => c.junk
      | some x => if x = ascii "strict" then .none else .trailing := by
  induction ws with
  | nil => intro c; rfl
  | cons w ws ih =>
    intro c
    rw [List.foldl_cons, ih, List.map_cons, List.reverse_cons, List.find?_append]
    cases (ws.map lower).reverse.find? fun x => x == ascii "strict" || x == ascii "trail" with
    | some x => rfl
    | none =>
      simp only [Option.none_or, List.find?_cons, List.find?_nil]
      rw [word_cases]
      by_cases h2 : lower w = ascii "strict"
      · have h1 : lower w ≠ ascii "rev" := by rw [h2]; decide +kernel
        rw [if_neg h1, if_pos h2]
        simp [h2]
      · by_cases h3 : lower w = ascii "trail"
        · have h1 : lower w ≠ ascii "rev" := by rw [h3]; decide +kernel
          have h4 : ascii "trail" ≠ ascii "strict" := by decide +kernel
          rw [if_neg h1, if_neg h2, if_pos h3]
          simp [h3, h4]
        · have : (lower w == ascii "strict" || lower w == ascii "trail") = false := by simp [h2, h3]
          rw [this, if_neg h2, if_neg h3]
          simp only
          split
          · rfl
          · split <;> rfl

/-- The words say the settings. -/
theorem ofMethod_conf (method : Bytes) : CompConf.ofMethod method = confOf method := by
  have key : (sliceSplit 46 method).foldl CompConf.word {} = confOf method := by
    have h1 := fold_reverse (sliceSplit 46 method) {}
    have h2 := fold_low (sliceSplit 46 method) {}
    have h3 := fold_ctype (sliceSplit 46 method) {}
    have h4 := fold_junk (sliceSplit 46 method) {}
    generalize (sliceSplit 46 method).foldl CompConf.word {} = z at h1 h2 h3 h4
    cases z
    simp only at h1 h2 h3 h4
    simp only [confOf, wordsOf, nameOf, junkOf, h1, h2, h3, h4, Bool.false_or]
  unfold CompConf.ofMethod
  by_cases h : method = []
  · rw [if_pos h, h]; decide +kernel
  · rw [if_neg h, key]

/-! ## Methods by name -/

theorem compReg_aliases : compReg.aliases = [(ascii "num", ascii "numeric"), (ascii "len", ascii "length"), ([], ascii "plain")] := by
  decide +kernel

/-- The makers of `init`. -/
def methodItems : List (Bytes × Method) :=
  [(ascii "length", .kind .length), (ascii "random", .random), (ascii "ip", .kind .ip), (ascii "plain", .kind .plain),
   (ascii "lower", .kind .lower), (ascii "float", .kind .float), (ascii "numeric", .kind .numeric), (ascii "equal", .kind .equal)]

theorem compReg_items : compReg.items = methodItems := by decide +kernel

theorem getEntryI_eq {α : Type} (k : Bytes) (l : List (Bytes × α)) (h : ∀ e ∈ l, lower e.1 = e.1) :
    getEntryI k l = getEntry (lower k) l := by
  induction l with
  | nil => rfl
  | cons e es ih =>
    rw [getEntryI, getEntry, eqIgnore_lower _ _ (h e (by simp)), ih fun x hx => h x (by simp [hx])]
    by_cases h' : lower k = e.1
    · simp [h']
    · have : ¬ e.1 = lower k := fun x => h' x.symm
      simp [h', this]

theorem getEntry_mem {α : Type} (k : Bytes) (l : List (Bytes × α)) (h : (l.map Prod.fst).Nodup) (v : α) :
    getEntry k l = some v ↔ (k, v) ∈ l := by
  induction l with
  | nil => simp [getEntry]
  | cons e es ih =>
    rw [List.map_cons, List.nodup_cons] at h
    rw [getEntry]
    by_cases hk : e.1 = k
    · rw [if_pos hk]
      constructor
      · intro hv; simp only [Option.some.injEq] at hv; rw [← hk, ← hv]; simp
      · intro hv
        rcases List.mem_cons.1 hv with hv | hv
        · rw [← hv]
        · exact absurd (List.mem_map.2 ⟨_, hv, hk.symm⟩) h.1
    · rw [if_neg hk, ih h.2, List.mem_cons]
      constructor
      · exact Or.inr
      · rintro (hv | hv)
        · exact absurd (by rw [← hv]) hk
        · exact hv

/-- An alias is written in small letters. -/
def AliasOk (name : Bytes) : Prop := (lower name = ascii "num" ∨ lower name = ascii "len") → lower name = name

theorem find_method (name : Bytes) (h : AliasOk name) (m : Method) :
    getEntryI (compReg.resolve name) compReg.items = some m ↔ MethodOf name m := by
  have hlow : ∀ e ∈ methodItems, lower e.1 = e.1 := by decide +kernel
  have hnd : (methodItems.map Prod.fst).Nodup := by decide +kernel
  have hnd2 : (methodNames.map Prod.fst).Nodup := by decide +kernel
  rw [compReg_items, getEntryI_eq _ _ hlow]
  unfold MethodOf Registry.resolve
  rw [compReg_aliases, ← getEntry_mem _ _ hnd2]
  have l1 : ∀ n : Bytes, n = ascii "num" ∨ n = ascii "len" ∨ n = [] → lower n = n := by
    rintro n (rfl | rfl | rfl) <;> decide +kernel
  by_cases h1 : name = ascii "num"
  · subst h1
    have : getEntry (lower ((getEntry (ascii "num") [(ascii "num", ascii "numeric"), (ascii "len", ascii "length"), ([], ascii "plain")]).getD (ascii "num")))
      methodItems = getEntry (lower (ascii "num")) methodNames := by decide +kernel
    rw [this]
  · by_cases h2 : name = ascii "len"
    · subst h2
      have : getEntry (lower ((getEntry (ascii "len") [(ascii "num", ascii "numeric"), (ascii "len", ascii "length"), ([], ascii "plain")]).getD (ascii "len")))
        methodItems = getEntry (lower (ascii "len")) methodNames := by decide +kernel
      rw [this]
    · by_cases h3 : name = []
      · subst h3
        have : getEntry (lower ((getEntry [] [(ascii "num", ascii "numeric"), (ascii "len", ascii "length"), ([], ascii "plain")]).getD []))
          methodItems = getEntry (lower []) methodNames := by decide +kernel
        rw [this]
      · have e1 : getEntry name [(ascii "num", ascii "numeric"), (ascii "len", ascii "length"), ([], ascii "plain")] = none := by
          simp only [getEntry]
          rw [if_neg (fun x => h1 x.symm), if_neg (fun x => h2 x.symm), if_neg (fun x => h3 x.symm)]
        rw [e1, Option.getD_none]
        have n1 : lower name ≠ ascii "num" := fun x => h1 ((h (Or.inl x)).symm.trans x)
        have n2 : lower name ≠ ascii "len" := fun x => h2 ((h (Or.inr x)).symm.trans x)
        have n3 : lower name ≠ [] := by
          intro x; apply h3
          unfold lower at x
          exact List.map_eq_nil_iff.1 x
        have : getEntry (lower name) methodNames = getEntry (lower name) methodItems := by
          unfold methodNames methodItems
          simp only [getEntry]
          rw [if_neg (show ¬ ascii "len" = lower name from fun x => n2 x.symm), if_neg (show ¬ ([] : Bytes) = lower name from fun x => n3 x.symm),
            if_neg (show ¬ ascii "num" = lower name from fun x => n1 x.symm)]
        rw [this]

/-- C110: a method means what its words say, unless an alias has a capital letter. -/
theorem C110_method_partial (method pattern : Bytes) (h : AliasOk (nameOf method)) (m : Method) :
    makeCompParts method pattern = .ok ⟨confOf method, pattern, m⟩ ↔ MethodOf (nameOf method) m := by
  unfold makeCompParts
  rw [ofMethod_conf]
  have e : (confOf method).ctype = nameOf method := rfl
  rw [← find_method _ h m]
  simp only [e]
  cases getEntryI (compReg.resolve (nameOf method)) compReg.items with
  | none => simp
  | some x => simp

/-- Other names are errors. -/
theorem C110_unknown (method pattern : Bytes) (h : AliasOk (nameOf method)) (hn : ∀ m, ¬ MethodOf (nameOf method) m) :
    makeCompParts method pattern = .err := by
  unfold makeCompParts
  rw [ofMethod_conf]
  have e : (confOf method).ctype = nameOf method := rfl
  simp only [e]
  cases hx : getEntryI (compReg.resolve (nameOf method)) compReg.items with
  | none => rfl
  | some x => exact absurd ((find_method _ h x).1 hx) (hn x)

/-- `NUM` is not known, though `NUMERIC` is. -/
theorem C110_refuted : ¬ C110_statement := by
  intro h
  have := (h (ascii "NUM") [] (.kind .numeric)).2 (by unfold MethodOf; decide +kernel)
  exact absurd this (by decide +kernel)

theorem C110_refuted_case : makeCompParts (ascii "NUM") [] = .err ∧ makeCompParts (ascii "NUMERIC") [] ≠ .err ∧ makeCompParts (ascii "num") [] ≠ .err := by
  decide +kernel

/-- C110 for comparators of lines: the columns, the method and the pattern. -/
theorem C110_line_partial (compiles : Bytes → Bool) (cols method pattern : Bytes) (h : AliasOk (nameOf method)) (m : Method)
    (he : MethodOf (nameOf method) m) (hc : 44 ∉ cols) (hm : 44 ∉ method) :
    makeLineComp compiles (cols ++ 44 :: (method ++ 44 :: pattern)) =
      if cols = [] then .ok ⟨confOf method, pattern, .whole m⟩
      else (colsNew (sliceSplit 46 cols)).bind fun cs => .ok ⟨confOf method, pattern, .col m cs⟩ := by
  unfold makeLineComp
  rw [splitOnce_some 44 cols _ hc]
  simp only
  rw [splitOnce_some 44 method _ hm]
  simp only
  unfold makeLineCompParts
  rw [ofMethod_conf]
  have e : (confOf method).ctype = nameOf method := rfl
  simp only [e]
  have hf := (find_method _ h m).2 he
  have hne : eqIgnoreCase (compReg.resolve (nameOf method)) (ascii "expr") = false := by
    cases hx : eqIgnoreCase (compReg.resolve (nameOf method)) (ascii "expr") with
    | false => rfl
    | true =>
      exfalso
      have hlow : ∀ e ∈ methodItems, lower e.1 = e.1 := by decide +kernel
      rw [compReg_items, getEntryI_eq _ _ hlow] at hf
      unfold eqIgnoreCase at hx
      rw [beq_iff_eq] at hx
      rw [hx] at hf
      exact absurd hf (by
        have : getEntry (lower (ascii "expr")) methodItems = none := by decide +kernel
        rw [this]; simp)
  rw [hne, hf]
  simp

/-- An expression. -/
theorem C110_expr (compiles : Bytes → Bool) (cols method pattern : Bytes) (hc : 44 ∉ cols) (hm : 44 ∉ method)
    (he : lower (nameOf method) = ascii "expr") (hp : compiles pattern = true) :
    makeLineComp compiles (cols ++ 44 :: (method ++ 44 :: pattern)) = .ok ⟨confOf method, pattern, .expr pattern⟩ := by
  unfold makeLineComp
  rw [splitOnce_some 44 cols _ hc]
  simp only
  rw [splitOnce_some 44 method _ hm]
  simp only
  unfold makeLineCompParts
  rw [ofMethod_conf]
  have e : (confOf method).ctype = nameOf method := rfl
  simp only [e]
  have hr : compReg.resolve (nameOf method) = nameOf method := by
    unfold Registry.resolve
    rw [compReg_aliases]
    have ne : ∀ n : Bytes, lower n ≠ ascii "expr" → n ≠ nameOf method := fun n hn x => hn (by rw [x]; exact he)
    simp only [getEntry]
    rw [if_neg (ne _ (by decide +kernel)), if_neg (ne _ (by decide +kernel)), if_neg (ne _ (by decide +kernel))]
    rfl
  have hx : eqIgnoreCase (nameOf method) (ascii "expr") = true := by
    rw [eqIgnore_lower _ _ (by decide +kernel), he]; simp
  rw [hr, hx]
  simp [hp]

/-- Parts that are left out are empty. -/
theorem C110_short (compiles : Bytes → Bool) (cols method pattern : Bytes) (hc : 44 ∉ cols) (hm : 44 ∉ method) :
    makeLineComp compiles (cols ++ 44 :: method) = makeLineComp compiles (cols ++ 44 :: (method ++ 44 :: [])) ∧
    makeLineComp compiles cols = makeLineComp compiles (cols ++ 44 :: (44 :: [])) ∧
    makeComp method = makeComp (method ++ 44 :: []) ∧
    makeComp (method ++ 44 :: pattern) = makeCompParts method pattern := by
  unfold makeLineComp makeComp
  refine ⟨?_, ?_, ?_, ?_⟩
  · rw [splitOnce_some 44 cols _ hc, splitOnce_some 44 cols _ hc]
    simp only
    rw [splitOnce_some 44 method _ hm, splitOnce_none 44 method hm]
  · rw [splitOnce_some 44 cols _ hc, splitOnce_none 44 cols hc]
    simp only
    rw [show splitOnce 44 ([44] : Bytes) = some ([], []) by decide +kernel]
  · rw [splitOnce_some 44 method _ hm, splitOnce_none 44 method hm]
  · rw [splitOnce_some 44 method _ hm]

/-- The columns before a dot are those of the files in order, and the last one is that of all further files. -/
theorem C110_files (cols : List NamedCol) (hne : cols ≠ []) (n : Nat) (names : List Bytes) :
    lookupFile cols n names = (cols.getD (min n (cols.length - 1)) ⟨[], 0⟩).lookup names := by
  have hp : 0 < cols.length := List.length_pos_iff.2 hne
  unfold lookupFile fillCols
  by_cases h : cols.length < n + 1
  · rw [if_pos h, List.getElem?_append_right (by omega), List.getElem?_replicate, if_pos (by omega)]
    simp only
    have e : min n (cols.length - 1) = cols.length - 1 := by omega
    rw [e, List.getLastD_eq_getLast?, List.getLast?_eq_getElem?, List.getD_eq_getElem?_getD]
  · rw [if_neg h]
    have e : min n (cols.length - 1) = n := by omega
    rw [e, List.getD_eq_getElem?_getD, List.getElem?_eq_getElem (by omega)]
    rfl

example : MethodOf (nameOf (ascii "rev.Float.STRICT")) (.kind .float) ∧ AliasOk (nameOf (ascii "rev.Float.STRICT")) ∧
    confOf (ascii "rev.Float.STRICT") = ⟨.none, false, ascii "Float", true⟩ ∧
    makeLineComp (fun _ => true) (ascii "2.1,rev.Float.STRICT,x") =
      .ok ⟨⟨.none, false, ascii "Float", true⟩, ascii "x", .col (.kind .float) [⟨[], 1⟩, ⟨[], 0⟩]⟩ := by
  refine ⟨by unfold MethodOf; decide +kernel, ?_, by decide +kernel, by decide +kernel⟩
  rintro (h | h) <;> exact absurd h (by decide +kernel)

/-! ## Modifiers -/

/-- Full statement: a comparator of values answers with its method, reversed if it says so; and if it is strict, all texts that are no
numbers are the same to a method for numbers. -/
def C111_statement : Prop := ∀ (toF64 : Bytes → F64) (spec : Bytes) (c : ValComp) (k : CompKind), makeComp spec = .ok c →
  c.method = .kind k → ∀ rnd l r,
    (c.conf.junk = .any → c.comp toF64 rnd l r = rev c.conf.reverse (compK toF64 k l r)) ∧
    (k = .numeric → c.conf.junk = .none → (∀ v, toRatWhole l ≠ .ok v) → (∀ v, toRatWhole r ≠ .ok v) → c.comp toF64 rnd l r = .eq)

/-- `rev` does nothing to a comparator of values. -/
theorem C111_refuted : ¬ C111_statement := by
  intro h
  have h1 : makeComp (ascii "rev") = .ok ⟨⟨.any, false, [], true⟩, [], .kind .plain⟩ := by decide +kernel
  have := (h (fun _ => 0) _ _ .plain h1 rfl (fun _ _ => .eq) [97] [98]).1 rfl
  exact absurd this (by decide +kernel)

/-- `strict` does nothing. -/
theorem C111_refuted_strict : makeComp (ascii "num.strict") = .ok ⟨⟨.none, false, ascii "num", false⟩, [], .kind .numeric⟩ ∧
    toRatWhole (ascii "5x") = .err ∧ toRatWhole (ascii "6x") = .err ∧
    ∀ toF64 rnd, (⟨⟨.none, false, ascii "num", false⟩, [], .kind .numeric⟩ : ValComp).comp toF64 rnd (ascii "5x") (ascii "6x") = .lt := by
  refine ⟨by decide +kernel, by decide +kernel, by decide +kernel, fun toF64 rnd => ?_⟩
  show numCmpSigned (ascii "5x") (ascii "6x") = .lt
  decide +kernel

/-- Of all the words only the name counts. -/
theorem C111_only_name_partial (toF64 : Bytes → F64) (m1 m2 p1 p2 : Bytes) (h1 : AliasOk (nameOf m1)) (h2 : AliasOk (nameOf m2))
    (hn : lower (nameOf m1) = lower (nameOf m2)) (c1 c2 : ValComp) (e1 : makeCompParts m1 p1 = .ok c1) (e2 : makeCompParts m2 p2 = .ok c2)
    (rnd : Bytes → Bytes → Ordering) (l r : Bytes) : c1.comp toF64 rnd l r = c2.comp toF64 rnd l r := by
  have shape : ∀ m p c, makeCompParts m p = .ok c → c = ⟨confOf m, p, c.method⟩ := by
    intro m p c h
    unfold makeCompParts at h
    rw [ofMethod_conf] at h
    cases hx : getEntryI (compReg.resolve (confOf m).ctype) compReg.items with
    | none => simp [hx] at h
    | some x => simp only [hx, Res.ok.injEq] at h; rw [← h]
  have a1 := (C110_method_partial m1 p1 h1 c1.method).1 (by rw [e1]; exact congrArg Res.ok (shape _ _ _ e1))
  have a2 := (C110_method_partial m2 p2 h2 c2.method).1 (by rw [e2]; exact congrArg Res.ok (shape _ _ _ e2))
  have hnd2 : (methodNames.map Prod.fst).Nodup := by decide +kernel
  unfold MethodOf at a1 a2
  rw [← getEntry_mem _ _ hnd2] at a1 a2
  rw [hn, a2] at a1
  simp only [Option.some.injEq] at a1
  unfold ValComp.comp
  rw [a1]

/-! ## Lists of comparators of values -/

/-- Full statement: a list compares with the first comparator that tells a difference, equality agrees, and comparing a stored value is
comparing the value. -/
def C112_statement : Prop := ∀ (toF64 : Bytes → F64) (rnd : Bytes → Bytes → Ordering) (cs : List ValComp) (v r : Bytes) (d : UInt8),
  v.length < 2 ^ 32 → r.length < 2 ^ 32 → setCompSelf toF64 rnd cs v d r = .ok (compValues toF64 rnd cs v r)

/-- Two comparators want a value of two parts, but compare each part with the whole text. -/
theorem C112_refuted : ¬ C112_statement := by
  intro h
  have := h (fun _ => 0) (fun _ _ => .eq) [⟨{}, [], .kind .plain⟩, ⟨{}, [], .kind .plain⟩] [97] [97] 44 (by decide) (by decide)
  exact absurd this (by decide +kernel)

theorem C112_first (toF64 : Bytes → F64) (rnd : Bytes → Bytes → Ordering) (pre post : List ValComp) (c : ValComp) (l r : Bytes)
    (hp : ∀ d ∈ pre, d.comp toF64 rnd l r = .eq) (hc : c.comp toF64 rnd l r ≠ .eq) :
    compValues toF64 rnd (pre ++ c :: post) l r = c.comp toF64 rnd l r := by
  induction pre with
  | nil => simp [compValues, hc]
  | cons d ds ih =>
    rw [List.cons_append, compValues, hp d (by simp), ih fun e he => hp e (by simp [he])]
    simp

theorem C112_eq_iff (toF64 : Bytes → F64) (rnd : Bytes → Bytes → Ordering) (cs : List ValComp) (l r : Bytes) :
    compValues toF64 rnd cs l r = .eq ↔ ∀ c ∈ cs, c.comp toF64 rnd l r = .eq := by
  induction cs with
  | nil => simp [compValues]
  | cons c cs ih =>
    simp only [compValues, List.mem_cons, forall_eq_or_imp, ← ih]
    by_cases h : c.comp toF64 rnd l r = .eq <;> simp [h]

/-- Equality agrees, if the random comparator is not used. -/
theorem C112_equal (toF64 : Bytes → F64) (rnd : Bytes → Bytes → Ordering) (rq : Bytes → Bytes → Bool) (cs : List ValComp)
    (h : ∀ c ∈ cs, c.method ≠ .random) (l r : Bytes) :
    equalValues toF64 rq cs l r = true ↔ compValues toF64 rnd cs l r = .eq := by
  rw [C112_eq_iff]
  induction cs with
  | nil => simp [equalValues]
  | cons c cs ih =>
    have key : c.equal toF64 rq l r = true ↔ c.comp toF64 rnd l r = .eq := by
      unfold ValComp.equal ValComp.comp
      cases hm : c.method with
      | kind k => exact C22_equal_consistent toF64 k l r
      | random => exact absurd hm (h c (by simp))
    simp only [equalValues, List.mem_cons, forall_eq_or_imp, ← key]
    rw [← ih fun d hd => h d (by simp [hd])]
    cases c.equal toF64 rq l r <;> simp

theorem compSelf_comp (toF64 : Bytes → F64) (rnd : Bytes → Bytes → Ordering) (c : ValComp) (v r : Bytes)
    (hv : v.length < 2 ^ 32) (hr : r.length < 2 ^ 32) : c.compSelf toF64 rnd v r = c.comp toF64 rnd v r := by
  unfold ValComp.compSelf ValComp.comp
  cases hm : c.method with
  | kind k => exact C22_stored toF64 k v r hv hr
  | random => rfl

/-- With one comparator, comparing a stored value is comparing the value. -/
theorem C112_one_partial (toF64 : Bytes → F64) (rnd : Bytes → Bytes → Ordering) (c : ValComp) (v r : Bytes) (d : UInt8)
    (hv : v.length < 2 ^ 32) (hr : r.length < 2 ^ 32) : setCompSelf toF64 rnd [c] v d r = .ok (compValues toF64 rnd [c] v r) := by
  simp only [setCompSelf, setParts, List.length_singleton, if_true, Res.bind_ok, compSelfValues, compValues, compSelf_comp toF64 rnd c v r hv hr]

/-- With several, each is given its part of the value. -/
theorem C112_parts_partial (toF64 : Bytes → F64) (rnd : Bytes → Bytes → Ordering) (ps : List (ValComp × Bytes)) (hn : ps.length ≠ 1)
    (hne : ps ≠ []) (r : Bytes) (d : UInt8) (hd : ∀ p ∈ ps, d ∉ p.2) (hl : ∀ p ∈ ps, p.2.length < 2 ^ 32) (hr : r.length < 2 ^ 32) :
    setCompSelf toF64 rnd (ps.map Prod.fst) (List.intercalate [d] (ps.map Prod.snd)) d r =
      .ok (((ps.map fun p => p.1.comp toF64 rnd p.2 r).find? (· ≠ .eq)).getD .eq) := by
  have hs : sliceSplit d (List.intercalate [d] (ps.map Prod.snd)) = ps.map Prod.snd :=
    sliceSplit_intercalate d _ (by simpa using hne) (by simpa using fun b a h => hd (a, b) h)
  simp only [setCompSelf, setParts, hs, List.length_map, hn, if_false, ne_eq, not_true_eq_false, Res.bind_ok, Res.ok.injEq]
  clear hs hn hne
  induction ps with
  | nil => rfl
  | cons p ps ih =>
    have e := compSelf_comp toF64 rnd p.1 p.2 r (hl p (by simp)) hr
    simp only [List.map_cons, compSelfValues]
    rw [e, ih (fun q hq => hd q (by simp [hq])) fun q hq => hl q (by simp [hq]), List.find?_cons]
    by_cases h : p.1.comp toF64 rnd p.2 r = .eq <;> simp [h]

example : setCompSelf (fun _ => 0) (fun _ _ => .eq) [⟨{}, [], .kind .plain⟩, ⟨{}, [], .kind .length⟩] (ascii "b,ccc") 44 (ascii "b") = .ok .gt := by
  decide +kernel

end Cdx
