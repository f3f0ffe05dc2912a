import Verif.Props.Agg
import Verif.Props.Parts
import Verif.Props.Trans

/-! C88 to C90: signed numbers, options of `merge` and names of aggregators. -/

namespace Cdx

/-! ## Signed numbers -/

/-- The sign of a decimal text. -/
inductive Sign | none | plus | minus

def Sign.text : Sign → Bytes
  | .none => []
  | .plus => [43]
  | .minus => [45]

def Sign.value : Sign → Int
  | .minus => -1
  | _ => 1

theorem isizeSign_text (s : Sign) (ds : Bytes) (h0 : ds ≠ []) (hd : ∀ c ∈ ds, isDigit c = true) :
    isizeSign (s.text ++ ds) = (s.value, ds) := by
  cases s with
  | plus => rfl
  | minus => rfl
  | none =>
    cases ds with
    | nil => exact absurd rfl h0
    | cons c ds =>
      have hc := hd c (by simp)
      have h1 : c ≠ 43 := fun e => by subst e; exact absurd hc (by decide)
      have h2 : c ≠ 45 := fun e => by subst e; exact absurd hc (by decide)
      simp [Sign.text, isizeSign, h1, h2, Sign.value]

theorem toIsize_digits (s : Sign) (ds rest : Bytes) (h0 : ds ≠ []) (hd : ∀ c ∈ ds, isDigit c = true)
    (hr : ∀ c, rest.head? = some c → isDigit c = false) :
    toIsize (s.text ++ (ds ++ rest)) =
      if decVal ds ≤ isizeMax then
        match rest with
        | [] => (mulIsize (decVal ds) s.value).bind fun v => some (v, [])
        | c :: rest' => match suffixValU c with
          | none => (mulIsize (decVal ds) s.value).bind fun v => some (v, c :: rest')
          | some mul => (mulIsize (decVal ds) (asIsize mul)).bind fun v =>
            (mulIsize v s.value).bind fun v => some (v, rest')
      else none := by
  have hs : isizeSign (s.text ++ (ds ++ rest)) = (s.value, ds ++ rest) := by
    cases s with
    | plus => rfl
    | minus => rfl
    | none =>
      cases ds with
      | nil => exact absurd rfl h0
      | cons c ds =>
        have hc := hd c (by simp)
        have h1 : c ≠ 43 := fun e => by subst e; exact absurd hc (by decide)
        have h2 : c ≠ 45 := fun e => by subst e; exact absurd hc (by decide)
        simp [Sign.text, isizeSign, h1, h2, Sign.value]
  have hl := digitLoop_spec isizeMax 0 (Nat.zero_le _) ds rest hd hr
  simp only [Nat.zero_mul, Nat.zero_add] at hl
  cases ds with
  | nil => exact absurd rfl h0
  | cons c ds =>
    have hc := hd c (by simp)
    rw [List.cons_append] at hs hl
    rw [toIsize, List.cons_append, hs]
    simp only [hc, Bool.true_eq_false, if_false, hl]
    by_cases hv : decVal (c :: ds) ≤ isizeMax
    · rw [if_pos hv, if_pos hv]; rfl
    · rw [if_neg hv, if_neg hv]

/-- C88 in full: the decimal text of every `isize` is read as that number. -/
def C88_statement : Prop :=
  ∀ (s : Sign) (ds : Bytes), ds ≠ [] → (∀ c ∈ ds, isDigit c = true) →
    -2 ^ 63 ≤ s.value * decVal ds → s.value * decVal ds ≤ 2 ^ 63 - 1 →
    toIsizeWhole (s.text ++ ds) = .ok (s.value * decVal ds)

/-- The smallest number overflows. -/
theorem C88_refuted : ¬ C88_statement := by
  intro h
  have := h .minus (ascii "9223372036854775808") (by decide) (by decide) (by decide +kernel) (by decide +kernel)
  exact absurd this (by decide +kernel)

/-- C88 for all other numbers. -/
theorem C88_signed_partial (s : Sign) (ds : Bytes) (h0 : ds ≠ []) (hd : ∀ c ∈ ds, isDigit c = true)
    (hv : decVal ds ≤ 2 ^ 63 - 1) : toIsizeWhole (s.text ++ ds) = .ok (s.value * decVal ds) := by
  have := toIsize_digits s ds [] h0 hd (by simp)
  rw [List.append_nil] at this
  have hi : decVal ds ≤ isizeMax := hv
  have hb : (isizeMax : Int) = 2 ^ 63 - 1 := by decide
  rw [toIsizeWhole, this, if_pos hi]
  have hm : mulIsize (decVal ds) s.value = some (s.value * decVal ds) := by
    unfold mulIsize
    have hi' : (decVal ds : Int) ≤ isizeMax := Int.ofNat_le.2 hi
    have : (decVal ds : Int) * s.value = s.value * decVal ds := Int.mul_comm _ _
    rw [this, if_pos]
    cases s <;> simp only [Sign.value] <;> omega
  simp [hm]

/-- With a suffix for which there is a multiplier within range, the number is multiplied. -/
theorem C88_suffix_partial (s : Sign) (ds : Bytes) (c : UInt8) (m : Nat) (h0 : ds ≠ []) (hd : ∀ c ∈ ds, isDigit c = true)
    (hc : isDigit c = false) (hm : suffixValU c = some m) (hv : decVal ds * m ≤ 2 ^ 63 - 1) (hm1 : 1 ≤ m)
    (hm2 : m ≤ 2 ^ 63 - 1) : toIsizeWhole (s.text ++ (ds ++ [c])) = .ok (s.value * (decVal ds * m)) := by
  have := toIsize_digits s ds [c] h0 hd (by simpa using hc)
  have hle : decVal ds ≤ decVal ds * m := Nat.le_mul_of_pos_right _ hm1
  have hi : decVal ds ≤ isizeMax := Nat.le_trans hle hv
  rw [toIsizeWhole, this, if_pos hi]
  have ha : asIsize m = m := by unfold asIsize; rw [if_pos (show m ≤ isizeMax from hm2)]
  have hi' : ((decVal ds * m : Nat) : Int) ≤ isizeMax := Int.ofNat_le.2 hv
  have e1 : mulIsize (decVal ds) (asIsize m) = some ((decVal ds * m : Nat) : Int) := by
    unfold mulIsize
    rw [ha, ← Int.natCast_mul, if_pos]
    omega
  have e2 : mulIsize ((decVal ds * m : Nat) : Int) s.value = some (s.value * (decVal ds * m : Nat)) := by
    unfold mulIsize
    rw [Int.mul_comm, if_pos]
    cases s <;> simp only [Sign.value] <;> omega
  simp only [hm, e1, e2, Option.bind_some, ne_eq, not_true_eq_false, if_false]
  rw [Int.natCast_mul]

/-- Digits that do not fit panic. -/
theorem C88_overflow (s : Sign) (ds rest : Bytes) (h0 : ds ≠ []) (hd : ∀ c ∈ ds, isDigit c = true)
    (hr : ∀ c, rest.head? = some c → isDigit c = false) (hv : 2 ^ 63 - 1 < decVal ds) :
    toIsizeWhole (s.text ++ (ds ++ rest)) = .panic := by
  have hi : ¬ decVal ds ≤ isizeMax := Nat.not_le.2 hv
  rw [toIsizeWhole, toIsize_digits s ds rest h0 hd hr, if_neg hi]

example : (∀ c ∈ ascii "9223372036854775808", isDigit c = true) ∧ 2 ^ 63 - 1 < decVal (ascii "9223372036854775808") := by
  decide +kernel

/-- A number followed by something else than a suffix is an error. -/
theorem C88_trailing (s : Sign) (ds rest : Bytes) (c : UInt8) (h0 : ds ≠ []) (hd : ∀ c ∈ ds, isDigit c = true)
    (hc : isDigit c = false) (hm : suffixValU c = none) (hv : decVal ds ≤ 2 ^ 63 - 1) :
    toIsizeWhole (s.text ++ (ds ++ c :: rest)) = .err := by
  have hi : decVal ds ≤ isizeMax := hv
  rw [toIsizeWhole, toIsize_digits s ds (c :: rest) h0 hd (by simpa using hc), if_pos hi]
  have hm' : mulIsize (decVal ds) s.value = some (s.value * decVal ds) := by
    unfold mulIsize
    have hi' : (decVal ds : Int) ≤ isizeMax := Int.ofNat_le.2 hi
    have : (decVal ds : Int) * s.value = s.value * decVal ds := Int.mul_comm _ _
    rw [this, if_pos]
    cases s <;> simp only [Sign.value] <;> omega
  simp [hm, hm']

example : isDigit 33 = false ∧ suffixValU 33 = none := by decide +kernel

/-- A text without digits after its sign is an error, but the empty text is zero. -/
theorem C88_no_digits (t : Bytes) (h : ∀ c, (isizeSign t).2.head? = some c → isDigit c = false) :
    toIsizeWhole t = if t = [] then .ok 0 else .err := by
  have : toIsize t = some (0, t) := by
    unfold toIsize
    cases h2 : (isizeSign t).2 with
    | nil => rfl
    | cons c cs => rw [h2] at h; simp [h c rfl]
  rw [toIsizeWhole, this]
  by_cases ht : t = [] <;> simp [ht]

example : ∀ c, (isizeSign (ascii "-x")).2.head? = some c → isDigit c = false := by decide +kernel

/-- A positive number with suffix `Z` is negative. -/
theorem C88_suffix_refuted : toIsizeWhole (ascii "5Z") = .ok (-5) := by decide +kernel

example : toIsizeWhole (ascii "-12k") = .ok (-12000) := by decide +kernel
example : (∀ c ∈ ascii "12", isDigit c = true) ∧ suffixValU 107 = some 1000 ∧ decVal (ascii "12") * 1000 ≤ 2 ^ 63 - 1 := by
  decide +kernel

/-! ## Options of `merge` -/

/-- An option of `merge`. -/
inductive MergeOpt
  | delim (x y : UInt8)
  | sort | uniq | count
  | minLen (n : Bytes) | maxLen (n : Bytes) | maxParts (n : Bytes)
  | comp (spec : Bytes)

/-- How it is written. -/
def MergeOpt.text : MergeOpt → Bytes
  | .delim x y => [68, x, y]
  | .sort => ascii "sort"
  | .uniq => ascii "uniq"
  | .count => ascii "count"
  | .minLen n => ascii "min_len:" ++ n
  | .maxLen n => ascii "max_len:" ++ n
  | .maxParts n => ascii "max_parts:" ++ n
  | .comp s => ascii "comp:" ++ s

/-- Its meaning. -/
def MergeOpt.set (kind : Bytes → CompKind) (m : MergeConf) : MergeOpt → MergeConf
  | .delim x y => { m with delim := x, outDelim := y }
  | .sort => { m with doSort := true }
  | .uniq => { m with doUniq := true }
  | .count => { m with doCount := true }
  | .minLen n => { m with minLen := decVal n }
  | .maxLen n => { m with maxLen := decVal n }
  | .maxParts n => { m with maxParts := decVal n }
  | .comp s => { m with comp := kind s }

/-- Well formed: ASCII delimiters, decimal numbers, known comparators. -/
def MergeOpt.Valid (mkComp : Bytes → Res CompKind) (kind : Bytes → CompKind) : MergeOpt → Prop
  | .delim x y => x < 128 ∧ y < 128
  | .minLen n | .maxLen n | .maxParts n => DigitString (2 ^ 32) n
  | .comp s => mkComp s = .ok (kind s)
  | _ => True

def MergeOpt.IsComp : MergeOpt → Prop
  | .comp _ => True
  | _ => False

def MergeOpt.IsDelim : MergeOpt → Prop
  | .delim _ _ => True
  | _ => False

/-- C89 in full: options in any order, separated by dots, the comparator last, are all applied. -/
def C89_statement : Prop :=
  ∀ (mkComp : Bytes → Res CompKind) (kind : Bytes → CompKind) (opts : List MergeOpt),
    (∀ o ∈ opts, o.Valid mkComp kind) → (∀ o ∈ opts.dropLast, ¬ o.IsComp) →
    mergeNew mkComp (List.intercalate [46] (opts.map MergeOpt.text)) = .ok (opts.foldl (MergeOpt.set kind) .default)

/-- Delimiters alone are an error. -/
theorem C89_refuted : ¬ C89_statement := by
  intro h
  have := h (fun _ => .ok .plain) (fun _ => .plain) [.delim 59 44] (by
    intro o ho; simp only [List.mem_singleton] at ho; subst ho; exact ⟨by decide, by decide⟩) (by simp)
  exact absurd this (by decide +kernel)

/-- Every `D` option is followed by one that is neither `D` nor the comparator. -/
def DelimsFollowed : List MergeOpt → Prop
  | [] => True
  | [o] => ¬ o.IsDelim
  | o :: p :: r => (o.IsDelim → ¬ p.IsDelim ∧ ¬ p.IsComp) ∧ DelimsFollowed (p :: r)

theorem digitString_free {lim : Nat} {b : Bytes} (h : DigitString lim b) : (46 : UInt8) ∉ b := by
  intro hm
  exact absurd (h.2.1 46 hm) (by decide)

/-- What the loop needs to know of an option that is neither `D` nor the comparator. -/
structure SimpleText (mkComp : Bytes → Res CompKind) (t : Bytes) (f : MergeConf → MergeConf) : Prop where
  ne : t ≠ []
  noD : t.head? ≠ some 68
  noComp : ∀ r, (ascii "comp:").isPrefixOf (t ++ r) = false
  noDot : (46 : UInt8) ∉ t
  add : ∀ m, MergeConf.addOne mkComp m t = .ok (f m)

theorem MergeOpt.simple (mkComp : Bytes → Res CompKind) (kind : Bytes → CompKind) (o : MergeOpt) (hv : o.Valid mkComp kind)
    (hd : ¬ o.IsDelim) (hc : ¬ o.IsComp) : SimpleText mkComp o.text (fun m => o.set kind m) := by
  cases o with
  | delim => exact absurd trivial hd
  | comp => exact absurd trivial hc
  | sort => exact ⟨by decide, by decide, fun r => rfl, by decide, fun m => rfl⟩
  | uniq => exact ⟨by decide, by decide, fun r => rfl, by decide, fun m => rfl⟩
  | count => exact ⟨by decide, by decide, fun r => rfl, by decide, fun m => rfl⟩
  | minLen n =>
    have hn : DigitString (2 ^ 32) n := hv
    have := digitString_free hn
    refine ⟨by simp +decide [MergeOpt.text], by simp +decide [MergeOpt.text, ascii], fun r => rfl, ?_, ?_⟩
    · simp only [MergeOpt.text, List.mem_append, not_or]; exact ⟨by decide, this⟩
    · intro m
      show ((toUsizeWhole n).bind fun n => .ok { m with minLen := n }) = _
      rw [toUsizeWhole_digits n hn]; rfl
  | maxLen n =>
    have hn : DigitString (2 ^ 32) n := hv
    have := digitString_free hn
    refine ⟨by simp +decide [MergeOpt.text], by simp +decide [MergeOpt.text, ascii], fun r => rfl, ?_, ?_⟩
    · simp only [MergeOpt.text, List.mem_append, not_or]; exact ⟨by decide, this⟩
    · intro m
      show ((toUsizeWhole n).bind fun n => .ok { m with maxLen := n }) = _
      rw [toUsizeWhole_digits n hn]; rfl
  | maxParts n =>
    have hn : DigitString (2 ^ 32) n := hv
    have := digitString_free hn
    refine ⟨by simp +decide [MergeOpt.text], by simp +decide [MergeOpt.text, ascii], fun r => rfl, ?_, ?_⟩
    · simp only [MergeOpt.text, List.mem_append, not_or]; exact ⟨by decide, this⟩
    · intro m
      show ((toUsizeWhole n).bind fun n => .ok { m with maxParts := n }) = _
      rw [toUsizeWhole_digits n hn]; rfl

theorem mergeDelim_simple (mkComp : Bytes → Res CompKind) (m : MergeConf) (t : Bytes) (h : t.head? ≠ some 68) :
    mergeDelim mkComp m t = .ok (m, t) := by
  unfold mergeDelim
  split
  · exact absurd rfl h
  · rfl

theorem SimpleText.step {mkComp : Bytes → Res CompKind} {t : Bytes} {f : MergeConf → MergeConf} (h : SimpleText mkComp t f)
    (fuel : Nat) (m : MergeConf) (r : Bytes) :
    mergeLoop mkComp (fuel + 1) m (t ++ 46 :: r) = mergeLoop mkComp fuel (f m) r := by
  have h1 : (t ++ 46 :: r).head? ≠ some 68 := by
    cases t with
    | nil => exact absurd rfl h.ne
    | cons x t => simpa using h.noD
  simp only [mergeLoop]
  rw [if_neg (by simp), h.noComp]
  simp only [Bool.false_eq_true, if_false, mergeDelim_simple mkComp m _ h1, Res.bind_ok, splitOnce_some 46 t r h.noDot, h.add]

theorem SimpleText.final {mkComp : Bytes → Res CompKind} {t : Bytes} {f : MergeConf → MergeConf} (h : SimpleText mkComp t f)
    (fuel : Nat) (m : MergeConf) : mergeLoop mkComp (fuel + 1) m t = .ok (f m) := by
  have hc := h.noComp []
  rw [List.append_nil] at hc
  simp only [mergeLoop]
  rw [if_neg h.ne, hc]
  simp only [Bool.false_eq_true, if_false, mergeDelim_simple mkComp m _ h.noD, Res.bind_ok, splitOnce_none 46 t h.noDot, h.add]

theorem mergeDelim_dot (mkComp : Bytes → Res CompKind) (m : MergeConf) (x y : UInt8) (r : Bytes) :
    mergeDelim mkComp m ([68, x, y] ++ 46 :: r) = .ok ({ m with delim := x, outDelim := y }, r) := by
  show (if ([68, x, y] ++ 46 :: r).length < 3 then Res.err else _) = _
  rw [if_neg (by simp)]
  rfl

theorem delim_noComp (x y : UInt8) (r : Bytes) : (ascii "comp:").isPrefixOf ([68, x, y] ++ r) = false := rfl

theorem mergeLoop_opts (mkComp : Bytes → Res CompKind) (kind : Bytes → CompKind) (opts : List MergeOpt)
    (hv : ∀ o ∈ opts, o.Valid mkComp kind) (hc : ∀ o ∈ opts.dropLast, ¬ o.IsComp) (hd : DelimsFollowed opts)
    (m : MergeConf) (fuel : Nat) (hf : opts.length < fuel) :
    mergeLoop mkComp fuel m (List.intercalate [46] (opts.map MergeOpt.text)) = .ok (opts.foldl (MergeOpt.set kind) m) := by
  induction fuel generalizing opts m with
  | zero => exact absurd hf (by omega)
  | succ fuel ih =>
  match opts with
  | [] => rfl
  | [o] =>
    have : List.intercalate [46] ([o].map MergeOpt.text) = o.text := by simp [List.intercalate]
    rw [this, List.foldl_cons, List.foldl_nil]
    by_cases hcomp : o.IsComp
    · cases o with
      | comp s =>
        have hs : mkComp s = .ok (kind s) := hv (.comp s) (by simp)
        show ((mkComp s).bind fun k => Res.ok { m with comp := k }) = _
        rw [hs]; rfl
      | _ => exact absurd hcomp id
    · exact (o.simple mkComp kind (hv o (by simp)) hd hcomp).final fuel m
  | o :: p :: r =>
    have e : List.intercalate [46] ((o :: p :: r).map MergeOpt.text) =
        o.text ++ 46 :: List.intercalate [46] ((p :: r).map MergeOpt.text) := by simp [List.intercalate]
    have hv' : ∀ q ∈ p :: r, q.Valid mkComp kind := fun q hq => hv q (List.mem_cons_of_mem _ hq)
    have hc' : ∀ q ∈ (p :: r).dropLast, ¬ q.IsComp := fun q hq => hc q (by simp [hq])
    have hco : ¬ o.IsComp := hc o (by simp)
    rw [e, List.foldl_cons]
    by_cases hdel : o.IsDelim
    · obtain ⟨hpd, hpc⟩ := hd.1 hdel
      have hp := p.simple mkComp kind (hv p (by simp)) hpd hpc
      cases o with
      | delim x y =>
        show mergeLoop mkComp (fuel + 1) m ([68, x, y] ++ _) = _
        simp only [mergeLoop]
        rw [if_neg (by simp), delim_noComp]
        simp only [Bool.false_eq_true, if_false, mergeDelim_dot, Res.bind_ok]
        match r with
        | [] =>
          have : List.intercalate [46] ([p].map MergeOpt.text) = p.text := by simp [List.intercalate]
          rw [this, splitOnce_none 46 _ hp.noDot]
          exact hp.add _
        | q :: r =>
          have e2 : List.intercalate [46] ((p :: q :: r).map MergeOpt.text) =
              p.text ++ 46 :: List.intercalate [46] ((q :: r).map MergeOpt.text) := by simp [List.intercalate]
          rw [e2, splitOnce_some 46 _ _ hp.noDot]
          simp only [hp.add, Res.bind_ok]
          have := ih (q :: r) (fun s hs => hv' s (List.mem_cons_of_mem _ hs))
            (fun s hs => hc' s (by simp [hs])) hd.2.2 (p.set kind (MergeOpt.set kind m (.delim x y)))
            (by simp at hf ⊢; omega)
          exact this
      | _ => exact absurd hdel id
    · rw [(o.simple mkComp kind (hv o (by simp)) hdel hco).step fuel m]
      exact ih (p :: r) hv' hc' hd.2 _ (by simp at hf ⊢; omega)

theorem opts_length (opts : List MergeOpt) :
    opts.length ≤ (List.intercalate [46] (opts.map MergeOpt.text)).length := by
  induction opts with
  | nil => simp
  | cons o r ih =>
    have : 1 ≤ o.text.length := by cases o <;> simp [MergeOpt.text, ascii]
    cases r with
    | nil => simpa [List.intercalate] using this
    | cons p r =>
      have e : List.intercalate [46] ((o :: p :: r).map MergeOpt.text) =
        o.text ++ 46 :: List.intercalate [46] ((p :: r).map MergeOpt.text) := by simp [List.intercalate]
      have h2 : (46 :: List.intercalate [46] ((p :: r).map MergeOpt.text)).length =
          (List.intercalate [46] ((p :: r).map MergeOpt.text)).length + 1 := rfl
      have h3 : (o :: p :: r).length = (p :: r).length + 1 := rfl
      rw [e, List.length_append, h2, h3]
      omega

/-- C89 if every `D` option is followed by one that is neither `D` nor the comparator. -/
theorem C89_options_partial (mkComp : Bytes → Res CompKind) (kind : Bytes → CompKind) (opts : List MergeOpt)
    (hv : ∀ o ∈ opts, o.Valid mkComp kind) (hc : ∀ o ∈ opts.dropLast, ¬ o.IsComp) (hd : DelimsFollowed opts) :
    mergeNew mkComp (List.intercalate [46] (opts.map MergeOpt.text)) = .ok (opts.foldl (MergeOpt.set kind) .default) :=
  mergeLoop_opts mkComp kind opts hv hc hd _ _ (by have := opts_length opts; omega)

example : DelimsFollowed [.delim 59 44, .sort, .maxLen (ascii "12"), .comp (ascii "num.rev")] :=
  ⟨fun _ => ⟨id, id⟩, fun h => absurd h id, fun h => absurd h id, id⟩
example : mergeNew (fun _ => .ok .numeric) (ascii "D;,.sort.max_len:12.comp:num.rev") =
    .ok { MergeConf.default with delim := 59, doSort := true, maxLen := 12, comp := .numeric } := by decide +kernel

/-! ## Names -/

/-- The names of aggregators and their aliases. -/
def aggNames : List Bytes :=
  [ascii "asum", ascii "amin", ascii "amax", ascii "amean", ascii "merge", ascii "count", ascii "prefix", ascii "suffix",
    ascii "min", ascii "max", ascii "mean", ascii "sum", ascii "minimum", ascii "maximum", ascii "avg", ascii "aavg"]

/-- C90 in full: only these names make an aggregator. -/
def C90_statement : Prop :=
  ∀ (F : Type) (env : AggEnv F) (spec pattern : Bytes) (a : Agg F), aggMake2 env spec pattern = .ok a → spec ∈ aggNames

/-- Anything before a dot is ignored. -/
theorem C90_refuted : ¬ C90_statement := by
  intro h
  have h1 : aggMake2 AggEnv.plain (ascii "frob.sum") [] = .ok (.sum 0) := by decide +kernel
  exact absurd (h Nat AggEnv.plain _ _ _ h1) (by decide)

theorem aggBox_known {F : Type} (env : AggEnv F) (name pattern : Bytes) (a : Agg F) (h : aggBox env name pattern = .ok a) :
    name ∈ aggNames.take 12 := by
  by_cases hm : name ∈ aggNames.take 12
  · exact hm
  · simp only [aggNames, List.take_succ_cons, List.take_zero, List.mem_cons, List.not_mem_nil, or_false, not_or] at hm
    obtain ⟨h1, h2, h3, h4, h5, h6, h7, h8, h9, h10, h11, h12⟩ := hm
    simp only [aggBox, h1, h2, h3, h4, h5, h6, h7, h8, h9, h10, h11, h12, if_false] at h
    exact absurd h (by simp)

theorem aggAlias_known (n : Bytes) (h : aggAlias n ∈ aggNames.take 12) : n ∈ aggNames := by
  unfold aggAlias at h
  split at h
  · rename_i e; subst e; decide
  · split at h
    · rename_i e; subst e; decide
    · split at h
      · rename_i e; subst e; decide
      · split at h
        · rename_i e; subst e; decide
        · exact List.mem_of_mem_take h

/-- C90: the last of the dotted words decides, and it has to be a known name. -/
theorem C90_names_partial {F : Type} (env : AggEnv F) (spec pattern : Bytes) :
    (∀ a, aggMake2 env spec pattern = .ok a → (sliceSplit 46 spec).getLastD [] ∈ aggNames) ∧
    (∀ p, (46 : UInt8) ∉ spec → spec ≠ [] → aggMake2 env (p ++ [46] ++ spec) pattern = aggMake2 env spec pattern) := by
  constructor
  · intro a h
    unfold aggMake2 at h
    split at h
    · exact absurd (aggBox_known env _ _ a h) (by decide)
    · exact aggAlias_known _ (aggBox_known env _ _ a h)
  · intro p hn hne
    have hs := sliceSplit_free 46 spec hn
    unfold aggMake2
    rw [if_neg (by simp), if_neg hne, hs]
    obtain ⟨l, hl⟩ : ∃ l, sliceSplit 46 (p ++ [46] ++ spec) = l ++ [spec] := by
      refine ⟨sliceSplit 46 p, ?_⟩
      rw [sliceSplit_join, hs]
    rw [hl]; simp

/-- C90: an alias makes the same aggregator as its name. -/
theorem C90_alias {F : Type} (env : AggEnv F) (pattern : Bytes) :
    aggMake2 env (ascii "minimum") pattern = aggMake2 env (ascii "min") pattern ∧
    aggMake2 env (ascii "maximum") pattern = aggMake2 env (ascii "max") pattern ∧
    aggMake2 env (ascii "avg") pattern = aggMake2 env (ascii "mean") pattern ∧
    aggMake2 env (ascii "aavg") pattern = aggMake2 env (ascii "amean") pattern := by
  have key : ∀ a b : Bytes, a ≠ [] → b ≠ [] → aggAlias ((sliceSplit 46 a).getLastD []) = aggAlias ((sliceSplit 46 b).getLastD []) →
      aggMake2 env a pattern = aggMake2 env b pattern := by
    intro a b ha hb h
    rw [aggMake2, aggMake2, if_neg ha, if_neg hb, h]
  exact ⟨key _ _ (by decide) (by decide) (by decide), key _ _ (by decide) (by decide) (by decide),
    key _ _ (by decide) (by decide) (by decide), key _ _ (by decide) (by decide) (by decide)⟩

/-- C90: the pattern is what follows the first comma. -/
theorem C90_pattern {F : Type} (env : AggEnv F) (name pattern : Bytes) (h : (44 : UInt8) ∉ name) :
    aggMake env (name ++ 44 :: pattern) = aggMake2 env name pattern ∧ aggMake env name = aggMake2 env name [] := by
  constructor
  · rw [aggMake, splitOnce_some 44 name pattern h]
  · rw [aggMake, splitOnce_none 44 name h]

/-- C90: what each name makes. -/
theorem C90_meaning {F : Type} (env : AggEnv F) :
    aggMake env (ascii "prefix") = .ok (.prefix [] true) ∧ aggMake env (ascii "suffix") = .ok (.suffix [] true) ∧
    aggMake env (ascii "mean") = .ok (.mean env.ops.zero env.ops.zero) ∧ aggMake env (ascii "sum") = .ok (.sum env.ops.zero) ∧
    aggMake env (ascii "count") = .ok (.count 0 0) ∧ aggMake env (ascii "merge") = .ok (.merge .default []) ∧
    (∀ p k, env.mkComp p = .ok k → aggMake env (ascii "min," ++ p) = .ok (.min k [] true) ∧
      aggMake env (ascii "max," ++ p) = .ok (.max k [])) ∧
    (∀ p c, makeCounter p = .ok c → aggMake env (ascii "asum," ++ p) = .ok (.asum c 0) ∧
      aggMake env (ascii "amin," ++ p) = .ok (.amin c usizeMax) ∧ aggMake env (ascii "amax," ++ p) = .ok (.amax c 0) ∧
      aggMake env (ascii "amean," ++ p) = .ok (.amean c 0 0)) := by
  refine ⟨rfl, rfl, rfl, rfl, rfl, rfl, ?_, ?_⟩
  · intro p k h
    constructor
    · show ((env.mkComp p).bind fun k => Res.ok (Agg.min k [] true)) = _
      rw [h]; rfl
    · show ((env.mkComp p).bind fun k => Res.ok (Agg.max k [])) = _
      rw [h]; rfl
  · intro p c h
    refine ⟨?_, ?_, ?_, ?_⟩
    · show ((makeCounter p).bind fun c => Res.ok (Agg.asum c 0)) = _
      rw [h]; rfl
    · show ((makeCounter p).bind fun c => Res.ok (Agg.amin c usizeMax)) = _
      rw [h]; rfl
    · show ((makeCounter p).bind fun c => Res.ok (Agg.amax c 0)) = _
      rw [h]; rfl
    · show ((makeCounter p).bind fun c => Res.ok (Agg.amean c 0 0)) = _
      rw [h]; rfl

/-- C90: a number or the lack of it after `count`; the names that take no pattern. -/
theorem C90_patterns {F : Type} (env : AggEnv F) (p : Bytes) (h : p ≠ []) :
    aggMake env (ascii "prefix," ++ p) = .err ∧ aggMake env (ascii "suffix," ++ p) = .err ∧ aggMake env (ascii "mean," ++ p) = .err ∧
    aggMake env (ascii "sum," ++ p) = .err ∧
    aggMake env (ascii "count," ++ p) = (toIsizeWhole p).bind (fun n => .ok (.count n n)) ∧
    aggMake env (ascii "merge," ++ p) = (mergeNew env.mkComp p).bind (fun m => .ok (.merge m [])) ∧
    aggMake env (ascii "min," ++ p) = (env.mkComp p).bind (fun k => .ok (.min k [] true)) ∧
    aggMake env (ascii "max," ++ p) = (env.mkComp p).bind (fun k => .ok (.max k [])) := by
  have e : ∀ {α : Type} (a b : α), (if p = [] then a else b) = b := fun a b => if_neg h
  refine ⟨?_, ?_, ?_, ?_, ?_, rfl, rfl, rfl⟩
  · show (if p = [] then _ else _) = _; exact e _ _
  · show (if p = [] then _ else _) = _; exact e _ _
  · show (if p = [] then _ else _) = _; exact e _ _
  · show (if p = [] then _ else _) = _; exact e _ _
  · show (if p = [] then _ else _) = _; exact e _ _

/-- The counter a name and the wish for UTF-8 stand for. -/
def counterNamed (utf8 : Bool) (name : Bytes) : Res Counter :=
  if name = ascii "chars" then .ok ⟨.chars, utf8⟩ else if name = ascii "swords" then .ok ⟨.swords, utf8⟩
  else if name = ascii "awords" then .ok ⟨.awords, utf8⟩ else .err

theorem counterWords_eq (ws : List Bytes) : ∀ (u : Bool) (n : Bytes), counterWords ws u n =
    (u || ws.any fun w => eqIgnoreCase w (ascii "utf8"), (ws.filter fun w => !eqIgnoreCase w (ascii "utf8")).getLastD n) := by
  induction ws with
  | nil => intro u n; simp [counterWords]
  | cons w ws ih =>
    intro u n
    rw [counterWords]
    cases h : eqIgnoreCase w (ascii "utf8") with
    | true => simp [ih, h]
    | false =>
      rw [if_neg (by simp), ih]
      simp only [List.any_cons, h, Bool.false_or, List.filter_cons, Bool.not_false, if_true]
      rw [List.getLastD_cons]

theorem aggAlias_counter (u : Bool) (n : Bytes) : counterNamed u (aggAlias n) = counterNamed u n := by
  unfold aggAlias
  split
  · rename_i h; subst h; rfl
  · split
    · rename_i h; subst h; rfl
    · split
      · rename_i h; subst h; rfl
      · split
        · rename_i h; subst h; rfl
        · rfl

/-- C90: a counter is what the last of the words before the first comma says that is not `utf8`; it counts characters exactly if
one of the words is `utf8`, in any case. -/
theorem C90_counter (ws : List Bytes) (p : Bytes) (h0 : ws ≠ []) (hw : ∀ w ∈ ws, (46 : UInt8) ∉ w ∧ (44 : UInt8) ∉ w) :
    makeCounter (List.intercalate [46] ws) =
      counterNamed (ws.any fun w => eqIgnoreCase w (ascii "utf8")) ((ws.filter fun w => !eqIgnoreCase w (ascii "utf8")).getLastD []) ∧
    makeCounter (List.intercalate [46] ws ++ 44 :: p) = makeCounter (List.intercalate [46] ws) := by
  have hc : (44 : UInt8) ∉ List.intercalate [46] ws := by
    clear h0
    induction ws with
    | nil => simp
    | cons w ws ih =>
      have := ih fun v hv => hw v (by simp [hv])
      cases ws with
      | nil => simpa using (hw w (by simp)).2
      | cons v vs =>
        rw [List.intercalate_cons_cons]
        simp only [List.mem_append, List.mem_cons, not_or]
        exact ⟨⟨(hw w (by simp)).2, by decide, by simp⟩, this⟩
  have key : makeCounter (List.intercalate [46] ws) = makeCounter2 (List.intercalate [46] ws) := by
    rw [makeCounter, splitOnce_none 44 _ hc]
  constructor
  · rw [key]
    show counterNamed _ _ = _
    have hs := sliceSplit_intercalate 46 ws h0 fun w h => (hw w h).1
    by_cases he : List.intercalate [46] ws = []
    · rw [he] at hs
      have : ws = [[]] := hs.symm
      subst this
      rfl
    · rw [if_neg he, if_neg he, aggAlias_counter, hs, counterWords_eq]
      rfl
  · rw [key, makeCounter, splitOnce_some 44 _ p hc]

example : ∀ w ∈ [ascii "UTF8", ascii "swords"], (46 : UInt8) ∉ w ∧ (44 : UInt8) ∉ w := by decide +kernel

example : aggMake AggEnv.plain (ascii "asum,utf8.chars") = .ok (.asum ⟨.chars, true⟩ 0) := by decide +kernel
example : aggMake AggEnv.plain (ascii "count,-5") = .ok (.count (-5) (-5)) := by decide +kernel

end Cdx
