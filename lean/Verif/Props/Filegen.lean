import Verif.Model.Filegen
import Verif.Props.Transpose
import Verif.Props.Paste
import Verif.Props.AggMake
import Verif.Props.Num
import Verif.Props.CompMake

/-!
# C113, C114: generated files, and the texts of the generators
-/

namespace Cdx

/-! ## Files -/

/-- What is asked for. -/
inductive FgAsk
  | lines (n : Nat)
  | header
  | column (s : Bytes)
  | multi (k : Nat) (s : Bytes)

/-- The option that asks for it. -/
def FgAsk.opt : FgAsk → FgOpt
  | .lines n => .lines (decText n)
  | .header => .header
  | .column s => .column s
  | .multi k s => .multi (decText k ++ 44 :: s)

/-- The numbers asked for can be stored. -/
def FgAsk.fits : FgAsk → Prop
  | .lines n => n < 2 ^ 64
  | .multi k _ => k < 2 ^ 64
  | _ => True

/-- The lines asked for: the last number counts. -/
def askedLines : Nat → List FgAsk → Nat
  | n, [] => n
  | _, .lines k :: as => askedLines k as
  | n, _ :: as => askedLines n as

/-- The columns asked for. -/
def FgAsk.specs : FgAsk → List Bytes
  | .column s => [s]
  | .multi k s => List.replicate k s
  | _ => []

/-- All columns asked for. -/
def askedSpecs (as : List FgAsk) : List Bytes :=
  let l := as.flatMap FgAsk.specs
  if l.isEmpty then [ascii "grid"] else l

/-- Is a header asked for? -/
def askedHeader (as : List FgAsk) : Bool := as.any fun a => match a with
  | .header => true
  | _ => false

/-- The table: `n` lines of `k` columns, both counted from 1. -/
def tableOf (t : Nat → Nat → Bytes) (n k : Nat) : List (List Bytes) :=
  (List.range n).map fun i => (List.range k).map fun j => t (i + 1) (j + 1)

/-- The header of `k` columns. -/
def askedHead (k : Nat) : Bytes := List.intercalate [TAB] (cdxTag :: madeUp k) ++ [NL]

theorem usizeWhole_decText (n : Nat) (h : n < 2 ^ 64) : toUsizeWhole (decText n) = .ok n := by
  refine (C39_whole _ _).2 (Or.inr ⟨[], decText n, [], Or.inl rfl, decText_ne_nil n, fun c hc => ?_, by simp, Or.inl ⟨rfl, (decVal_decText n).symm⟩, ?_⟩)
  · exact (isDigit_iff c).2 (decText_digits n c hc)
  · have : usizeMax = 2 ^ 64 - 1 := by decide
    omega

theorem pushGens_spec (env : GenEnv) (s : Bytes) (g : Gen) (h : genMake env s = .ok g) (n : Nat) : ∀ gs,
    pushGens env s n gs = .ok (gs ++ List.replicate n g) := by
  induction n with
  | zero => intro gs; simp [pushGens]
  | succ n ih => intro gs; rw [pushGens, h, Res.bind_ok, ih, List.replicate_succ]; simp

theorem replicate_map (mk : Bytes → Gen) (k : Nat) (s : Bytes) : List.replicate k (mk s) = (List.replicate k s).map mk := by simp

theorem opts_spec (env : GenEnv) (mk : Bytes → Gen) (as : List FgAsk) (hf : ∀ a ∈ as, a.fits)
    (hm : ∀ s ∈ as.flatMap FgAsk.specs, genMake env s = .ok (mk s)) : ∀ c : FgConf,
    fgOpts env c (as.map FgAsk.opt) =
      .ok ⟨askedLines c.numLines as, c.list ++ (as.flatMap FgAsk.specs).map mk, c.header || askedHeader as⟩ := by
  induction as with
  | nil => intro c; simp [fgOpts, askedLines, askedHeader]
  | cons a as ih =>
    intro c
    have ih := ih (fun x hx => hf x (by simp [hx])) fun s hs => hm s (by rw [List.flatMap_cons]; exact List.mem_append_right _ hs)
    have hf := hf a (by simp)
    have hm : ∀ s ∈ a.specs, genMake env s = .ok (mk s) := fun s hs => hm s (by rw [List.flatMap_cons]; exact List.mem_append_left _ hs)
    rw [List.map_cons, fgOpts]
    cases a with
    | lines n =>
      simp only [FgAsk.opt, FgConf.opt, usizeWhole_decText n hf, Res.bind_ok, ih]
      simp [askedLines, askedHeader, FgAsk.specs]
    | header =>
      simp only [FgAsk.opt, FgConf.opt, Res.bind_ok, ih]
      simp [askedLines, askedHeader, FgAsk.specs]
    | column s =>
      have := pushGens_spec env s (mk s) (hm s (by simp [FgAsk.specs])) 1 c.list
      simp only [FgAsk.opt, FgConf.opt, this, Res.bind_ok, ih]
      simp [askedLines, askedHeader, FgAsk.specs]
    | multi k s =>
      have hs : splitOnce 44 (decText k ++ 44 :: s) = some (decText k, s) :=
        splitOnce_some 44 _ _ fun h => absurd (decText_digits k _ h) (by decide)
      have : pushGens env s k c.list = .ok (c.list ++ List.replicate k (mk s)) := by
        cases k with
        | zero => simp [pushGens]
        | succ k => exact pushGens_spec env s (mk s) (hm s (by simp [FgAsk.specs])) _ _
      simp only [FgAsk.opt, FgConf.opt, hs, usizeWhole_decText k hf, this, Res.bind_ok, ih]
      simp [askedLines, askedHeader, FgAsk.specs]

theorem genLoop_spec (delim : UInt8) (line : Nat) (draw : Nat → Draw) (t : Nat → Bytes) (gs : List Gen) : ∀ (nd : Bool) (col : Nat),
    (∀ (j : Nat) (g : Gen), gs[j]? = some g → g.write line (col + j) (draw (col + j)) = .ok (t (col + j))) →
    genLoop delim line draw nd col gs = .ok (
      if nd then ((List.range gs.length).map fun j => t (col + j)).flatMap (delim :: ·)
      else List.intercalate [delim] ((List.range gs.length).map fun j => t (col + j))) := by
  induction gs with
  | nil => intro nd col _; cases nd <;> simp [genLoop, List.intercalate]
  | cons g gs ih =>
    intro nd col h
    have h0 := h 0 g rfl
    rw [Nat.add_zero] at h0
    have h1 := ih true (col + 1) fun j g' hg => by
      have := h (j + 1) g' (by simpa using hg)
      rw [show col + 1 + j = col + (j + 1) by omega]; exact this
    rw [genLoop, h0, Res.bind_ok, h1, Res.bind_ok, List.length_cons, List.range_succ_eq_map, List.map_cons, List.map_map]
    have e : ((fun j => t (col + j)) ∘ Nat.succ) = fun j => t (col + 1 + j) := by
      funext j; simp only [Function.comp_apply]; congr 1; omega
    rw [e, Nat.add_zero]
    cases nd with
    | true => simp
    | false => simp [intercalate_flatMap]

theorem fgLines_spec (gs : List Gen) (draw : Nat → Nat → Draw) (t : Nat → Nat → Bytes) (n : Nat) : ∀ line,
    (∀ (i j : Nat) (g : Gen), i < n → gs[j]? = some g → g.write (line + i + 1) (j + 1) (draw (line + i + 1) (j + 1)) = .ok (t (line + i + 1) (j + 1))) →
    fgLines gs draw n line = .ok (tableText ((List.range n).map fun i => (List.range gs.length).map fun j => t (line + i + 1) (j + 1))) := by
  induction n with
  | zero => intro line _; rfl
  | succ n ih =>
    intro line h
    have h0 := genLoop_spec 9 (line + 1) (draw (line + 1)) (t (line + 1)) gs false 1 fun j g hg => by
      have := h 0 j g (by omega) hg
      rw [Nat.add_comm 1 j]; exact this
    have h1 := ih (line + 1) fun i j g hi hg => by
      have := h (i + 1) j g (by omega) hg
      rw [show line + 1 + i + 1 = line + (i + 1) + 1 by omega]; exact this
    rw [fgLines, genWrite, h0, Res.bind_ok, Res.bind_ok, h1, Res.bind_ok, List.range_succ_eq_map, List.map_cons, List.map_map]
    have e : ((fun i => (List.range gs.length).map fun j => t (line + i + 1) (j + 1)) ∘ Nat.succ) =
        fun i => (List.range gs.length).map fun j => t (line + 1 + i + 1) (j + 1) := by
      funext i; simp only [Function.comp_apply]
      rw [show line + i.succ + 1 = line + 1 + i + 1 by omega]
    have e2 : (List.range gs.length).map (fun j => t (line + 1) (1 + j)) = (List.range gs.length).map fun j => t (line + 0 + 1) (j + 1) := by
      apply List.map_congr_left; intro j _; rw [Nat.add_comm 1 j, Nat.add_zero]
    rw [e, e2]
    simp [tableText, TAB, NL]

theorem fgHeader_eq (k : Nat) : fgHeader k = askedHead k := by
  unfold fgHeader askedHead
  rw [intercalate_flatMap]
  simp [madeUp, List.flatMap_map, TAB, NL]

/-- C113: the file is the header if asked for, and the lines asked for, each with the columns asked for. -/
theorem C113_table (env : GenEnv) (as : List FgAsk) (draw : Nat → Nat → Draw) (mk : Bytes → Gen) (t : Nat → Nat → Bytes)
    (hf : ∀ a ∈ as, a.fits) (hm : ∀ s ∈ askedSpecs as, genMake env s = .ok (mk s))
    (ht : ∀ (i j : Nat) (s : Bytes), i < askedLines 10 as → (askedSpecs as)[j]? = some s → (mk s).write (i + 1) (j + 1) (draw (i + 1) (j + 1)) = .ok (t (i + 1) (j + 1))) :
    filegen env (as.map FgAsk.opt) draw = .ok (
      (if askedHeader as then askedHead (askedSpecs as).length else []) ++ tableText (tableOf t (askedLines 10 as) (askedSpecs as).length)) := by
  have key : ∀ gs : List Gen, gs = (askedSpecs as).map mk →
      fgLines gs draw (askedLines 10 as) 0 = .ok (tableText (tableOf t (askedLines 10 as) (askedSpecs as).length)) := by
    rintro gs rfl
    have := fgLines_spec ((askedSpecs as).map mk) draw t (askedLines 10 as) 0 fun i j g hi hg => by
      rw [List.getElem?_map] at hg
      cases hs : (askedSpecs as)[j]? with
      | none => rw [hs] at hg; simp at hg
      | some s =>
        rw [hs] at hg
        simp only [Option.map_some, Option.some.injEq] at hg
        subst hg
        have := ht i j s hi hs
        simpa using this
    rw [this]
    simp [tableOf]
  unfold filegen
  have hm' : ∀ s ∈ as.flatMap FgAsk.specs, genMake env s = .ok (mk s) := by
    intro s hs
    apply hm
    unfold askedSpecs
    simp only
    rw [if_neg (by intro h; rw [List.isEmpty_iff] at h; rw [h] at hs; simp at hs)]
    exact hs
  rw [opts_spec env mk as hf hm', Res.bind_ok]
  simp only [List.nil_append, Bool.false_or]
  cases hl : as.flatMap FgAsk.specs with
  | nil =>
    have hs : askedSpecs as = [ascii "grid"] := by simp [askedSpecs, hl]
    have := pushGens_spec env (ascii "grid") (mk (ascii "grid")) (hm _ (by rw [hs]; simp)) 1 []
    simp only [List.map_nil, List.isEmpty_nil, if_true, this, Res.bind_ok]
    rw [key _ (by rw [hs]; rfl), Res.bind_ok, hs]
    simp [fgHeader_eq]
  | cons x xs =>
    have hs : askedSpecs as = x :: xs := by simp [askedSpecs, hl]
    simp only [List.map_cons, List.isEmpty_cons, Bool.false_eq_true, if_false, Res.bind_ok]
    rw [key _ (by rw [hs]; rfl), Res.bind_ok, hs]
    simp [fgHeader_eq]

theorem tableOf_table (t : Nat → Nat → Bytes) (n k : Nat) (h : ∀ i j, TAB ∉ t i j ∧ NL ∉ t i j) : Table k (tableOf t n k) := by
  intro r hr
  simp only [tableOf, List.mem_map] at hr
  obtain ⟨i, _, rfl⟩ := hr
  refine ⟨by simp, fun c hc => ?_⟩
  obtain ⟨j, _, rfl⟩ := List.mem_map.1 hc
  exact h _ _

theorem madeUp_free (k : Nat) : ∀ c ∈ madeUp k, TAB ∉ c ∧ NL ∉ c := by
  intro c hc
  obtain ⟨i, _, rfl⟩ := List.mem_map.1 hc
  constructor <;> intro hm <;> rcases List.mem_cons.1 hm with hm | hm
  · exact absurd hm (by decide)
  · exact absurd (decText_digits _ _ hm) (by decide)
  · exact absurd hm (by decide)
  · exact absurd (decText_digits _ _ hm) (by decide)

theorem askedHead_isLine (k : Nat) : IsLine (askedHead k) := by
  refine ⟨_, rfl, fun hm => ?_⟩
  rcases mem_intercalate hm with h1 | ⟨c, hc, hx⟩
  · exact absurd h1 (by decide)
  · rcases List.mem_cons.1 hc with rfl | hc
    · exact absurd hx (by decide)
    · exact (madeUp_free k c hc).2 hx

theorem askedHead_cdx (k : Nat) (t : Bytes) : isCdx (askedHead k ++ t) = true := by
  unfold askedHead
  rw [intercalate_flatMap]
  simp [isCdx, cdxTag, List.isPrefixOf]

theorem readLine_isLine (l t : Bytes) (h : IsLine l) : readLine .plain NL (l ++ t) = some (l, t) := by
  cases hr : readLine .plain NL (l ++ t) with
  | none =>
    have := (readLine_none_iff _ _ _).1 hr
    obtain ⟨b, rfl, _⟩ := h
    simp at this
  | some p =>
    obtain ⟨x, rest⟩ := p
    have h1 := readLines_append [l] (by simpa using h) t
    rw [show [l].flatten ++ t = l ++ t by simp, readLines_some _ _ _ _ _ hr] at h1
    simp only [List.singleton_append, List.cons.injEq] at h1
    obtain ⟨rfl, h1⟩ := h1
    obtain ⟨c, e1, e2, hs⟩ := readLine_some _ _ _ _ _ hr
    obtain ⟨b, rfl, hb⟩ := h
    have : rest = t := by
      have hl : c.getLast? = some NL ∨ c.getLast? ≠ some NL := by
        by_cases h : c.getLast? = some NL
        · exact Or.inl h
        · exact Or.inr h
      rcases hl with hl | hl
      · rw [ensureEof, if_pos hl] at e1
        subst e1
        exact (List.append_cancel_left e2).symm
      · have hrn : rest = [] := by
          by_cases h : rest = []
          · exact h
          · exact absurd (hs.last hl) h
        rw [ensureEof, if_neg hl] at e1
        rw [hrn, List.append_nil] at e2
        have e1 := List.append_cancel_right e1
        rw [← e1] at e2
        have := congrArg List.length e2
        simp at this
    rw [this]

/-- C113: what is read from the file is what was asked for. -/
theorem C113_read (t : Nat → Nat → Bytes) (n k : Nat) (hk : 0 < k) (h : ∀ i j, TAB ∉ t i j ∧ NL ∉ t i j) :
    dataOf .default (askedHead k ++ tableText (tableOf t n k)) = (tableOf t n k).map (fun r => List.intercalate [TAB] r ++ [NL]) ∧
    namesOf .default (askedHead k ++ tableText (tableOf t n k)) = madeUp k ∧
    (∀ r ∈ tableOf t n k, (mergeLine (List.intercalate [TAB] r ++ [NL])).vec = r) := by
  have hT := tableOf_table t n k h
  have hr : readHeader .default (askedHead k ++ tableText (tableOf t n k)) = some (askedHead k, tableText (tableOf t n k)) := by
    unfold readHeader
    rw [if_neg (by simp [askedHead])]
    simp only [TextMode.default, askedHead_cdx, if_true]
    exact readLine_isLine _ _ (askedHead_isLine k)
  refine ⟨?_, ?_, ?_⟩
  · unfold dataOf
    rw [hr]
    exact readLines_table hT
  · have hn : headNames (askedHead k) TAB = madeUp k := by
      unfold headNames
      have := askedHead_cdx k []
      rw [List.append_nil] at this
      rw [this]
      simp only [if_true]
      have hv := plainLine_vec TAB (List.intercalate [TAB] (cdxTag :: madeUp k)) (by decide)
      rw [sliceSplit_intercalate TAB _ (by simp) (by
        intro c hc
        rcases List.mem_cons.1 hc with rfl | hc
        · decide
        · exact (madeUp_free k c hc).1)] at hv
      have : ((TextLine.ofRaw (askedHead k)).split .plain TAB).vec = cdxTag :: madeUp k := hv
      rw [this]; rfl
    have hne : askedHead k ≠ [] := by simp [askedHead]
    unfold namesOf Reader.names Reader.open_
    have hmm : (Reader.newWith 1 TextMode.default).mode = .default := rfl
    simp only [hmm, hr]
    have e : (!(askedHead k).isEmpty) = true := by
      cases hh : askedHead k with
      | nil => exact absurd hh hne
      | cons a b => rfl
    cases readLine TextMode.default.col TextMode.default.eol (tableText (tableOf t n k)) with
    | none => simp only [e, if_true, Bool.false_eq_true, if_false]; exact hn
    | some p => simp only [e, if_true, Bool.false_eq_true, if_false]; exact hn
  · intro r hr
    have := hT r hr
    refine mergeLine_row ?_ this.2
    intro e; rw [e] at this; have := this.1; rw [List.length_nil] at this; omega

/-- Without a header, if the first text does not look like one. -/
theorem C113_read_plain (t : Nat → Nat → Bytes) (n k : Nat) (hn : 0 < n) (hk : 0 < k) (h : ∀ i j, TAB ∉ t i j ∧ NL ∉ t i j)
    (hc : isCdx (tableText (tableOf t n k)) = false) :
    dataOf .default (tableText (tableOf t n k)) = (tableOf t n k).map (fun r => List.intercalate [TAB] r ++ [NL]) := by
  have hT := tableOf_table t n k h
  have hne : tableText (tableOf t n k) ≠ [] := by
    obtain ⟨m, rfl⟩ : ∃ m, n = m + 1 := ⟨n - 1, by omega⟩
    simp [tableOf, tableText, List.range_succ_eq_map]
  unfold dataOf readHeader
  rw [if_neg hne]
  simp only [TextMode.default, hc, Bool.false_eq_true, if_false]
  exact readLines_table hT

/-! ## Generators -/

theorem genReg_aliases : genReg.aliases = [(ascii "minimum", ascii "min")] := by decide +kernel

/-- The last word is the name; the rest of the words counts for nothing. -/
theorem genMake_words (env : GenEnv) (ws : List Bytes) (name pattern : Bytes) (hw : ∀ w ∈ ws, 46 ∉ w ∧ 44 ∉ w) (hn : 46 ∉ name ∧ 44 ∉ name)
    (hne : name ≠ []) :
    genMake env (List.intercalate [46] (ws ++ [name]) ++ 44 :: pattern) = genMake env (name ++ 44 :: pattern) := by
  have free : ∀ l : List Bytes, (∀ w ∈ l, 44 ∉ w) → (44 : UInt8) ∉ List.intercalate [46] l := by
    intro l hl hm
    rcases mem_intercalate hm with h1 | ⟨c, hc, hx⟩
    · exact absurd h1 (by decide)
    · exact hl c hc hx
  have all : ∀ w ∈ ws ++ [name], 46 ∉ w ∧ 44 ∉ w := by
    intro w h
    rcases List.mem_append.1 h with h | h
    · exact hw w h
    · rw [List.mem_singleton.1 h]; exact hn
  unfold genMake
  rw [splitOnce_some 44 _ _ (free _ fun w h => (all w h).2), splitOnce_some 44 _ _ hn.2]
  simp only
  unfold genMake2
  have e1 : List.intercalate [46] (ws ++ [name]) ≠ [] := by
    intro e
    have := congrArg (sliceSplit 46) e
    rw [sliceSplit_intercalate 46 _ (by simp) fun w h => (all w h).1] at this
    have h2 := congrArg (fun l => l.getLastD ([] : Bytes)) this
    rw [show sliceSplit 46 ([] : Bytes) = [[]] by rfl] at h2
    simp only [List.getLastD_concat] at h2
    exact hne h2
  have e2 : sliceSplit 46 name = [name] := by
    have := sliceSplit_intercalate 46 [name] (by simp) (by simpa using hn.1)
    rwa [intercalate_singleton] at this
  rw [if_neg e1, if_neg hne, sliceSplit_intercalate 46 _ (by simp) fun w h => (all w h).1, e2]
  simp

/-- Full statement: `count` counts from its start, as long as the numbers can be stored; `decimal` writes numbers of the digits asked for. -/
def C114_statement : Prop := ∀ env : GenEnv,
  (∀ (s : Sign) (start line col : Nat) (d : Draw), start < 2 ^ 63 → 0 < line → line < 2 ^ 63 → (s.value * start + (line - 1 : Nat) < (2 ^ 63 : Int)) →
    ∃ g, genMake env (ascii "count," ++ (s.text ++ decText start)) = .ok g ∧ g.write line col d = .ok (intText (s.value * start + (line - 1 : Nat)))) ∧
  ∀ (neg : Bool) (a : Bytes) (line col : Nat), a ≠ [] → 46 ∉ a → a.head? ≠ some 45 → ∃ g, genMake env (ascii "decimal," ++ ((if neg then [45] else []) ++ a)) = .ok g ∧
    ∀ d, ∃ t, g.write line col d = .ok t

theorem genMake_grid (env : GenEnv) : genMake env (ascii "grid") = .ok .grid := by
  have : genMake env (ascii "grid") = match (getEntry (ascii "grid") genReg.items) with
    | some mk => mk env []
    | none => .err := rfl
  rw [this]; rfl

/-- `grid` writes line and column, different for every cell. -/
theorem C114_grid (env : GenEnv) : ∃ g, genMake env (ascii "grid") = .ok g ∧
    (∀ line col d, g.write line col d = .ok (decText line ++ 95 :: decText col)) ∧
    ∀ l c d l' c' d', g.write l c d = g.write l' c' d' → l = l' ∧ c = c' := by
  refine ⟨.grid, genMake_grid env, fun _ _ _ => rfl, ?_⟩
  intro l c d l' c' d' h
  simp only [Gen.write, Res.ok.injEq] at h
  have free : ∀ n, (95 : UInt8) ∉ decText n := fun n hm => absurd (decText_digits n _ hm) (by decide)
  have h1 := splitOnce_some 95 (decText l) (decText c) (free l)
  rw [h, splitOnce_some 95 (decText l') (decText c') (free l')] at h1
  simp only [Option.some.injEq, Prod.mk.injEq] at h1
  exact ⟨(decText_inj h1.1).symm, (decText_inj h1.2).symm⟩

theorem genMake_named (env : GenEnv) (name : Bytes) (mk : GenMk) (pattern : Bytes) (hd : 46 ∉ name) (hc : 44 ∉ name) (hne : name ≠ [])
    (hm : name ≠ ascii "minimum") (hg : getEntry name genReg.items = some mk) : genMake env (name ++ 44 :: pattern) = mk env pattern := by
  unfold genMake
  rw [splitOnce_some 44 _ _ hc]
  simp only
  unfold genMake2
  have e2 : sliceSplit 46 name = [name] := by
    have := sliceSplit_intercalate 46 [name] (by simp) (by simpa using hd)
    rwa [intercalate_singleton] at this
  have e3 : genReg.resolve name = name := by
    unfold Registry.resolve
    rw [genReg_aliases]
    have : ¬ ascii "minimum" = name := fun x => hm x.symm
    simp [getEntry, this]
  rw [if_neg hne, e2]
  simp only [List.getLastD_cons, List.getLastD_nil, e3, hg]

/-- `count` counts from its start, as long as line and start can be added. -/
theorem C114_count_partial (env : GenEnv) (s : Sign) (start line col : Nat) (d : Draw) (h1 : start < 2 ^ 63) (h2 : 0 < line) (h3 : line < 2 ^ 63)
    (h4 : s.value * start + line < (2 ^ 63 : Int)) :
    ∃ g, genMake env (ascii "count," ++ (s.text ++ decText start)) = .ok g ∧ g.write line col d = .ok (intText (s.value * start + (line - 1 : Nat))) := by
  have hdig : ∀ c ∈ decText start, isDigit c = true := fun c hc => (isDigit_iff c).2 (decText_digits start c hc)
  have hp := C88_signed_partial s (decText start) (decText_ne_nil start) hdig (by rw [decVal_decText]; omega)
  rw [decVal_decText] at hp
  refine ⟨.count (s.value * start), ?_, ?_⟩
  · have : ascii "count," ++ (s.text ++ decText start) = ascii "count" ++ 44 :: (s.text ++ decText start) := by
      have e : ascii "count," = ascii "count" ++ [44] := by decide +kernel
      rw [e]; simp
    rw [this, genMake_named env (ascii "count") (fun _ p => countNew p) _ (by decide +kernel) (by decide +kernel) (by decide +kernel) (by decide +kernel) rfl]
    unfold countNew
    rw [if_neg (by simp [decText_ne_nil]), hp]
    rfl
  · have hlow : -(2 ^ 63 : Int) + 1 ≤ s.value * start := by
      cases s <;> simp only [Sign.value] <;> omega
    have a1 : addIsize line (s.value * start) = .ok (line + s.value * start) := by
      unfold addIsize; rw [if_pos (by omega)]
    have a2 : addIsize (line + s.value * start) (-1) = .ok (s.value * start + (line - 1 : Nat)) := by
      unfold addIsize; rw [if_pos (by omega)]
      congr 1; omega
    simp only [Gen.write, a1, Res.bind_ok, a2]

/-- `count,9223372036854775807` fails on the first line. -/
theorem C114_refuted : ¬ C114_statement := by
  intro h
  obtain ⟨h1, _⟩ := h ⟨fun _ => .err, fun _ => .err⟩
  obtain ⟨g, h2, h3⟩ := h1 .none (2 ^ 63 - 1) 1 1 ⟨false, 0, 0⟩ (by decide) (by decide) (by decide) (by decide)
  have e : genMake ⟨fun _ => .err, fun _ => .err⟩ (ascii "count," ++ (Sign.none.text ++ decText (2 ^ 63 - 1))) = .ok (.count (2 ^ 63 - 1)) := by
    have e0 : ascii "count," ++ (Sign.none.text ++ decText (2 ^ 63 - 1)) = ascii "count" ++ 44 :: decText (2 ^ 63 - 1) := by decide +kernel
    rw [e0, genMake_named _ (ascii "count") (fun _ p => countNew p) _ (by decide +kernel) (by decide +kernel) (by decide +kernel) (by decide +kernel) rfl]
    unfold countNew
    rw [if_neg (by simp [decText_ne_nil])]
    have : toIsizeWhole (decText (2 ^ 63 - 1)) = .ok (2 ^ 63 - 1) := by decide +kernel
    rw [this]; rfl
  rw [e] at h2
  simp only [Res.ok.injEq] at h2
  subst h2
  exact absurd h3 (by simp only [Gen.write]; decide +kernel)

theorem powTen_ok (n : Nat) (h : n ≤ 19) : powTen n = .ok (10 ^ n) := by
  unfold powTen
  rw [if_pos]
  calc 10 ^ n ≤ 10 ^ 19 := Nat.pow_le_pow_right (by decide) h
    _ < 2 ^ 64 := by decide

theorem powTen_panic (n : Nat) (h : 20 ≤ n) : powTen n = .panic := by
  unfold powTen
  rw [if_neg]
  have : 10 ^ 20 ≤ 10 ^ n := Nat.pow_le_pow_right (by decide) h
  have : 2 ^ 64 < 10 ^ 20 := by decide
  omega

/-- Twenty digits are too many. -/
theorem C114_refuted_digits (env : GenEnv) (a : Bytes) (h1 : 20 ≤ a.length) (h2 : 46 ∉ a) (h3 : a.head? ≠ some 45) :
    genMake env (ascii "decimal" ++ 44 :: a) = .panic := by
  rw [genMake_named _ (ascii "decimal") (fun _ p => decimalNew p) _ (by decide +kernel) (by decide +kernel) (by decide +kernel) (by decide +kernel) rfl]
  have : (a.head? == some 45) = false := by simpa using h3
  unfold decimalNew
  simp only [this, Bool.false_eq_true, if_false]
  rw [if_neg (by intro e; rw [e, List.length_nil] at h1; omega), splitOnce_none 46 a h2]
  simp only
  rw [powTen_panic _ h1]; rfl

/-- A number as `decimal` writes it: perhaps a sign, a whole number below `10 ^ a` without leading zeros, and `b` digits after a point. -/
def DecimalText (neg : Bool) (a b : Nat) (t : Bytes) : Prop := ∃ (minus : Bool) (n : Nat) (frac : Bytes), (minus = true → neg = true) ∧ n < 10 ^ a ∧
  frac.length = b ∧ (∀ c ∈ frac, Digit c) ∧ t = (if minus then [45] else []) ++ decText n ++ (if b = 0 then [] else 46 :: frac)

theorem padZero_spec (w n : Nat) (hw : 0 < w) (h : n < 10 ^ w) :
    (padZero w n).length = w ∧ (∀ c ∈ padZero w n, Digit c) ∧ decVal (padZero w n) = n := by
  obtain ⟨e, h1, h2, h3⟩ := decText_length n
  have hle : e + 1 ≤ w := by
    rcases h2 with rfl | h2
    · have h0 : (decText 0).length = 1 := by decide +kernel
      omega
    · have : 10 ^ e < 10 ^ w := by omega
      have := (Nat.pow_lt_pow_iff_right (by decide : 1 < 10)).1 this
      omega
  refine ⟨?_, ?_, ?_⟩
  · simp [padZero, h1]; omega
  · intro c hc
    rcases List.mem_append.1 hc with hc | hc
    · rw [List.eq_of_mem_replicate hc]; decide
    · exact decText_digits n c hc
  · rw [padZero, decVal_append, decVal_nulls, decVal_decText]; omega

theorem decVal_inj_length (a b : Bytes) (ha : AllDigits a) (hb : AllDigits b) (hl : a.length = b.length) (hv : decVal a = decVal b) : a = b := by
  induction a generalizing b with
  | nil => cases b with | nil => rfl | cons => simp at hl
  | cons x xs ih =>
    cases b with
    | nil => simp at hl
    | cons y ys =>
      have hl' : xs.length = ys.length := by simpa using hl
      have hxs : AllDigits xs := fun c hc => ha c (by simp [hc])
      have hys : AllDigits ys := fun c hc => hb c (by simp [hc])
      have l1 := decVal_lt xs hxs
      have l2 := decVal_lt ys hys
      have dx := digit_toNat (ha x (by simp))
      have dy := digit_toNat (hb y (by simp))
      simp only [decVal] at hv
      rw [← hl'] at hv l2
      generalize 10 ^ xs.length = P at *
      rcases Nat.lt_trichotomy x.toNat y.toNat with h | h | h
      · have : (x.toNat - 48 + 1) * P ≤ (y.toNat - 48) * P := Nat.mul_le_mul_right P (by omega)
        rw [Nat.add_mul] at this
        omega
      · have hxy : x = y := UInt8.toNat_inj.1 h
        subst hxy
        rw [ih ys hxs hys hl' (by omega)]
      · have : (y.toNat - 48 + 1) * P ≤ (x.toNat - 48) * P := Nat.mul_le_mul_right P (by omega)
        rw [Nat.add_mul] at this
        omega

/-- The end of the pattern of `decimal`. -/
def fracPattern : Option Bytes → Bytes
  | none => []
  | some b => 46 :: b

/-- The pattern of `decimal`. -/
def decimalPattern (neg : Bool) (a : Bytes) (b : Option Bytes) : Bytes :=
  (if neg then [45] else []) ++ a ++ fracPattern b

/-- `decimal` writes a number of the digits asked for, and can write every such number. -/
theorem C114_decimal_partial (env : GenEnv) (neg : Bool) (a : Bytes) (b : Option Bytes) (ha : a ≠ []) (h46 : 46 ∉ a) (h45 : a.head? ≠ some 45)
    (hl : a.length ≤ 19) (hb : (b.getD []).length ≤ 19) : ∃ g, genMake env (ascii "decimal" ++ 44 :: decimalPattern neg a b) = .ok g ∧
    (∀ line col d, ∃ t, g.write line col d = .ok t ∧ DecimalText neg a.length (b.getD []).length t) ∧
    ∀ t, DecimalText neg a.length (b.getD []).length t → ∀ line col, ∃ d, g.write line col d = .ok t := by
  have e1 : decimalNew (decimalPattern neg a b) = .ok (.decimal neg (10 ^ a.length) (if b = none then 0 else 10 ^ (b.getD []).length) (b.getD []).length) := by
    have hsign : ((decimalPattern neg a b).head? == some 45) = neg := by
      cases neg with
      | true => rfl
      | false =>
        cases a with
        | nil => exact absurd rfl ha
        | cons x xs => simpa [decimalPattern] using h45
    have hrest : (if neg then (decimalPattern neg a b).drop 1 else decimalPattern neg a b) = a ++ fracPattern b := by
      cases neg <;> rfl
    unfold decimalNew
    simp only [hsign, hrest]
    rw [if_neg (by simp [ha])]
    cases b with
    | none =>
      simp only [fracPattern, List.append_nil]
      rw [splitOnce_none 46 a h46]
      simp only
      rw [powTen_ok _ hl]; rfl
    | some b =>
      simp only [fracPattern]
      rw [splitOnce_some 46 a b h46]
      simp only
      rw [powTen_ok _ hl, powTen_ok b.length hb]; rfl
  refine ⟨_, (genMake_named _ (ascii "decimal") (fun _ p => decimalNew p) _ (by decide +kernel) (by decide +kernel) (by decide +kernel) (by decide +kernel) rfl).trans e1, ?_, ?_⟩
  · intro line col d
    refine ⟨_, rfl, neg && d.coin, d.pre % 10 ^ a.length,
      if (b.getD []).length = 0 then [] else padZero (b.getD []).length (d.post % (if b = none then 0 else 10 ^ (b.getD []).length)), fun h => (Bool.and_eq_true_iff.1 h).1,
      Nat.mod_lt _ (Nat.pow_pos (by decide)), ?_, ?_, ?_⟩
    · by_cases hz : (b.getD []).length = 0
      · rw [if_pos hz, hz]; rfl
      · rw [if_neg hz]
        have hn : b ≠ none := by rintro rfl; exact hz rfl
        rw [if_neg hn]
        exact (padZero_spec _ _ (by omega) (Nat.mod_lt _ (Nat.pow_pos (by decide)))).1
    · by_cases hz : (b.getD []).length = 0
      · rw [if_pos hz]; simp
      · rw [if_neg hz]
        have hn : b ≠ none := by rintro rfl; exact hz rfl
        rw [if_neg hn]
        exact (padZero_spec _ _ (by omega) (Nat.mod_lt _ (Nat.pow_pos (by decide)))).2.1
    · by_cases hz : (b.getD []).length = 0
      · simp [hz]
      · simp [hz]
  · rintro t ⟨minus, n, frac, h1, h2, h3, h4, rfl⟩ line col
    refine ⟨⟨minus, n, decVal frac⟩, ?_⟩
    have hm : (neg && minus) = minus := by
      cases minus with
      | false => simp
      | true => rw [h1 rfl]; rfl
    simp only [Gen.write, hm, Nat.mod_eq_of_lt h2]
    by_cases hz : (b.getD []).length = 0
    · simp [hz]
    · rw [if_neg hz, if_neg hz]
      have hn : b ≠ none := by rintro rfl; exact hz rfl
      rw [if_neg hn]
      have hfr : decVal frac < 10 ^ (b.getD []).length := by rw [← h3]; exact decVal_lt frac fun c hc => (isDigit_iff c).2 (h4 c hc)
      rw [Nat.mod_eq_of_lt hfr]
      have hp := padZero_spec (b.getD []).length (decVal frac) (by omega) hfr
      have : padZero (b.getD []).length (decVal frac) = frac := decVal_inj_length _ _ (fun c hc => (isDigit_iff c).2 (hp.2.1 c hc)) (fun c hc => (isDigit_iff c).2 (h4 c hc)) (by rw [hp.1, h3]) hp.2.2
      rw [this]
  
/-- Names that are not known are errors. -/
theorem C114_unknown (env : GenEnv) (name pattern : Bytes) (hd : 46 ∉ name) (hc : 44 ∉ name)
    (h : name ∉ [ascii "null", ascii "expr", ascii "normal", ascii "decimal", ascii "grid", ascii "count"]) :
    genMake env (name ++ 44 :: pattern) = .err := by
  unfold genMake
  rw [splitOnce_some 44 _ _ hc]
  simp only
  unfold genMake2
  have hitems : genReg.items.map Prod.fst = [ascii "null", ascii "expr", ascii "normal", ascii "decimal", ascii "grid", ascii "count"] := by
    decide +kernel
  have hnone : ∀ n, n ∉ genReg.items.map Prod.fst → getEntry n genReg.items = none := by
    intro n
    generalize genReg.items = l
    induction l with
    | nil => intro _; rfl
    | cons e es ih =>
      intro hn
      simp only [List.map_cons, List.mem_cons, not_or] at hn
      rw [getEntry, if_neg (fun x => hn.1 x.symm), ih hn.2]
  have key : getEntry (if name = [] then [] else genReg.resolve ((sliceSplit 46 name).getLastD [])) genReg.items = none := by
    apply hnone
    rw [hitems]
    by_cases hn : name = []
    · rw [if_pos hn]; decide +kernel
    · have e2 : sliceSplit 46 name = [name] := by
        have := sliceSplit_intercalate 46 [name] (by simp) (by simpa using hd)
        rwa [intercalate_singleton] at this
      rw [if_neg hn, e2]
      simp only [List.getLastD_cons, List.getLastD_nil]
      unfold Registry.resolve
      rw [genReg_aliases]
      by_cases hm : name = ascii "minimum"
      · rw [hm]; decide +kernel
      · have : ¬ ascii "minimum" = name := fun x => hm x.symm
        simpa [getEntry, this] using h
  simp only [key]

/-- The alias `minimum` stands for a name that is not known. -/
theorem C114_alias (env : GenEnv) (pattern : Bytes) : genMake env (ascii "minimum" ++ 44 :: pattern) = .err :=
  C114_unknown env _ _ (by decide +kernel) (by decide +kernel) (by decide +kernel)

example : filegen ⟨fun _ => .err, fun _ => .err⟩ ([.lines 2, .header, .column (ascii "count,7"), .multi 2 (ascii "grid")].map FgAsk.opt) (fun _ _ => ⟨false, 0, 0⟩) =
    .ok (ascii " CDX\tc1\tc2\tc3\n7\t1_2\t1_3\n8\t2_2\t2_3\n") := by decide +kernel

example : DecimalText true 3 2 (ascii "-12.05") :=
  ⟨true, 12, ascii "05", by simp, by decide, by decide +kernel, by unfold Digit; decide +kernel, by decide +kernel⟩

end Cdx
