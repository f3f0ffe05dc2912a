import Verif.Model.Program
import Verif.Props.Settings
import Verif.Props.Trans
import Verif.Props.CutTable
import Verif.Props.Exact
import Verif.Props.Match

/-!
C218: what the words of a command line mean. C219: what a command changes.
-/

namespace Cdx

/-! ## For the examples -/

instance (spec : List ArgSpec) (t : Tok) : Decidable (Accepts spec t) := by
  unfold Accepts
  split <;> infer_instance

/-- Surroundings, for the examples. -/
def world0 : World where
  chars _ := []
  nameOk _ := true
  utf8 _ := true
  toF64 _ := 0
  compiles _ := false
  eval _ _ := .err
  transOk _ := true
  colMatch _ := .err
  exprCols _ _ := []
  matchers := MEnv.trivial
  cut := cutEnv0
  agg := noAggEnv
  mkExpr _ := .err
  prn _ _ := []
  expr := ⟨noOps, fun b => (0, b), fun _ _ => .err⟩
  gen := ⟨fun _ => .err, fun _ => .err⟩
  draw _ _ := ⟨false, 0, 0⟩
  glyphs := ⟨List.length, fun b n => (b.take n, n)⟩
  screen := none
  height := 20
  pick _ _ := 0
  rd _ _ := 0
  cap := 100
  s3 _ := none
  gunzip b := b

/-- A system with two files `f` and `g`. -/
def sys0 : Sys :=
  { files := fun n => if n = ascii "f" then some (ascii " CDX\ta\tb\nx\t1\ny\t22\n")
      else if n = ascii "g" then some (ascii " CDX\ta\tb\nx\t3\ny\t44\n") else none
    stdin := [], stdout := [], stderr := [] }

/-- The command of this name. -/
def cmd0 (n : String) : Cmd := (mainList.find? fun c => decide (c.name = n)).getD ⟨"", [], [], .zero⟩

theorem cmd0_mem {n : String} (h : (mainList.find? fun c => decide (c.name = n)).isSome = true) : cmd0 n ∈ mainList := by
  unfold cmd0
  obtain ⟨c, hc⟩ := Option.isSome_iff_exists.1 h
  rw [hc]
  exact List.mem_of_find?_eq_some hc

/-- Whether a run succeeds. -/
def Run.good {α : Type} : Run α → Bool
  | .ok _ => true
  | _ => false

theorem Run.good_ok {α : Type} : ∀ {r : Run α}, r.good = true → ∃ x, r = .ok x
  | .ok x, _ => ⟨x, rfl⟩

/-! ## C218: the words of the command line -/

theorem getArg_same {toks toks' : List Tok} (x : ArgSpec)
    (h : (toks.filter fun t => t.name = x.name).map Tok.value = (toks'.filter fun t => t.name = x.name).map Tok.value) :
    (getArg (tokValues 0 toks) x).map (fun a => (a.name, a.value)) = (getArg (tokValues 0 toks') x).map fun a => (a.name, a.value) := by
  have key : ∀ l : List Tok, ((tokValues 0 l).filter fun a => a.name = x.name).map (fun a => (a.name, a.value)) =
      (l.filter fun t => t.name = x.name).map fun t => (t.name, t.value) := fun l => by
    simpa using tokValues_filter (fun n => decide (n = x.name)) l 0
  have hv : ∀ l : List Tok, ((tokValues 0 l).filter fun a => a.name = x.name).map (·.value) = (l.filter fun t => t.name = x.name).map Tok.value := by
    intro l
    have := congrArg (List.map Prod.snd) (key l)
    simpa [List.map_map, Function.comp_def] using this
  unfold getArg
  split
  · rw [List.map_map, List.map_map]
    have := congrArg (List.map fun _ => (x.name, ([] : Bytes))) ((hv toks).trans (h.trans (hv toks').symm))
    simpa [List.map_map, Function.comp_def] using this
  · rw [List.map_map, List.map_map]
    have := congrArg (List.map fun v => (x.name, v)) ((hv toks).trans (h.trans (hv toks').symm))
    simpa [List.map_map, Function.comp_def] using this

theorem take_same (chars : Bytes → List Char) (s : Settings) {a b : ArgValue} (hn : a.name = b.name) (hv : a.value = b.value) :
    s.take chars a = s.take chars b := by
  unfold Settings.take
  rw [hn, hv]

theorem consume_same (chars : Bytes → List Char) : ∀ (l l' : List ArgValue) (s : Settings),
    l.map (fun a => (a.name, a.value)) = l'.map (fun a => (a.name, a.value)) → s.consume chars l = s.consume chars l'
  | [], [], _, _ => rfl
  | [], _ :: _, _, h => by simp at h
  | _ :: _, [], _, h => by simp at h
  | a :: l, b :: l', s, h => by
    simp only [List.map_cons, List.cons.injEq, Prod.mk.injEq] at h
    unfold Settings.consume
    rw [take_same chars s h.1.1 h.1.2]
    congr 1
    funext s
    exact consume_same chars l l' s h.2

theorem any_name (toks : List Tok) (n : String) : ((tokValues 0 toks).any fun a => a.name = n) = toks.any fun t => t.name = n := by
  have h := tokValues_map toks 0
  have : (tokValues 0 toks).map (·.name) = toks.map Tok.name := by
    have := congrArg (List.map Prod.fst) h
    simpa [List.map_map, Function.comp_def] using this
  have e : ∀ l : List String, (l.any fun x => decide (x = n)) = decide (n ∈ l) := by
    intro l
    rw [Bool.eq_iff_iff]
    simp
  have e1 := e ((tokValues 0 toks).map (·.name))
  have e2 := e (toks.map Tok.name)
  rw [List.any_map] at e1 e2
  rw [← this] at e2
  exact e1.trans e2.symm

/-- A command is found by its name. -/
theorem find_cmd {c : Cmd} (hc : c ∈ mainList) : mainList.find? (fun x => decide (x.name = c.name)) = some c := by
  rcases hf : mainList.find? (fun x => decide (x.name = c.name)) with _ | y
  · have := List.find?_eq_none.1 hf c hc
    simp at this
  · have h1 := List.find?_some hf
    simp only [decide_eq_true_eq] at h1
    have h2 := List.mem_of_find?_eq_some hf
    have nd : (mainList.map (·.name)).Nodup := by decide +kernel
    obtain ⟨i, hi, rfl⟩ := List.getElem_of_mem h2
    obtain ⟨j, hj, rfl⟩ := List.getElem_of_mem hc
    have nd' : ∀ i j (hi : i < mainList.length) (hj : j < mainList.length), i < j → mainList[i].name ≠ mainList[j].name := by
      intro i j hi hj hij
      have := List.pairwise_iff_getElem.1 nd i j (by simpa using hi) (by simpa using hj) hij
      simpa using this
    rcases Nat.lt_trichotomy i j with h | rfl | h
    · exact absurd h1 (nd' i j hi hj h)
    · exact hf
    · exact absurd h1.symm (nd' j i hj hi h)

/-- C218: where the options stand among the other words does not matter. A command does the same with two command lines that have the
same options of its own in the same order, the same files in the same order, and the same options that all commands know. -/
theorem C218_words (w : World) (s : Sys) (c : Cmd) (hc : c ∈ mainList) (toks toks' : List Tok) (ha : ∀ t ∈ toks, Accepts c.spec t)
    (ha' : ∀ t ∈ toks', Accepts c.spec t) (own : wantedArgs c.spec toks = wantedArgs c.spec toks')
    (others : ∀ n, n ∉ c.spec.map (·.name) →
      (toks.filter fun t => t.name = n).map Tok.value = (toks'.filter fun t => t.name = n).map Tok.value) :
    w.run c.name toks s = w.run c.name toks' s := by
  have hn := C120_names c hc
  have hdis : ∀ n ∈ globalArgs.map (·.name) ++ ["std-help", "input_files"], n ∉ c.spec.map (·.name) := by
    intro n hm hm'
    unfold Names at hn
    rw [List.map_append, List.append_assoc] at hn
    exact (List.nodup_append.1 hn).2.2 n hm' n hm rfl
  unfold World.run
  rw [find_cmd hc]
  simp only
  unfold parseArgs
  simp only [any_name]
  have e1 : (toks.any fun t => decide (t.name = "std-help")) = toks'.any fun t => decide (t.name = "std-help") := by
    have := congrArg List.length (others "std-help" (hdis _ (by simp)))
    rw [List.length_map, List.length_map] at this
    rw [Bool.eq_iff_iff, List.any_eq_true, List.any_eq_true, ← List.length_filter_pos_iff, ← List.length_filter_pos_iff, this]
  rw [e1]
  split
  · rfl
  · have e2 : (Settings.new.consume w.chars (globalArgs.flatMap (getArg (tokValues 0 toks)))) =
        Settings.new.consume w.chars (globalArgs.flatMap (getArg (tokValues 0 toks'))) := by
      apply consume_same
      rw [List.map_flatMap, List.map_flatMap]
      rw [List.flatMap_def, List.flatMap_def]
      congr 1
      refine List.map_congr_left fun x hx => getArg_same x (others _ (hdis _ ?_))
      exact List.mem_append_left _ (List.mem_map_of_mem hx)
    rw [e2]
    rcases hcon : Settings.new.consume w.chars (globalArgs.flatMap (getArg (tokValues 0 toks'))) with s2 | e | _
    · simp only [Run.bind]
      have e3 : ∀ l : List Tok, (∀ t ∈ l, Accepts c.spec t) →
          argPairs (stableSort (fun a b => decide (a.index ≤ b.index)) (c.spec.flatMap (getArg (tokValues 0 l)))) =
          (wantedArgs c.spec l).map fun p => (ascii p.1, p.2) := by
        intro l hl
        have : (stableSort (fun a b => decide (a.index ≤ b.index)) (c.spec.flatMap (getArg (tokValues 0 l)))).map (fun a => (a.name, a.value)) =
            wantedArgs c.spec l := by
          rw [sorted_args c.spec l hn hl, wantedArgs]
          exact tokValues_filter (fun n => c.spec.any fun x => x.name = n) l 0
        rw [← this, argPairs, List.map_map]
        rfl
      have e4 : argFiles c.files (tokValues 0 toks) = argFiles c.files (tokValues 0 toks') := by
        unfold argFiles
        have e : ∀ l : List Tok, ((tokValues 0 l).filter fun a => a.name = "input_files").map (·.value) =
            (l.filter fun t => t.name = "input_files").map Tok.value := by
          intro l
          have := congrArg (List.map Prod.snd) (tokValues_filter (fun n => decide (n = "input_files")) l 0)
          simpa [List.map_map, Function.comp_def] using this
        rw [e, e, others "input_files" (hdis _ (by simp))]
      rw [e3 toks ha, e3 toks' ha', own, e4]
    · rfl
    · rfl

/-- `cdx sort f --key b g --key a` and `cdx sort --key b --key a f g`. -/
example : world0.run "sort" [.pos "input_files" (ascii "f"), .opt "key" (ascii "b"), .pos "input_files" (ascii "g"), .opt "key" (ascii "a")] sys0 =
    world0.run "sort" [.opt "key" (ascii "b"), .opt "key" (ascii "a"), .pos "input_files" (ascii "f"), .pos "input_files" (ascii "g")] sys0 :=
  C218_words world0 sys0 (cmd0 "sort") (cmd0_mem (by decide +kernel)) _ _ (by decide +kernel) (by decide +kernel) (by decide +kernel) (by
    intro n _
    by_cases h1 : "input_files" = n
    · subst h1; decide +kernel
    · by_cases h2 : "key" = n
      · subst h2; decide +kernel
      · simp [Tok.name, h1, h2])

/-! ## C219: what a command reads and writes -/

theorem print_eq (s : Sys) (out : Bytes) : s.print out = { s with stdout := s.stdout ++ out } := by
  simp [Sys.print, putFile, getWriter, Sys.writeAll, Sys.write]

theorem read_same (w : World) {s t : Sys} : ∀ {names : List Bytes}, (∀ n ∈ names, getReader w.s3 w.gunzip s n = getReader w.s3 w.gunzip t n) →
    w.read s names = w.read t names
  | [], _ => rfl
  | n :: ns, h => by
    unfold World.read
    rw [h n (by simp), read_same w fun m hm => h m (by simp [hm])]

theorem map_same {s t : Sys} : ∀ {names : List Bytes}, (∀ n ∈ names, s.files n = t.files n) → mapFiles s names = mapFiles t names
  | [], _ => rfl
  | n :: ns, h => by
    unfold mapFiles
    rw [h n (by simp), map_same fun m hm => h m (by simp [hm])]

/-- The files that a command line names, or the standard input (`argFiles`). -/
def filesOf (c : Cmd) (toks : List Tok) : List Bytes :=
  if c.files = .zero then [] else
    let given := (toks.filter fun t => t.name = "input_files").map Tok.value
    if given = [] then [[45]] else given

theorem argFiles_toks (c : Cmd) (toks : List Tok) : argFiles c.files (tokValues 0 toks) = filesOf c toks := by
  unfold argFiles filesOf
  have := congrArg (List.map Prod.snd) (tokValues_filter (fun n => decide (n = "input_files")) toks 0)
  have e : ((tokValues 0 toks).filter fun a => a.name = "input_files").map (·.value) =
      (toks.filter fun t => t.name = "input_files").map Tok.value := by
    simpa [List.map_map, Function.comp_def] using this
  simp only [e]
  rfl

/-- C219: commands other than `join` change no file; they add something to the standard output. This is the same for any two states of the
system in which the files of the command line have the same contents. -/
theorem C219_output (w : World) (c : Cmd) (hc : c ∈ mainList) (toks : List Tok) (s t : Sys) (hj : c.name ≠ "join")
    (hr : ∀ n ∈ filesOf c toks, getReader w.s3 w.gunzip s n = getReader w.s3 w.gunzip t n ∧ s.files n = t.files n) :
    (∃ out, w.run c.name toks s = .ok { s with stdout := s.stdout ++ out } ∧ w.run c.name toks t = .ok { t with stdout := t.stdout ++ out }) ∨
      (w.run c.name toks s = .panic ∧ w.run c.name toks t = .panic) ∨
      ∃ e, w.run c.name toks s = .fail e ∧ w.run c.name toks t = .fail e := by
  unfold World.run
  rw [find_cmd hc]
  simp only
  unfold parseArgs
  simp only
  split
  · exact .inr (.inr ⟨_, rfl, rfl⟩)
  · rcases Settings.new.consume w.chars (globalArgs.flatMap (getArg (tokValues 0 toks))) with s2 | e | _
    · simp only [Run.bind, argFiles_toks]
      unfold World.command
      have e : (if c.name = "binsearch" then mapFiles s (filesOf c toks) else w.read s (filesOf c toks)) =
          if c.name = "binsearch" then mapFiles t (filesOf c toks) else w.read t (filesOf c toks) := by
        rw [map_same fun n hn => (hr n hn).2, read_same w fun n hn => (hr n hn).1]
      rw [e]
      rcases (if c.name = "binsearch" then mapFiles t (filesOf c toks) else w.read t (filesOf c toks)) with files | e | _
      · simp only [Run.bind, if_neg hj]
        rcases w.output c.name s2 _ files with out | e | _
        · exact .inl ⟨out, congrArg Run.ok (print_eq s out), congrArg Run.ok (print_eq t out)⟩
        · exact .inr (.inr ⟨e, rfl, rfl⟩)
        · exact .inr (.inl ⟨rfl, rfl⟩)
      · exact .inr (.inr ⟨e, rfl, rfl⟩)
      · exact .inr (.inl ⟨rfl, rfl⟩)
    · exact .inr (.inr ⟨e, rfl, rfl⟩)
    · exact .inr (.inl ⟨rfl, rfl⟩)

/-- Sorting does not depend on the standard input if it is given a file. -/
example (input : Bytes) : ∃ out, world0.run "sort" [.opt "key" (ascii "b"), .pos "input_files" (ascii "f")] sys0 = .ok { sys0 with stdout := out } ∧
    world0.run "sort" [.opt "key" (ascii "b"), .pos "input_files" (ascii "f")] { sys0 with stdin := input } =
      .ok { sys0 with stdin := input, stdout := out } := by
  have hgood : ∃ t, world0.run "sort" [.opt "key" (ascii "b"), .pos "input_files" (ascii "f")] sys0 = .ok t := by
    exact Run.good_ok (by decide +kernel)
  rcases C219_output world0 (cmd0 "sort") (cmd0_mem (by decide +kernel)) [.opt "key" (ascii "b"), .pos "input_files" (ascii "f")] sys0
    { sys0 with stdin := input } (by decide +kernel) (by
      intro n hn
      rw [show filesOf (cmd0 "sort") [.opt "key" (ascii "b"), .pos "input_files" (ascii "f")] = [ascii "f"] by decide +kernel,
        List.mem_singleton] at hn
      subst hn
      exact ⟨rfl, rfl⟩) with ⟨out, h1, h2⟩ | ⟨h, -⟩ | ⟨e, h, -⟩
  · exact ⟨out, h1, h2⟩
  · obtain ⟨t, ht⟩ := hgood
    exact absurd (h.symm.trans ht) (by simp)
  · obtain ⟨t, ht⟩ := hgood
    exact absurd (h.symm.trans ht) (by simp)

theorem writeAll_other (n : Bytes) : ∀ (bs : List Bytes) (s : Sys) (k : Sink), (∀ pos, k ≠ .file n pos) → (s.writeAll k bs).1.files n = s.files n
  | [], _, _, _ => rfl
  | b :: bs, s, k, h => by
    unfold Sys.writeAll
    cases k with
    | stdout => exact writeAll_other n bs _ _ (by simp [Sys.write])
    | stderr => exact writeAll_other n bs _ _ (by simp [Sys.write])
    | file m pos =>
      have hm : m ≠ n := by
        rintro rfl
        exact h pos rfl
      refine (writeAll_other n bs _ _ (by simp [Sys.write, hm])).trans ?_
      simp [Sys.write, Ne.symm hm]

theorem putFile_other (s : Sys) {n name : Bytes} (h : n ≠ name) (bs : List Bytes) : (putFile s name bs).files n = s.files n := by
  unfold putFile getWriter
  split
  · exact writeAll_other n bs _ _ (by simp)
  · split
    · exact writeAll_other n bs _ _ (by simp)
    · refine (writeAll_other n bs _ _ (by simp; exact fun e => absurd e.symm h)).trans ?_
      simp [h]

theorem putFiles_other {n : Bytes} : ∀ (outs : List (Bytes × Bytes)) (s : Sys), (∀ o ∈ outs, o.1 = n → o.1 = [45]) →
    (outs.foldl (fun s o => putFile s o.1 [o.2]) s).files n = s.files n
  | [], _, _ => rfl
  | o :: outs, s, h => by
    rw [List.foldl_cons, putFiles_other outs _ fun o ho => h o (by simp [ho])]
    by_cases e : o.1 = n
    · rw [h o (by simp) e]
      show (s.print o.2).files n = _
      rw [print_eq]
    · exact putFile_other s (Ne.symm e) _

/-- The name is one that the options of `join` tell to write to. -/
def JoinWrites (opts : List (String × Bytes)) (n : Bytes) : Prop :=
  ("file", n) ∈ opts ∨ ∃ k, ("also", k ++ 44 :: n) ∈ opts

theorem joinOptions_names (transOk : Bytes → Bool) : ∀ (os : List (String × Bytes)) (c c' : JoinAsk) (n : Bytes),
    (∀ o ∈ os, o.1 ∈ ["also", "file", "key", "output"]) →
    joinOptions transOk c (os.map fun o => (ascii o.1, o.2)) = .ok c' → n = c'.matchOut ∨ n ∈ c'.also.map (·.2) →
    (n = c.matchOut ∨ n ∈ c.also.map (·.2)) ∨ JoinWrites os n
  | [], c, c', n, _, h, hn => by
    simp only [List.map_nil, joinOptions, Res.ok.injEq] at h
    subst h
    exact .inl hn
  | (k, v) :: os, c, c', n, hk, h, hn => by
    have ih := fun c h => joinOptions_names transOk os c c' n (fun o ho => hk o (by simp [ho])) h hn
    have more : JoinWrites os n → JoinWrites ((k, v) :: os) n := by
      rintro (h | ⟨k, h⟩)
      · exact .inl (by simp [h])
      · exact .inr ⟨k, by simp [h]⟩
    have hk := hk (k, v) (by simp)
    rw [List.map_cons] at h
    unfold joinOptions at h
    simp only [List.mem_cons, List.not_mem_nil, or_false] at hk
    rcases hk with rfl | rfl | rfl | rfl
    · rw [if_neg (by dsimp only; decide), if_neg (by dsimp only; decide), if_neg (by dsimp only; decide), if_pos rfl] at h
      obtain ⟨p, h1, h2⟩ := Res.bind_eq_ok h
      rcases ih _ h2 with h | h
      · rcases h with h | h
        · exact .inl (.inl h)
        · rw [List.map_append, List.mem_append] at h
          rcases h with h | h
          · exact .inl (.inr h)
          · refine .inr (.inr ?_)
            simp only [List.map_cons, List.map_nil, List.mem_singleton] at h
            subst h
            unfold joinAlso at h1
            rcases hs : splitOnce 44 v with _ | ⟨a, b⟩ <;> rw [hs] at h1
            · cases h1
            · obtain ⟨m, _, h4⟩ := Res.bind_eq_ok h1
              cases h4
              exact ⟨a, by rw [(splitOnce_eq 44 v a b hs).1]; simp⟩
      · exact .inr (more h)
    · rw [if_neg (by dsimp only; decide), if_neg (by dsimp only; decide), if_pos rfl] at h
      rcases ih _ h with h | h
      · rcases h with h | h
        · exact .inr (.inl (by rw [h]; simp))
        · exact .inl (.inr h)
      · exact .inr (more h)
    · rw [if_pos rfl] at h
      rcases ih _ h with h | h
      · exact .inl h
      · exact .inr (more h)
    · rw [if_neg (by dsimp only; decide), if_pos rfl] at h
      obtain ⟨l, _, h2⟩ := Res.bind_eq_ok h
      rcases ih _ h2 with h | h
      · exact .inl h
      · exact .inr (more h)

/-- C219: `join` changes no file but those its options tell it to write to. -/
theorem C219_join (w : World) (c : Cmd) (hc : c ∈ mainList) (hj : c.name = "join") (toks : List Tok) (ha : ∀ t ∈ toks, Accepts c.spec t)
    (s s' : Sys) (h : w.run c.name toks s = .ok s') (n : Bytes) (hn : ¬ JoinWrites (wantedArgs c.spec toks) n) : s'.files n = s.files n := by
  unfold World.run at h
  rw [find_cmd hc] at h
  simp only at h
  obtain ⟨⟨s2, v, fs⟩, h1, h2⟩ := Run.bind_eq_ok h
  have hv := (C120_order w.chars _ _ c.spec c.files toks (C120_names c hc) ha v fs h1).1
  unfold World.command at h2
  obtain ⟨files, -, h3⟩ := Run.bind_eq_ok h2
  rw [if_pos hj] at h3
  obtain ⟨outs, h4, h5⟩ := Run.bind_eq_ok h3
  cases h5
  have h4 := Res.run_eq_ok h4
  have hspec : ∀ c ∈ mainList, c.name = "join" → ∀ x ∈ c.spec, x.name ∈ ["also", "file", "key", "output"] := by decide +kernel
  refine putFiles_other outs s fun o ho e => ?_
  unfold joinMain at h4
  obtain ⟨a, h6, h7⟩ := Res.bind_eq_ok h4
  split at h7
  · cases h7
  split at h7
  · cases h7
  obtain ⟨ks, -, h7⟩ := Res.bind_eq_ok h7
  obtain ⟨cs, -, h7⟩ := Res.bind_eq_ok h7
  obtain ⟨specs, -, h7⟩ := Res.bind_eq_ok h7
  split at h7
  · cases h7
  obtain ⟨r, -, h7⟩ := Res.bind_eq_ok h7
  cases h7
  have hp : argPairs v = (wantedArgs c.spec toks).map fun o => (ascii o.1, o.2) := by
    rw [← hv, argPairs, List.map_map]
    rfl
  rw [hp] at h6
  have hown : ∀ o ∈ wantedArgs c.spec toks, o.1 ∈ ["also", "file", "key", "output"] := by
    intro o ho
    obtain ⟨t, ht, rfl⟩ := List.mem_map.1 ho
    obtain ⟨x, hx, e⟩ := List.any_eq_true.1 (List.mem_filter.1 ht).2
    simp only [decide_eq_true_eq] at e
    rw [← e]
    exact hspec c hc hj x hx
  have := joinOptions_names w.transOk _ {} a n hown h6 (by
    rcases List.mem_cons.1 ho with rfl | ho
    · exact .inl e.symm
    · obtain ⟨p, hp, rfl⟩ := List.mem_map.1 ho
      exact .inr (List.mem_map.2 ⟨p, hp, e⟩))
  rcases this with (h | h) | h
  · rw [e, h]; rfl
  · simp at h
  · exact absurd h hn

/-- What a join by `a` that writes to `o` and `p` does not touch. -/
example : ∃ s', world0.run "join" [.pos "input_files" (ascii "f"), .opt "file" (ascii "o"), .pos "input_files" (ascii "g"), .opt "key" (ascii "a"),
      .opt "also" (ascii "1,p")] sys0 = .ok s' ∧ s'.files (ascii "f") = sys0.files (ascii "f") := by
  obtain ⟨s', h⟩ := Run.good_ok (r := world0.run "join" [.pos "input_files" (ascii "f"), .opt "file" (ascii "o"), .pos "input_files" (ascii "g"),
    .opt "key" (ascii "a"), .opt "also" (ascii "1,p")] sys0) (by decide +kernel)
  refine ⟨s', h, C219_join world0 (cmd0 "join") (cmd0_mem (by decide +kernel)) (by decide +kernel) _ (by decide +kernel) sys0 s' h _ ?_⟩
  rw [show wantedArgs (cmd0 "join").spec [.pos "input_files" (ascii "f"), .opt "file" (ascii "o"), .pos "input_files" (ascii "g"),
    .opt "key" (ascii "a"), .opt "also" (ascii "1,p")] = [("file", ascii "o"), ("key", ascii "a"), ("also", ascii "1,p")] by decide +kernel]
  rintro (h | ⟨k, h⟩)
  · revert h
    decide +kernel
  · simp only [List.mem_cons, Prod.mk.injEq, String.reduceEq, false_and, true_and, List.not_mem_nil, or_false, false_or] at h
    have := congrArg List.getLast? h
    simp [ascii] at this

end Cdx
