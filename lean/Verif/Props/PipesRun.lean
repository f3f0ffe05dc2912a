import Verif.Props.Program
import Verif.Props.PipesCols
import Verif.Props.PipesVerify

/-!
C220: pipelines of whole commands, from the words of their command lines.
-/

namespace Cdx

/-- A pipeline as the shell runs it: each command reads on its standard input what the one before wrote to its standard output. -/
def World.pipe (w : World) : List (String × List Tok) → Sys → Run Bytes
  | [], s => .ok s.stdin
  | c :: cs, s => (w.run c.1 c.2 { s with stdout := [] }).bind fun t => w.pipe cs { t with stdin := t.stdout }

/-- The words of a command line: these options of the command itself, and these files, in any arrangement; none of the options that all
commands know. -/
structure Words (c : Cmd) (toks : List Tok) (opts : List (Bytes × Bytes)) (files : List Bytes) : Prop where
  ok : ∀ t ∈ toks, Accepts c.spec t
  own : ∀ t ∈ toks, t.name = "input_files" ∨ t.name ∈ c.spec.map (·.name)
  opts : (wantedArgs c.spec toks).map (fun o => (ascii o.1, o.2)) = opts
  files : filesOf c toks = files

theorem run_words (w : World) {c : Cmd} (hc : c ∈ mainList) {toks : List Tok} {opts : List (Bytes × Bytes)} {files : List Bytes}
    (h : Words c toks opts files) (s : Sys) : w.run c.name toks s = w.command c.name .new opts files s := by
  have hn := C120_names c hc
  have hdis : ∀ n ∈ globalArgs.map (·.name) ++ ["std-help"], ∀ t ∈ toks, t.name ≠ n := by
    intro n hm t ht e
    unfold Names at hn
    rw [List.map_append, List.append_assoc] at hn
    have h2 := List.nodup_append.1 hn
    rcases h.own t ht with h1 | h1
    · have h3 := (List.nodup_append.1 h2.2.1)
      rcases List.mem_append.1 hm with h4 | h4
      · exact h3.2.2 n h4 "input_files" (by simp) (e.symm.trans h1)
      · rw [List.mem_singleton] at h4
        rw [h4, h1] at e
        exact absurd e (by decide)
    · refine h2.2.2 _ h1 n ?_ e
      rcases List.mem_append.1 hm with h4 | h4
      · exact List.mem_append_left _ h4
      · rw [List.mem_singleton] at h4
        simp [h4]
  unfold World.run
  rw [find_cmd hc]
  simp only
  unfold parseArgs
  simp only [any_name]
  rw [if_neg (by
    rw [List.any_eq_true]
    rintro ⟨t, ht, e⟩
    exact hdis "std-help" (by simp) t ht (by simpa using e))]
  have e1 : globalArgs.flatMap (getArg (tokValues 0 toks)) = [] := by
    rw [List.flatMap_eq_nil_iff]
    intro x hx
    have hnone : (toks.filter fun t => t.name = x.name) = [] := by
      rw [List.filter_eq_nil_iff]
      intro t ht e
      exact hdis x.name (List.mem_append_left _ (List.mem_map_of_mem hx)) t ht (by simpa using e)
    have := getArg_same (toks := toks) (toks' := []) x (by rw [hnone]; rfl)
    have h0 : getArg (tokValues 0 []) x = [] := by
      unfold getArg tokValues
      split <;> rfl
    rw [h0, List.map_nil] at this
    exact List.map_eq_nil_iff.1 this
  have e3 : argPairs (stableSort (fun a b => decide (a.index ≤ b.index)) (c.spec.flatMap (getArg (tokValues 0 toks)))) = opts := by
    have : (stableSort (fun a b => decide (a.index ≤ b.index)) (c.spec.flatMap (getArg (tokValues 0 toks)))).map (fun a => (a.name, a.value)) =
        wantedArgs c.spec toks := by
      rw [sorted_args c.spec toks hn h.ok, wantedArgs]
      exact tokValues_filter (fun n => c.spec.any fun x => x.name = n) toks 0
    rw [← h.opts, ← this, argPairs, List.map_map]
    rfl
  rw [e1]
  simp only [Settings.consume, Run.bind]
  rw [e3, argFiles_toks, h.files]

theorem read_texts (w : World) (s : Sys) : ∀ {files : List Bytes} {texts : List Bytes},
    files.map (getReader w.s3 w.gunzip s) = texts.map some → w.read s files = .ok (files.zip texts)
  | [], [], _ => rfl
  | [], _ :: _, h => by simp at h
  | _ :: _, [], h => by simp at h
  | n :: ns, t :: ts, h => by
    simp only [List.map_cons, List.cons.injEq] at h
    unfold World.read
    rw [h.1, read_texts w s h.2]
    rfl

/-- What a command writes. -/
theorem pipe_words (w : World) {c : Cmd} (hc : c ∈ mainList) (hj : c.name ≠ "join") (hb : c.name ≠ "binsearch") {toks : List Tok}
    {opts : List (Bytes × Bytes)} {files texts : List Bytes} (h : Words c toks opts files) (s : Sys)
    (hr : files.map (getReader w.s3 w.gunzip s) = texts.map some) {out : Bytes}
    (ho : w.output c.name .new opts (files.zip texts) = .ok out) (cs : List (String × List Tok)) :
    w.pipe ((c.name, toks) :: cs) s = w.pipe cs { s with stdin := out, stdout := out } := by
  rw [World.pipe]
  simp only
  rw [run_words w hc h]
  unfold World.command
  rw [if_neg hb, read_texts w { s with stdout := [] } (files := files) (texts := texts) hr]
  simp only [Run.bind]
  rw [if_neg hj, ho]
  simp only [Run.bind, print_eq, List.nil_append]

theorem zip_snd {files texts : List Bytes} (h : files.length = texts.length) : (files.zip texts).map (·.2) = texts := by
  have := List.unzip_zip_right (l₁ := files) (l₂ := texts) (by omega)
  simpa using this

/-- The text is not taken for a compressed file. -/
theorem head_plain (names : List Bytes) (t : Bytes) : startsWith (sepHead TAB names ++ t) gzMagic = false := by
  unfold sepHead
  cases names with
  | nil => simp [startsWith, gzMagic, ascii, List.intercalate, List.intersperse]
  | cons n ns => simp [startsWith, gzMagic, ascii, List.intercalate, List.intersperse]

theorem stdin_read (w : World) (s : Sys) (names : List Bytes) (t : Bytes) (h : s.stdin = sepHead TAB names ++ t) :
    [[45]].map (getReader w.s3 w.gunzip s) = [sepHead TAB names ++ t].map some := by
  simp [getReader, h, head_plain]

/-- A word of `sort`. -/
def SortOpt.said : SortOpt → Bytes × Bytes
  | .key v => (ascii "key", v)
  | .unique => (ascii "unique", [])
  | .merge => (ascii "merge", [])
  | .check => (ascii "check", [])
  | .checkN v => (ascii "Check", v)
  | .altSort => (ascii "alt-sort", [])
  | .altMerge => (ascii "alt-merge", [])

theorem opts_said : ∀ os : List SortOpt, optsOf sortOptOf (os.map SortOpt.said) = .ok os
  | [] => rfl
  | o :: os => by
    have : sortOptOf o.said.1 o.said.2 = some o := by cases o <;> rfl
    rw [List.map_cons, optsOf, this]
    simp only
    rw [opts_said os]
    rfl

/-- What `sort` writes, by its main. -/
theorem output_sort (w : World) (os : List SortOpt) {files texts : List Bytes} (hl : files.length = texts.length) :
    w.output "sort" .new (os.map SortOpt.said) (files.zip texts) = sortMainF w.eval w.toF64 w.nameOk w.pick w.rd w.cap .default os texts := by
  unfold World.output
  simp only [reduceCtorEq, if_false, if_true, String.reduceEq, opts_said, Res.run, Run.bind, zip_snd hl]
  rfl

theorem output_grep (w : World) (opts files : List (Bytes × Bytes)) :
    w.output "cgrep" .new opts files = (grepMain w.matchers w.nameOk (sepMode TAB) (sepMode TAB) .matching opts files).run := by
  unfold World.output
  simp only [if_false, if_true, String.reduceEq]
  rfl

theorem output_cut (w : World) (opts : List (Bytes × Bytes)) {files texts : List Bytes} (hl : files.length = texts.length) :
    w.output "cut" .new opts (files.zip texts) = (cutMain w.cut w.nameOk .default .default .matching opts texts).run := by
  unfold World.output
  simp only [if_false, if_true, String.reduceEq, zip_snd hl]
  rfl

theorem output_verify (w : World) (opts : List (Bytes × Bytes)) {files texts : List Bytes} (hl : files.length = texts.length) {b : Bool}
    (h : verifyMain w.matchers w.compiles w.eval .default opts texts = .ok b) :
    w.output "verify" .new opts (files.zip texts) = if b then .ok [] else .fail .silent := by
  unfold World.output
  simp only [if_false, if_true, String.reduceEq, zip_snd hl]
  rw [show Settings.new.textIn = .default from rfl, h]
  rfl

/-- The files of a command line have these tables in them. -/
def Tables (w : World) (s : Sys) (files : List Bytes) (names : List Bytes) (tables : List (List (List Bytes))) : Prop :=
  files.map (getReader w.s3 w.gunzip s) = tables.map fun rows => some (sepHead TAB names ++ sepText TAB rows)

theorem Tables.read {w : World} {s : Sys} {files names : List Bytes} {tables : List (List (List Bytes))} (h : Tables w s files names tables) :
    files.map (getReader w.s3 w.gunzip s) = (tables.map fun rows => sepHead TAB names ++ sepText TAB rows).map some ∧
      files.length = (tables.map fun rows => sepHead TAB names ++ sepText TAB rows).length := by
  have := congrArg List.length h
  simp only [List.length_map] at this
  exact ⟨by rw [List.map_map]; exact h, by simpa using this⟩

/-- What `sort` writes is not taken for a compressed file. -/
theorem sort_plain (w : World) {os : List SortOpt} {names : List Bytes} {tables : List (List (List Bytes))} {ks : List TabKey}
    (h : SortFits names ks os) (ht : GoodTable names tables.flatten) (hok : ∀ n ∈ names, w.nameOk n = true) (htn : tables ≠ [])
    (hz : ∀ r ∈ tables.flatten, ∀ c ∈ r, 0 ∉ c) (hcap : 8 < w.cap) (hfit : (sepText TAB tables.flatten).length < w.cap) {out : Bytes}
    (ho : sortMain w.toF64 w.nameOk w.pick w.rd w.cap .default os (tables.map fun rows => sepHead TAB names ++ sepText TAB rows) = .ok out) :
    ∃ rest, out = sepHead TAB names ++ rest := by
  obtain ⟨o, o1, -⟩ := sort_tables w.toF64 w.nameOk w.pick w.rd w.cap .default h ht hok htn hz hcap hfit
  rw [o1] at ho
  cases ho
  exact ⟨_, rfl⟩

/-- C220: `cdx sort B files | cdx sort A` writes what `cdx sort A B files` writes, byte for byte, wherever the files stand among the
options. -/
theorem C220_sort (w : World) (s : Sys) (c : Cmd) (hc : c ∈ mainList) (hn : c.name = "sort") (names files : List Bytes)
    (tables : List (List (List Bytes))) (js ks : List TabKey) (as bs : List SortOpt) (first second once : List Tok)
    (w1 : Words c first (bs.map SortOpt.said) files) (w2 : Words c second (as.map SortOpt.said) [[45]])
    (w3 : Words c once ((as ++ bs).map SortOpt.said) files) (hr : Tables w s files names tables)
    (ha : SortFits names js as) (hb : SortFits names ks bs) (hau : SortOpt.unique ∉ as) (hbu : SortOpt.unique ∉ bs)
    (ht : GoodTable names tables.flatten) (hok : ∀ n ∈ names, w.nameOk n = true) (htn : tables ≠ [])
    (hz : ∀ r ∈ tables.flatten, ∀ c ∈ r, 0 ∉ c) (hcap : 8 < w.cap) (hfit : (sepText TAB tables.flatten).length < w.cap) :
    ∃ out, w.pipe [("sort", first), ("sort", second)] s = .ok out ∧ w.pipe [("sort", once)] s = .ok out := by
  obtain ⟨mid, out, h1, h2, h3⟩ := C216_keys w.toF64 w.nameOk w.pick w.rd w.cap .default names tables js ks as bs ha hb hau hbu ht hok htn hz
    hcap hfit
  obtain ⟨rest, rfl⟩ := sort_plain w hb ht hok htn hz hcap hfit h1
  obtain ⟨hr1, hr2⟩ := hr.read
  refine ⟨out, ?_, ?_⟩
  · rw [← hn, pipe_words w hc (by rw [hn]; decide) (by rw [hn]; decide) w1 s hr1 (by rw [hn, output_sort w bs hr2]; exact sortMainF_ok w.eval h1),
      pipe_words w hc (by rw [hn]; decide) (by rw [hn]; decide) w2 _ (stdin_read w _ names rest rfl) (by rw [hn, output_sort w as (files := [[45]]) (texts := [_]) (by rfl)]; exact sortMainF_ok w.eval h2)]
    rfl
  · rw [← hn, pipe_words w hc (by rw [hn]; decide) (by rw [hn]; decide) w3 s hr1 (by rw [hn, output_sort w _ hr2]; exact sortMainF_ok w.eval h3)]
    rfl

theorem tables0 : Tables world0 sys0 [ascii "f", ascii "g"] [ascii "a", ascii "b"]
    [[[ascii "x", ascii "1"], [ascii "y", ascii "22"]], [[ascii "x", ascii "3"], [ascii "y", ascii "44"]]] := by
  unfold Tables
  decide +kernel

/-- `cdx sort f --key b g | cdx sort --key a` and `cdx sort --key a --key b f g`. -/
example : ∃ out, world0.pipe [("sort", [.pos "input_files" (ascii "f"), .opt "key" (ascii "b"), .pos "input_files" (ascii "g")]),
      ("sort", [.opt "key" (ascii "a")])] sys0 = .ok out ∧
    world0.pipe [("sort", [.opt "key" (ascii "a"), .opt "key" (ascii "b"), .pos "input_files" (ascii "f"), .pos "input_files" (ascii "g")])] sys0 =
      .ok out :=
  C220_sort world0 sys0 (cmd0 "sort") (cmd0_mem (by decide +kernel)) (by decide +kernel) [ascii "a", ascii "b"] [ascii "f", ascii "g"]
    [[[ascii "x", ascii "1"], [ascii "y", ascii "22"]], [[ascii "x", ascii "3"], [ascii "y", ascii "44"]]] [⟨ascii "a", .plain, false⟩]
    [⟨ascii "b", .plain, false⟩] [.key (ascii "a")] [.key (ascii "b")] _ _ _
    ⟨by decide +kernel, by decide +kernel, by decide +kernel, by decide +kernel⟩ ⟨by decide +kernel, by decide +kernel, by decide +kernel, by decide +kernel⟩
    ⟨by decide +kernel, by decide +kernel, by decide +kernel, by decide +kernel⟩ tables0
    (sortFits_one _ _ (by decide +kernel)) (sortFits_one _ _ (by decide +kernel))
    (by simp) (by simp) goodTable_example (fun _ _ => rfl) (by simp) (by decide +kernel) (by decide) (by decide +kernel)

/-- C220: `cdx sort A files | cdx verify V` succeeds, and writes nothing, if `verify` is asked for the same keys in order, and for no two
equal rows only if `sort` was told to leave out such rows. -/
theorem C220_verify (w : World) (s : Sys) (c v : Cmd) (hc : c ∈ mainList) (hn : c.name = "sort") (hv : v ∈ mainList) (hvn : v.name = "verify")
    (names files : List Bytes) (tables : List (List (List Bytes))) (ks : List TabKey) (os : List SortOpt) (vs : List (Bytes × Bytes))
    (first second : List Tok) (w1 : Words c first (os.map SortOpt.said) files) (w2 : Words v second vs [[45]])
    (hr : Tables w s files names tables) (hg : GoodTable names tables.flatten) (fs : SortFits names ks os) (fv : VerifyFits names ks vs)
    (hok : ∀ n ∈ names, w.nameOk n = true) (htn : tables ≠ [])
    (hz : ∀ r ∈ tables.flatten, ∀ c ∈ r, 0 ∉ c) (hcap : 8 < w.cap) (hfit : (sepText TAB tables.flatten).length < w.cap) :
    (SortOpt.unique ∈ os ∨ optVals "unique" vs = [] → w.pipe [("sort", first), ("verify", second)] s = .ok []) ∧
      (SortOpt.unique ∉ os → optVals "unique" vs ≠ [] →
        w.pipe [("sort", first), ("verify", second)] s =
          if tables.flatten.Pairwise fun x y => tabCmp names ks x y ≠ .eq then .ok [] else .fail .silent) := by
  obtain ⟨sorted, h1, h2, h3⟩ := C210_sorted w.toF64 w.nameOk w.pick w.rd w.cap .default w.matchers w.compiles w.eval names tables ks os vs hg
    fs fv hok htn hz hcap hfit
  obtain ⟨rest, rfl⟩ := sort_plain w fs hg hok htn hz hcap hfit h1
  obtain ⟨hr1, hr2⟩ := hr.read
  have step : ∀ b, verifyMain w.matchers w.compiles w.eval .default vs [sepHead TAB names ++ rest] = .ok b →
      w.pipe [("sort", first), ("verify", second)] s = if b then .ok [] else .fail .silent := by
    intro b hb
    rw [← hn, pipe_words w hc (by rw [hn]; decide) (by rw [hn]; decide) w1 s hr1 (by rw [hn, output_sort w os hr2]; exact sortMainF_ok w.eval h1)]
    rw [World.pipe, ← hvn, run_words w hv w2]
    unfold World.command
    rw [if_neg (by rw [hvn]; decide)]
    rw [read_texts w _ (stdin_read w _ names rest rfl)]
    simp only [Run.bind]
    rw [if_neg (by rw [hvn]; decide), hvn, output_verify w vs (files := [[45]]) (by rfl) hb]
    cases b <;> rfl
  refine ⟨fun h => by rw [step _ (h2 h)]; rfl, fun hu hvu => ?_⟩
  obtain ⟨b, hb, hiff⟩ := h3 hu hvu
  rw [step b hb]
  by_cases h : tables.flatten.Pairwise fun x y => tabCmp names ks x y ≠ .eq
  · rw [if_pos h, if_pos (hiff.2 h)]
  · rw [if_neg h, if_neg (fun e => h (hiff.1 e))]

/-- `cdx sort --key b f g | cdx verify --sort --key b`. -/
example : world0.pipe [("sort", [.opt "key" (ascii "b"), .pos "input_files" (ascii "f"), .pos "input_files" (ascii "g")]),
      ("verify", [.flag "sort", .opt "key" (ascii "b")])] sys0 = .ok [] :=
  (C220_verify world0 sys0 (cmd0 "sort") (cmd0 "verify") (cmd0_mem (by decide +kernel)) (by decide +kernel) (cmd0_mem (by decide +kernel))
    (by decide +kernel) [ascii "a", ascii "b"] [ascii "f", ascii "g"]
    [[[ascii "x", ascii "1"], [ascii "y", ascii "22"]], [[ascii "x", ascii "3"], [ascii "y", ascii "44"]]]
    [⟨ascii "b", .plain, false⟩] [.key (ascii "b")] [(ascii "sort", []), (ascii "key", ascii "b")] _ _
    ⟨by decide +kernel, by decide +kernel, by decide +kernel, by decide +kernel⟩ ⟨by decide +kernel, by decide +kernel, by decide +kernel, by decide +kernel⟩
    tables0 goodTable_example (sortFits_one _ _ (by decide +kernel))
    ⟨(sortFits_one _ _ (by decide +kernel)).suits, by simp, by decide +kernel, (sortFits_one _ _ (by decide +kernel)).keys⟩
    (fun _ _ => rfl) (by simp) (by decide +kernel) (by decide) (by decide +kernel)).1 (.inr (by decide +kernel))

/-- C220: `cdx sort A files | cdx cut W` writes what `cdx cut W files | cdx sort B` writes, byte for byte, if the keys are of columns that
`cut` keeps. -/
theorem C220_cut (w : World) (s : Sys) (c k : Cmd) (hc : c ∈ mainList) (hn : c.name = "sort") (hk : k ∈ mainList) (hkn : k.name = "cut")
    (names files : List Bytes) (ws : List Want) (tables : List (List (List Bytes))) (ks : List TabKey) (as bs : List SortOpt)
    (sort1 cut1 cut2 sort2 : List Tok) (w1 : Words c sort1 (as.map SortOpt.said) files) (w2 : Words k cut1 (ws.map Want.opt) [[45]])
    (w3 : Words k cut2 (ws.map Want.opt) files) (w4 : Words c sort2 (bs.map SortOpt.said) [[45]]) (hr : Tables w s files names tables)
    (ht : GoodTable names tables.flatten) (hok : ∀ n ∈ names, w.nameOk n = true) (htn : tables ≠ []) (hz : ∀ r ∈ tables.flatten, ∀ c ∈ r, 0 ∉ c)
    (hcap : 8 < w.cap) (hfit : (sepText TAB tables.flatten).length < w.cap)
    (hws : ws ≠ []) (hf : ∀ x ∈ ws, x.Fine w.cut) (hs : ∀ x ∈ ws, x.Suits w.cut names) (ho : (keptNames names ws).Nodup)
    (hv : ∀ n ∈ keptNames names ws, IsName n ∧ w.nameOk n = true) (hl : (keptNames names ws).length < 2 ^ 64)
    (hp : ∀ x ∈ ws, x.Plain TAB tables.flatten) (hz' : ∀ r ∈ tables.flatten, ∀ c ∈ keptRow names ws r, 0 ∉ c)
    (hfit' : (sepText TAB (tables.flatten.map (keptRow names ws))).length < w.cap)
    (ha : SortFits names ks as) (hb : SortFits (keptNames names ws) ks bs) (hu : SortOpt.unique ∈ as ↔ SortOpt.unique ∈ bs)
    (hkc : ∀ k ∈ ks, KeptCol names ws k.col) :
    ∃ out, w.pipe [("sort", sort1), ("cut", cut1)] s = .ok out ∧ w.pipe [("cut", cut2), ("sort", sort2)] s = .ok out := by
  obtain ⟨sorted, cut, out, h1, h2, h3, h4⟩ := C217_sort w.toF64 w.cut w.nameOk w.pick w.rd w.cap .default names ws tables ks as bs ht hok htn hz
    hcap hfit hws hf hs ho hv hl hp hz' hfit' ha hb hu hkc
  obtain ⟨rest, rfl⟩ := sort_plain w ha ht hok htn hz hcap hfit h1
  have h5 := C133_table_partial w.cut w.nameOk TAB (by decide) (by decide) names ht.1 ht.2.1 ws hws hf hs ho hv tables
    (fun rows hm r hr => ht.2.2.2.2 r (List.mem_flatten.2 ⟨rows, hm, hr⟩)) hp htn
  have h6 : (Res.ok cut) = _ := h3.symm.trans h5
  cases h6
  obtain ⟨hr1, hr2⟩ := hr.read
  refine ⟨out, ?_, ?_⟩
  · rw [← hn, pipe_words w hc (by rw [hn]; decide) (by rw [hn]; decide) w1 s hr1 (by rw [hn, output_sort w as hr2]; exact sortMainF_ok w.eval h1),
      ← hkn, pipe_words w hk (by rw [hkn]; decide) (by rw [hkn]; decide) w2 _ (stdin_read w _ names rest rfl)
        (by rw [hkn, output_cut w _ (files := [[45]]) (texts := [_]) (by rfl), h2]; rfl)]
    rfl
  · rw [← hkn, pipe_words w hk (by rw [hkn]; decide) (by rw [hkn]; decide) w3 s hr1 (by rw [hkn, output_cut w _ hr2, h3]; rfl),
      ← hn, pipe_words w hc (by rw [hn]; decide) (by rw [hn]; decide) w4 _ (stdin_read w _ _ _ rfl) (by rw [hn, output_sort w bs (files := [[45]]) (texts := [_]) (by rfl)]; exact sortMainF_ok w.eval h4)]
    rfl

/-- `cdx sort --key b f g | cdx cut --fields b,x:a` and `cdx cut --fields b,x:a f g | cdx sort --key b`. -/
example : ∃ out, world0.pipe [("sort", [.opt "key" (ascii "b"), .pos "input_files" (ascii "f"), .pos "input_files" (ascii "g")]),
      ("cut", [.opt "fields" (ascii "b,x:a")])] sys0 = .ok out ∧
    world0.pipe [("cut", [.opt "fields" (ascii "b,x:a"), .pos "input_files" (ascii "f"), .pos "input_files" (ascii "g")]),
      ("sort", [.opt "key" (ascii "b")])] sys0 = .ok out :=
  C220_cut world0 sys0 (cmd0 "sort") (cmd0 "cut") (cmd0_mem (by decide +kernel)) (by decide +kernel) (cmd0_mem (by decide +kernel))
    (by decide +kernel) [ascii "a", ascii "b"] [ascii "f", ascii "g"] keepWants
    [[[ascii "x", ascii "1"], [ascii "y", ascii "22"]], [[ascii "x", ascii "3"], [ascii "y", ascii "44"]]] [⟨ascii "b", .plain, false⟩]
    [.key (ascii "b")] [.key (ascii "b")] _ _ _ _
    ⟨by decide +kernel, by decide +kernel, by decide +kernel, by decide +kernel⟩ ⟨by decide +kernel, by decide +kernel, by decide +kernel, by decide +kernel⟩
    ⟨by decide +kernel, by decide +kernel, by decide +kernel, by decide +kernel⟩ ⟨by decide +kernel, by decide +kernel, by decide +kernel, by decide +kernel⟩
    tables0 goodTable_example (fun _ _ => rfl) (by simp) (by decide +kernel) (by decide) (by decide +kernel)
    (by simp [keepWants]) keepWants_fine keepWants_suits (by decide +kernel) keepWants_names (by decide +kernel)
    (by intro w hw; simp only [keepWants, List.mem_singleton] at hw; subst hw; trivial) (by decide +kernel) (by decide +kernel)
    (sortFits_one _ _ (by decide +kernel)) (sortFits_one _ _ (by decide +kernel)) Iff.rfl (by simpa using keepWants_kept)

/-- C220: `cdx sort A files | cdx cgrep G` writes what `cdx cgrep G files | cdx sort A` writes, byte for byte; if equal rows are left out, the
tests must be of columns compared as they are. -/
theorem C220_grep (w : World) (s : Sys) (c g : Cmd) (hc : c ∈ mainList) (hn : c.name = "sort") (hg : g ∈ mainList) (hgn : g.name = "cgrep")
    (names : List Bytes) (ts : List RowTest) (opts : List (Bytes × Bytes)) (ks : List TabKey) (os : List SortOpt)
    (tables : List (Bytes × List (List Bytes))) (sort1 grep1 grep2 sort2 : List Tok)
    (w1 : Words c sort1 (os.map SortOpt.said) (tables.map (·.1))) (w2 : Words g grep1 opts [[45]])
    (w3 : Words g grep2 opts (tables.map (·.1))) (w4 : Words c sort2 (os.map SortOpt.said) [[45]])
    (hr : Tables w s (tables.map (·.1)) names (tables.map (·.2))) (h : SortFits names ks os) (hf : GrepFits names ts opts)
    (ht : GoodTable names (tables.map (·.2)).flatten) (hok : ∀ n ∈ names, w.nameOk n = true) (htn : tables ≠ [])
    (hz : ∀ r ∈ (tables.map (·.2)).flatten, ∀ c ∈ r, 0 ∉ c) (hcap : 8 < w.cap) (hfit : (sepText TAB (tables.map (·.2)).flatten).length < w.cap)
    (hname : ∀ t ∈ tables, t.1.getLast? ≠ some 47)
    (hu : SortOpt.unique ∈ os → ∀ t ∈ ts, ∃ rev, (⟨t.col, .plain, rev⟩ : TabKey) ∈ ks) :
    ∃ out, w.pipe [("sort", sort1), ("cgrep", grep1)] s = .ok out ∧ w.pipe [("cgrep", grep2), ("sort", sort2)] s = .ok out := by
  obtain ⟨sorted, chosen, out, h1, h2, h3, h4⟩ := C215_sort w.toF64 w.matchers w.nameOk w.pick w.rd w.cap .default names ts opts ks os tables
    [45] h hf ht hok htn hz hcap hfit hname (by decide) hu
  have e1 : (tables.map fun t => sepHead TAB names ++ sepText TAB t.2) =
      (tables.map (·.2)).map fun rows => sepHead TAB names ++ sepText TAB rows := by rw [List.map_map]; rfl
  rw [e1] at h1
  obtain ⟨rest, rfl⟩ := sort_plain w h ht hok (by simpa using htn) hz hcap hfit h1
  have h5 := C214_rows w.matchers w.nameOk TAB (by decide) (by decide) names ts opts tables ht.1 ht.2.2.1 (fun n hm => ⟨ht.2.1 n hm, hok n hm⟩)
    ht.2.2.2.1 hf htn fun t hm => ⟨hname t hm, fun r hr => ht.2.2.2.2 r (List.mem_flatten.2 ⟨t.2, List.mem_map_of_mem hm, hr⟩)⟩
  have h6 : (Res.ok chosen) = _ := h3.symm.trans h5
  cases h6
  obtain ⟨hr1, hr2⟩ := hr.read
  have e2 : (tables.map (·.1)).zip ((tables.map (·.2)).map fun rows => sepHead TAB names ++ sepText TAB rows) =
      tables.map fun t => (t.1, sepHead TAB names ++ sepText TAB t.2) := by
    rw [List.map_map, List.zip_map']
    rfl
  refine ⟨out, ?_, ?_⟩
  · rw [← hn, pipe_words w hc (by rw [hn]; decide) (by rw [hn]; decide) w1 s hr1 (by rw [hn, output_sort w os hr2]; exact sortMainF_ok w.eval h1),
      ← hgn, pipe_words w hg (by rw [hgn]; decide) (by rw [hgn]; decide) w2 _ (stdin_read w _ names rest rfl)
        (by rw [hgn, output_grep]; exact congrArg Res.run h2)]
    rfl
  · rw [← hgn, pipe_words w hg (by rw [hgn]; decide) (by rw [hgn]; decide) w3 s hr1 (by rw [hgn, output_grep, e2, h3]; rfl),
      ← hn, pipe_words w hc (by rw [hn]; decide) (by rw [hn]; decide) w4 _ (stdin_read w _ _ _ rfl)
        (by rw [hn, output_sort w os (files := [[45]]) (texts := [_]) (by rfl)]; exact sortMainF_ok w.eval h4)]
    rfl

/-- `cdx sort --key b f g | cdx cgrep --pattern b,exact,1` and `cdx cgrep --pattern b,exact,1 f g | cdx sort --key b`. -/
example : ∃ out, world0.pipe [("sort", [.opt "key" (ascii "b"), .pos "input_files" (ascii "f"), .pos "input_files" (ascii "g")]),
      ("cgrep", [.opt "pattern" (ascii "b,exact,1")])] sys0 = .ok out ∧
    world0.pipe [("cgrep", [.opt "pattern" (ascii "b,exact,1"), .pos "input_files" (ascii "f"), .pos "input_files" (ascii "g")]),
      ("sort", [.opt "key" (ascii "b")])] sys0 = .ok out :=
  C220_grep world0 sys0 (cmd0 "sort") (cmd0 "cgrep") (cmd0_mem (by decide +kernel)) (by decide +kernel) (cmd0_mem (by decide +kernel))
    (by decide +kernel) [ascii "a", ascii "b"] [⟨ascii "b", fun v => v == ascii "1"⟩] [(ascii "pattern", ascii "b,exact,1")]
    [⟨ascii "b", .plain, false⟩] [.key (ascii "b")]
    [(ascii "f", [[ascii "x", ascii "1"], [ascii "y", ascii "22"]]), (ascii "g", [[ascii "x", ascii "3"], [ascii "y", ascii "44"]])] _ _ _ _
    ⟨by decide +kernel, by decide +kernel, by decide +kernel, by decide +kernel⟩ ⟨by decide +kernel, by decide +kernel, by decide +kernel, by decide +kernel⟩
    ⟨by decide +kernel, by decide +kernel, by decide +kernel, by decide +kernel⟩ ⟨by decide +kernel, by decide +kernel, by decide +kernel, by decide +kernel⟩
    tables0 (sortFits_one _ _ (by decide +kernel)) (keptTest_fits (by simp)) goodTable_example (fun _ _ => rfl) (by simp) (by decide +kernel)
    (by decide) (by decide +kernel) (by decide +kernel) (by simp)

/-- C220: `cdx sort A files | cdx uniq U` writes the first row of each key, in order, with the number of rows that have it in the column asked
for; without such a column it writes what `cdx sort --unique` writes. -/
theorem C220_uniq (w : World) (s : Sys) (c u : Cmd) (hc : c ∈ mainList) (hn : c.name = "sort") (hu : u ∈ mainList) (hun : u.name = "uniq")
    (names files : List Bytes) (tables : List (List (List Bytes))) (ks : List TabKey) (name : Bytes) (pos : CountPos) (os os' : List SortOpt)
    (us : List (Bytes × Bytes)) (sort uniq once : List Tok) (w1 : Words c sort (os.map SortOpt.said) files) (w2 : Words u uniq us [[45]])
    (w3 : Words c once (os'.map SortOpt.said) files) (hr : Tables w s files names tables) (hg : GoodTable names tables.flatten)
    (fs : SortFits names ks os) (fs' : SortFits names ks os') (fu : UniqFits names ks name pos us) (hq : SortOpt.unique ∉ os)
    (hq' : SortOpt.unique ∈ os') (hok : ∀ n ∈ names, w.nameOk n = true) (htn : tables ≠ [])
    (hz : ∀ r ∈ tables.flatten, ∀ c ∈ r, 0 ∉ c) (hcap : 8 < w.cap) (hfit : (sepText TAB tables.flatten).length < w.cap) :
    ∃ firsts, UniqueSort (tabCmp names ks) tables.flatten firsts ∧
      w.pipe [("sort", sort), ("uniq", uniq)] s = .ok (sepHead TAB (addAt pos name names) ++
        sepText TAB (firsts.map fun r => addAt pos (decText (tables.flatten.filter fun x => tabCmp names ks r x == .eq).length) r)) ∧
      (pos = .none → w.pipe [("sort", once)] s = w.pipe [("sort", sort), ("uniq", uniq)] s) := by
  obtain ⟨sorted, firsts, h1, h2, h3, h4⟩ := C209_sort_uniq w.toF64 w.nameOk w.pick w.rd w.cap .default w.agg w.mkExpr (w.prn .default) w.compiles
    w.eval .default names tables ks name pos os us hg fs fu hq hok htn hz hcap hfit
  obtain ⟨rest, rfl⟩ := sort_plain w fs hg hok htn hz hcap hfit h1
  obtain ⟨hr1, hr2⟩ := hr.read
  have hout : w.output "uniq" .new us ([[45]].zip [sepHead TAB names ++ rest]) =
      (uniqMain w.agg w.mkExpr (w.prn .default) w.compiles w.eval .default .default us (sepHead TAB names ++ rest)).run := by
    unfold World.output
    simp only [if_false, if_true, String.reduceEq, zip_snd (files := [[45]]) (texts := [_]) (by rfl)]
    rfl
  have hp : w.pipe [("sort", sort), ("uniq", uniq)] s = .ok (sepHead TAB (addAt pos name names) ++
        sepText TAB (firsts.map fun r => addAt pos (decText (tables.flatten.filter fun x => tabCmp names ks r x == .eq).length) r)) := by
    rw [← hn, pipe_words w hc (by rw [hn]; decide) (by rw [hn]; decide) w1 s hr1 (by rw [hn, output_sort w os hr2]; exact sortMainF_ok w.eval h1),
      ← hun, pipe_words w hu (by rw [hun]; decide) (by rw [hun]; decide) w2 _ (stdin_read w _ names rest rfl) (by rw [hun, hout, h3]; rfl)]
    rfl
  refine ⟨firsts, h2, hp, fun hpos => ?_⟩
  have h5 := h4 os' fs' hq' hpos
  rw [h3] at h5
  rw [hp, ← hn, pipe_words w hc (by rw [hn]; decide) (by rw [hn]; decide) w3 s hr1 (by rw [hn, output_sort w os' hr2]; exact sortMainF_ok w.eval h5)]
  rfl

/-- `cdx sort --key 2,len.rev f --alt-sort --key a,rev g | cdx uniq --count x --key 2,len.rev --key a,rev --count n,End`. -/
example : ∃ out, world0.pipe [("sort", [.opt "key" (ascii "2,len.rev"), .pos "input_files" (ascii "f"), .flag "alt-sort", .opt "key" (ascii "a,rev"),
      .pos "input_files" (ascii "g")]),
    ("uniq", [.opt "count" (ascii "x"), .opt "key" (ascii "2,len.rev"), .opt "key" (ascii "a,rev"), .opt "count" (ascii "n,End")])] sys0 = .ok out := by
  have fs := sortFits_example
  obtain ⟨firsts, -, h, -⟩ := C220_uniq world0 sys0 (cmd0 "sort") (cmd0 "uniq") (cmd0_mem (by decide +kernel)) (by decide +kernel)
    (cmd0_mem (by decide +kernel)) (by decide +kernel) [ascii "a", ascii "b"] [ascii "f", ascii "g"]
    [[[ascii "x", ascii "1"], [ascii "y", ascii "22"]], [[ascii "x", ascii "3"], [ascii "y", ascii "44"]]] _ _ _ _
    [.unique, .key (ascii "2,len.rev"), .altSort, .key (ascii "a,rev")] _ _ _
    [.flag "unique", .opt "key" (ascii "2,len.rev"), .pos "input_files" (ascii "f"), .flag "alt-sort", .opt "key" (ascii "a,rev"),
      .pos "input_files" (ascii "g")]
    (⟨by decide +kernel, by decide +kernel, by decide +kernel, by decide +kernel⟩ : Words _ [.opt "key" (ascii "2,len.rev"), .pos "input_files" (ascii "f"),
      .flag "alt-sort", .opt "key" (ascii "a,rev"), .pos "input_files" (ascii "g")]
      ([.key (ascii "2,len.rev"), .altSort, .key (ascii "a,rev")].map SortOpt.said) _)
    (⟨by decide +kernel, by decide +kernel, by decide +kernel, by decide +kernel⟩ : Words _ [.opt "count" (ascii "x"), .opt "key" (ascii "2,len.rev"),
      .opt "key" (ascii "a,rev"), .opt "count" (ascii "n,End")]
      [(ascii "count", ascii "x"), (ascii "key", ascii "2,len.rev"), (ascii "key", ascii "a,rev"), (ascii "count", ascii "n,End")] _)
    ⟨by decide +kernel, by decide +kernel, by decide +kernel, by decide +kernel⟩
    tables0 goodTable_example fs ⟨fs.suits, fs.some, fs.keys, by simp, by decide, fs.first⟩ uniqFits_example (by simp) (by simp) (fun _ _ => rfl) (by simp)
    (by decide +kernel) (by decide) (by decide +kernel)
  exact ⟨_, h⟩

end Cdx
