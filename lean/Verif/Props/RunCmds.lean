import Verif.Props.PipesFiles
import Verif.Props.Tighten
import Verif.Props.ExprUse
import Verif.Props.Filegen
import Verif.Props.SampleMain
import Verif.Props.TabsMain

/-!
C222: what single commands write, from the words of the command line and the text formats asked for.
-/

namespace Cdx

/-! ## The words, with text formats -/

/-- The values an option has on the command line. -/
def valuesIn (toks : List Tok) (n : String) : List Bytes := (toks.filter fun t => t.name = n).map Tok.value

/-- The words of a command line: these text formats, these options of the command itself, and these files, in any arrangement. -/
structure Says (w : World) (c : Cmd) (toks : List Tok) (textIn : TextMode) (textOut : Option TextMode) (opts : List (Bytes × Bytes))
    (files : List Bytes) : Prop where
  ok : ∀ t ∈ toks, Accepts c.spec t
  own : ∀ t ∈ toks, t.name ∈ ["input_files", "text-in", "text-out"] ++ c.spec.map (·.name)
  opts : (wantedArgs c.spec toks).map (fun o => (ascii o.1, o.2)) = opts
  files : filesOf c toks = files
  textIn : LastMeans (fun v m => TextMode.new (w.chars v) = .ok m) (valuesIn toks "text-in") .default textIn
  textOut : LastMeans (fun v m => ∃ t, TextMode.new (w.chars v) = .ok t ∧ m = some t) (valuesIn toks "text-out") none textOut

theorem getArg_values (toks : List Tok) (x : ArgSpec) (ht : x.takes = true) :
    (getArg (tokValues 0 toks) x).map (fun a => (a.name, a.value)) = (valuesIn toks x.name).map fun v => (x.name, v) := by
  unfold getArg
  rw [if_neg (by simp [ht]), List.map_map]
  have := congrArg (List.map Prod.snd) (tokValues_filter (fun n => decide (n = x.name)) toks 0)
  have e : ((tokValues 0 toks).filter fun a => a.name = x.name).map (·.value) = valuesIn toks x.name := by
    simpa [valuesIn, List.map_map, Function.comp_def] using this
  rw [← e, List.map_map]
  rfl

theorem getArg_none (toks : List Tok) (x : ArgSpec) (h : ∀ t ∈ toks, t.name ≠ x.name) : getArg (tokValues 0 toks) x = [] := by
  have hnone : (toks.filter fun t => t.name = x.name) = [] := by
    rw [List.filter_eq_nil_iff]
    intro t ht e
    exact h t ht (by simpa using e)
  have := getArg_same (toks := toks) (toks' := []) x (by rw [hnone]; rfl)
  have h0 : getArg (tokValues 0 []) x = [] := by
    unfold getArg tokValues
    split <;> rfl
  rw [h0, List.map_nil] at this
  exact List.map_eq_nil_iff.1 this

theorem consume_app (chars : Bytes → List Char) : ∀ (l l' : List ArgValue) (s : Settings),
    s.consume chars (l ++ l') = (s.consume chars l).bind fun s => s.consume chars l'
  | [], _, _ => rfl
  | a :: l, l', s => by
    simp only [List.cons_append, Settings.consume]
    cases s.take chars a with
    | ok s => exact consume_app chars l l' s
    | fail e => rfl
    | panic => rfl

theorem consume_textIn (chars : Bytes → List Char) : ∀ (l : List ArgValue) (vs : List Bytes) (s : Settings) (m : TextMode),
    l.map (fun a => (a.name, a.value)) = vs.map (fun v => ("text-in", v)) →
    LastMeans (fun v m => TextMode.new (chars v) = .ok m) vs s.textIn m → s.consume chars l = .ok { s with textIn := m }
  | [], [], s, m, _, h => by
    rw [lastMeans_nil] at h
    subst h
    rfl
  | [], _ :: _, _, _, h, _ => by simp at h
  | _ :: _, [], _, _, h, _ => by simp at h
  | a :: l, v :: vs, s, m, h, hm => by
    simp only [List.map_cons, List.cons.injEq, Prod.mk.injEq] at h
    obtain ⟨u, h1, h2⟩ := lastMeans_cons.1 hm
    unfold Settings.consume Settings.take
    rw [if_pos h.1.1, h.1.2, h1]
    simp only [Res.run, Run.bind]
    exact consume_textIn chars l vs { s with textIn := u } m h.2 h2

theorem consume_textOut (chars : Bytes → List Char) : ∀ (l : List ArgValue) (vs : List Bytes) (s : Settings) (m : Option TextMode),
    l.map (fun a => (a.name, a.value)) = vs.map (fun v => ("text-out", v)) →
    LastMeans (fun v m => ∃ t, TextMode.new (chars v) = .ok t ∧ m = some t) vs s.textOut m → s.consume chars l = .ok { s with textOut := m }
  | [], [], s, m, _, h => by
    rw [lastMeans_nil] at h
    subst h
    rfl
  | [], _ :: _, _, _, h, _ => by simp at h
  | _ :: _, [], _, _, h, _ => by simp at h
  | a :: l, v :: vs, s, m, h, hm => by
    simp only [List.map_cons, List.cons.injEq, Prod.mk.injEq] at h
    obtain ⟨u, ⟨t, h1, rfl⟩, h2⟩ := lastMeans_cons.1 hm
    unfold Settings.consume Settings.take
    rw [if_neg (by rw [h.1.1]; decide), if_pos h.1.1, h.1.2, h1]
    simp only [Res.run, Run.bind]
    exact consume_textOut chars l vs { s with textOut := some t } m h.2 h2

theorem run_says (w : World) {c : Cmd} (hc : c ∈ mainList) {toks : List Tok} {m : TextMode} {o : Option TextMode} {opts : List (Bytes × Bytes)}
    {files : List Bytes} (h : Says w c toks m o opts files) (s : Sys) : w.run c.name toks s = w.command c.name ⟨m, o⟩ opts files s := by
  have hn := C120_names c hc
  have hdis : ∀ n ∈ globalArgs.map (·.name) ++ ["std-help"], n ≠ "text-in" → n ≠ "text-out" → ∀ t ∈ toks, t.name ≠ n := by
    intro n hm n1 n2 t ht e
    unfold Names at hn
    rw [List.map_append, List.append_assoc] at hn
    have h2 := List.nodup_append.1 hn
    rcases List.mem_append.1 (h.own t ht) with h1 | h1
    · simp only [List.mem_cons, List.not_mem_nil, or_false] at h1
      rw [e] at h1
      rcases h1 with h1 | h1 | h1
      · rw [h1] at hm
        exact absurd hm (by decide)
      · exact n1 h1
      · exact n2 h1
    · refine h2.2.2 _ h1 n ?_ e
      rcases List.mem_append.1 hm with h4 | h4
      · exact List.mem_append_left _ h4
      · rw [List.mem_singleton] at h4
        simp [h4]
  unfold World.run
  rw [find_cmd hc]
  simp only
  unfold parseArgs
  simp only [any_name]
  rw [if_neg (by
    rw [List.any_eq_true]
    rintro ⟨t, ht, e⟩
    exact hdis "std-help" (by simp) (by decide) (by decide) t ht (by simpa using e))]
  have e1 : globalArgs.flatMap (getArg (tokValues 0 toks)) = getArg (tokValues 0 toks) { name := "text-in" } ++
      getArg (tokValues 0 toks) { name := "text-out" } := by
    have hg : globalArgs = { name := "text-in" } :: { name := "text-out" } :: globalArgs.drop 2 := rfl
    have h0 : (globalArgs.drop 2).flatMap (getArg (tokValues 0 toks)) = [] := by
      rw [List.flatMap_eq_nil_iff]
      intro x hx
      have : ∀ x ∈ globalArgs.drop 2, x.name ∈ globalArgs.map (·.name) ++ ["std-help"] ∧ x.name ≠ "text-in" ∧ x.name ≠ "text-out" := by decide
      obtain ⟨a1, a2, a3⟩ := this x hx
      exact getArg_none toks x (hdis _ a1 a2 a3)
    rw [hg, List.flatMap_cons, List.flatMap_cons, h0, List.append_nil]
  have e3 : argPairs (stableSort (fun a b => decide (a.index ≤ b.index)) (c.spec.flatMap (getArg (tokValues 0 toks)))) = opts := by
    have : (stableSort (fun a b => decide (a.index ≤ b.index)) (c.spec.flatMap (getArg (tokValues 0 toks)))).map (fun a => (a.name, a.value)) =
        wantedArgs c.spec toks := by
      rw [sorted_args c.spec toks hn h.ok, wantedArgs]
      exact tokValues_filter (fun n => c.spec.any fun x => x.name = n) toks 0
    rw [← h.opts, ← this, argPairs, List.map_map]
    rfl
  rw [e1, consume_app, consume_textIn w.chars _ _ .new m (getArg_values toks { name := "text-in" } rfl) h.textIn]
  simp only [Run.bind]
  rw [consume_textOut w.chars _ _ _ o (getArg_values toks { name := "text-out" } rfl) h.textOut]
  simp only [Run.bind]
  rw [e3, argFiles_toks, h.files]

/-- What a command writes. -/
theorem run_writes (w : World) {c : Cmd} (hc : c ∈ mainList) (hj : c.name ≠ "join") (hb : c.name ≠ "binsearch") {toks : List Tok} {m : TextMode}
    {o : Option TextMode} {opts : List (Bytes × Bytes)} {files texts : List Bytes} (h : Says w c toks m o opts files) (s : Sys)
    (hr : files.map (getReader w.s3 w.gunzip s) = texts.map some) {out : Bytes} (ho : w.output c.name ⟨m, o⟩ opts (files.zip texts) = .ok out) :
    w.run c.name toks s = .ok { s with stdout := s.stdout ++ out } := by
  rw [run_says w hc h]
  unfold World.command
  rw [if_neg hb, read_texts w s (files := files) (texts := texts) hr]
  simp only [Run.bind]
  rw [if_neg hj, ho]
  simp only [Run.bind, print_eq]

/-! ## For the examples -/

/-- Surroundings in which texts are characters, for the examples. -/
def world1 : World := { world0 with chars := fun b => b.map fun c => Char.ofNat c.toNat, screen := some (20, 24), expr := ⟨noOps, fun b => (0, b.drop 1), fun _ _ => .err⟩,
                                     prn := fun _ _ => ascii "v", glyphs := asciiGlyphs }

/-- A system with a file `p` of columns separated by commas, and files `q` and `r` of lines. -/
def sys3 : Sys :=
  { files := fun n => if n = ascii "p" then some (ascii " CDX,a,b\nx,1\ny;z,22\n")
      else if n = ascii "q" then some (ascii "1 2\n3\n") else if n = ascii "r" then some (ascii "4\n") else none
    stdin := [], stdout := ascii ">", stderr := [] }

/-- A system with files of one and of two data lines. -/
def sys4 : Sys :=
  { files := fun n => if n = ascii "f" then some (ascii " CDX\ta\tb\nx\t1\ny\t22\n") else if n = ascii "h" then some (ascii " CDX\tc\nz\n") else none
    stdin := [], stdout := [], stderr := [] }

/-- An option said once or not at all. -/
theorem lastMeans_said {α β : Type} {R : α → β → Prop} {xs : List α} {s t : β} (h : xs = [] ∧ t = s ∨ ∃ x, xs = [x] ∧ R x t) : LastMeans R xs s t := by
  rcases h with ⟨rfl, rfl⟩ | ⟨x, rfl, h⟩
  · exact lastMeans_nil.2 rfl
  · exact lastMeans_cons.2 ⟨_, h, lastMeans_nil.2 rfl⟩

theorem says_plain {w : World} {c : Cmd} {toks : List Tok} {opts : List (Bytes × Bytes)} {files : List Bytes}
    (h1 : ∀ t ∈ toks, Accepts c.spec t) (h2 : ∀ t ∈ toks, t.name ∈ ["input_files"] ++ c.spec.map (·.name))
    (h3 : (wantedArgs c.spec toks).map (fun o => (ascii o.1, o.2)) = opts) (h4 : filesOf c toks = files)
    (h5 : valuesIn toks "text-in" = [] ∧ valuesIn toks "text-out" = []) : Says w c toks .default none opts files :=
  ⟨h1, fun t ht => by have := h2 t ht; simp only [List.mem_append, List.mem_cons, List.not_mem_nil, or_false] at this ⊢; rcases this with h | h <;> simp [h],
    h3, h4, lastMeans_said (.inl ⟨h5.1, rfl⟩), lastMeans_said (.inl ⟨h5.2, rfl⟩)⟩

/-! ## cut -/

/-- Fields and composite columns. -/
def Want.Bare : Want → Prop
  | .fields _ => True
  | .comp _ _ => True
  | _ => False

theorem cells_blanked (env : CutEnv) (d e : UInt8) (hd : SepByte d) (names : List Bytes) (w : Want) (hw : w.Bare) (r : List Bytes) (hne : r ≠ [])
    (hfree : ∀ c ∈ r, d ∉ c ∧ NL ∉ c) :
    w.cells env (sepMode e) names (decoded (sepMode d) (List.intercalate [d] r ++ [NL])) = (w.fieldsOf names r).map (blanked e) := by
  have hv := row_vec d hd r hne hfree
  cases w with
  | fields is =>
    simp only [Want.cells, Want.fieldsOf, hv, List.map_map]
    exact List.map_congr_left fun x _ => group_write e _
  | comp name ps =>
    simp only [Want.cells, Want.fieldsOf, hv, List.map_cons, List.map_nil]
    rw [show (sepMode e).write _ = blanked e _ from group_write e _]
  | group g name is => exact absurd hw (by simp [Want.Bare])
  | expr name f => exact absurd hw (by simp [Want.Bare])

theorem cut_cells (env : CutEnv) (nameOk : Bytes → Bool) (d e : UInt8) (hd : SepByte d) (hu : d ≠ 95) (he : SepByte e) (heu : e ≠ 95)
    (names : List Bytes) (hne : names ≠ []) (hn : ∀ n ∈ names, IsName n) (ws : List Want) (hws : ws ≠ []) (hf : ∀ w ∈ ws, w.Fine env)
    (hs : ∀ w ∈ ws, w.Suits env names) (ho : (ws.flatMap (Want.outNames names)).Nodup)
    (hv : ∀ n ∈ ws.flatMap (Want.outNames names), IsName n ∧ nameOk n = true) (tables : List (List (List Bytes)))
    (htab : ∀ rows ∈ tables, SepTable d names.length rows) (cellsOf : List Bytes → List Bytes)
    (hcell : ∀ rows ∈ tables, ∀ r ∈ rows, ws.flatMap (Want.cells env (sepMode e) names (decoded (sepMode d) (List.intercalate [d] r ++ [NL]))) =
      cellsOf r) (ht : tables ≠ []) :
    cutMain env nameOk (sepMode d) (sepMode e) .matching (ws.map Want.opt) (tables.map fun rows => sepHead d names ++ sepText d rows) =
      .ok (sepHead e (ws.flatMap (Want.outNames names)) ++
        sepText e (tables.flatten.map cellsOf)) := by
  have hsn : SepNames d names := ⟨hne, fun n hm => name_free hd hu (hn n hm)⟩
  have hread := fun rows (hr : rows ∈ tables) => table_read d hd names hsn rows (htab rows hr)
  have hall : notEmpty (sepMode d) (tables.map fun rows => sepHead d names ++ sepText d rows) =
      tables.map fun rows => sepHead d names ++ sepText d rows := by
    unfold notEmpty
    rw [List.filter_eq_self]
    intro f hm
    obtain ⟨rows, hr, rfl⟩ := List.mem_map.1 hm
    rw [(hread rows hr).1]
    rfl
  have hfile : ∀ f ∈ notEmpty (sepMode d) (tables.map fun rows => sepHead d names ++ sepText d rows), namesOf (sepMode d) f = names := by
    intro f hm
    rw [hall] at hm
    obtain ⟨rows, hr, rfl⟩ := List.mem_map.1 hm
    exact (hread rows hr).2.1
  rw [C133_cut_partial env nameOk (sepMode d) (sepMode e) (by simp [sepMode, TextMode.default]) .matching ws hws hf _ (by
    intro f hm
    rw [hfile f hm]
    exact ⟨hn, hs, ho, fun n hm => (hv n hm).1⟩), hall]
  have hcells : ∀ w ∈ ws, w.outNames names ≠ [] := by
    intro w hw
    have := hs w hw
    cases w with
    | fields is =>
      obtain ⟨⟨v, hv, hne⟩, _⟩ := this
      simpa [Want.outNames, hv] using hne
    | group g name is => simp [Want.outNames]
    | expr name f => simp [Want.outNames]
    | comp name ps => simp [Want.outNames]
  have hon : ws.flatMap (Want.outNames names) ≠ [] := by
    intro e
    cases ws with
    | nil => exact hws rfl
    | cons w ws =>
      rw [List.flatMap_cons, List.append_eq_nil_iff] at e
      exact hcells w (by simp) e.1
  have hosn : SepNames e (ws.flatMap (Want.outNames names)) := ⟨hon, fun n hm => name_free he heu (hv n hm).1⟩
  have hhead : ∀ rows ∈ tables, cutHead (sepMode d) (sepMode e) ws (sepHead d names ++ sepText d rows) =
      sepHead e (ws.flatMap (Want.outNames names)) := by
    intro rows hr
    obtain ⟨_, h2, _, h4⟩ := hread rows hr
    unfold cutHead
    rw [h2, h4, if_pos rfl, sepHead_eq e _ hon]
    simp [headText, sepMode, TextMode.default]
  obtain ⟨k, hk⟩ : ∃ k, tables.length = k + 1 := ⟨tables.length - 1, by have := List.length_pos_iff.2 ht; omega⟩
  have hmap : (tables.map fun rows => sepHead d names ++ sepText d rows).map (cutHead (sepMode d) (sepMode e) ws) =
      List.replicate (k + 1) (sepHead e (ws.flatMap (Want.outNames names))) := by
    rw [List.map_map, ← hk, List.eq_replicate_iff]
    refine ⟨by simp, ?_⟩
    intro b hb
    obtain ⟨rows, hr, rfl⟩ := List.mem_map.1 hb
    exact hhead rows hr
  have hcdx : isCdx (sepHead e (ws.flatMap (Want.outNames names))) = true := by
    rw [sepHead_eq e _ hon]; simp [isCdx, cdxTag, List.isPrefixOf]
  rw [hmap, checkAll_same nameOk _ (sepHead_ok nameOk e he _ hosn fun n hm => (hv n hm).2) hcdx k]
  simp only [Res.ok.injEq]
  have hrows : ∀ rows ∈ tables, (dataOf (sepMode d) (sepHead d names ++ sepText d rows)).flatMap
      (cutRow env (sepMode d) (sepMode e) (namesOf (sepMode d) (sepHead d names ++ sepText d rows)) ws) =
      sepText e (rows.map cellsOf) := by
    intro rows hr
    obtain ⟨_, h2, h3, _⟩ := hread rows hr
    rw [h2, h3, List.flatMap_map, sepText, List.flatMap_map]
    apply flatMap_same
    intro r hm
    unfold cutRow
    have e2 : (sepMode e).delim = e := rfl
    rw [e2, hcell rows hr r hm]
  cases tables with
  | nil => exact absurd rfl ht
  | cons rows0 tables =>
    have hk' : tables.length = k := by simpa using hk
    have htail : ∀ (ts : List (List (List Bytes))) (_ : ∀ rows ∈ ts, rows ∈ rows0 :: tables), 
        cutOutput env (sepMode d) (sepMode e) ws (ts.map fun rows => sepHead d names ++ sepText d rows) (List.replicate ts.length false) =
        sepText e (ts.flatten.map cellsOf) := by
      intro ts
      induction ts with
      | nil => intro _; rfl
      | cons r ts ih =>
        intro hsub
        have ih := ih (fun x hx => hsub x (by simp [hx]))
        unfold cutOutput at ih ⊢
        rw [List.map_cons, List.length_cons, List.replicate_succ, List.zip_cons_cons, List.flatMap_cons, ih]
        simp only [Bool.false_eq_true, if_false, List.nil_append]
        rw [hrows r (hsub r (by simp))]
        simp [sepText]
    have := htail tables (fun x hx => by simp [hx])
    rw [hk'] at this
    unfold cutOutput at this ⊢
    rw [List.map_cons, List.zip_cons_cons, List.flatMap_cons, this]
    simp only [if_true]
    rw [hrows rows0 (by simp), hhead rows0 (by simp)]
    simp [sepText]

theorem cut_converts (env : CutEnv) (nameOk : Bytes → Bool) (d e : UInt8) (hd : SepByte d) (hu : d ≠ 95) (he : SepByte e) (heu : e ≠ 95)
    (names : List Bytes) (hne : names ≠ []) (hn : ∀ n ∈ names, IsName n) (ws : List Want) (hws : ws ≠ []) (hf : ∀ w ∈ ws, w.Fine env)
    (hs : ∀ w ∈ ws, w.Suits env names) (ho : (ws.flatMap (Want.outNames names)).Nodup)
    (hv : ∀ n ∈ ws.flatMap (Want.outNames names), IsName n ∧ nameOk n = true) (tables : List (List (List Bytes)))
    (htab : ∀ rows ∈ tables, SepTable d names.length rows) (hp : ∀ w ∈ ws, w.Bare) (ht : tables ≠ []) :
    cutMain env nameOk (sepMode d) (sepMode e) .matching (ws.map Want.opt) (tables.map fun rows => sepHead d names ++ sepText d rows) =
      .ok (sepHead e (ws.flatMap (Want.outNames names)) ++
        sepText e (tables.flatten.map fun r => (ws.flatMap (Want.fieldsOf names r)).map (blanked e))) := by
  refine cut_cells env nameOk d e hd hu he heu names hne hn ws hws hf hs ho hv tables htab _ ?_ ht
  intro rows hr r hm
  obtain ⟨hl, hfree⟩ := htab rows hr r hm
  have hrne : r ≠ [] := by
    rintro rfl
    simp at hl
    exact hne (List.length_eq_zero_iff.1 hl.symm)
  rw [List.map_flatMap]
  apply flatMap_same
  intro w hw
  exact cells_blanked env d e hd names w (hp w hw) r hrne hfree

/-- C222: `cut` reads tables with one separator and writes them with another; bytes of a field that would be taken for the separator become
blanks. -/
theorem C222_cut (w : World) (s : Sys) (c : Cmd) (hc : c ∈ mainList) (hn : c.name = "cut") (toks : List Tok) (d e : UInt8) (o : Option TextMode)
    (names files : List Bytes) (tables : List (List (List Bytes))) (ws : List Want) (h : Says w c toks (sepMode d) o (ws.map Want.opt) files)
    (ho : o = some (sepMode e) ∨ o = none ∧ e = d) (hr : files.map (getReader w.s3 w.gunzip s) = (tables.map fun rows => sepHead d names ++ sepText d rows).map some)
    (hd : SepByte d) (hu : d ≠ 95) (he : SepByte e) (heu : e ≠ 95) (hne : names ≠ []) (hnn : ∀ n ∈ names, IsName n) (hws : ws ≠ [])
    (hf : ∀ x ∈ ws, x.Fine w.cut) (hs : ∀ x ∈ ws, x.Suits w.cut names) (hnd : (ws.flatMap (Want.outNames names)).Nodup)
    (hv : ∀ n ∈ ws.flatMap (Want.outNames names), IsName n ∧ w.nameOk n = true) (htab : ∀ rows ∈ tables, SepTable d names.length rows)
    (hp : ∀ x ∈ ws, x.Bare) (ht : tables ≠ []) :
    w.run "cut" toks s = .ok { s with stdout := s.stdout ++ (sepHead e (ws.flatMap (Want.outNames names)) ++
      sepText e (tables.flatten.map fun r => (ws.flatMap (Want.fieldsOf names r)).map (blanked e))) } := by
  have hl := congrArg List.length hr
  simp only [List.length_map] at hl
  have hout : (Settings.mk (sepMode d) o).out = sepMode e := by
    rcases ho with rfl | ⟨rfl, rfl⟩ <;> rfl
  rw [← hn]
  refine run_writes w hc (by rw [hn]; decide) (by rw [hn]; decide) h s hr ?_
  rw [hn]
  unfold World.output
  simp only [if_false, if_true, String.reduceEq]
  rw [zip_snd (by simpa using hl), hout, cut_converts w.cut w.nameOk d e hd hu he heu names hne hnn ws hws hf hs hnd hv tables htab hp ht]
  rfl

/-- `cdx cut --text-in m, --fields b --fields x:a --text-out 'm;' p`. -/
example : world1.run "cut" [.opt "text-in" (ascii "m,"), .opt "fields" (ascii "b"), .opt "fields" (ascii "x:a"), .pos "input_files" (ascii "p"),
    .opt "text-out" (ascii "m;")] sys3 = .ok { sys3 with stdout := ascii "> CDX;b;x\n1;x\n22;y z\n" } :=
  C222_cut world1 sys3 (cmd0 "cut") (cmd0_mem (by decide +kernel)) (by decide +kernel) _ 44 59 _ [ascii "a", ascii "b"] [ascii "p"]
    [[[ascii "x", ascii "1"], [ascii "y;z", ascii "22"]]] apartWants
    ⟨by decide +kernel, by decide +kernel, by decide +kernel, by decide +kernel, lastMeans_said (.inr ⟨ascii "m,", by decide +kernel, by decide +kernel⟩),
      lastMeans_said (.inr ⟨ascii "m;", by decide +kernel, _, by decide +kernel, rfl⟩)⟩ (.inl rfl) (by decide +kernel) (by decide) (by decide)
    (by decide) (by decide) (by decide) goodTable_example.2.1 (by simp [apartWants]) (fun x hx => (apartWants_fine x hx).1)
    (fun x hx => (apartWants_fine x hx).2.1) (by decide +kernel) (fun n hn => ⟨by
      have : n = ascii "b" ∨ n = ascii "x" := by
        have e : apartWants.flatMap (Want.outNames [ascii "a", ascii "b"]) = [ascii "b", ascii "x"] := by decide +kernel
        rw [e] at hn
        simpa using hn
      rcases this with rfl | rfl
      · exact one_letter 98 (by unfold Letter; decide)
      · exact one_letter 120 (by unfold Letter; decide), rfl⟩) (by decide +kernel)
    (by intro x hx; simp only [apartWants, List.mem_cons, List.not_mem_nil, or_false] at hx; rcases hx with rfl | rfl <;> trivial) (by simp)

/-! ## cgrep -/

/-- C222: `cgrep` keeps the separator of the input. -/
theorem C222_grep (w : World) (s : Sys) (c : Cmd) (hc : c ∈ mainList) (hn : c.name = "cgrep") (toks : List Tok) (d : UInt8)
    (names files : List Bytes) (ts : List RowTest) (opts : List (Bytes × Bytes)) (tables : List (Bytes × List (List Bytes)))
    (h : Says w c toks (sepMode d) none opts files) (hfl : files = tables.map (·.1))
    (hr : files.map (getReader w.s3 w.gunzip s) = tables.map fun t => some (sepHead d names ++ sepText d t.2))
    (hd : SepByte d) (hu : d ≠ 95) (hne : names ≠ []) (hnd : names.Nodup) (hv : ∀ n ∈ names, IsName n ∧ w.nameOk n = true)
    (hl : names.length < 2 ^ 64) (hf : GrepFits names ts opts) (ht : tables ≠ [])
    (htab : ∀ t ∈ tables, t.1.getLast? ≠ some 47 ∧ SepTable d names.length t.2) :
    w.run "cgrep" toks s = .ok { s with stdout := s.stdout ++ (sepHead d names ++ sepText d ((tables.map (·.2)).flatten.filter
        (chosenRow names ts (decide (valuesOf "or" opts ≠ [])) (decide (valuesOf "invert" opts ≠ []))))) } := by
  rw [← hn]
  refine run_writes w hc (by rw [hn]; decide) (by rw [hn]; decide) h s
    (texts := tables.map fun t => sepHead d names ++ sepText d t.2) (by rw [hr, List.map_map]; rfl) ?_
  rw [hn]
  unfold World.output
  simp only [if_false, if_true, String.reduceEq]
  have hz : files.zip (tables.map fun t => sepHead d names ++ sepText d t.2) = tables.map fun t => (t.1, sepHead d names ++ sepText d t.2) := by
    rw [hfl, List.zip_map', ]
  rw [hz]
  have hout : (Settings.mk (sepMode d) none).out = sepMode d := rfl
  rw [hout, C214_rows w.matchers w.nameOk d hd hu names ts opts tables hne hnd hv hl hf ht htab]
  rfl

/-- `cdx cgrep --text-in m, p --pattern b,exact,1`. -/
example : world1.run "cgrep" [.opt "text-in" (ascii "m,"), .pos "input_files" (ascii "p"), .opt "pattern" (ascii "b,exact,1")] sys3 =
    .ok { sys3 with stdout := ascii "> CDX,a,b\nx,1\n" } :=
  C222_grep world1 sys3 (cmd0 "cgrep") (cmd0_mem (by decide +kernel)) (by decide +kernel) _ 44 [ascii "a", ascii "b"] [ascii "p"]
    [⟨ascii "b", fun v => v == ascii "1"⟩] [(ascii "pattern", ascii "b,exact,1")] [(ascii "p", [[ascii "x", ascii "1"], [ascii "y;z", ascii "22"]])]
    ⟨by decide +kernel, by decide +kernel, by decide +kernel, by decide +kernel, lastMeans_said (.inr ⟨ascii "m,", by decide +kernel, by decide +kernel⟩),
      lastMeans_said (.inl ⟨by decide +kernel, rfl⟩)⟩ rfl (by decide +kernel) (by decide) (by decide) (by decide) (by decide +kernel)
    (fun n hn => ⟨goodTable_example.2.1 n hn, rfl⟩) (by decide) (keptTest_fits (by simp)) (by simp) (by decide +kernel)

/-! ## cat -/

/-- C222: `cat` copies files: the first header, and all lines. -/
theorem C222_cat (w : World) (s : Sys) (c : Cmd) (hc : c ∈ mainList) (hn : c.name = "cat") (toks : List Tok) (m : TextMode) (o : Option TextMode)
    (opts : List (Bytes × Bytes)) (files texts : List Bytes) (flags : List Bool) (conf : CatConf) (h : Says w c toks m o opts files)
    (ha : CatAsks w.matchers {} opts conf) (hp : ∀ x ∈ opts, x.1 = ascii "pad") (hr : files.map (getReader w.s3 w.gunzip s) = texts.map some)
    (hok : ∀ f ∈ nonEmpty texts, FirstLineOk w.nameOk .matching (firstLine f))
    (hpol : headerPolicy .matching ((nonEmpty texts).map firstLine) = some flags) (he : ∀ f ∈ nonEmpty texts, f.getLast? = some NL) :
    w.run "cat" toks s = .ok { s with stdout := s.stdout ++ catText (nonEmpty texts) flags } := by
  have hl := congrArg List.length hr
  simp only [List.length_map] at hl
  rw [← hn]
  refine run_writes w hc (by rw [hn]; decide) (by rw [hn]; decide) h s hr ?_
  rw [hn]
  unfold World.output
  simp only [if_false, if_true, String.reduceEq]
  rw [zip_snd hl, (C201_copies w.matchers w.nameOk m .matching opts texts conf ((catOptions_iff _ _ _ _).2 ha) hp _).2
    (C52_copy_any_pad_partial w.nameOk conf.pad .matching texts hok flags hpol (by simp [PolicyException]) he)]
  rfl

/-- `cdx cat --pad end q r`. -/
example : world1.run "cat" [.pos "input_files" (ascii "q"), .opt "pad" (ascii "end"), .pos "input_files" (ascii "r")] sys3 =
    .ok { sys3 with stdout := ascii ">1 2\n3\n4\n" } :=
  C222_cat world1 sys3 (cmd0 "cat") (cmd0_mem (by decide +kernel)) (by decide +kernel)
    [.pos "input_files" (ascii "q"), .opt "pad" (ascii "end"), .pos "input_files" (ascii "r")] .default none [(ascii "pad", ascii "end")]
    [ascii "q", ascii "r"] [ascii "1 2\n3\n", ascii "4\n"] [true, true] { pad := .stop }
    (says_plain (by decide +kernel) (by decide +kernel) (by decide +kernel) (by decide +kernel) (by decide +kernel))
    ((catOptions_iff _ _ _ _).1 rfl) (by decide +kernel) (by decide +kernel) (by unfold FirstLineOk; decide +kernel) (by decide +kernel)
    (by decide +kernel)

/-- C222: `cat` with numbers, and with lines left out. -/
theorem C222_cat_rows (w : World) (s : Sys) (c : Cmd) (hc : c ∈ mainList) (hn : c.name = "cat") (toks : List Tok) (m : TextMode)
    (o : Option TextMode) (opts : List (Bytes × Bytes)) (files texts : List Bytes) (conf : CatConf) (H head : Bytes)
    (h : Says w c toks m o opts files) (ha : CatAsks w.matchers {} opts conf) (hp : ∃ x ∈ opts, x.1 ≠ ascii "pad")
    (hr : files.map (getReader w.s3 w.gunzip s) = texts.map some) (hm : m.col = .plain) (heol : m.eol = NL)
    (hH : H ≠ [] → (catCols conf.num (headNames H m.delim)).bind columnHead = .ok head ∧ FirstLineOk w.nameOk .matching head)
    (hs : SameHeads m H texts) (hcols : ∀ f ∈ nonEmpty texts, ∃ cols, catCols conf.num (Reader.newOpenWith f 1 m).names = .ok cols)
    (hsure : ∀ t ∈ conf.removes ++ conf.skips, ∀ l, ∃ b, t.umatch w.matchers l = .ok b) :
    w.run "cat" toks s = .ok { s with stdout := s.stdout ++ ((if H ≠ [] ∧ nonEmpty texts ≠ [] then head else []) ++
        (numberedRows conf.num (anyMatch w.matchers conf.skips) m.delim conf.num.start
          (((texts.map (dataOf m)).flatten).filter fun l => !anyMatch w.matchers conf.removes l.dropLast)).flatten) } := by
  have hl := congrArg List.length hr
  simp only [List.length_map] at hl
  rw [← hn]
  refine run_writes w hc (by rw [hn]; decide) (by rw [hn]; decide) h s hr ?_
  rw [hn]
  unfold World.output
  simp only [if_false, if_true, String.reduceEq]
  rw [zip_snd hl, C201_rows_partial w.matchers w.nameOk m opts texts conf ((catOptions_iff _ _ _ _).2 ha) hp H head hm heol hH hs hcols hsure]
  rfl

/-- `cdx cat --number n,5 --text-in m, p`. -/
example : world1.run "cat" [.opt "number" (ascii "n,5"), .opt "text-in" (ascii "m,"), .pos "input_files" (ascii "p")] sys3 =
    .ok { sys3 with stdout := ascii "> CDX\tn\ta\tb\n5,x,1\n6,y;z,22\n" } :=
  C222_cat_rows world1 sys3 (cmd0 "cat") (cmd0_mem (by decide +kernel)) (by decide +kernel)
    [.opt "number" (ascii "n,5"), .opt "text-in" (ascii "m,"), .pos "input_files" (ascii "p")] (sepMode 44) none [(ascii "number", ascii "n,5")]
    [ascii "p"] [ascii " CDX,a,b\nx,1\ny;z,22\n"] _ (ascii " CDX,a,b\n") (ascii " CDX\tn\ta\tb\n")
    ⟨by decide +kernel, by decide +kernel, by decide +kernel, by decide +kernel, lastMeans_said (.inr ⟨ascii "m,", by decide +kernel, by decide +kernel⟩),
      lastMeans_said (.inl ⟨by decide +kernel, rfl⟩)⟩
    ((catOptions_iff _ _ _ { num := ⟨true, 5, ascii "n", false⟩ }).1 rfl) (by decide +kernel) (by decide +kernel) rfl rfl
    (by unfold FirstLineOk; decide +kernel) (by
      intro f hf
      have e : nonEmpty [ascii " CDX,a,b\nx,1\ny;z,22\n"] = [ascii " CDX,a,b\nx,1\ny;z,22\n"] := by decide +kernel
      rw [e, List.mem_singleton] at hf
      subst hf
      exact ⟨ascii "x,1\ny;z,22\n", by decide +kernel, by decide +kernel⟩)
    (by
      intro f hf
      have e : nonEmpty [ascii " CDX,a,b\nx,1\ny;z,22\n"] = [ascii " CDX,a,b\nx,1\ny;z,22\n"] := by decide +kernel
      rw [e, List.mem_singleton] at hf
      subst hf
      exact ⟨[ascii "n", ascii "a", ascii "b"], by decide +kernel⟩) (by simp)

/-! ## wc -/

/-- C222: `wc --lines --bytes --words`: the counts of each file, with its name as it is on the command line, and their sums. -/
theorem C222_wc (w : World) (s : Sys) (c : Cmd) (hc : c ∈ mainList) (hn : c.name = "wc") (toks : List Tok) (opts : List (Bytes × Bytes))
    (files texts : List Bytes) (fmt : NumFormat) (h : Says w c toks .default none opts files)
    (hk : ∀ x ∈ opts, x.1 ∈ ["lines", "bytes", "words", "format"].map ascii)
    (hs : (opts.filter fun x => x.1 ≠ ascii "format").map (·.1) = [ascii "lines", ascii "bytes", ascii "words"])
    (hfmt : LastMeans FormatMeans (optVals "format" opts) .default fmt) (hx : ExactSums w.agg.ops) (hne : texts ≠ [])
    (hr : files.map (getReader w.s3 w.gunzip s) = texts.map some) (hf : ∀ f ∈ texts, isCdx f = false ∧ f.getLast? = some NL) :
    w.run "wc" toks s = .ok { s with stdout := s.stdout ++ wcOutput w.prn fmt w.agg.ops (files.zip texts) } := by
  have hl := congrArg List.length hr
  simp only [List.length_map] at hl
  rw [← hn]
  refine run_writes w hc (by rw [hn]; decide) (by rw [hn]; decide) h s hr ?_
  rw [hn]
  unfold World.output
  simp only [if_false, if_true, String.reduceEq]
  rw [C202_counts_partial w.agg w.prn opts (files.zip texts) fmt hk hs hfmt hx (by
    intro e
    have e := congrArg List.length e
    rw [List.length_zip, hl, Nat.min_self] at e
    exact hne (List.length_eq_zero_iff.1 e)) (fun f hm => hf f.2 (List.of_mem_zip hm).2)]
  rfl

/-- `cdx wc --lines --bytes --format plain --words q r`. -/
example : world1.run "wc" [.flag "lines", .flag "bytes", .opt "format" (ascii "plain"), .flag "words", .pos "input_files" (ascii "q"),
    .pos "input_files" (ascii "r")] sys3 =
    .ok { sys3 with stdout := ascii ">" ++ wcOutput world1.prn (.plain none) world1.agg.ops [(ascii "q", ascii "1 2\n3\n"), (ascii "r", ascii "4\n")] } :=
  C222_wc world1 sys3 (cmd0 "wc") (cmd0_mem (by decide +kernel)) (by decide +kernel)
    [.flag "lines", .flag "bytes", .opt "format" (ascii "plain"), .flag "words", .pos "input_files" (ascii "q"), .pos "input_files" (ascii "r")]
    [(ascii "lines", []), (ascii "bytes", []), (ascii "format", ascii "plain"), (ascii "words", [])] [ascii "q", ascii "r"]
    [ascii "1 2\n3\n", ascii "4\n"] (.plain none)
    (says_plain (by decide +kernel) (by decide +kernel) (by decide +kernel) (by decide +kernel) (by decide +kernel)) (by decide +kernel) (by decide +kernel)
    (lastMeans_said (.inr ⟨ascii "plain", by decide +kernel, .inl ⟨_, List.mem_cons_self, by decide +kernel, rfl⟩⟩)) ⟨rfl, fun _ _ => rfl⟩ (by simp) (by decide +kernel) (by decide +kernel)

/-- C222: the output of `wc` is in the text format asked for. -/
theorem C222_wc_format (w : World) (s : Sys) (c : Cmd) (hc : c ∈ mainList) (hn : c.name = "wc") (toks : List Tok) (m : TextMode)
    (o : Option TextMode) (v v' file text : Bytes) (h : Says w c toks m o [(ascii "lines", v), (ascii "bytes", v')] [file])
    (hr : getReader w.s3 w.gunzip s file = some text) (hm : m.col = .plain) (hd : dataOf m text ≠ []) :
    w.run "wc" toks s = .ok { s with stdout := s.stdout ++
      ((if (o.getD m).head = .cdx ∨ (o.getD m).head = .maybe then ascii " CDX" ++ [(o.getD m).delim] else []) ++
        ascii "lines" ++ [(o.getD m).delim] ++ ascii "bytes" ++ [NL] ++
        w.prn .default (w.agg.ops.ofNat (dataOf m text).length) ++ [(o.getD m).delim] ++
        w.prn .default (w.agg.ops.ofNat ((dataOf m text).map List.length).sum) ++ [NL]) } := by
  rw [← hn]
  refine run_writes w hc (by rw [hn]; decide) (by rw [hn]; decide) h s (texts := [text]) (by simp [hr]) ?_
  rw [hn]
  unfold World.output
  simp only [if_false, if_true, String.reduceEq]
  rw [show [file].zip [text] = [(file, text)] from rfl, C202_format w.agg w.prn m o v v' file text hm hd]
  rfl

/-- `cdx wc --lines --bytes --text-out 'y;' q`. -/
example : world1.run "wc" [.flag "lines", .flag "bytes", .pos "input_files" (ascii "q"), .opt "text-out" (ascii "y;")] sys3 =
    .ok { sys3 with stdout := ascii ">lines;bytes\nv;v\n" } :=
  C222_wc_format world1 sys3 (cmd0 "wc") (cmd0_mem (by decide +kernel)) (by decide +kernel) _ .default (some { sepMode 59 with head := .yes }) [] []
    (ascii "q") (ascii "1 2\n3\n") ⟨by decide +kernel, by decide +kernel, by decide +kernel, by decide +kernel, lastMeans_said (.inl ⟨by decide +kernel, rfl⟩),
      lastMeans_said (.inr ⟨ascii "y;", by decide +kernel, _, by decide +kernel, rfl⟩)⟩ (by decide +kernel) rfl (by decide +kernel)

/-! ## calc -/

/-- C222: `calc`: for each line of the files the value of its formula, in the last format given. -/
theorem C222_calc (w : World) (s : Sys) (c : Cmd) (hc : c ∈ mainList) (hn : c.name = "calc") (toks : List Tok) (m : TextMode)
    (o : Option TextMode) (opts : List (Bytes × Bytes)) (files texts : List Bytes) (fmt : NumFormat) (h : Says w c toks m o opts files)
    (hfmt : LastMeans FormatMeans (opts.map (·.2)) .default fmt) (hr : files.map (getReader w.s3 w.gunzip s) = texts.map some)
    (hm : m.col = .plain) (hf : ∀ x r, isDigit x = true → (w.expr.toF64 (x :: r)).2.length ≤ r.length)
    (hsome : ∀ l ∈ calcInput m texts, ∀ ts, tokenize w.expr.toF64 (lineExp l) = .ok ts → ∃ t ∈ ts, t ≠ .lparen ∧ t ≠ .rparen) :
    w.run "calc" toks s = .ok { s with stdout := s.stdout ++
      (List.range (calcInput m texts).length).flatMap (calcOut w.expr w.prn fmt (calcInput m texts)) } := by
  have hl := congrArg List.length hr
  simp only [List.length_map] at hl
  have hfm : ∀ (vs : List Bytes) (d f : NumFormat), LastMeans FormatMeans vs d f → calcFmt d vs = .ok f := by
    intro vs
    induction vs with
    | nil =>
      intro d f hx
      rw [lastMeans_nil.1 hx]
      rfl
    | cons v vs ih =>
      intro d f hx
      obtain ⟨u, h1, h2⟩ := lastMeans_cons.1 hx
      rw [calcFmt, (C190_formats _ _).2 h1, Res.bind_ok]
      exact ih u f h2
  rw [← hn]
  refine run_writes w hc (by rw [hn]; decide) (by rw [hn]; decide) h s hr ?_
  rw [hn]
  unfold World.output
  simp only [if_false, if_true, String.reduceEq]
  rw [zip_snd hl, C146_lines w.expr w.prn m hm hf _ texts fmt (hfm _ _ _ hfmt) hsome]
  rfl

/-- `cdx calc r`. -/
example : world1.run "calc" [.pos "input_files" (ascii "r")] sys3 = .ok { sys3 with stdout := ascii ">v\n" } :=
  C222_calc world1 sys3 (cmd0 "calc") (cmd0_mem (by decide +kernel)) (by decide +kernel) [.pos "input_files" (ascii "r")] .default none [] [ascii "r"] [ascii "4\n"]
    .default (says_plain (by decide +kernel) (by decide +kernel) (by decide +kernel) (by decide +kernel) (by decide +kernel)) (lastMeans_nil.2 rfl)
    (by decide +kernel) rfl (by intro x r _; simp [world1]) (by
      intro l hl ts ht
      have e : calcInput .default [ascii "4\n"] = [ascii "4"] := by decide +kernel
      rw [e, List.mem_singleton] at hl
      subst hl
      have : tokenize world1.expr.toF64 (lineExp (ascii "4")) = .ok [.number 0] := by rfl
      rw [this, Res.ok.injEq] at ht
      subst ht
      exact ⟨.number 0, by simp, by simp, by simp⟩)

/-! ## filegen -/

/-- The words that ask for it. -/
def FgAsk.said : FgAsk → Bytes × Bytes
  | .lines n => (ascii "lines", decText n)
  | .header => (ascii "with-header", [])
  | .column t => (ascii "column", t)
  | .multi k t => (ascii "multi", decText k ++ 44 :: t)

theorem fg_said : ∀ as : List FgAsk, optsOf fgOptOf (as.map FgAsk.said) = .ok (as.map FgAsk.opt)
  | [] => rfl
  | a :: as => by
    have : fgOptOf a.said.1 a.said.2 = some a.opt := by
      unfold fgOptOf
      cases a with
      | lines n => simp only [FgAsk.said, FgAsk.opt, if_true]
      | header => simp only [FgAsk.said, FgAsk.opt, if_true, show ascii "with-header" ≠ ascii "lines" by decide, if_false]
      | column t =>
        simp only [FgAsk.said, FgAsk.opt, if_true, show ascii "column" ≠ ascii "lines" by decide, show ascii "column" ≠ ascii "with-header" by decide,
          if_false]
      | multi k t =>
        simp only [FgAsk.said, FgAsk.opt, if_true, show ascii "multi" ≠ ascii "lines" by decide, show ascii "multi" ≠ ascii "with-header" by decide,
          show ascii "multi" ≠ ascii "column" by decide, if_false]
    rw [List.map_cons, optsOf, this]
    simp only
    rw [fg_said as, Res.bind_ok, List.map_cons]

/-- C222: `filegen`: the header if asked for, and the lines asked for. -/
theorem C222_filegen (w : World) (s : Sys) (c : Cmd) (hc : c ∈ mainList) (hn : c.name = "filegen") (toks : List Tok) (m : TextMode)
    (o : Option TextMode) (as : List FgAsk) (mk : Bytes → Gen) (t : Nat → Nat → Bytes) (h : Says w c toks m o (as.map FgAsk.said) [])
    (hf : ∀ a ∈ as, a.fits) (hm : ∀ x ∈ askedSpecs as, genMake w.gen x = .ok (mk x))
    (ht : ∀ (i j : Nat) (x : Bytes), i < askedLines 10 as → (askedSpecs as)[j]? = some x →
      (mk x).write (i + 1) (j + 1) (w.draw (i + 1) (j + 1)) = .ok (t (i + 1) (j + 1))) :
    w.run "filegen" toks s = .ok { s with stdout := s.stdout ++ ((if askedHeader as then askedHead (askedSpecs as).length else []) ++
      tableText (tableOf t (askedLines 10 as) (askedSpecs as).length)) } := by
  rw [← hn]
  refine run_writes w hc (by rw [hn]; decide) (by rw [hn]; decide) h s (texts := []) rfl ?_
  rw [hn]
  unfold World.output
  simp only [if_false, if_true, String.reduceEq]
  rw [fg_said, Res.run, Run.bind, C113_table w.gen as w.draw mk t hf hm ht]
  rfl

/-- `cdx filegen --lines 2 --with-header --column count,7 --multi 2,grid`. -/
example : world1.run "filegen" [.opt "lines" (ascii "2"), .flag "with-header", .opt "column" (ascii "count,7"), .opt "multi" (ascii "2,grid")] sys3 =
    .ok { sys3 with stdout := ascii "> CDX\tc1\tc2\tc3\n7\t1_2\t1_3\n8\t2_2\t2_3\n" } :=
  C222_filegen world1 sys3 (cmd0 "filegen") (cmd0_mem (by decide +kernel)) (by decide +kernel)
    [.opt "lines" (ascii "2"), .flag "with-header", .opt "column" (ascii "count,7"), .opt "multi" (ascii "2,grid")] .default none
    [.lines 2, .header, .column (ascii "count,7"), .multi 2 (ascii "grid")] (fun x => if x = ascii "grid" then .grid else .count 7)
    (fun i j => if j = 1 then decText (i + 6) else decText i ++ 95 :: decText j)
    (says_plain (by decide +kernel) (by decide +kernel) (by decide +kernel) (by decide +kernel) (by decide +kernel)) (by simp [FgAsk.fits])
    (by
      have h1 : genMake world1.gen (ascii "grid") = .ok .grid := rfl
      have h2 : genMake world1.gen (ascii "count,7") = .ok (.count 7) := rfl
      intro x hx
      have hx : x ∈ [ascii "count,7", ascii "grid", ascii "grid"] := hx
      simp only [List.mem_cons, List.not_mem_nil, or_false, or_self] at hx
      rcases hx with rfl | rfl
      · rw [h2, if_neg (by decide)]
      · rw [h1, if_pos rfl]) (by
      intro i j x hi hj
      have hi : i < 2 := hi
      have hj : [ascii "count,7", ascii "grid", ascii "grid"][j]? = some x := hj
      have : i = 0 ∨ i = 1 := by omega
      match j, hj with
      | 0, hj => cases hj; rcases this with rfl | rfl <;> decide +kernel
      | 1, hj => cases hj; rcases this with rfl | rfl <;> decide +kernel
      | 2, hj => cases hj; rcases this with rfl | rfl <;> decide +kernel)

/-! ## sample -/

/-- C222: `sample --range`. -/
theorem C222_sample (w : World) (s : Sys) (c : Cmd) (hc : c ∈ mainList) (hn : c.name = "sample") (toks : List Tok) (m : TextMode)
    (o : Option TextMode) (opts : List (Bytes × Bytes)) (files texts : List Bytes) (H : Bytes) (mode : Option SampleMode)
    (h : Says w c toks m o opts files) (hr : files.map (getReader w.s3 w.gunzip s) = texts.map some) (hm : m.col = .plain)
    (hmode : match mode with
      | none => opts = []
      | some x => ∃ y, opts = [y] ∧ SampleMeans y x)
    (hH : FirstLineOk w.nameOk .matching (headLine H)) (hs : SameHeads m H texts) :
    match mode with
    | some (.range rs) => ∃ out, w.run "sample" toks s = .ok { s with stdout := s.stdout ++ out } ∧ sampled m (.range rs) 0 H texts out
    | some (.loop g) => LoopFits m texts (.loop g) →
      ∃ out, w.run "sample" toks s = .ok { s with stdout := s.stdout ++ out } ∧ sampled m (.loop g) 0 H texts out
    | some (.sample n) => 3 ≤ n → n ≤ 2 ^ 24 → ∃ S : Bytes → List Bytes, (∀ f ∈ nonEmpty texts, EvenSample n (dataOf m f) (S f)) ∧
      w.run "sample" toks s = .ok { s with stdout := s.stdout ++
        ((if nonEmpty texts ≠ [] then H else []) ++ ((nonEmpty texts).map fun f => (S f).flatten).flatten) }
    | none => 3 ≤ w.height → w.height ≤ 2 ^ 24 → ∃ S : Bytes → List Bytes, (∀ f ∈ nonEmpty texts, EvenSample w.height (dataOf m f) (S f)) ∧
      w.run "sample" toks s = .ok { s with stdout := s.stdout ++
        ((if nonEmpty texts ≠ [] then H else []) ++ ((nonEmpty texts).map fun f => (S f).flatten).flatten) } := by
  have hl := congrArg List.length hr
  simp only [List.length_map] at hl
  have key : ∀ out, sampleMain w.nameOk w.height m opts texts = .ok out → w.run "sample" toks s = .ok { s with stdout := s.stdout ++ out } := by
    intro out ho
    rw [← hn]
    refine run_writes w hc (by rw [hn]; decide) (by rw [hn]; decide) h s hr ?_
    rw [hn]
    unfold World.output
    simp only [if_false, if_true, String.reduceEq]
    rw [zip_snd hl, ho]
    rfl
  cases mode with
  | none =>
    intro h3 h4
    simp only at hmode
    obtain ⟨S, h1, h2⟩ := C203_default_partial w.nameOk w.height h3 h4 m hm H texts hH hs
    exact ⟨S, h1, key _ (by rw [hmode]; exact h2)⟩
  | some x =>
    obtain ⟨y, rfl, hy⟩ := hmode
    have hx := C203_lines_partial w.nameOk w.height m hm y x hy H texts hH hs
    cases x with
    | range rs =>
      obtain ⟨out, h1, h2⟩ := hx
      exact ⟨out, key _ h1, h2⟩
    | loop g =>
      intro hfit
      obtain ⟨out, h1, h2⟩ := hx hfit
      exact ⟨out, key _ h1, h2⟩
    | sample n =>
      intro h3 h4
      obtain ⟨S, h1, h2⟩ := hx h3 h4
      exact ⟨S, h1, key _ h2⟩

/-- `cdx sample --range 1 --text-in m, p`. -/
example : ∃ out, world1.run "sample" [.opt "range" (ascii "1"), .opt "text-in" (ascii "m,"), .pos "input_files" (ascii "p")] sys3 =
    .ok { sys3 with stdout := ascii ">" ++ out } ∧ sampled (sepMode 44) (.range [⟨1, 1⟩]) 0 (ascii " CDX,a,b\n") [ascii " CDX,a,b\nx,1\ny;z,22\n"] out :=
  C222_sample world1 sys3 (cmd0 "sample") (cmd0_mem (by decide +kernel)) (by decide +kernel)
    [.opt "range" (ascii "1"), .opt "text-in" (ascii "m,"), .pos "input_files" (ascii "p")] (sepMode 44) none [(ascii "range", ascii "1")]
    [ascii "p"] [ascii " CDX,a,b\nx,1\ny;z,22\n"] (ascii " CDX,a,b\n") (some (.range [⟨1, 1⟩]))
    ⟨by decide +kernel, by decide +kernel, by decide +kernel, by decide +kernel, lastMeans_said (.inr ⟨ascii "m,", by decide +kernel, by decide +kernel⟩),
      lastMeans_said (.inl ⟨by decide +kernel, rfl⟩)⟩ (by decide +kernel) rfl
    ⟨_, rfl, .inr (.inl ⟨rfl, [⟨1, 1⟩], by decide +kernel, rfl⟩)⟩ (by unfold FirstLineOk; decide +kernel) (by
      intro f hf
      have e : nonEmpty [ascii " CDX,a,b\nx,1\ny;z,22\n"] = [ascii " CDX,a,b\nx,1\ny;z,22\n"] := by decide +kernel
      rw [e, List.mem_singleton] at hf
      subst hf
      exact ⟨ascii "x,1\ny;z,22\n", by decide +kernel, by decide +kernel⟩)

/-! ## tabs -/

/-- C222: `tabs` shows several files on no more lines than the screen has, each with its share. -/
theorem C222_tabs (w : World) (s : Sys) (c : Cmd) (hc : c ∈ mainList) (hn : c.name = "tabs") (toks : List Tok) (m : TextMode)
    (o : Option TextMode) (opts : List (Bytes × Bytes)) (files texts : List Bytes) (cols rows : Nat) (h : Says w c toks m o opts files)
    (hr : files.map (getReader w.s3 w.gunzip s) = texts.map some) (he : ∀ x ∈ opts, x.1 = ascii "end") (hsc : w.screen = some (cols, rows))
    (hg : GlyphsOk w.glyphs) (h2 : 2 ≤ texts.length) (hs : ∀ f ∈ texts, Showable cols f) (hroom : 3 * texts.length ≤ rows) :
    ∃ lines heights, w.run "tabs" toks s = .ok { s with stdout := s.stdout ++ lines.flatMap fun l => l ++ [NL] } ∧ lines.length < rows ∧
      Blocks w.glyphs cols (files.zip texts) heights lines ∧ (∀ x ∈ heights, (rows - 2 * texts.length) / texts.length ≤ x) := by
  have hl := congrArg List.length hr
  simp only [List.length_map] at hl
  have hz : (files.zip texts).length = texts.length := by rw [List.length_zip, hl, Nat.min_self]
  have hsz : ∀ f ∈ files.zip texts, Showable cols f.2 := fun f hm => hs f.2 (List.of_mem_zip hm).2
  obtain ⟨out, hts, a1, a2, a3, -⟩ := C154_share w.glyphs cols rows (files.zip texts) hg (by omega) hsz (by omega)
  obtain ⟨out', b1, b2⟩ := C153_fits_partial w.glyphs cols rows (files.zip texts) hg (by omega) hsz (by omega)
  rw [a1] at b1
  injection b1 with b1
  rw [hz] at a3
  refine ⟨out, hts, ?_, by rw [b1]; exact b2, a2, a3⟩
  rw [← hn]
  refine run_writes w hc (by rw [hn]; decide) (by rw [hn]; decide) h s hr ?_
  rw [hn]
  unfold World.output
  simp only [if_false, if_true, String.reduceEq]
  rw [(C153_options w.glyphs w.screen opts (files.zip texts)).1 he, hsc, a1]
  rfl

/-- `cdx tabs q --end r`. -/
example : ∃ lines heights, world1.run "tabs" [.pos "input_files" (ascii "q"), .flag "end", .pos "input_files" (ascii "r")] sys3 =
      .ok { sys3 with stdout := ascii ">" ++ lines.flatMap fun l => l ++ [NL] } ∧ lines.length < 24 ∧
      Blocks asciiGlyphs 20 [(ascii "q", ascii "1 2\n3\n"), (ascii "r", ascii "4\n")] heights lines ∧ (∀ x ∈ heights, 10 ≤ x) :=
  C222_tabs world1 sys3 (cmd0 "tabs") (cmd0_mem (by decide +kernel)) (by decide +kernel)
    [.pos "input_files" (ascii "q"), .flag "end", .pos "input_files" (ascii "r")] .default none [(ascii "end", [])] [ascii "q", ascii "r"]
    [ascii "1 2\n3\n", ascii "4\n"] 20 24
    (says_plain (by decide +kernel) (by decide +kernel) (by decide +kernel) (by decide +kernel) (by decide +kernel)) (by decide +kernel) (by decide +kernel)
    rfl asciiGlyphs_ok (by decide) (by unfold Showable; decide +kernel) (by decide)

/-! ## transpose -/

/-- C222: `transpose` of a table: for each column a row with its name and its fields, of the first lines if asked for. -/
theorem C222_transpose (w : World) (s : Sys) (c : Cmd) (hc : c ∈ mainList) (hn : c.name = "transpose") (toks : List Tok) (m : TextMode)
    (o : Option TextMode) (opts : List (Bytes × Bytes)) (file : Bytes) (names : List Bytes) (rows : List (List Bytes)) (ns : List Nat)
    (h : Says w c toks m o opts [file]) (hk : ∀ x ∈ opts, x.1 = ascii "head" ∨ x.1 = ascii "lines")
    (hv : valuesOf "lines" opts = ns.map decText) (hb : ∀ n ∈ ns, n < 2 ^ 64)
    (hr : getReader w.s3 w.gunzip s file = some (sepHead TAB names ++ sepText TAB rows)) (hne : names ≠ []) (hrne : rows ≠ [])
    (hnames : ∀ x ∈ names, TAB ∉ x ∧ NL ∉ x) (ht : Table names.length rows) :
    w.run "transpose" toks s = .ok { s with stdout := s.stdout ++ ((if valuesOf "head" opts ≠ [] then ascii " CDX\t" else []) ++
      sepText TAB (transposed names.length (names :: rows.take (ns.getLastD (2 ^ 64 - 1))))) } := by
  rw [← hn]
  refine run_writes w hc (by rw [hn]; decide) (by rw [hn]; decide) h s (texts := [sepHead TAB names ++ sepText TAB rows]) (by simp [hr]) ?_
  rw [hn]
  unfold World.output
  simp only [if_false, if_true, String.reduceEq]
  have e : sepHead TAB names ++ sepText TAB rows = tableText ((cdxTag :: names) :: rows) := by
    simp [tableText, sepHead, sepText, cdxTag, ascii]
  have e' : ∀ x, tableText x = sepText TAB x := fun x => by simp [tableText, sepText]
  rw [zip_snd (files := [file]) (texts := [_]) (by rfl), List.headD_cons, C157_options opts ns hk hv hb, e,
    C34_header _ names rows hne hrne hnames ht]
  simp only [Res.run, e', decide_eq_true_eq]
  rfl

/-- `cdx transpose f --lines 1`. -/
example : world0.run "transpose" [.pos "input_files" (ascii "f"), .opt "lines" (ascii "1")] sys0 =
    .ok { sys0 with stdout := ascii "a\tx\nb\t1\n" } :=
  C222_transpose world0 sys0 (cmd0 "transpose") (cmd0_mem (by decide +kernel)) (by decide +kernel)
    [.pos "input_files" (ascii "f"), .opt "lines" (ascii "1")] .default none [(ascii "lines", ascii "1")] (ascii "f") [ascii "a", ascii "b"]
    [[ascii "x", ascii "1"], [ascii "y", ascii "22"]] [1]
    (says_plain (by decide +kernel) (by decide +kernel) (by decide +kernel) (by decide +kernel) (by decide +kernel)) (by decide +kernel) (by decide +kernel)
    (by decide) (by decide +kernel) (by simp) (by simp) (by decide +kernel) (by unfold Table; decide +kernel)

/-! ## uniq -/

/-- C222: `uniq` of a table: for each run of adjacent rows with the same key its first row, with the number of rows in the column asked for. -/
theorem C222_uniq (w : World) (s : Sys) (c : Cmd) (hc : c ∈ mainList) (hn : c.name = "uniq") (toks : List Tok) (o : Option TextMode)
    (opts : List (Bytes × Bytes)) (file : Bytes) (names : List Bytes) (rows : List (List Bytes)) (ks : List TabKey) (name : Bytes) (pos : CountPos)
    (h : Says w c toks .default o opts [file]) (hr : getReader w.s3 w.gunzip s file = some (sepHead TAB names ++ sepText TAB rows))
    (hg : GoodTable names rows) (hf : UniqFits names ks name pos opts) :
    w.run "uniq" toks s = .ok { s with stdout := s.stdout ++ (sepHead TAB (addAt pos name names) ++
      sepText TAB ((runCounts (fun a b => tabCmp names ks a b == .eq) rows).map fun p => addAt pos (decText p.2) p.1)) } := by
  rw [← hn]
  refine run_writes w hc (by rw [hn]; decide) (by rw [hn]; decide) h s (texts := [sepHead TAB names ++ sepText TAB rows]) (by simp [hr]) ?_
  rw [hn]
  unfold World.output
  simp only [if_false, if_true, String.reduceEq]
  rw [zip_snd (files := [file]) (texts := [_]) (by rfl), List.headD_cons,
    C208_table w.agg w.mkExpr (w.prn .default) w.compiles w.eval _ names rows ks name pos opts hg hf]
  rfl

/-- `cdx uniq --count x --key 2,len.rev --key a,rev --count n,End f`. -/
example : world0.run "uniq" [.opt "count" (ascii "x"), .opt "key" (ascii "2,len.rev"), .opt "key" (ascii "a,rev"), .opt "count" (ascii "n,End"),
    .pos "input_files" (ascii "f")] sys0 = .ok { sys0 with stdout := ascii " CDX\ta\tb\tn\nx\t1\t1\ny\t22\t1\n" } :=
  C222_uniq world0 sys0 (cmd0 "uniq") (cmd0_mem (by decide +kernel)) (by decide +kernel)
    [.opt "count" (ascii "x"), .opt "key" (ascii "2,len.rev"), .opt "key" (ascii "a,rev"), .opt "count" (ascii "n,End"), .pos "input_files" (ascii "f")]
    none [(ascii "count", ascii "x"), (ascii "key", ascii "2,len.rev"), (ascii "key", ascii "a,rev"), (ascii "count", ascii "n,End")] (ascii "f")
    [ascii "a", ascii "b"] [[ascii "x", ascii "1"], [ascii "y", ascii "22"]] _ _ _
    (says_plain (by decide +kernel) (by decide +kernel) (by decide +kernel) (by decide +kernel) (by decide +kernel)) (by decide +kernel)
    ⟨by decide, goodTable_example.2.1, by decide +kernel, by decide, by unfold SepTable; decide +kernel⟩ uniqFits_example

/-! ## sort -/

/-- What a command does. -/
theorem run_output (w : World) {c : Cmd} (hc : c ∈ mainList) (hj : c.name ≠ "join") (hb : c.name ≠ "binsearch") {toks : List Tok} {m : TextMode}
    {o : Option TextMode} {opts : List (Bytes × Bytes)} {files texts : List Bytes} (h : Says w c toks m o opts files) (s : Sys)
    (hr : files.map (getReader w.s3 w.gunzip s) = texts.map some) :
    w.run c.name toks s = (w.output c.name ⟨m, o⟩ opts (files.zip texts)).bind fun out => .ok { s with stdout := s.stdout ++ out } := by
  rw [run_says w hc h]
  unfold World.command
  rw [if_neg hb, read_texts w s (files := files) (texts := texts) hr]
  simp only [Run.bind]
  rw [if_neg hj]
  cases w.output c.name ⟨m, o⟩ opts (files.zip texts) <;> simp only [Run.bind, print_eq]

/-- C222: `sort` of tables, whatever text formats are asked for: the rows of all of them sorted. -/
theorem C222_sort (w : World) (s : Sys) (c : Cmd) (hc : c ∈ mainList) (hn : c.name = "sort") (toks : List Tok) (m : TextMode)
    (o : Option TextMode) (os : List SortOpt) (files names : List Bytes) (tables : List (List (List Bytes))) (ks : List TabKey)
    (h : Says w c toks m o (os.map SortOpt.said) files) (hr : Tables w s files names tables) (hf : SortFits names ks os)
    (ht : GoodTable names tables.flatten) (hok : ∀ n ∈ names, w.nameOk n = true) (htn : tables ≠ [])
    (hz : ∀ r ∈ tables.flatten, ∀ c ∈ r, 0 ∉ c) (hcap : 8 < w.cap) (hfit : (sepText TAB tables.flatten).length < w.cap) :
    ∃ out, w.run "sort" toks s = .ok { s with stdout := s.stdout ++ (sepHead TAB names ++ sepText TAB out) } ∧
      (SortOpt.unique ∉ os → StableSort (tabCmp names ks) tables.flatten out) ∧
      (SortOpt.unique ∈ os → UniqueSort (tabCmp names ks) tables.flatten out) := by
  obtain ⟨r1, r2⟩ := hr.read
  obtain ⟨out, h1, h2⟩ := sort_tables w.toF64 w.nameOk w.pick w.rd w.cap m hf ht hok htn hz hcap hfit
  refine ⟨out, ?_, h2⟩
  rw [← hn]
  refine run_writes w hc (by rw [hn]; decide) (by rw [hn]; decide) h s r1 ?_
  rw [hn]
  unfold World.output
  simp only [if_false, if_true, String.reduceEq, opts_said, Res.run, Run.bind, zip_snd r2]
  exact sortMainF_ok w.eval h1

/-- `cdx sort --key b f g --text-out 'm;'`: the format does not matter. -/
example : ∃ out, world1.run "sort" [.opt "key" (ascii "b"), .pos "input_files" (ascii "f"), .pos "input_files" (ascii "g"), .opt "text-out" (ascii "m;")] sys0 =
      .ok { sys0 with stdout := sepHead TAB [ascii "a", ascii "b"] ++ sepText TAB out } ∧
    (SortOpt.unique ∉ [SortOpt.key (ascii "b")] → StableSort (tabCmp [ascii "a", ascii "b"] [⟨ascii "b", .plain, false⟩])
      [[ascii "x", ascii "1"], [ascii "y", ascii "22"], [ascii "x", ascii "3"], [ascii "y", ascii "44"]] out) ∧
    (SortOpt.unique ∈ [SortOpt.key (ascii "b")] → UniqueSort (tabCmp [ascii "a", ascii "b"] [⟨ascii "b", .plain, false⟩])
      [[ascii "x", ascii "1"], [ascii "y", ascii "22"], [ascii "x", ascii "3"], [ascii "y", ascii "44"]] out) :=
  C222_sort world1 sys0 (cmd0 "sort") (cmd0_mem (by decide +kernel)) (by decide +kernel)
    [.opt "key" (ascii "b"), .pos "input_files" (ascii "f"), .pos "input_files" (ascii "g"), .opt "text-out" (ascii "m;")] .default (some (sepMode 59))
    [.key (ascii "b")] [ascii "f", ascii "g"] [ascii "a", ascii "b"]
    [[[ascii "x", ascii "1"], [ascii "y", ascii "22"]], [[ascii "x", ascii "3"], [ascii "y", ascii "44"]]] _
    ⟨by decide +kernel, by decide +kernel, by decide +kernel, by decide +kernel, lastMeans_said (.inl ⟨by decide +kernel, rfl⟩),
      lastMeans_said (.inr ⟨ascii "m;", by decide +kernel, _, by decide +kernel, rfl⟩)⟩ (by unfold Tables; decide +kernel)
    (sortFits_one _ _ (by decide +kernel)) goodTable_example (fun _ _ => rfl) (by simp) (by decide +kernel) (by decide) (by decide +kernel)

/-- The keys a sort goes by. -/
def sortedBy (ks : List Key) : List Key := if ks = [] then [.whole .plain false] else ks

theorem addAll_made : ∀ (os : List SortOpt) (ks : List Key) (o : SortOpts), keysAsked os = some ks →
    (∀ v, SortOpt.checkN v ∈ os → ∃ n, toUsizeWhole v = .ok n) → ∃ o', o.addAll os = .ok o'
  | [], _, o, _, _ => ⟨o, rfl⟩
  | x :: os, ks, o, hk, hn => by
    have hn' : ∀ v, SortOpt.checkN v ∈ os → ∃ n, toUsizeWhole v = .ok n := fun v hv => hn v (by simp [hv])
    unfold SortOpts.addAll
    cases x with
    | key spec =>
      simp only [keysAsked] at hk
      cases hq : keyOfSpec spec with
      | ok k =>
        rw [hq] at hk
        cases hk' : keysAsked os with
        | none => simp [hk'] at hk
        | some l =>
          simp only [SortOpts.add, hq, Res.bind_ok]
          exact addAll_made os l _ hk' hn'
      | err => simp [hq] at hk
      | panic => simp [hq] at hk
    | checkN v =>
      obtain ⟨n, hv⟩ := hn v (by simp)
      simp only [SortOpts.add, hv, Res.bind_ok]
      exact addAll_made os ks _ hk hn'
    | unique => exact addAll_made os ks _ hk hn'
    | merge => exact addAll_made os ks _ hk hn'
    | check => exact addAll_made os ks _ hk hn'
    | altSort => exact addAll_made os ks _ hk hn'
    | altMerge => exact addAll_made os ks _ hk hn'

/-- C222: `sort --check`, by whole lines or by columns given by numbers: nothing is written, and the command fails unless the data
lines of each file are in order. -/
theorem C222_check (w : World) (s : Sys) (c : Cmd) (hc : c ∈ mainList) (hn : c.name = "sort") (toks : List Tok) (m : TextMode)
    (o : Option TextMode) (os : List SortOpt) (files texts : List Bytes) (ks : List Key)
    (h : Says w c toks m o (os.map SortOpt.said) files) (hr : files.map (getReader w.s3 w.gunzip s) = texts.map some)
    (hk : keysAsked os = some ks) (hnum : ∀ k ∈ ks, k.numbered = true) (hck : ∃ x ∈ os, x.isCheck = true)
    (hrep : ∀ v, SortOpt.checkN v ∈ os → ∃ n, toUsizeWhole v = .ok n) (hm : SortOpt.merge ∉ os) :
    let ordered := ∀ f ∈ texts, InOrder (cmpRaw w.toF64 m ((sortedBy ks).map (·.fresh))) (decide (SortOpt.unique ∈ os)) (dataOf m f)
    (ordered → w.run "sort" toks s = .ok s) ∧ (¬ ordered → w.run "sort" toks s = .fail .silent) := by
  have hl := congrArg List.length hr
  simp only [List.length_map] at hl
  obtain ⟨q, hq⟩ := addAll_made os ks {} hk hrep
  obtain ⟨q1, q2, q3, q4, -, -⟩ := C139_options os q hq
  rw [hk, Option.some.injEq] at q1
  have hc1 : q.check = true := by rw [q4]; exact List.any_eq_true.2 hck
  have hm1 : q.merge = false := by rw [q3]; simpa using hm
  have hks : q.sortKeys = sortedBy ks := by
    unfold SortOpts.sortKeys sortedBy
    rw [← q1]
    cases ks <;> simp
  have hnum' : ∀ k ∈ sortedBy ks, k.numbered = true := by
    unfold sortedBy
    split
    · simp [Key.numbered]
    · exact hnum
  obtain ⟨b, hb, hiff⟩ := C54_check_partial w.toF64 m (sortedBy ks) (decide (SortOpt.unique ∈ os)) q.numChecks texts hnum'
  have hiff' : b = true ↔ ∀ f ∈ texts, InOrder (cmpRaw w.toF64 m ((sortedBy ks).map (·.fresh))) (decide (SortOpt.unique ∈ os)) (dataOf m f) := by
    rw [hiff]
    simp only [lookupKeys_numbered _ _ hnum', Res.ok.injEq, exists_eq_left']
    refine forall_congr' fun f => forall_congr' fun _ => ⟨fun h => ?_, fun h _ => h⟩
    by_cases hd : dataOf m f = []
    · rw [hd]; exact inOrder_nil _ _
    · exact h hd
  have hrun : w.run "sort" toks s = if b then .ok s else .fail .silent := by
    rw [← hn, run_output w hc (by rw [hn]; decide) (by rw [hn]; decide) h s hr, hn]
    unfold World.output
    simp only [if_false, if_true, String.reduceEq, opts_said, Res.run, Run.bind, zip_snd hl, sortMainF_plain hq, sortMain, hq]
    unfold SortOpts.run
    rw [hc1, hm1, hks, q2, hb]
    cases b <;> simp
  intro ordered
  refine ⟨fun h => ?_, fun h => ?_⟩
  · rw [hrun, hiff'.2 h, if_pos rfl]
  · rw [hrun, if_neg fun e => h (hiff'.1 e)]

/-- `cdx sort --check --key 2 --text-in m, p` and `cdx sort --key 2,rev --Check 5 f`. -/
example : world1.run "sort" [.flag "check", .opt "key" (ascii "2"), .opt "text-in" (ascii "m,"), .pos "input_files" (ascii "p")] sys3 = .ok sys3 :=
  (C222_check world1 sys3 (cmd0 "sort") (cmd0_mem (by decide +kernel)) (by decide +kernel)
    [.flag "check", .opt "key" (ascii "2"), .opt "text-in" (ascii "m,"), .pos "input_files" (ascii "p")] (sepMode 44) none [.check, .key (ascii "2")]
    [ascii "p"] [ascii " CDX,a,b\nx,1\ny;z,22\n"] [.col .plain ⟨[], 1⟩ false]
    ⟨by decide +kernel, by decide +kernel, by decide +kernel, by decide +kernel, lastMeans_said (.inr ⟨ascii "m,", by decide +kernel, by decide +kernel⟩),
      lastMeans_said (.inl ⟨by decide +kernel, rfl⟩)⟩ (by decide +kernel) (by decide +kernel) (by simp [Key.numbered]) ⟨.check, by simp, rfl⟩ (by simp)
    (by simp)).1 (by
      intro f hf
      rw [List.mem_singleton] at hf
      subst hf
      have e : dataOf (sepMode 44) (ascii " CDX,a,b\nx,1\ny;z,22\n") = [ascii "x,1\n", ascii "y;z,22\n"] := by decide +kernel
      rw [e, inOrder_cons]
      exact ⟨by decide +kernel, inOrder_single _ _ _⟩)
example : world1.run "sort" [.opt "key" (ascii "2,rev"), .opt "Check" (ascii "5"), .pos "input_files" (ascii "f")] sys0 = .fail .silent :=
  (C222_check world1 sys0 (cmd0 "sort") (cmd0_mem (by decide +kernel)) (by decide +kernel)
    [.opt "key" (ascii "2,rev"), .opt "Check" (ascii "5"), .pos "input_files" (ascii "f")] .default none [.key (ascii "2,rev"), .checkN (ascii "5")]
    [ascii "f"] [ascii " CDX\ta\tb\nx\t1\ny\t22\n"] [.col .plain ⟨[], 1⟩ true]
    (says_plain (by decide +kernel) (by decide +kernel) (by decide +kernel) (by decide +kernel) (by decide +kernel)) (by decide +kernel) (by decide +kernel)
    (by simp [Key.numbered]) ⟨.checkN (ascii "5"), by simp, rfl⟩ (by
      intro v hv
      simp only [List.mem_cons, reduceCtorEq, List.not_mem_nil, or_false, false_or, SortOpt.checkN.injEq] at hv
      subst hv
      exact ⟨5, by decide +kernel⟩)
    (by simp)).2 (by
      intro h
      have e : dataOf .default (ascii " CDX\ta\tb\nx\t1\ny\t22\n") = [ascii "x\t1\n", ascii "y\t22\n"] := by decide +kernel
      have h := h _ (List.mem_singleton.2 rfl)
      rw [e, inOrder_cons] at h
      exact absurd h.1 (by decide +kernel))

/-- C222: `verify` of tables by keys: nothing is written, and the command fails unless the rows of each table are in the order asked for. -/
theorem C222_verify (w : World) (s : Sys) (c : Cmd) (hc : c ∈ mainList) (hn : c.name = "verify") (toks : List Tok) (o : Option TextMode)
    (opts : List (Bytes × Bytes)) (files names : List Bytes) (tables : List (List (List Bytes))) (ks : List TabKey)
    (h : Says w c toks .default o opts files) (hr : Tables w s files names tables) (htn : tables ≠ [])
    (hg : ∀ rows ∈ tables, GoodTable names rows) (hf : VerifyFits names ks opts) :
    let ordered := ∀ rows ∈ tables, rows.Pairwise fun x y => OrderAsked opts (tabCmp names ks x y)
    (ordered → w.run "verify" toks s = .ok s) ∧ (¬ ordered → w.run "verify" toks s = .fail .silent) := by
  obtain ⟨r1, r2⟩ := hr.read
  obtain ⟨b, hb, hiff⟩ := C210_verify w.matchers w.compiles w.eval names tables ks opts htn hg hf
  have hrun : w.run "verify" toks s = if b then .ok s else .fail .silent := by
    rw [← hn, run_output w hc (by rw [hn]; decide) (by rw [hn]; decide) h s r1, hn]
    unfold World.output
    simp only [if_false, if_true, String.reduceEq, zip_snd r2, hb, Res.run, Run.bind]
    cases b <;> simp
  intro ordered
  refine ⟨fun h => ?_, fun h => ?_⟩
  · rw [hrun, hiff.2 h, if_pos rfl]
  · rw [hrun, if_neg fun e => h (hiff.1 e)]

/-- `cdx verify --sort --key b f g` and `cdx verify --key b,rev --sort f g`. -/
example : world0.run "verify" [.flag "sort", .opt "key" (ascii "b"), .pos "input_files" (ascii "f"), .pos "input_files" (ascii "g")] sys0 = .ok sys0 :=
  (C222_verify world0 sys0 (cmd0 "verify") (cmd0_mem (by decide +kernel)) (by decide +kernel)
    [.flag "sort", .opt "key" (ascii "b"), .pos "input_files" (ascii "f"), .pos "input_files" (ascii "g")] none [(ascii "sort", []), (ascii "key", ascii "b")]
    [ascii "f", ascii "g"] [ascii "a", ascii "b"]
    [[[ascii "x", ascii "1"], [ascii "y", ascii "22"]], [[ascii "x", ascii "3"], [ascii "y", ascii "44"]]] [⟨ascii "b", .plain, false⟩]
    (says_plain (by decide +kernel) (by decide +kernel) (by decide +kernel) (by decide +kernel) (by decide +kernel)) tables0 (by simp) (by
      intro rows hr
      obtain ⟨g1, g2, g3, g4, g5⟩ := goodTable_example
      exact ⟨g1, g2, g3, g4, fun r h => g5 r (List.mem_flatten.2 ⟨rows, hr, h⟩)⟩)
    ⟨(sortFits_one _ _ (by decide +kernel)).suits, by simp, by decide +kernel, (sortFits_one _ _ (by decide +kernel)).keys⟩).1 (by
      unfold OrderAsked
      decide +kernel)
example : world0.run "verify" [.opt "key" (ascii "2,len.rev"), .flag "unique", .opt "key" (ascii "a,rev"), .flag "sort", .pos "input_files" (ascii "f")] sys0 =
    .fail .silent :=
  (C222_verify world0 sys0 (cmd0 "verify") (cmd0_mem (by decide +kernel)) (by decide +kernel)
    [.opt "key" (ascii "2,len.rev"), .flag "unique", .opt "key" (ascii "a,rev"), .flag "sort", .pos "input_files" (ascii "f")] none
    [(ascii "key", ascii "2,len.rev"), (ascii "unique", []), (ascii "key", ascii "a,rev"), (ascii "sort", [])] [ascii "f"] [ascii "a", ascii "b"]
    [[[ascii "x", ascii "1"], [ascii "y", ascii "22"]]] _
    (says_plain (by decide +kernel) (by decide +kernel) (by decide +kernel) (by decide +kernel) (by decide +kernel)) (by unfold Tables; decide +kernel)
    (by simp) (by
      intro rows hr
      rw [List.mem_singleton] at hr
      subst hr
      exact ⟨by decide, goodTable_example.2.1, by decide +kernel, by decide, by unfold SepTable; decide +kernel⟩) verifyFits_example).2 (by
      unfold OrderAsked
      decide +kernel)

/-- C222: `paste`: the headers beside each other, then the rows padded to the number asked for; files of other lengths make it fail if
they must be of the same. -/
theorem C222_paste (w : World) (s : Sys) (c : Cmd) (hc : c ∈ mainList) (hn : c.name = "paste") (toks : List Tok) (m : TextMode)
    (o : Option TextMode) (opts : List (Bytes × Bytes)) (files texts : List Bytes) (a : PasteAsk) (values : List Bytes) (N : Nat)
    (h' : ColumnHeader) (head : Bytes) (h : Says w c toks m o opts files) (hr : files.map (getReader w.s3 w.gunzip s) = texts.map some)
    (hm : m.col = .plain) (heol : m.eol = NL) (ho : pasteOptions w.transOk {} opts = .ok a) (hh : allHeads m texts)
    (hp : a.header.pushAll (allNames m texts) = .ok h') (hrn : a.sloppy = true ∨ h'.rename = [])
    (hl : h'.cols.length = (allNames m texts).length) (hhead : columnHead h'.cols = .ok head)
    (hv : scopedLookup w.colMatch [] a.data h'.cols = .ok values) (hN : IsRows a.mode (padded m a.useLast values texts) N)
    (hlast : a.useLast = true → a.mode = .late → ∀ f ∈ texts, dataOf m f ≠ [] ∨ N = 0) :
    let uneven := a.mode = .exact ∧ ∃ f ∈ texts, (dataOf m f).length ≠ N
    (¬ uneven → w.run "paste" toks s = .ok { s with stdout := s.stdout ++ (head ++ rowsAt (padded m a.useLast values texts) 0 N) }) ∧
      (uneven → w.run "paste" toks s = .fail .other) := by
  have hlen := congrArg List.length hr
  simp only [List.length_map] at hlen
  obtain ⟨b, h1, h2⟩ := C204_pasted_partial m hm heol w.transOk w.colMatch opts a texts values N h' head ho hh hp hrn hl hhead hv hN hlast
  have hrun : w.run "paste" toks s = if b then .ok { s with stdout := s.stdout ++ (head ++ rowsAt (padded m a.useLast values texts) 0 N) } else .fail .other := by
    rw [← hn, run_output w hc (by rw [hn]; decide) (by rw [hn]; decide) h s hr, hn]
    unfold World.output
    simp only [if_false, if_true, String.reduceEq, zip_snd hlen, h2, Res.run, Run.bind]
    cases b <;> simp
  intro uneven
  refine ⟨fun h => ?_, fun h => ?_⟩
  · have : b = true := by
      cases b with
      | true => rfl
      | false => exact absurd (h1.1 rfl) h
    rw [hrun, this, if_pos rfl]
  · rw [hrun, h1.2 h]
    rfl

/-- `cdx paste --end early f h` and `cdx paste f h`. -/
example : world0.run "paste" [.opt "end" (ascii "early"), .pos "input_files" (ascii "f"), .pos "input_files" (ascii "h")] sys4 =
    .ok { sys4 with stdout := ascii " CDX\ta\tb\tc\nx\t1\tz\n" } :=
  (C222_paste world0 sys4 (cmd0 "paste") (cmd0_mem (by decide +kernel)) (by decide +kernel)
    [.opt "end" (ascii "early"), .pos "input_files" (ascii "f"), .pos "input_files" (ascii "h")] .default none [(ascii "end", ascii "early")]
    [ascii "f", ascii "h"] [ascii " CDX\ta\tb\nx\t1\ny\t22\n", ascii " CDX\tc\nz\n"] { mode := .early } [[], [], []] 1
    ⟨[ascii "a", ascii "b", ascii "c"], .fail, []⟩ (ascii " CDX\ta\tb\tc\n")
    (says_plain (by decide +kernel) (by decide +kernel) (by decide +kernel) (by decide +kernel) (by decide +kernel)) (by decide +kernel) rfl rfl rfl
    (by unfold allHeads; decide +kernel) (by decide +kernel) (.inr rfl) (by decide +kernel) (by decide +kernel) (by decide +kernel)
    (by constructor <;> decide +kernel) (by simp)).1 (by simp)
example : world0.run "paste" [.pos "input_files" (ascii "f"), .pos "input_files" (ascii "h")] sys4 = .fail .other :=
  (C222_paste world0 sys4 (cmd0 "paste") (cmd0_mem (by decide +kernel)) (by decide +kernel)
    [.pos "input_files" (ascii "f"), .pos "input_files" (ascii "h")] .default none []
    [ascii "f", ascii "h"] [ascii " CDX\ta\tb\nx\t1\ny\t22\n", ascii " CDX\tc\nz\n"] {} [[], [], []] 1
    ⟨[ascii "a", ascii "b", ascii "c"], .fail, []⟩ (ascii " CDX\ta\tb\tc\n")
    (says_plain (by decide +kernel) (by decide +kernel) (by decide +kernel) (by decide +kernel) (by decide +kernel)) (by decide +kernel) rfl rfl rfl
    (by unfold allHeads; decide +kernel) (by decide +kernel) (.inr rfl) (by decide +kernel) (by decide +kernel) (by decide +kernel)
    (by constructor <;> decide +kernel) (by simp)).2 ⟨rfl, by decide +kernel⟩

/-! ## binsearch -/

/-- What the options of `binsearch` make of `c`. -/
structure BinAsks (compiles : Bytes → Bool) (c : BinArgs) (os : List (Bytes × Bytes)) (c' : BinArgs) : Prop where
  names : ∀ o ∈ os, o.1 ∈ ["key", "filename", "context", "pattern"].map ascii
  keys : ∃ ks, (optVals "key" os).map (makeLineComp compiles) = ks.map .ok ∧ c'.keys = c.keys ++ ks
  filename : (optVals "filename" os = [] ∧ c'.filename = c.filename) ∨
    ∃ v f, optVals "filename" os = [v] ∧ c.filename = none ∧ FileNameColumn.set ⟨[], 0⟩ v = .ok f ∧ c'.filename = some f
  context : LastMeans (fun v x => Context.set v = .ok x) (optVals "context" os) c.context c'.context
  pattern : c'.pattern = ((optVals "pattern" os).map some).getLastD c.pattern

theorem getLastD_cons' {α : Type} (x d : α) (l : List α) : (x :: l).getLastD d = l.getLastD x := by
  cases l <;> simp [List.getLastD]

theorem binOptions_iff (compiles : Bytes → Bool) (os : List (Bytes × Bytes)) :
    ∀ c c' : BinArgs, binOptions compiles c os = .ok c' ↔ BinAsks compiles c os c' := by
  induction os with
  | nil =>
    intro c c'
    simp only [binOptions, Res.ok.injEq]
    constructor
    · rintro rfl
      exact ⟨by simp, ⟨[], rfl, by simp⟩, .inl ⟨rfl, rfl⟩, lastMeans_nil.2 rfl, rfl⟩
    · rintro ⟨-, ⟨ks, h1, h2⟩, h3, h4, h5⟩
      have hk : ks = [] := by
        cases ks with
        | nil => rfl
        | cons k ks => exact absurd h1 (by simp [optVals])
      subst hk
      have h4 : c'.context = c.context := (lastMeans_nil.1 h4).symm ▸ rfl
      rcases h3 with ⟨-, h3⟩ | ⟨v, f, h3, -⟩
      · cases c; cases c'
        simp only [List.append_nil] at h2
        simp only [optVals, List.filter_nil, List.map_nil, List.getLastD_nil] at h5
        simp_all
      · exact absurd h3 (by simp [optVals])
  | cons o os ih =>
    obtain ⟨n, v⟩ := o
    intro c c'
    unfold binOptions
    by_cases h1 : n = ascii "key"
    · subst h1
      simp only [if_true, bind_ok_iff, ih]
      constructor
      · rintro ⟨k, hk, ⟨a1, a2, a3, a4, a5⟩⟩
        refine ⟨by simpa using a1, ?_, ?_, ?_, ?_⟩
        · rw [optVals_cons, if_pos rfl, map_cons_ok]
          exact ⟨k, hk, a2⟩
        · rw [optVals_cons, if_neg (by dsimp only; decide)]; exact a3
        · rw [optVals_cons, if_neg (by dsimp only; decide)]; exact a4
        · rw [optVals_cons, if_neg (by dsimp only; decide)]; exact a5
      · rintro ⟨a1, a2, a3, a4, a5⟩
        rw [optVals_cons, if_pos rfl, map_cons_ok] at a2
        rw [optVals_cons, if_neg (by dsimp only; decide)] at a3 a4 a5
        obtain ⟨k, hk, a2⟩ := a2
        exact ⟨k, hk, ⟨fun o ho => a1 o (by simp [ho]), a2, a3, a4, a5⟩⟩
    by_cases h2 : n = ascii "filename"
    · subst h2
      rw [if_neg h1, if_pos rfl]
      by_cases hs : c.filename.isSome = true
      · rw [if_pos hs]
        constructor
        · intro h; cases h
        · rintro ⟨-, -, a3, -⟩
          rw [optVals_cons, if_pos rfl] at a3
          rcases a3 with ⟨a3, -⟩ | ⟨_, _, -, a3, -⟩
          · cases a3
          · rw [a3] at hs; cases hs
      · rw [if_neg hs]
        have hnone : c.filename = none := by simpa using hs
        simp only [bind_ok_iff, ih]
        constructor
        · rintro ⟨f, hf, ⟨a1, a2, a3, a4, a5⟩⟩
          refine ⟨by simpa using a1, ?_, ?_, ?_, ?_⟩
          · rw [optVals_cons, if_neg (by dsimp only; decide)]; exact a2
          · rw [optVals_cons, if_pos rfl]
            rcases a3 with ⟨a3, a6⟩ | ⟨_, _, -, a3, -⟩
            · exact .inr ⟨v, f, by rw [a3], hnone, hf, a6⟩
            · cases a3
          · rw [optVals_cons, if_neg (by dsimp only; decide)]; exact a4
          · rw [optVals_cons, if_neg (by dsimp only; decide)]; exact a5
        · rintro ⟨a1, a2, a3, a4, a5⟩
          rw [optVals_cons, if_pos rfl] at a3
          rw [optVals_cons, if_neg (by dsimp only; decide)] at a2 a4 a5
          rcases a3 with ⟨a3, -⟩ | ⟨u, f, a3, -, a6, a7⟩
          · cases a3
          · simp only [List.cons.injEq] at a3
            obtain ⟨rfl, a3⟩ := a3
            exact ⟨f, a6, ⟨fun o ho => a1 o (by simp [ho]), a2, .inl ⟨a3, a7⟩, a4, a5⟩⟩
    by_cases h3 : n = ascii "context"
    · subst h3
      rw [if_neg h1, if_neg h2, if_pos rfl]
      simp only [bind_ok_iff, ih]
      constructor
      · rintro ⟨k, hk, ⟨a1, a2, a3, a4, a5⟩⟩
        refine ⟨by simpa using a1, ?_, ?_, ?_, ?_⟩
        · rw [optVals_cons, if_neg (by dsimp only; decide)]; exact a2
        · rw [optVals_cons, if_neg (by dsimp only; decide)]; exact a3
        · rw [optVals_cons, if_pos rfl, lastMeans_cons]; exact ⟨k, hk, a4⟩
        · rw [optVals_cons, if_neg (by dsimp only; decide)]; exact a5
      · rintro ⟨a1, a2, a3, a4, a5⟩
        rw [optVals_cons, if_pos rfl, lastMeans_cons] at a4
        rw [optVals_cons, if_neg (by dsimp only; decide)] at a2 a3 a5
        obtain ⟨k, hk, a4⟩ := a4
        exact ⟨k, hk, ⟨fun o ho => a1 o (by simp [ho]), a2, a3, a4, a5⟩⟩
    by_cases h4 : n = ascii "pattern"
    · subst h4
      rw [if_neg h1, if_neg h2, if_neg h3, if_pos rfl, ih]
      constructor
      · rintro ⟨a1, a2, a3, a4, a5⟩
        refine ⟨by simpa using a1, ?_, ?_, ?_, ?_⟩
        · rw [optVals_cons, if_neg (by dsimp only; decide)]; exact a2
        · rw [optVals_cons, if_neg (by dsimp only; decide)]; exact a3
        · rw [optVals_cons, if_neg (by dsimp only; decide)]; exact a4
        · rw [optVals_cons, if_pos rfl, List.map_cons, getLastD_cons']; exact a5
      · rintro ⟨a1, a2, a3, a4, a5⟩
        rw [optVals_cons, if_pos rfl, List.map_cons, getLastD_cons'] at a5
        rw [optVals_cons, if_neg (by dsimp only; decide)] at a2 a3 a4
        exact ⟨fun o ho => a1 o (by simp [ho]), a2, a3, a4, a5⟩
    · rw [if_neg h1, if_neg h2, if_neg h3, if_neg h4]
      constructor
      · intro h; cases h
      · rintro ⟨a1, -⟩
        have := a1 (n, v) (by simp)
        simp only [List.map_cons, List.map_nil, List.mem_cons, List.not_mem_nil, or_false] at this
        rcases this with e | e | e | e
        · exact absurd e h1
        · exact absurd e h2
        · exact absurd e h3
        · exact absurd e h4

/-- C222: the options of `binsearch`: keys in order, at most one `--filename`, and of the others the last. -/
theorem C222_bin_options (compiles : Bytes → Bool) (os : List (Bytes × Bytes)) (c : BinArgs) :
    binOptions compiles {} os = .ok c ↔ (∀ o ∈ os, o.1 ∈ ["key", "filename", "context", "pattern"].map ascii) ∧
      (∃ ks, (optVals "key" os).map (makeLineComp compiles) = ks.map .ok ∧ c.keys = ks) ∧
      (optVals "filename" os = [] ∧ c.filename = none ∨
        ∃ v f, optVals "filename" os = [v] ∧ FileNameColumn.set ⟨[], 0⟩ v = .ok f ∧ c.filename = some f) ∧
      LastMeans (fun v x => Context.set v = .ok x) (optVals "context" os) .new c.context ∧
      c.pattern = (optVals "pattern" os).getLast? := by
  rw [binOptions_iff]
  have hp : ∀ l : List Bytes, (l.map some).getLastD none = l.getLast? := by
    intro l
    rw [List.getLastD_eq_getLast?, List.getLast?_map]
    cases l.getLast? <;> rfl
  constructor
  · rintro ⟨a1, ⟨ks, a2, a3⟩, a4, a5, a6⟩
    refine ⟨a1, ⟨ks, a2, by simpa using a3⟩, ?_, a5, a6.trans (hp _)⟩
    rcases a4 with a4 | ⟨v, f, b1, -, b2⟩
    · exact .inl a4
    · exact .inr ⟨v, f, b1, b2⟩
  · rintro ⟨a1, ⟨ks, a2, a3⟩, a4, a5, a6⟩
    refine ⟨a1, ⟨ks, a2, by simpa using a3⟩, ?_, a5, a6.trans (hp _).symm⟩
    rcases a4 with a4 | ⟨v, f, b1, b2⟩
    · exact .inl a4
    · exact .inr ⟨v, f, b1, rfl, b2⟩

example : optVals "key" [(ascii "key", ascii "a"), (ascii "pattern", ascii "y"), (ascii "filename", ascii "n:2"), (ascii "pattern", ascii "x")] = [ascii "a"] ∧
    (∃ c, binOptions world0.compiles {} [(ascii "key", ascii "a"), (ascii "pattern", ascii "y"), (ascii "filename", ascii "n:2"), (ascii "pattern", ascii "x")] = .ok c ∧
      c.pattern = some (ascii "x") ∧ c.filename = some ⟨ascii "n", 2⟩) :=
  ⟨by decide +kernel, ⟨[⟨{}, [], .col (.kind .plain) [⟨ascii "a", 0⟩]⟩], some ⟨ascii "n", 2⟩, .new, some (ascii "x")⟩, rfl, rfl, rfl⟩

theorem mapFiles_ok (s : Sys) : ∀ fs : List (Bytes × Bytes), (∀ f ∈ fs, s.files f.1 = some f.2) → mapFiles s (fs.map (·.1)) = .ok fs
  | [], _ => rfl
  | f :: fs, h => by
    rw [List.map_cons, mapFiles, h f (by simp)]
    simp only
    rw [mapFiles_ok s fs fun g hg => h g (by simp [hg])]
    rfl

theorem mem_sum_le {α : Type} (f : α → Nat) : ∀ (l : List α) (x : α), x ∈ l → f x ≤ (l.map f).sum
  | a :: l, x, h => by
    rw [List.map_cons, List.sum_cons]
    rcases List.mem_cons.1 h with rfl | h
    · omega
    · have := mem_sum_le f l x h
      omega

theorem rows_le_text (d : UInt8) : ∀ rows : List (List Bytes), rows.length ≤ (sepText d rows).length
  | [] => Nat.zero_le _
  | r :: rows => by
    have := rows_le_text d rows
    simp only [sepText, List.flatMap_cons, List.length_append, List.length_cons, List.length_nil] at *
    omega

/-- C222: `binsearch` by a column of files with the same header, each in order by that column: the rows that have the value, after
the name of their file if it is asked for, if the value is greater than what the header line has in the column. -/
theorem C222_binsearch (w : World) (s : Sys) (c : Cmd) (hc : c ∈ mainList) (hn : c.name = "binsearch") (toks : List Tok) (m : TextMode)
    (o : Option TextMode) (opts : List (Bytes × Bytes)) (names : List Bytes) (files : List (Bytes × List (List Bytes))) (spec value : Bytes)
    (key : LineCompMade) (i : Nat) (filename : Option FileNameColumn) (h : Says w c toks m o opts (files.map (·.1))) (hne : files ≠ [])
    (hr : ∀ f ∈ files, s.files f.1 = some (sepHead TAB names ++ sepText TAB f.2))
    (hk : ∀ o ∈ opts, o.1 ∈ ["key", "filename", "context", "pattern"].map ascii) (hkey : optVals "key" opts = [spec])
    (hmake : makeLineComp w.compiles spec = .ok key) (hi : KeyFor names i key)
    (hfile : optVals "filename" opts = [] ∧ filename = none ∨
      ∃ v f, optVals "filename" opts = [v] ∧ FileNameColumn.set ⟨[], 0⟩ v = .ok f ∧ filename = some f)
    (hctx : optVals "context" opts = []) (hpat : (optVals "pattern" opts).getLast? = some value)
    (hsn : SepNames TAB names) (hsn' : SepNames TAB (outNames filename names)) (hok : ∀ n ∈ outNames filename names, w.nameOk n = true)
    (hu : w.utf8 (sepHead TAB names) = true) (hv : lexCmp value ((ascii " CDX" :: names).getD i []) = .gt)
    (ht : ∀ f ∈ files, SepTable TAB names.length f.2)
    (hs : ∀ f ∈ files, f.2.Pairwise fun r s => lexCmp (r.getD i []) (s.getD i []) ≠ .gt) :
    w.run "binsearch" toks s = .ok { s with stdout := s.stdout ++ (sepHead TAB (outNames filename names) ++
      sepText TAB (files.flatMap fun f => (f.2.filter fun r => r.getD i [] = value).map (outRow filename f.1))) } := by
  have ho : binOptions w.compiles {} opts = .ok ⟨[key], filename, .new, some value⟩ := by
    rw [C222_bin_options]
    refine ⟨hk, ⟨[key], by simp [hkey, hmake], rfl⟩, hfile, ?_, hpat.symm⟩
    rw [hctx]
    exact lastMeans_nil.2 rfl
  have hm : mapFiles s (files.map (·.1)) = .ok (files.map fun f => (f.1, sepHead TAB names ++ sepText TAB f.2)) := by
    have := mapFiles_ok s (files.map fun f => (f.1, sepHead TAB names ++ sepText TAB f.2)) (by
      intro f hf
      obtain ⟨g, hg, rfl⟩ := List.mem_map.1 hf
      exact hr g hg)
    rwa [List.map_map] at this
  rw [← hn, run_says w hc h]
  unfold World.command
  rw [if_pos hn, hm]
  simp only [Run.bind]
  rw [if_neg (by rw [hn]; decide), hn]
  unfold World.output
  simp only [if_true]
  unfold World.binsearch
  rw [ho]
  simp only [Res.run, Run.bind]
  rw [C129_concat_partial w.toF64 w.eval w.compiles w.utf8 w.nameOk names hsn filename hsn' hok hu i key hi value hv files hne ht hs]
  · simp only [print_eq]
  · intro f hf
    have h1 := mem_sum_le (fun f : Bytes × Bytes => f.2.length) _ _ (List.mem_map_of_mem (f := fun f : Bytes × List (List Bytes) =>
      (f.1, sepHead TAB names ++ sepText TAB f.2)) hf)
    have h2 := rows_le_text TAB f.2
    have h3 : 1 ≤ (sepHead TAB names).length := by simp [sepHead]
    simp only [List.length_append] at h1
    simp only [List.length_append, List.map_map] at h1 ⊢
    omega

/-- `cdx binsearch --key a --filename n:1 y f g`. -/
example : world0.run "binsearch" [.opt "key" (ascii "a"), .opt "filename" (ascii "n:1"), .pos "pattern" (ascii "y"), .pos "input_files" (ascii "f"),
    .pos "input_files" (ascii "g")] sys0 = .ok { sys0 with stdout := ascii " CDX\tn\ta\tb\nf\ty\t22\ng\ty\t44\n" } :=
  C222_binsearch world0 sys0 (cmd0 "binsearch") (cmd0_mem (by decide +kernel)) (by decide +kernel)
    [.opt "key" (ascii "a"), .opt "filename" (ascii "n:1"), .pos "pattern" (ascii "y"), .pos "input_files" (ascii "f"), .pos "input_files" (ascii "g")]
    .default none [(ascii "key", ascii "a"), (ascii "filename", ascii "n:1"), (ascii "pattern", ascii "y")] [ascii "a", ascii "b"]
    [(ascii "f", [[ascii "x", ascii "1"], [ascii "y", ascii "22"]]), (ascii "g", [[ascii "x", ascii "3"], [ascii "y", ascii "44"]])] (ascii "a") (ascii "y")
    ⟨{}, [], .col (.kind .plain) [⟨ascii "a", 0⟩]⟩ 0 (some ⟨ascii "n", 1⟩)
    (says_plain (by decide +kernel) (by decide +kernel) (by decide +kernel) (by decide +kernel) (by decide +kernel)) (by simp) (by decide +kernel)
    (by decide +kernel) (by decide +kernel) rfl ⟨⟨ascii "a", 0⟩, rfl, .inr ⟨by decide, by decide, by decide⟩⟩
    (.inr ⟨ascii "n:1", ⟨ascii "n", 1⟩, by decide +kernel, rfl, rfl⟩) (by decide +kernel) (by decide +kernel)
    (by unfold SepNames; decide +kernel) (by unfold SepNames; decide +kernel) (fun _ _ => rfl) rfl (by decide +kernel) (by unfold SepTable; decide +kernel)
    (by decide +kernel)

end Cdx
