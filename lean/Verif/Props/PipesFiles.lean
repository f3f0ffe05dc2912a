import Verif.Props.PipesRun
import Verif.Props.PipesBin
import Verif.Props.PipesCut
import Verif.Props.PipesMerge

/-!
C221: scripts of commands, where the output of some is put in files that others read.
-/

namespace Cdx

/-- A file gets a new content. -/
def Sys.store (s : Sys) (n b : Bytes) : Sys := { s with files := fun m => if m = n then some b else s.files m }

/-- `pipeline > n`: the shell empties the file, then the commands run, and what the last one writes is put in the file. -/
def World.into (w : World) (cs : List (String × List Tok)) (n : Bytes) (s : Sys) : Run Sys :=
  (w.pipe cs (s.store n [])).bind fun out => .ok (s.store n out)

/-- Such lines one after the other. -/
def World.script (w : World) : List (List (String × List Tok) × Bytes) → Sys → Run Sys
  | [], s => .ok s
  | l :: ls, s => (w.into l.1 l.2 s).bind fun t => w.script ls t

/-- The name of a file of its own, not the standard input, nor an object, nor a text. -/
def LocalName (n : Bytes) : Prop := n ≠ [45] ∧ startsWith n s3Tag = false ∧ startsWith n [60, 60] = false

instance (n : Bytes) : Decidable (LocalName n) := by unfold LocalName; infer_instance

theorem reader_same (w : World) {s t : Sys} (h : t.stdin = s.stdin) {n : Bytes} (hn : t.files n = s.files n) :
    getReader w.s3 w.gunzip t n = getReader w.s3 w.gunzip s n := by
  unfold getReader
  rw [h, hn]

theorem reader_local (w : World) {s : Sys} {n b : Bytes} (hn : LocalName n) (hs : s.files n = some b) (hb : startsWith b gzMagic = false) :
    getReader w.s3 w.gunzip s n = some b := by
  obtain ⟨h1, h2, h3⟩ := hn
  simp [getReader, h1, h2, h3, hs, hb]

/-- What a script does whose commands do not read what it writes. -/
theorem script_runs (w : World) : ∀ (ps : List ((List (String × List Tok)) × Bytes × Bytes)) (s : Sys), (ps.map (·.2.1)).Nodup →
    (∀ p ∈ ps, ∀ t : Sys, t.stdin = s.stdin → (∀ m, m ∉ ps.map (·.2.1) → t.files m = s.files m) → w.pipe p.1 t = .ok p.2.2) →
    ∃ t, w.script (ps.map fun p => (p.1, p.2.1)) s = .ok t ∧ t.stdin = s.stdin ∧ (∀ p ∈ ps, t.files p.2.1 = some p.2.2) ∧
      ∀ m, m ∉ ps.map (·.2.1) → t.files m = s.files m
  | [], s, _, _ => ⟨s, rfl, rfl, by simp, fun _ _ => rfl⟩
  | p :: ps, s, hn, h => by
    rw [List.map_cons, List.nodup_cons] at hn
    have h0 := h p (by simp) (s.store p.2.1 []) rfl (by
      intro m hm
      rw [List.map_cons, List.mem_cons, not_or] at hm
      simp [Sys.store, hm.1])
    obtain ⟨t, t1, t2, t3, t4⟩ := script_runs w ps (s.store p.2.1 p.2.2) hn.2 (by
      intro q hq t ht hm
      refine h q (by simp [hq]) t ht fun m hm' => ?_
      rw [List.map_cons, List.mem_cons, not_or] at hm'
      rw [hm m hm'.2]
      simp [Sys.store, hm'.1])
    refine ⟨t, ?_, t2, ?_, ?_⟩
    · rw [List.map_cons, World.script]
      simp only [World.into, h0, Run.bind]
      exact t1
    · intro q hq
      rcases List.mem_cons.1 hq with rfl | hq
      · rw [t4 _ hn.1]
        simp [Sys.store]
      · exact t3 q hq
    · intro m hm
      rw [List.map_cons, List.mem_cons, not_or] at hm
      rw [t4 m hm.2]
      simp [Sys.store, hm.1]

theorem Tables.same {w : World} {s t : Sys} {files names : List Bytes} {tables : List (List (List Bytes))} (h : Tables w s files names tables)
    (hi : t.stdin = s.stdin) (hf : ∀ n ∈ files, t.files n = s.files n) : Tables w t files names tables := by
  unfold Tables at h ⊢
  rw [← h]
  exact List.map_congr_left fun n hn => reader_same w hi (hf n hn)

theorem pipe_one (w : World) {c : Cmd} (hc : c ∈ mainList) (hj : c.name ≠ "join") (hb : c.name ≠ "binsearch") {toks : List Tok}
    {opts : List (Bytes × Bytes)} {files texts : List Bytes} (h : Words c toks opts files) (s : Sys)
    (hr : files.map (getReader w.s3 w.gunzip s) = texts.map some) {out : Bytes}
    (ho : w.output c.name .new opts (files.zip texts) = .ok out) : w.pipe [(c.name, toks)] s = .ok out := by
  rw [pipe_words w hc hj hb h s hr ho]
  rfl

theorem zip_ok {α β γ : Type} {f : α → γ} {ok : β → γ} : ∀ {gs : List α} {os : List β}, gs.map f = os.map ok →
    gs.length = os.length ∧ ∀ x ∈ gs.zip os, f x.1 = ok x.2
  | [], [], _ => ⟨rfl, by simp⟩
  | [], _ :: _, h => by simp at h
  | _ :: _, [], h => by simp at h
  | g :: gs, o :: os, h => by
    simp only [List.map_cons, List.cons.injEq] at h
    obtain ⟨h1, h2⟩ := zip_ok h.2
    refine ⟨by simp [h1], ?_⟩
    intro x hx
    rw [List.zip_cons_cons, List.mem_cons] at hx
    rcases hx with rfl | hx
    · exact h.1
    · exact h2 x hx

theorem zip_fst {α β δ : Type} (f : α → δ) : ∀ {gs : List α} {os : List β}, gs.length = os.length → (gs.zip os).map (fun x => f x.1) = gs.map f
  | [], [], _ => rfl
  | _ :: _, [], h => by simp at h
  | [], _ :: _, h => by simp at h
  | g :: gs, o :: os, h => by simp [zip_fst f (by simpa using h : gs.length = os.length)]

/-! ## Columns cut apart and pasted -/

/-- A line of a script: what is wanted, the words, and the file to write to. -/
structure CutLine where
  wants : List Want
  words : List Tok
  out : Bytes

/-- C221: columns cut in several runs into files, and the files pasted, are the columns cut in one run, byte for byte. -/
theorem C221_paste (w : World) (s : Sys) (k p : Cmd) (hk : k ∈ mainList) (hkn : k.name = "cut") (hp : p ∈ mainList) (hpn : p.name = "paste")
    (names files : List Bytes) (tables : List (List (List Bytes))) (ls : List CutLine) (hr : Tables w s files names tables)
    (hls : ls ≠ []) (hw : ∀ l ∈ ls, l.wants ≠ [] ∧ Words k l.words (l.wants.map Want.opt) files) (hout : (ls.map (·.out)).Nodup)
    (hloc : ∀ l ∈ ls, LocalName l.out ∧ l.out ∉ files) (paste once : List Tok) (w1 : Words p paste [] (ls.map (·.out)))
    (w2 : Words k once ((ls.map (·.wants)).flatten.map Want.opt) files)
    (hne : names ≠ []) (hn : ∀ n ∈ names, IsName n)
    (hf : ∀ x ∈ (ls.map (·.wants)).flatten, x.Fine w.cut) (hs : ∀ x ∈ (ls.map (·.wants)).flatten, x.Suits w.cut names)
    (ho : ((ls.map (·.wants)).flatten.flatMap (Want.outNames names)).Nodup)
    (hv : ∀ n ∈ (ls.map (·.wants)).flatten.flatMap (Want.outNames names), IsName n ∧ w.nameOk n = true)
    (htab : ∀ rows ∈ tables, SepTable TAB names.length rows) (hpl : ∀ x ∈ (ls.map (·.wants)).flatten, x.Plain TAB tables.flatten)
    (ht : tables ≠ []) :
    ∃ t out, w.script (ls.map fun l => ([("cut", l.words)], l.out)) s = .ok t ∧ w.pipe [("paste", paste)] t = .ok out ∧
      w.pipe [("cut", once)] s = .ok out := by
  obtain ⟨parts, whole, h1, h2, h3⟩ := C211_cut_paste w.cut w.nameOk w.transOk w.colMatch names hne hn (ls.map (·.wants)) (by simpa using hls)
    (by intro ws hm; obtain ⟨l, hl, rfl⟩ := List.mem_map.1 hm; exact (hw l hl).1) hf hs ho hv tables htab hpl ht
  rw [List.map_map] at h1
  obtain ⟨hlen, hz⟩ := zip_ok h1
  obtain ⟨hr1, hr2⟩ := hr.read
  have outs : (((ls.zip parts).map fun x => (([("cut", x.1.words)], x.1.out, x.2) : (List (String × List Tok)) × Bytes × Bytes)).map (·.2.1)) =
      ls.map (·.out) := by rw [List.map_map]; exact zip_fst (fun l : CutLine => l.out) hlen
  obtain ⟨t, t1, t2, t3, t4⟩ := script_runs w ((ls.zip parts).map fun x => ([("cut", x.1.words)], x.1.out, x.2)) s (by rw [outs]; exact hout) (by
    intro q hq t ht hm
    obtain ⟨x, hx, rfl⟩ := List.mem_map.1 hq
    rw [outs] at hm
    have hxl := (List.of_mem_zip hx).1
    obtain ⟨g1, g2⟩ := (hr.same ht fun n hn => hm n fun hm' => by
      obtain ⟨l, hl, rfl⟩ := List.mem_map.1 hm'
      exact (hloc l hl).2 hn).read
    have := hz x hx
    simp only [Function.comp_apply] at this
    show w.pipe [("cut", x.1.words)] t = .ok x.2
    rw [← hkn]
    exact pipe_one w hk (by rw [hkn]; decide) (by rw [hkn]; decide) (hw x.1 hxl).2 t g1 (by rw [hkn, output_cut w _ g2, this]; rfl))
  refine ⟨t, whole, ?_, ?_, ?_⟩
  · rw [← t1, List.map_map]
    exact congrArg (fun l => w.script l s) (zip_fst (fun l : CutLine => (([("cut", l.words)], l.out) : (List (String × List Tok)) × Bytes)) hlen).symm
  · rw [← hpn]
    have hread : (ls.map (·.out)).map (getReader w.s3 w.gunzip t) = parts.map some := by
      have e : parts = (ls.zip parts).map (·.2) := by
        have := List.unzip_zip_right (l₁ := ls) (l₂ := parts) (by omega)
        simpa using this.symm
      have e2 : (ls.map (·.out)).map (getReader w.s3 w.gunzip t) = (ls.zip parts).map fun x => getReader w.s3 w.gunzip t x.1.out := by
        rw [List.map_map]
        exact (zip_fst (fun l : CutLine => getReader w.s3 w.gunzip t l.out) hlen).symm
      rw [e2]
      conv => rhs; rw [e, List.map_map]
      refine List.map_congr_left fun x hx => ?_
      have hxl := (List.of_mem_zip hx).1
      have hx2 := hz x hx
      simp only [Function.comp_apply] at hx2
      have sub : ∀ y ∈ x.1.wants, y ∈ (ls.map (·.wants)).flatten := fun y hy => List.mem_flatten.2 ⟨_, List.mem_map_of_mem hxl, hy⟩
      have c := C133_table_partial w.cut w.nameOk TAB (by decide) (by decide) names hne hn x.1.wants (hw x.1 hxl).1 (fun y hy => hf y (sub y hy))
        (fun y hy => hs y (sub y hy)) (by
          refine List.Sublist.nodup ?_ ho
          obtain ⟨l1, l2, e⟩ := List.append_of_mem (List.mem_map_of_mem (f := (·.wants)) hxl)
          rw [e, List.flatten_append, List.flatten_cons, List.flatMap_append, List.flatMap_append]
          exact (List.sublist_append_left _ _).trans (List.sublist_append_right _ _))
        (fun n hm => hv n (by
          obtain ⟨y, hy, hny⟩ := List.mem_flatMap.1 hm
          exact List.mem_flatMap.2 ⟨y, sub y hy, hny⟩)) tables htab (fun y hy => hpl y (sub y hy)) ht
      have e3 : (Res.ok x.2) = _ := hx2.symm.trans c
      rw [Res.ok.injEq] at e3
      refine reader_local w (hloc x.1 hxl).1 (t3 _ (List.mem_map_of_mem hx)) ?_
      show startsWith x.2 gzMagic = false
      rw [e3]
      exact head_plain _ _
    refine pipe_one w hp (by rw [hpn]; decide) (by rw [hpn]; decide) w1 t hread ?_
    rw [hpn]
    unfold World.output
    simp only [if_false, if_true, String.reduceEq]
    rw [zip_snd (by simpa using hlen), show Settings.new.textIn = .default from rfl, h3]
    rfl
  · rw [← hkn]
    exact pipe_one w hk (by rw [hkn]; decide) (by rw [hkn]; decide) w2 s hr1 (by rw [hkn, output_cut w _ hr2, h2]; rfl)

/-- `-f b` and `-f x:a` -/
def apartWants : List Want := [.fields [⟨false, none, .one (.name (ascii "b"))⟩], .fields [⟨false, some (ascii "x"), .one (.name (ascii "a"))⟩]]

theorem apartWants_fine : ∀ w ∈ apartWants, w.Fine cutEnv0 ∧ w.Suits cutEnv0 [ascii "a", ascii "b"] ∧ ∀ rows, w.Plain TAB rows := by
  intro w hw
  simp only [apartWants, List.mem_cons, List.not_mem_nil, or_false] at hw
  rcases hw with rfl | rfl
  · refine ⟨⟨by simp, ?_⟩, ⟨⟨[(1, [])], by decide +kernel, by simp⟩, ?_⟩, fun _ => trivial⟩
    · intro i hi
      rw [List.mem_singleton] at hi
      subst hi
      exact ⟨by simp, by simp only [Sel.refs, List.mem_singleton, forall_eq]; exact name_one 98 (by decide)⟩
    · intro i hi
      rw [List.mem_singleton] at hi
      subst hi
      simp only [Sel.refs, List.mem_singleton, forall_eq]; exact trivial
  · refine ⟨⟨by simp, ?_⟩, ⟨⟨[(0, ascii "x")], by decide +kernel, by simp⟩, ?_⟩, fun _ => trivial⟩
    · intro i hi
      rw [List.mem_singleton] at hi
      subst hi
      exact ⟨by simp only [Option.some.injEq, forall_eq']; exact name_one 120 (by decide), by
        simp only [Sel.refs, List.mem_singleton, forall_eq]; exact name_one 97 (by decide)⟩
    · intro i hi
      rw [List.mem_singleton] at hi
      subst hi
      simp only [Sel.refs, List.mem_singleton, forall_eq]; exact trivial

/-- `cdx cut --fields b f g > p; cdx cut f g --fields x:a > q; cdx paste p q`. -/
example : ∃ t out, world0.script [([("cut", [.opt "fields" (ascii "b"), .pos "input_files" (ascii "f"), .pos "input_files" (ascii "g")])], ascii "p"),
      ([("cut", [.pos "input_files" (ascii "f"), .pos "input_files" (ascii "g"), .opt "fields" (ascii "x:a")])], ascii "q")] sys0 = .ok t ∧
    world0.pipe [("paste", [.pos "input_files" (ascii "p"), .pos "input_files" (ascii "q")])] t = .ok out ∧
    world0.pipe [("cut", [.opt "fields" (ascii "b"), .opt "fields" (ascii "x:a"), .pos "input_files" (ascii "f"), .pos "input_files" (ascii "g")])] sys0 =
      .ok out := by
  have hall : ∀ x ∈ [apartWants.take 1, apartWants.drop 1].flatten, x ∈ apartWants := by
    intro x hx
    simpa [apartWants] using hx
  exact C221_paste world0 sys0 (cmd0 "cut") (cmd0 "paste") (cmd0_mem (by decide +kernel)) (by decide +kernel) (cmd0_mem (by decide +kernel))
    (by decide +kernel) [ascii "a", ascii "b"] [ascii "f", ascii "g"]
    [[[ascii "x", ascii "1"], [ascii "y", ascii "22"]], [[ascii "x", ascii "3"], [ascii "y", ascii "44"]]]
    [⟨apartWants.take 1, _, ascii "p"⟩, ⟨apartWants.drop 1, _, ascii "q"⟩] tables0 (by simp)
    (by
      intro l hl
      simp only [List.mem_cons, List.not_mem_nil, or_false] at hl
      rcases hl with rfl | rfl
      · exact ⟨by simp [apartWants], by decide +kernel, by decide +kernel, by decide +kernel, by decide +kernel⟩
      · exact ⟨by simp [apartWants], by decide +kernel, by decide +kernel, by decide +kernel, by decide +kernel⟩)
    (by decide +kernel)
    (by
      intro l hl
      simp only [List.mem_cons, List.not_mem_nil, or_false] at hl
      rcases hl with rfl | rfl <;> exact ⟨by decide +kernel, by decide +kernel⟩) _ _
    ⟨by decide +kernel, by decide +kernel, by decide +kernel, by decide +kernel⟩ ⟨by decide +kernel, by decide +kernel, by decide +kernel, by decide +kernel⟩
    (by simp) goodTable_example.2.1 (fun x hx => (apartWants_fine x (hall x hx)).1) (fun x hx => (apartWants_fine x (hall x hx)).2.1)
    (by decide +kernel)
    (fun n hn => keepWants_names n hn)
    (by decide +kernel) (fun x hx => (apartWants_fine x (hall x hx)).2.2 _) (by simp)

/-! ## Sorted in parts and merged -/

/-- A line of a script: the files and the tables in them, the words, and the file to write to. -/
structure SortLine where
  files : List Bytes
  tables : List (List (List Bytes))
  words : List Tok
  out : Bytes

/-- C221: files sorted in several runs into files, and these merged with keys given by number, are the files sorted in one run, byte for
byte. The default merge needs that rows with equal keys are equal, `--alt-merge` does not. -/
theorem C221_merge (w : World) (s : Sys) (c : Cmd) (hc : c ∈ mainList) (hcn : c.name = "sort") (names : List Bytes) (ls : List SortLine)
    (ks : List TabKey) (os om ow : List SortOpt) (merge once : List Tok) (hls : ls ≠ [])
    (hl : ∀ l ∈ ls, l.tables ≠ [] ∧ Tables w s l.files names l.tables ∧ Words c l.words (os.map SortOpt.said) l.files)
    (hout : (ls.map (·.out)).Nodup) (hloc : ∀ l ∈ ls, LocalName l.out ∧ ∀ l' ∈ ls, l.out ∉ l'.files)
    (w1 : Words c merge (om.map SortOpt.said) (ls.map (·.out))) (w2 : Words c once (ow.map SortOpt.said) (ls.map (·.files)).flatten)
    (hg : GoodTable names (ls.map (·.tables)).flatten.flatten)
    (fs : SortFits names ks os) (fm : MergeFits names ks om) (fw : SortFits names ks ow) (hnum : ∀ s ∈ sortSpecs om, DigitFirst s)
    (hu : SortOpt.unique ∈ os → SortOpt.unique ∈ om) (huw : SortOpt.unique ∈ ow ↔ SortOpt.unique ∈ om)
    (heap : SortOpt.altMerge ∈ om ∨ PicksSmallest (mergeComp w.toF64 (ks.map fun k => k.at names)) (fun _ => True) w.pick ∧
      ∀ x ∈ (ls.map (·.tables)).flatten.flatten, ∀ y ∈ (ls.map (·.tables)).flatten.flatten, tabCmp names ks x y = .eq → x = y)
    (hok : ∀ n ∈ names, w.nameOk n = true) (hz : ∀ r ∈ (ls.map (·.tables)).flatten.flatten, ∀ c ∈ r, 0 ∉ c) (hcap : 8 < w.cap)
    (hfit : (sepText TAB (ls.map (·.tables)).flatten.flatten).length < w.cap) :
    ∃ t out, w.script (ls.map fun l => ([("sort", l.words)], l.out)) s = .ok t ∧ w.pipe [("sort", merge)] t = .ok out ∧
      w.pipe [("sort", once)] s = .ok out := by
  obtain ⟨parts, whole, h1, h2, h3⟩ := C212_parts_partial w.toF64 w.nameOk w.pick w.rd w.cap .default names (ls.map (·.tables)) ks os om ow hg
    (by simpa using hls) (by intro g hm; obtain ⟨l, hl', rfl⟩ := List.mem_map.1 hm; exact (hl l hl').1) fs fm fw hnum hu huw heap hok hz hcap hfit
  rw [List.map_map] at h1
  obtain ⟨hlen, hzip⟩ := zip_ok h1
  have outs : (((ls.zip parts).map fun x => (([("sort", x.1.words)], x.1.out, x.2) : (List (String × List Tok)) × Bytes × Bytes)).map (·.2.1)) =
      ls.map (·.out) := by rw [List.map_map]; exact zip_fst (fun l : SortLine => l.out) hlen
  obtain ⟨t, t1, t2, t3, t4⟩ := script_runs w ((ls.zip parts).map fun x => ([("sort", x.1.words)], x.1.out, x.2)) s (by rw [outs]; exact hout) (by
    intro q hq t ht hm
    obtain ⟨x, hx, rfl⟩ := List.mem_map.1 hq
    rw [outs] at hm
    have hxl := (List.of_mem_zip hx).1
    obtain ⟨g1, g2⟩ := ((hl x.1 hxl).2.1.same ht fun n hn => hm n fun hm' => by
      obtain ⟨l, hl', rfl⟩ := List.mem_map.1 hm'
      exact (hloc l hl').2 x.1 hxl hn).read
    have := hzip x hx
    simp only [Function.comp_apply] at this
    show w.pipe [("sort", x.1.words)] t = .ok x.2
    rw [← hcn]
    exact pipe_one w hc (by rw [hcn]; decide) (by rw [hcn]; decide) (hl x.1 hxl).2.2 t g1 (by rw [hcn, output_sort w _ g2]; exact sortMainF_ok w.eval this))
  refine ⟨t, whole, ?_, ?_, ?_⟩
  · rw [← t1, List.map_map]
    exact congrArg (fun l => w.script l s) (zip_fst (fun l : SortLine => (([("sort", l.words)], l.out) : (List (String × List Tok)) × Bytes)) hlen).symm
  · rw [← hcn]
    have hread : (ls.map (·.out)).map (getReader w.s3 w.gunzip t) = parts.map some := by
      have e : parts = (ls.zip parts).map (·.2) := by
        have := List.unzip_zip_right (l₁ := ls) (l₂ := parts) (by omega)
        simpa using this.symm
      have e2 : (ls.map (·.out)).map (getReader w.s3 w.gunzip t) = (ls.zip parts).map fun x => getReader w.s3 w.gunzip t x.1.out := by
        rw [List.map_map]
        exact (zip_fst (fun l : SortLine => getReader w.s3 w.gunzip t l.out) hlen).symm
      rw [e2]
      conv => rhs; rw [e, List.map_map]
      refine List.map_congr_left fun x hx => ?_
      have hxl := (List.of_mem_zip hx).1
      have hx2 := hzip x hx
      simp only [Function.comp_apply] at hx2
      have sub : ∀ r ∈ x.1.tables.flatten, r ∈ (ls.map (·.tables)).flatten.flatten := by
        intro r hr
        obtain ⟨g, hg', hr⟩ := List.mem_flatten.1 hr
        exact List.mem_flatten.2 ⟨g, List.mem_flatten.2 ⟨_, List.mem_map_of_mem hxl, hg'⟩, hr⟩
      have hlen' : (sepText TAB x.1.tables.flatten).length ≤ (sepText TAB (ls.map (·.tables)).flatten.flatten).length := by
        obtain ⟨l1, l2, e⟩ := List.append_of_mem (List.mem_map_of_mem (f := (·.tables)) hxl)
        rw [e]
        simp only [sepText_lines, List.flatten_append, List.flatten_cons, List.map_append, List.length_append]
        omega
      obtain ⟨rest, e3⟩ := sort_plain w fs ⟨hg.1, hg.2.1, hg.2.2.1, hg.2.2.2.1, fun r hr => hg.2.2.2.2 r (sub r hr)⟩ hok (hl x.1 hxl).1
        (fun r hr => hz r (sub r hr)) hcap (by omega) hx2
      refine reader_local w (hloc x.1 hxl).1 (t3 _ (List.mem_map_of_mem hx)) ?_
      show startsWith x.2 gzMagic = false
      rw [e3]
      exact head_plain _ _
    refine pipe_one w hc (by rw [hcn]; decide) (by rw [hcn]; decide) w1 t hread ?_
    rw [hcn, output_sort w om (by simpa using hlen)]
    exact sortMainF_ok w.eval h2
  · rw [← hcn]
    have hr : Tables w s (ls.map (·.files)).flatten names (ls.map (·.tables)).flatten := by
      unfold Tables
      have key : ∀ l : List SortLine, (∀ x ∈ l, Tables w s x.files names x.tables) →
          (l.map (·.files)).flatten.map (getReader w.s3 w.gunzip s) =
            (l.map (·.tables)).flatten.map fun rows => some (sepHead TAB names ++ sepText TAB rows) := by
        intro l
        induction l with
        | nil => simp
        | cons x l ih =>
          intro h
          simp only [List.map_cons, List.flatten_cons, List.map_append]
          rw [ih fun y hy => h y (by simp [hy]), h x (by simp)]
      exact key ls fun x hx => (hl x hx).2.1
    obtain ⟨hr1, hr2⟩ := hr.read
    exact pipe_one w hc (by rw [hcn]; decide) (by rw [hcn]; decide) w2 s hr1 (by rw [hcn, output_sort w _ hr2]; exact sortMainF_ok w.eval h3)

/-- `cdx sort --key b f > p; cdx sort --key b g > q; cdx sort --merge --alt-merge --key 2 p q`. -/
example : ∃ t out, world0.script [([("sort", [.opt "key" (ascii "b"), .pos "input_files" (ascii "f")])], ascii "p"),
      ([("sort", [.opt "key" (ascii "b"), .pos "input_files" (ascii "g")])], ascii "q")] sys0 = .ok t ∧
    world0.pipe [("sort", [.flag "merge", .flag "alt-merge", .opt "key" (ascii "2"), .pos "input_files" (ascii "p"), .pos "input_files" (ascii "q")])] t =
      .ok out ∧
    world0.pipe [("sort", [.opt "key" (ascii "b"), .pos "input_files" (ascii "f"), .pos "input_files" (ascii "g")])] sys0 = .ok out := by
  have fm : MergeFits [ascii "a", ascii "b"] [⟨ascii "b", .plain, false⟩] [.merge, .altMerge, .key (ascii "2")] := by
    refine ⟨mergeFits_example.1, by simp, ⟨rfl, ?_⟩, by simp, by decide⟩
    intro x hx
    simp only [sortSpecs, List.filterMap_cons, List.filterMap_nil, List.zip_cons_cons, List.zip_nil_left, List.mem_singleton] at hx
    subst hx
    exact ⟨ascii "2", .inr (by decide +kernel), .inl ⟨rfl, rfl, rfl⟩⟩
  exact C221_merge world0 sys0 (cmd0 "sort") (cmd0_mem (by decide +kernel)) (by decide +kernel) [ascii "a", ascii "b"]
    [⟨[ascii "f"], [[[ascii "x", ascii "1"], [ascii "y", ascii "22"]]], _, ascii "p"⟩,
      ⟨[ascii "g"], [[[ascii "x", ascii "3"], [ascii "y", ascii "44"]]], _, ascii "q"⟩] [⟨ascii "b", .plain, false⟩]
    [.key (ascii "b")] [.merge, .altMerge, .key (ascii "2")] [.key (ascii "b")] _ _ (by simp)
    (by
      intro l hl
      simp only [List.mem_cons, List.not_mem_nil, or_false] at hl
      rcases hl with rfl | rfl
      · exact ⟨by simp, by unfold Tables; decide +kernel, by decide +kernel, by decide +kernel, by decide +kernel, by decide +kernel⟩
      · exact ⟨by simp, by unfold Tables; decide +kernel, by decide +kernel, by decide +kernel, by decide +kernel, by decide +kernel⟩)
    (by decide +kernel)
    (by
      intro l hl
      simp only [List.mem_cons, List.not_mem_nil, or_false] at hl
      rcases hl with rfl | rfl <;> exact ⟨by decide +kernel, by simp only [List.mem_cons, List.not_mem_nil, or_false, forall_eq_or_imp, forall_eq]; decide +kernel⟩)
    ⟨by decide +kernel, by decide +kernel, by decide +kernel, by decide +kernel⟩ ⟨by decide +kernel, by decide +kernel, by decide +kernel, by decide +kernel⟩
    goodTable_example (sortFits_one _ _ (by decide +kernel)) fm (sortFits_one _ _ (by decide +kernel))
    (by
      intro s hs
      simp only [sortSpecs, List.filterMap_cons, List.filterMap_nil, List.mem_singleton] at hs
      subst hs
      exact ⟨50, [], by decide +kernel, by unfold Digit; decide⟩)
    (by simp) (by simp) (.inl (by simp)) (fun _ _ => rfl) (by decide +kernel) (by decide) (by decide +kernel)

/-! ## Sorted, then searched -/

/-- C221: `cdx sort A files > n; cdx binsearch --key C --pattern V n` writes the header and the rows that have the value, in the order of
the files, if the value is greater than what the header line has in the column. -/
theorem C221_search (w : World) (s : Sys) (c b : Cmd) (hc : c ∈ mainList) (hcn : c.name = "sort") (hb : b ∈ mainList) (hbn : b.name = "binsearch")
    (names files : List Bytes) (tables : List (List (List Bytes))) (col spec value n : Bytes) (os : List SortOpt) (sort search : List Tok)
    (hr : Tables w s files names tables) (w1 : Words c sort (os.map SortOpt.said) files)
    (w2 : Words b search [(ascii "key", spec), (ascii "pattern", value)] [n]) (hn : n ∉ files)
    (h : SortFits names [⟨col, .plain, false⟩] os) (ht : GoodTable names tables.flatten) (hok : ∀ n ∈ names, w.nameOk n = true)
    (htn : tables ≠ []) (hz : ∀ r ∈ tables.flatten, ∀ c ∈ r, 0 ∉ c) (hcap : 8 < w.cap) (hfit : (sepText TAB tables.flatten).length < w.cap)
    (hq : SortOpt.unique ∉ os) (hu : w.utf8 (sepHead TAB names) = true) (hspec : RefOf names spec col)
    (hv : lexCmp value ((ascii " CDX" :: names).getD (names.idxOf col) []) = .gt) :
    ∃ t, w.into [("sort", sort)] n s = .ok t ∧ w.pipe [("binsearch", search)] t =
      .ok (sepHead TAB names ++ sepText TAB (tables.flatten.filter fun r => cellOf names r col = value)) := by
  obtain ⟨key, k1, -⟩ := ref_keyFor ht.2.1 ht.2.2.1 ht.2.2.2.1 (h.suits ⟨col, .plain, false⟩ (by simp)).1 hspec w.compiles
  obtain ⟨sorted, h1, h2⟩ := C213_found_partial w.toF64 w.nameOk w.pick w.rd w.cap .default w.eval w.compiles w.utf8 names tables col os spec value
    n key h ht hok htn hz hcap hfit hq hu hspec k1 hv
  obtain ⟨g1, g2⟩ := (hr.same (t := s.store n []) rfl fun m hm => by
    have : m ≠ n := fun e => hn (e ▸ hm)
    simp [Sys.store, this]).read
  refine ⟨s.store n sorted, ?_, ?_⟩
  · unfold World.into
    rw [← hcn, pipe_one w hc (by rw [hcn]; decide) (by rw [hcn]; decide) w1 _ g1 (by rw [hcn, output_sort w _ g2]; exact sortMainF_ok w.eval h1)]
    rfl
  · rw [World.pipe, ← hbn, run_words w hb w2]
    unfold World.command
    rw [if_pos hbn]
    have hm : mapFiles { s.store n sorted with stdout := [] } [n] = .ok [(n, sorted)] := by simp [mapFiles, Sys.store, Run.bind]
    rw [hm]
    simp only [Run.bind]
    rw [if_neg (by rw [hbn]; decide), hbn]
    unfold World.output
    simp only [if_true]
    unfold World.binsearch
    have ho : binOptions w.compiles {} [(ascii "key", spec), (ascii "pattern", value)] = .ok { keys := [key], pattern := some value } := by
      rw [binOptions, if_pos rfl, k1]
      simp only [Res.bind]
      rw [binOptions, if_neg (by decide +kernel), if_neg (by decide +kernel), if_neg (by decide +kernel), if_pos rfl]
      rfl
    rw [ho]
    simp only [Res.run, Run.bind]
    rw [h2 _ (by simp)]
    simp only [print_eq, World.pipe, List.nil_append]

/-- `cdx sort --key a f g > p; cdx binsearch --key a y p`. -/
example : ∃ t, world0.into [("sort", [.opt "key" (ascii "a"), .pos "input_files" (ascii "f"), .pos "input_files" (ascii "g")])] (ascii "p") sys0 = .ok t ∧
    world0.pipe [("binsearch", [.opt "key" (ascii "a"), .pos "pattern" (ascii "y"), .pos "input_files" (ascii "p")])] t =
      .ok (ascii " CDX\ta\tb\ny\t22\ny\t44\n") :=
  C221_search world0 sys0 (cmd0 "sort") (cmd0 "binsearch") (cmd0_mem (by decide +kernel)) (by decide +kernel) (cmd0_mem (by decide +kernel))
    (by decide +kernel) [ascii "a", ascii "b"] [ascii "f", ascii "g"]
    [[[ascii "x", ascii "1"], [ascii "y", ascii "22"]], [[ascii "x", ascii "3"], [ascii "y", ascii "44"]]] (ascii "a") (ascii "a") (ascii "y") (ascii "p")
    [.key (ascii "a")] _ _ tables0 ⟨by decide +kernel, by decide +kernel, by decide +kernel, by decide +kernel⟩
    ⟨by decide +kernel, by decide +kernel, by decide +kernel, by decide +kernel⟩ (by decide +kernel) (sortFits_one _ _ (by decide +kernel))
    goodTable_example (fun _ _ => rfl) (by simp) (by decide +kernel) (by decide) (by decide +kernel) (by simp) rfl (.inl rfl) (by decide +kernel)

/-! ## Sorted, then joined -/

theorem putFile_fresh (s : Sys) {n b : Bytes} (h1 : n ≠ [45]) (h2 : n ≠ [45, 45]) (h : s.files n = none) : (putFile s n [b]).files n = some b := by
  simp [putFile, getWriter, h1, h2, Sys.writeAll, Sys.write, h, overwrite]

theorem putFiles_fresh : ∀ (outs : List (Bytes × Bytes)) (s : Sys), (outs.map (·.1)).Nodup →
    (∀ o ∈ outs, o.1 ≠ [45] ∧ o.1 ≠ [45, 45] ∧ s.files o.1 = none) →
    ∀ o ∈ outs, (outs.foldl (fun s o => putFile s o.1 [o.2]) s).files o.1 = some o.2
  | o :: outs, s, hn, h, q, hq => by
    rw [List.map_cons, List.nodup_cons] at hn
    rw [List.foldl_cons]
    rcases List.mem_cons.1 hq with rfl | hq
    · rw [putFiles_other outs _ fun o ho e => absurd (List.mem_map.2 ⟨o, ho, e⟩) hn.1]
      obtain ⟨h1, h2, h3⟩ := h q (by simp)
      exact putFile_fresh s h1 h2 h3
    · refine putFiles_fresh outs _ hn.2 (fun r hr => ?_) q hq
      obtain ⟨h1, h2, h3⟩ := h r (by simp [hr])
      refine ⟨h1, h2, ?_⟩
      rw [putFile_other s (fun e : r.1 = o.1 => hn.1 (List.mem_map.2 ⟨r, hr, e⟩)) _]
      exact h3

/-- C221: `cdx sort A f > x; cdx sort B g > y; cdx join J x y`: the joined rows are those of the unsorted tables, in the order of the first
sorted, and likewise the rows without partner. Without `--file` the joined rows go to the standard output; the files named by `--file` and
`--also`, if they are new, hold what is written to them and nothing else. -/
theorem C221_join (w : World) (s : Sys) (c j : Cmd) (hc : c ∈ mainList) (hcn : c.name = "sort") (hj : j ∈ mainList) (hjn : j.name = "join")
    (namesA namesB : List Bytes) (rowsA rowsB : List (List Bytes)) (ks : List JoinKey) (asks : List (List (Nat × Bytes × List Bytes)))
    (also : List (Nat × Bytes)) (os : List (Bytes × Bytes)) (sA sB : List SortOpt) (f g x y : Bytes) (sortA sortB join : List Tok)
    (w1 : Words c sortA (sA.map SortOpt.said) [f]) (w2 : Words c sortB (sB.map SortOpt.said) [g]) (w3 : Words j join os [x, y])
    (rA : Tables w s [f] namesA [rowsA]) (rB : Tables w s [g] namesB [rowsB]) (hx : LocalName x ∧ x ≠ f ∧ x ≠ g)
    (hy : LocalName y ∧ y ≠ f ∧ y ≠ g) (hxy : x ≠ y)
    (hA : GoodTable namesA rowsA) (hB : GoodTable namesB rowsB) (hjo : JoinOptsFit namesA namesB ks asks also os)
    (fA : SortFits namesA (ks.map (·.onLeft)) sA) (fB : SortFits namesB (ks.map (·.onRight)) sB)
    (uA : SortOpt.unique ∉ sA) (uB : SortOpt.unique ∉ sB) (okA : ∀ n ∈ namesA, w.nameOk n = true) (okB : ∀ n ∈ namesB, w.nameOk n = true)
    (zA : ∀ r ∈ rowsA, ∀ c ∈ r, 0 ∉ c) (zB : ∀ r ∈ rowsB, ∀ c ∈ r, 0 ∉ c) (hcap : 8 < w.cap)
    (cA : (sepText TAB rowsA).length < w.cap) (cB : (sepText TAB rowsB).length < w.cap)
    (hd : rowsB.Pairwise fun x y => keyCmp ks (rightKey namesB ks x) (rightKey namesB ks y) ≠ .eq) :
    ∃ t t' rowsA' rowsB', w.script [([("sort", sortA)], x), ([("sort", sortB)], y)] s = .ok t ∧ w.run "join" join t = .ok t' ∧
      StableSort (fun x y => keyCmp ks (leftKey namesA ks x) (leftKey namesA ks y)) rowsA rowsA' ∧ rowsB'.Perm rowsB ∧
      (joinedRows namesA namesB ks (joinShown namesA namesB ks asks.flatten) rowsA' rowsB').Perm
        (joinedRows namesA namesB ks (joinShown namesA namesB ks asks.flatten) rowsA rowsB) ∧
      (∀ n, (lonelyRows namesA namesB ks rowsA' rowsB' n).Perm (lonelyRows namesA namesB ks rowsA rowsB n)) ∧
      (optVals "file" os = [] → (∀ p ∈ also, p.2 ≠ [45]) →
        t'.stdout = t.stdout ++ (sepHead TAB ((joinShown namesA namesB ks asks.flatten).map (·.2)) ++
          sepText TAB (joinedRows namesA namesB ks (joinShown namesA namesB ks asks.flatten) rowsA' rowsB'))) ∧
      ((((optVals "file" os).getLastD (ascii "-")) :: also.map (·.2)).Nodup →
        (∀ n ∈ ((optVals "file" os).getLastD (ascii "-")) :: also.map (·.2), n ≠ [45] ∧ n ≠ [45, 45] ∧ s.files n = none ∧ n ≠ x ∧ n ≠ y) →
        t'.files ((optVals "file" os).getLastD (ascii "-")) = some (sepHead TAB ((joinShown namesA namesB ks asks.flatten).map (·.2)) ++
          sepText TAB (joinedRows namesA namesB ks (joinShown namesA namesB ks asks.flatten) rowsA' rowsB')) ∧
        ∀ p ∈ also, t'.files p.2 = some (sepHead TAB (if p.1 = 1 then namesA else namesB) ++
          sepText TAB (lonelyRows namesA namesB ks rowsA' rowsB' p.1))) := by
  obtain ⟨tA, tB, rowsA', rowsB', h1, h2, h3, h4, h5, h6, h7⟩ := C207_sort_join w.toF64 w.nameOk w.pick w.rd w.cap .default w.transOk w.compiles
    w.colMatch w.eval w.exprCols namesA namesB rowsA rowsB ks asks also os sA sB hA hB hjo fA fB uA uB okA okB zA zB hcap cA cB hd
  obtain ⟨restA, rfl⟩ := sort_plain w (tables := [rowsA]) fA (by simpa using hA) okA (by simp) (by simpa using zA) hcap (by simpa using cA) h1
  obtain ⟨restB, rfl⟩ := sort_plain w (tables := [rowsB]) fB (by simpa using hB) okB (by simp) (by simpa using zB) hcap (by simpa using cB) h2
  obtain ⟨t, t1, t2, t3, t4⟩ := script_runs w [([("sort", sortA)], x, sepHead TAB namesA ++ restA), ([("sort", sortB)], y, sepHead TAB namesB ++ restB)] s
    (by simpa using hxy) (by
      intro q hq t ht hm
      have hm : ∀ m, m ≠ x → m ≠ y → t.files m = s.files m := fun m h1 h2 => hm m (by simp [h1, h2])
      simp only [List.mem_cons, List.not_mem_nil, or_false] at hq
      rcases hq with rfl | rfl
      · obtain ⟨g1, g2⟩ := (rA.same ht fun n hn => by
          rw [List.mem_singleton] at hn
          subst hn
          exact hm n hx.2.1.symm hy.2.1.symm).read
        show w.pipe [("sort", sortA)] t = _
        rw [← hcn]
        exact pipe_one w hc (by rw [hcn]; decide) (by rw [hcn]; decide) w1 t g1 (by rw [hcn, output_sort w _ g2]; exact sortMainF_ok w.eval h1)
      · obtain ⟨g1, g2⟩ := (rB.same ht fun n hn => by
          rw [List.mem_singleton] at hn
          subst hn
          exact hm n hx.2.2.symm hy.2.2.symm).read
        show w.pipe [("sort", sortB)] t = _
        rw [← hcn]
        exact pipe_one w hc (by rw [hcn]; decide) (by rw [hcn]; decide) w2 t g1 (by rw [hcn, output_sort w _ g2]; exact sortMainF_ok w.eval h2))
  have fx : t.files x = some (sepHead TAB namesA ++ restA) := t3 _ (List.mem_cons_self ..)
  have fy : t.files y = some (sepHead TAB namesB ++ restB) := t3 _ (List.mem_cons_of_mem _ (List.mem_cons_self ..))
  have hread : w.read t [x, y] = .ok [(x, sepHead TAB namesA ++ restA), (y, sepHead TAB namesB ++ restB)] :=
    read_texts w t (files := [x, y]) (texts := [sepHead TAB namesA ++ restA, sepHead TAB namesB ++ restB]) (by
      simp only [List.map_cons, List.map_nil, reader_local w hx.1 fx (head_plain _ _), reader_local w hy.1 fy (head_plain _ _)])
  have hrun : w.run "join" join t = .ok ((((optVals "file" os).getLastD (ascii "-"), sepHead TAB ((joinShown namesA namesB ks asks.flatten).map (·.2)) ++
            sepText TAB (joinedRows namesA namesB ks (joinShown namesA namesB ks asks.flatten) rowsA' rowsB')) ::
          also.map fun p => (p.2, sepHead TAB (if p.1 = 1 then namesA else namesB) ++ sepText TAB (lonelyRows namesA namesB ks rowsA' rowsB' p.1))).foldl
            (fun s o => putFile s o.1 [o.2]) t) := by
    rw [← hjn, run_words w hj w3]
    unfold World.command
    rw [if_neg (by rw [hjn]; decide), hread]
    simp only [Run.bind]
    rw [if_pos hjn]
    simp only [List.map_cons, List.map_nil]
    rw [h5]
    rfl
  refine ⟨t, _, rowsA', rowsB', t1, hrun, h3, h4, h6, h7, ?_, ?_⟩
  · intro hf hal
    rw [List.foldl_cons]
    have stdoutSame : ∀ (outs : List (Bytes × Bytes)) (s : Sys), (∀ o ∈ outs, o.1 ≠ [45]) →
        (outs.foldl (fun s o => putFile s o.1 [o.2]) s).stdout = s.stdout := by
      intro outs
      induction outs with
      | nil => intros; rfl
      | cons o outs ih =>
        intro s h
        rw [List.foldl_cons, ih _ fun o ho => h o (by simp [ho])]
        have := h o (by simp)
        by_cases h2 : o.1 = [45, 45]
        · simp [putFile, getWriter, h2, Sys.writeAll, Sys.write]
        · simp [putFile, getWriter, this, h2, Sys.writeAll, Sys.write]
    rw [stdoutSame _ _ (by
      intro o ho
      obtain ⟨p, hp, rfl⟩ := List.mem_map.1 ho
      exact hal p hp), hf]
    show (t.print _).stdout = _
    rw [print_eq]
  · intro hnd hfresh
    have := putFiles_fresh (((optVals "file" os).getLastD (ascii "-"), sepHead TAB ((joinShown namesA namesB ks asks.flatten).map (·.2)) ++
            sepText TAB (joinedRows namesA namesB ks (joinShown namesA namesB ks asks.flatten) rowsA' rowsB')) ::
          also.map fun p => (p.2, sepHead TAB (if p.1 = 1 then namesA else namesB) ++ sepText TAB (lonelyRows namesA namesB ks rowsA' rowsB' p.1))) t
      (by rw [List.map_cons, List.map_map]; exact hnd) (by
        intro o ho
        have hm : o.1 ∈ ((optVals "file" os).getLastD (ascii "-")) :: also.map (·.2) := by
          rcases List.mem_cons.1 ho with rfl | ho
          · exact List.mem_cons_self ..
          · obtain ⟨p, hp, rfl⟩ := List.mem_map.1 ho
            exact List.mem_cons_of_mem _ (List.mem_map_of_mem hp)
        obtain ⟨a, b, c, d, e⟩ := hfresh _ hm
        refine ⟨a, b, ?_⟩
        rw [t4 _ (by simp [d, e]), c])
    exact ⟨this _ (List.mem_cons_self ..), fun p hp => this _ (List.mem_cons_of_mem _ (List.mem_map_of_mem hp))⟩

/-- Two files to be joined. -/
def sys1 : Sys :=
  { files := fun n => if n = ascii "f" then some (ascii " CDX\tk\tx\nb\t1\na\t3\nb\t2\n")
      else if n = ascii "g" then some (ascii " CDX\ty\ti\n8\tc\n9\tb\n") else none
    stdin := [], stdout := [], stderr := [] }

/-- `cdx sort --key k f > p; cdx sort --key i g > q; cdx join --also 2,u --key k.2 --file o --output 2.y,1.x,k --also 1,v p q` makes a file `o`. -/
example : ∃ t t' out, world0.script [([("sort", [.opt "key" (ascii "k"), .pos "input_files" (ascii "f")])], ascii "p"),
      ([("sort", [.opt "key" (ascii "i"), .pos "input_files" (ascii "g")])], ascii "q")] sys1 = .ok t ∧
    world0.run "join" [.opt "also" (ascii "2,u"), .opt "key" (ascii "k.2"), .opt "file" (ascii "o"), .opt "output" (ascii "2.y,1.x,k"),
      .opt "also" (ascii "1,v"), .pos "input_files" (ascii "p"), .pos "input_files" (ascii "q")] t = .ok t' ∧ t'.files (ascii "o") = some out := by
  have nm : ∀ (c : UInt8), Letter c → IsName [c] := one_letter
  have hA : ∀ n ∈ [ascii "k", ascii "x"], IsName n := by
    intro n hn
    simp only [List.mem_cons, List.not_mem_nil, or_false] at hn
    rcases hn with rfl | rfl
    · exact nm 107 (by unfold Letter; decide)
    · exact nm 120 (by unfold Letter; decide)
  have hB : ∀ n ∈ [ascii "y", ascii "i"], IsName n := by
    intro n hn
    simp only [List.mem_cons, List.not_mem_nil, or_false] at hn
    rcases hn with rfl | rfl
    · exact nm 121 (by unfold Letter; decide)
    · exact nm 105 (by unfold Letter; decide)
  obtain ⟨t, t', a, b, h1, h2, -, -, -, -, -, h3⟩ := C221_join world0 sys1 (cmd0 "sort") (cmd0 "join") (cmd0_mem (by decide +kernel)) (by decide +kernel)
    (cmd0_mem (by decide +kernel)) (by decide +kernel) [ascii "k", ascii "x"] [ascii "y", ascii "i"]
    [[ascii "b", ascii "1"], [ascii "a", ascii "3"], [ascii "b", ascii "2"]] [[ascii "8", ascii "c"], [ascii "9", ascii "b"]] _ _ _ _
    [.key (ascii "k")] [.key (ascii "i")] (ascii "f") (ascii "g") (ascii "p") (ascii "q") [.opt "key" (ascii "k"), .pos "input_files" (ascii "f")]
    [.opt "key" (ascii "i"), .pos "input_files" (ascii "g")]
    [.opt "also" (ascii "2,u"), .opt "key" (ascii "k.2"), .opt "file" (ascii "o"), .opt "output" (ascii "2.y,1.x,k"),
      .opt "also" (ascii "1,v"), .pos "input_files" (ascii "p"), .pos "input_files" (ascii "q")]
    ⟨by decide +kernel, by decide +kernel, by decide +kernel, by decide +kernel⟩
    ⟨by decide +kernel, by decide +kernel, by decide +kernel, by decide +kernel⟩
    ⟨by decide +kernel, by decide +kernel, by decide +kernel, by decide +kernel⟩
    (by unfold Tables; decide +kernel) (by unfold Tables; decide +kernel) (by decide +kernel) (by decide +kernel) (by decide +kernel)
    ⟨by decide, hA, by decide, by decide, by decide +kernel⟩ ⟨by decide, hB, by decide, by decide, by decide +kernel⟩
    joinOptsFit_example (sortFits_one _ _ (by decide)) (sortFits_one _ _ (by decide)) (by simp) (by simp) (fun _ _ => rfl) (fun _ _ => rfl)
    (by decide +kernel) (by decide +kernel) (by decide) (by decide +kernel) (by decide +kernel) (by decide +kernel)
  exact ⟨t, t', _, h1, h2, (h3 (by decide +kernel) (by decide +kernel)).1⟩

end Cdx
