import Verif.Props.SortNums

/-!
C240: what the program refuses.
-/

namespace Cdx

/-- The commands, as the help lists them (`src/bin/cdx/cdxmain.rs` 27-44), and the words `main` knows itself (`src/bin/cdx/main.rs` 57-71). -/
def knownWords : List String :=
  ["binsearch", "calc", "cat", "cgrep", "cut", "filegen", "join", "paste", "sample", "sort", "tabs", "tooltest", "transpose", "uniq", "verify", "wc", "help", "--help",
    "version", "--version"]

/-- C240: a first word that is none of these fails, whatever follows. -/
theorem C240_unknown (w : World) (cmd : String) (h : cmd ∉ knownWords) (toks : List Tok) (s : Sys) : w.run cmd toks s = .fail .silent := by
  unfold World.run
  have : (mainList.find? fun c => decide (c.name = cmd)) = none := by
    rw [List.find?_eq_none]
    intro c hc e
    have all : ∀ c ∈ mainList, c.name ∈ knownWords := by decide +kernel
    rw [← of_decide_eq_true e] at h
    exact h (all c hc)
  rw [this]

theorem sort_keeps {x y : SortOpts} {o : SortOpt} (h : x.add o = .ok y) :
    y.merge = (x.merge || decide (o = .merge)) ∧ y.check = (x.check || o.isCheck) := by
  cases o <;> simp only [SortOpts.add] at h
  case key =>
    obtain ⟨k, _, h⟩ := Res.bind_eq_ok h
    cases h
    simp [SortOpt.isCheck]
  case checkN =>
    obtain ⟨k, _, h⟩ := Res.bind_eq_ok h
    cases h
    simp [SortOpt.isCheck]
  all_goals
    cases h
    simp [SortOpt.isCheck]

theorem formula_keeps : ∀ (os : List SortOpt) {x y : FormulaOpts}, x.addAll os = .ok y →
    y.rest.merge = (x.rest.merge || decide (SortOpt.merge ∈ os)) ∧ y.rest.check = (x.rest.check || os.any (·.isCheck))
  | [], x, y, h => by
    cases h
    simp
  | o :: os, x, y, h => by
    simp only [FormulaOpts.addAll] at h
    obtain ⟨z, h1, h2⟩ := Res.bind_eq_ok h
    obtain ⟨a, b⟩ := formula_keeps os h2
    have hz : z.rest.merge = (x.rest.merge || decide (o = .merge)) ∧ z.rest.check = (x.rest.check || o.isCheck) := by
      cases o with
      | key spec =>
        simp only [FormulaOpts.add] at h1
        obtain ⟨k, _, h1⟩ := Res.bind_eq_ok h1
        cases h1
        simp [SortOpt.isCheck]
      | _ =>
        simp only [FormulaOpts.add] at h1
        obtain ⟨r, h3, h1⟩ := Res.bind_eq_ok h1
        cases h1
        exact sort_keeps h3
    rw [a, b, hz.1, hz.2]
    constructor
    · rw [Bool.or_assoc]
      congr 1
      rw [Bool.eq_iff_iff]
      simp only [Bool.or_eq_true, decide_eq_true_eq, List.mem_cons]
      exact or_congr_left eq_comm
    · rw [Bool.or_assoc, List.any_cons]

/-- C240: `sort` with both `--check` (or `--Check`) and `--merge` does not succeed. -/
theorem C240_both (w : World) (s s' : Sys) (c : Cmd) (hc : c ∈ mainList) (hn : c.name = "sort") (toks : List Tok) (m : TextMode) (t : Option TextMode)
    (os : List SortOpt) (files : List Bytes) (h : Says w c toks m t (os.map SortOpt.said) files) (h1 : SortOpt.merge ∈ os)
    (h2 : ∃ x ∈ os, x.isCheck = true) : w.run "sort" toks s ≠ .ok s' := by
  intro hr
  rw [← hn, run_says w hc h] at hr
  unfold World.command at hr
  rw [if_neg (by rw [hn]; decide)] at hr
  obtain ⟨fs, -, hr⟩ := Run.bind_eq_ok hr
  rw [if_neg (by rw [hn]; decide)] at hr
  obtain ⟨out, hr, -⟩ := Run.bind_eq_ok hr
  rw [hn] at hr
  unfold World.output at hr
  simp only [if_false, if_true, String.reduceEq, opts_said, Res.run, Run.bind] at hr
  have hany : os.any (·.isCheck) = true := List.any_eq_true.2 h2
  unfold sortMainF at hr
  cases ho : SortOpts.addAll {} os with
  | ok o =>
    obtain ⟨a1, a2, a3, a4, _⟩ := C139_options os o ho
    have e1 : o.merge = true := by rw [a3]; simpa using h1
    have e2 : o.check = true := by rw [a4]; exact hany
    simp [ho, sortMain, Res.run, Run.bind, SortOpts.run, e1, e2] at hr
  | _ =>
    simp only [ho] at hr
    cases hf : FormulaOpts.addAll {} os with
    | ok y =>
      obtain ⟨a, b⟩ := formula_keeps os hf
      have e1 : y.rest.check = true := by rw [b, hany, Bool.or_true]
      simp [hf, Res.run, Run.bind, FormulaOpts.run, e1] at hr
    | _ => simp [hf, Res.run, Run.bind] at hr

/-- `cdx sort --check --key a --merge t`. -/
example : ∀ s', (outside0.world sys7).run "sort" [.flag "check", .opt "key" (ascii "a"), .flag "merge", .pos "input_files" (ascii "t")] sys7 ≠ .ok s' := fun s' =>
  C240_both _ _ _ (cmd0 "sort") (cmd0_mem (by decide +kernel)) (by decide +kernel) _ .default none [.check, .key (ascii "a"), .merge] [ascii "t"]
    (says_plain (by decide +kernel) (by decide +kernel) (by decide +kernel) (by decide +kernel) (by decide +kernel)) (by decide) ⟨.check, by decide, rfl⟩

/-- `cdx grep`. -/
example : "grep" ∉ knownWords := by decide

end Cdx
