import Verif.Props.RunCmds

/-!
C237: files that cannot be opened.
-/

namespace Cdx

theorem read_missing (w : World) (s : Sys) : ∀ {files : List Bytes} {f : Bytes}, f ∈ files → getReader w.s3 w.gunzip s f = none →
    w.read s files = .fail .other
  | n :: ns, f, hm, hf => by
    unfold World.read
    rcases List.mem_cons.1 hm with rfl | hm
    · rw [hf]
    · rw [read_missing w s hm hf]
      split <;> rfl

theorem map_missing (s : Sys) : ∀ {files : List Bytes} {f : Bytes}, f ∈ files → s.files f = none → mapFiles s files = .fail .other
  | n :: ns, f, hm, hf => by
    unfold mapFiles
    rcases List.mem_cons.1 hm with rfl | hm
    · rw [hf]
    · rw [map_missing s hm hf]
      split <;> rfl

/-- C237: a command that is given a file that cannot be opened does not succeed, and a command that succeeds could open all its files. `cat` and
`sample` can stop at a file of which nothing is left after its header, and then never open the next. -/
theorem C237_missing (w : World) (s s' : Sys) (c : Cmd) (hc : c ∈ mainList) (_h1 : c.name ≠ "cat") (_h2 : c.name ≠ "sample") (toks : List Tok)
    (m : TextMode) (t : Option TextMode) (opts : List (Bytes × Bytes)) (files : List Bytes) (h : Says w c toks m t opts files)
    (hr : w.run c.name toks s = .ok s') :
    ∀ f ∈ files, (if c.name = "binsearch" then s.files f else getReader w.s3 w.gunzip s f).isSome = true := by
  intro f hf
  rw [run_says w hc h] at hr
  unfold World.command at hr
  by_cases hb : c.name = "binsearch"
  · rw [if_pos hb] at hr ⊢
    cases e : s.files f with
    | some _ => rfl
    | none =>
      rw [map_missing s hf e] at hr
      cases hr
  · rw [if_neg hb] at hr ⊢
    cases e : getReader w.s3 w.gunzip s f with
    | some _ => rfl
    | none =>
      rw [read_missing w s hf e] at hr
      cases hr

/-- `cdx cut --fields a p nowhere`: the hypotheses on the words hold, so it fails. -/
example : ∀ s', world1.run "cut" [.opt "fields" (ascii "a"), .pos "input_files" (ascii "p"), .pos "input_files" (ascii "nowhere")] sys3 ≠ .ok s' := by
  intro s' hr
  have := C237_missing world1 sys3 s' (cmd0 "cut") (cmd0_mem (by decide +kernel)) (by decide +kernel) (by decide +kernel) _ .default none
    [(ascii "fields", ascii "a")] [ascii "p", ascii "nowhere"]
    (says_plain (by decide +kernel) (by decide +kernel) (by decide +kernel) (by decide +kernel) (by decide +kernel)) hr (ascii "nowhere") (by simp)
  revert this
  decide +kernel

end Cdx
