import Verif.Model.Paste
import Verif.Model.Sampler

/-!
The `sample` command, `/repo/src/bin/cdx/sample_main.rs`.

Simplifications. The options are given parsed, apart from the texts of ranges and loops; without options the number of lines is the
height of the screen, which is left out. Files can be read.
-/

namespace Cdx

/-- One range (`Ranges::push`, `src/bin/cdx/sample_main.rs` 13-24). -/
def rangeParse (spec : Bytes) : Res (Nat × Nat) :=
  match splitOnce 45 spec with
  | some (a, b) => (toUsizeWhole a).bind fun x => (toUsizeWhole b).bind fun y => .ok (x, y)
  | none => (toUsizeWhole spec).bind fun x => .ok (x, x)

/-- `Ranges` from their text (`src/bin/cdx/sample_main.rs` 115-117). -/
def rangesParse : List Bytes → Res (List (Nat × Nat))
  | [] => .ok []
  | x :: xs => (rangeParse x).bind fun r => (rangesParse xs).bind fun rs => .ok (r :: rs)

/-- `Ranges::max` (`src/bin/cdx/sample_main.rs` 25-31). -/
def rangesMax (rs : List (Nat × Nat)) : Nat := rs.foldl (fun ret x => max ret x.2) 0

/-- `Ranges::contains` (`src/bin/cdx/sample_main.rs` 32-39). -/
def rangesContains (rs : List (Nat × Nat)) (val : Nat) : Bool := rs.any fun x => decide (x.1 ≤ val) && decide (val ≤ x.2)

/-- `For` (`src/bin/cdx/sample_main.rs` 42-46). -/
structure ForLoop where
  by_ : Nat
  from_ : Nat
  to : Nat
deriving DecidableEq, Repr

/-- `For::new` (`src/bin/cdx/sample_main.rs` 58-83). -/
def ForLoop.parse (spec : Bytes) : Res ForLoop :=
  if spec = [] then .err
  else
    (match sliceSplit 44 spec with
      | [a] => (toUsizeWhole a).bind fun x => .ok (⟨x, 1, usizeMax⟩ : ForLoop)
      | [a, b] => (toUsizeWhole a).bind fun x => (toUsizeWhole b).bind fun y => .ok (⟨x, y, usizeMax⟩ : ForLoop)
      | a :: b :: c :: rest => (toUsizeWhole a).bind fun x => (toUsizeWhole b).bind fun y =>
          (toUsizeWhole c).bind fun z => if rest = [] then .ok (⟨x, y, z⟩ : ForLoop) else .err
      | [] => .panic).bind fun f =>
      if f.by_ = 0 ∨ f.from_ = 0 ∨ f.to = 0 then .err else .ok f

/-- What is asked for (`src/bin/cdx/sample_main.rs` 91-97). -/
inductive SampleMode
  | sample (n : Nat)
  | loop (f : ForLoop)
  | range (rs : List (Nat × Nat))

/-- The loop for ranges (`src/bin/cdx/sample_main.rs` 168-176). The first argument bounds the number of lines. -/
def rangeLoop (rs : List (Nat × Nat)) (max : Nat) : Nat → Reader → Res Bytes
  | 0, _ => .panic
  | fuel + 1, r =>
    if r.locLine ≤ max then
      let x := if rangesContains rs r.locLine then r.currLine.text else []
      let r' := r.getline
      if r'.isDone then .ok x else (rangeLoop rs max fuel r').bind fun y => .ok (x ++ y)
    else .ok []

/-- The loop for `--for` (`src/bin/cdx/sample_main.rs` 156-165). -/
def forLoop (f : ForLoop) : Nat → (next : Nat) → Reader → Res Bytes
  | 0, _, _ => .panic
  | fuel + 1, next, r =>
    if r.locLine ≤ f.to then
      if r.locLine = next ∧ next + f.by_ > usizeMax then .panic
      else
        let x := if r.locLine = next then r.currLine.text else []
        let next := if r.locLine = next then next + f.by_ else next
        let r' := r.getline
        if r'.isDone then .ok x else (forLoop f fuel next r').bind fun y => .ok (x ++ y)
    else .ok []

/-- The loop for `--sample` (`src/bin/cdx/sample_main.rs` 149-154). -/
def smoothLoop : Nat → Smooth Bytes → Reader → Res (Smooth Bytes)
  | 0, _, _ => .panic
  | fuel + 1, s, r => (s.add r.currLine.text).bind fun s =>
      let r' := r.getline
      if r'.isDone then .ok s else smoothLoop fuel s r'

/-- The lines of a file (`src/bin/cdx/sample_main.rs` 146-176, with `finalize`, `src/sampler.rs` 104-115). -/
def sampleFile (mode : SampleMode) (r : Reader) : Res Bytes :=
  let r := r.setSplit false
  match mode with
  | .sample n => (smoothLoop (r.file.length + 1) (Smooth.new [] n) r).bind fun s => s.collapse.bind fun s =>
      if s.size ≤ s.data.length then .ok (s.data.take s.size).flatten else .panic
  | .loop f => forLoop f (r.file.length + 1) f.from_ r
  | .range rs => rangeLoop rs (rangesMax rs) (r.file.length + 1) r

/-- `HeaderChecker::check_file` (`src/util.rs` 1948-1956). -/
def HeaderChecker.checkFile (nameOk : Bytes → Bool) (chk : HeaderChecker) (r : Reader) : Option (HeaderChecker × Bool) :=
  (chk.check nameOk (if r.hasHeader then r.header else [102, 97, 107, 101])).map fun p => (p.1, r.hasHeader && !chk.sawOne)

/-- The loop over the files (`src/bin/cdx/sample_main.rs` 134-177). A file with a header only ends it. -/
def sampleFiles (nameOk : Bytes → Bool) (m : TextMode) (mode : SampleMode) : HeaderChecker → List Bytes → Res Bytes
  | _, [] => .ok []
  | chk, f :: fs =>
    let r := (Reader.newWith 1 m).open_ f
    if r.isEmpty then sampleFiles nameOk m mode chk fs
    else match chk.checkFile nameOk r with
      | none => .err
      | some (chk, b) =>
        let head := if b then r.header else []
        if r.isDone then .ok head
        else (sampleFile mode r).bind fun x => (sampleFiles nameOk m mode chk fs).bind fun y => .ok (head ++ x ++ y)

end Cdx
