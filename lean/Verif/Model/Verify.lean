import Verif.Model.Cat

/-!
The `verify` command, `/repo/src/bin/cdx/verify_main.rs`, and the check of `sort`, `/repo/src/bin/cdx/sort_main.rs` 54-76.

Simplifications. What is written to stderr is left out. Keys are given made; for those of the options see
`Model/VerifyMain.lean`. Files can be read.
-/

namespace Cdx

/-- A key as given on the command line (`src/comp.rs` 380-382 and 472-475): a comparison of whole lines or of a column. -/
inductive Key
  | whole (k : CompKind) (reverse : Bool)
  | col (k : CompKind) (c : NamedCol) (reverse : Bool)
deriving DecidableEq, Repr

/-- A key as it is made (`src/comp.rs` 479-485): the column number is that of the specification, and 0 for a name
(`src/column.rs` 1487). -/
def Key.fresh : Key → LineComp
  | .whole k r => ⟨.whole k, r, TAB⟩
  | .col k c r => ⟨.col k fun _ => c.num, r, TAB⟩

/-- `lookup` of a key (`src/comp.rs` 430-432 and 533-538). -/
def Key.lookup (names : List Bytes) : Key → Res LineComp
  | .whole k r => .ok ⟨.whole k, r, TAB⟩
  | .col k c r => (c.lookup names).bind fun n => .ok ⟨.col k fun _ => n, r, TAB⟩

/-- `lookup` of `LineCompList` (`src/comp.rs` 1374-1384). -/
def lookupKeys (names : List Bytes) : List Key → Res (List LineComp)
  | [] => .ok []
  | k :: ks => (k.lookup names).bind fun c => (lookupKeys names ks).bind fun cs => .ok (c :: cs)

/-! ## `sort --check` -/

/-- The loop over the lines of a file (`src/bin/cdx/sort_main.rs` 61-71): the number of reports afterwards; `none` is a panic.
The first argument bounds the number of lines. -/
def checkLoop (toF64 : Bytes → F64) (cs : List LineComp) (unique : Bool) (maxReports : Nat) : Nat → Reader → Nat → Option Nat
  | 0, _, _ => none
  | fuel + 1, r, reported =>
    let r' := r.getline
    if r'.isDone then some reported
    else (r'.prevLine 1).bind fun prev =>
      if compCheck (compColsList toF64 cs prev r'.currLine) unique then
        if reported + 1 ≥ maxReports then some (reported + 1)
        else checkLoop toF64 cs unique maxReports fuel r' (reported + 1)
      else checkLoop toF64 cs unique maxReports fuel r' reported

/-- The loop over the files (`src/bin/cdx/sort_main.rs` 56-72). -/
def checkFiles (toF64 : Bytes → F64) (m : TextMode) (cs : List LineComp) (unique : Bool) (maxReports : Nat) :
    Nat → List Bytes → Option Nat
  | reported, [] => some reported
  | reported, f :: fs =>
    let r := Reader.newOpenWith f 1 m
    if r.isDone then checkFiles toF64 m cs unique maxReports reported fs
    else (checkLoop toF64 cs unique maxReports (r.file.length + 1) r reported).bind fun n =>
      checkFiles toF64 m cs unique maxReports n fs

/-- `sort --check` (`src/bin/cdx/sort_main.rs` 54-76): whether it succeeds. The keys are not looked up. -/
def sortCheck (toF64 : Bytes → F64) (m : TextMode) (keys : List Key) (unique : Bool) (maxReports : Nat)
    (files : List Bytes) : Option Bool :=
  (checkFiles toF64 m (keys.map (·.fresh)) unique maxReports 0 files).map (· == 0)

/-! ## `verify` -/

/-- The options of `verify` (`src/bin/cdx/verify_main.rs` 36-42). -/
structure VerifyConf where
  matchers : List LineMatcher
  sort : Bool
  unique : Bool
  first : Option CheckLine
  last : Option CheckLine

/-- `max_fails` (`src/bin/cdx/verify_main.rs` 40); no option changes it, because `fail` is not in the list of options. -/
def maxFails : Nat := 5

/-- A check of the first or last line (`src/bin/cdx/verify_main.rs` 88-96 and 113-121), with the number of failures. -/
def checkOne (toF64 : Bytes → F64) (cs : List LineComp) (c : Option CheckLine) (line : TextLine) (fails : Nat) : Res Nat :=
  match c with
  | none => .ok fails
  | some c => (c.lineOkVerbose toF64 cs line).bind fun ok => .ok (if ok then fails else fails + 1)

/-- The loop over the lines of a file (`src/bin/cdx/verify_main.rs` 98-133): the number of failures afterwards. -/
def verifyLoop (env : MEnv) (conf : VerifyConf) (cs : List LineComp) (ts : List LineTest) (numCols : Nat) :
    Nat → Reader → Nat → Res Nat
  | 0, _, _ => .panic
  | fuel + 1, r, fails =>
    (lineListVerbose env .and ts r.currLine).bind fun ok =>
      let bad := r.currLine.len != numCols || !ok
      let r' := r.getline
      match r'.prevLine 1 with
      | none => .panic
      | some prev =>
        if r'.isDone then checkOne env.toF64 cs conf.last prev fails
        else
          let bad := bad || (conf.sort && compCheck (compColsList env.toF64 cs prev r'.currLine) conf.unique)
          if bad then
            if fails + 1 ≥ maxFails then .ok (fails + 1)
            else verifyLoop env conf cs ts numCols fuel r' (fails + 1)
          else verifyLoop env conf cs ts numCols fuel r' fails

/-- One file (`src/bin/cdx/verify_main.rs` 77-133). `look` looks up the keys in the names of the columns. -/
def verifyFile (env : MEnv) (m : TextMode) (conf : VerifyConf) (look : List Bytes → Res (List LineComp)) (f : Bytes) (fails : Nat) : Res Nat :=
  let r := (Reader.newWith 1 m).open_ f
  if r.isEmpty then .ok fails
  else (lookupAll env r.names conf.matchers).bind fun ts => (look r.names).bind fun cs =>
    if r.isDone then .ok fails
    else (checkOne env.toF64 cs conf.first r.currLine fails).bind fun n =>
      verifyLoop env conf cs ts r.names.length (r.file.length + 1) r n

/-- The loop over the files (`src/bin/cdx/verify_main.rs` 76-138): whether `verify` succeeds. -/
def verifyFiles (env : MEnv) (m : TextMode) (conf : VerifyConf) (look : List Bytes → Res (List LineComp)) : Nat → List Bytes → Res Bool
  | _, [] => .ok true
  | fails, f :: fs => (verifyFile env m conf look f fails).bind fun n =>
    if n > 0 then .ok false else verifyFiles env m conf look n fs

/-- `verify` (`src/bin/cdx/verify_main.rs` 20-140) on the contents of its files, with keys that are not expressions. -/
def verifyCmd (env : MEnv) (m : TextMode) (conf : VerifyConf) (keys : List Key) (files : List Bytes) : Res Bool :=
  verifyFiles env m conf (fun names => lookupKeys names keys) 0 files

end Cdx
