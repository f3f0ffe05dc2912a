import Verif.Model.Match
import Verif.Model.Header

/-!
The `cgrep` command, `/repo/src/bin/cdx/cgrep_main.rs`.

Simplifications. Files are read and written in the default text mode. `--location` and the options that print help are
left out. Matchers are given made (`makeLine`).
-/

namespace Cdx

/-- `ColumnHeader::get_head` (`src/column.rs` 229-262) in the default text mode. The size computed for no columns at all
is negative, which panics. -/
def columnHead (cols : List Bytes) : Res Bytes :=
  if cols = [] then .panic else .ok (List.intercalate [TAB] (cdxTag :: cols) ++ [NL])

/-- `lookup` of `LineMatcherList` (`src/matcher.rs` 1296-1301). -/
def lookupAll (env : MEnv) (names : List Bytes) : List LineMatcher → Res (List LineTest)
  | [] => .ok []
  | m :: ms => (m.lookup env names).bind fun t => (lookupAll env names ms).bind fun ts => .ok (t :: ts)

/-- The loop over the lines of a file (`src/bin/cdx/cgrep_main.rs` 62-73): the lines written. -/
def grepLoop (env : MEnv) (c : Combiner) (ts : List LineTest) (reverse : Bool) : List Bytes → Res (List Bytes)
  | [] => .ok []
  | l :: ls => (lineListOk env c ts (mergeLine l)).bind fun ok =>
    (grepLoop env c ts reverse ls).bind fun out => .ok (if ok ^^ reverse then l :: out else out)

/-- The header written for a file (`src/bin/cdx/cgrep_main.rs` 48-58), and the new state of the checker. -/
def grepHeader (nameOk : Bytes → Bool) (chk : HeaderChecker) (o : Opened) : Res (HeaderChecker × Bytes) :=
  ((⟨[], .fail, []⟩ : ColumnHeader).pushAll o.names).bind fun h =>
    (if o.hasHeader then columnHead h.cols else .ok []).bind fun head =>
      match chk.check nameOk head with
      | Option.none => .err
      | some (chk', b) => .ok (chk', if b then head else [])

/-- The loop over the files (`src/bin/cdx/cgrep_main.rs` 41-74): headers and lines written, per file. -/
def grepFiles (env : MEnv) (nameOk : Bytes → Bool) (c : Combiner) (ms : List LineMatcher) (reverse : Bool) :
    HeaderChecker → List Bytes → Res (List (Bytes × List Bytes))
  | _, [] => .ok []
  | chk, f :: fs =>
    if f = [] then grepFiles env nameOk c ms reverse chk fs
    else
      let o := openReader f
      (lookupAll env o.names ms).bind fun ts => (grepHeader nameOk chk o).bind fun h =>
        (grepLoop env c ts reverse o.lines).bind fun ls =>
          (grepFiles env nameOk c ms reverse h.1 fs).bind fun rest => .ok ((h.2, ls) :: rest)

/-- `cgrep` (`src/bin/cdx/cgrep_main.rs` 18-76): what is written. -/
def cgrep (env : MEnv) (nameOk : Bytes → Bool) (mode : HeaderMode) (c : Combiner) (ms : List LineMatcher) (reverse : Bool)
    (files : List Bytes) : Res Bytes :=
  (grepFiles env nameOk c ms reverse (.fromMode mode) files).bind fun r => .ok (r.map fun x => x.1 ++ x.2.flatten).flatten

end Cdx
