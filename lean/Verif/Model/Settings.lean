import Verif.Model.Cat
import Verif.Model.Paste
import Verif.Model.Wc
import Verif.Model.Files

/-!
The command line: text formats (`/repo/src/util.rs` 36-66, 93-112, 180-194, 274-336), settings common to all commands
(`/repo/src/bin/cdx/globals.rs`), arguments (`/repo/src/bin/cdx/args.rs`), choosing the command
(`/repo/src/bin/cdx/main.rs`, `cdxmain.rs`), the tables of options of all commands, and the options that have a text of
their own (`binsearch_main.rs`, `cat_main.rs`, `join_main.rs`).

Simplifications. The library that takes the command line apart (clap) is not modelled: a command line is the list of
flags, options with value and positional arguments it finds, numbered as it numbers them. It rejects unknown names and
values outside a given list of words before this code runs. What help functions print is not modelled. Words are compared
byte by byte without case (`equal_insens_quick` differs outside ASCII).
-/

namespace Cdx

/-! ## Text formats -/

/-- `auto_escape` (`src/util.rs` 180-194); `ch as u8` keeps the low byte. -/
def autoEscape (ch : Char) : UInt8 :=
  if ch = 't' then TAB
  else if ch = 's' then SP
  else if ch = 'r' then 13
  else if ch = 'n' then NL
  else UInt8.ofNat ch.toNat

/-- The first character of a text format (`src/util.rs` 287-303); `none` is an error. -/
def headLetter (ch : Char) : Option HeadMode :=
  if ch = 'y' then some .yes
  else if ch = 'n' then some .no
  else if ch = 's' then some .skip
  else if ch = 'm' then some .maybe
  else if ch = 'x' then some .cdx
  else none

/-- The third character of a text format (`src/util.rs` 309-321); `none` is an error. -/
def quoteLetter (ch : Char) : Option QuoteMode :=
  if ch = 'p' then some .plain
  else if ch = 'q' then some .quote
  else if ch = 'b' then some .backslash
  else none

/-- One character of a text format, if there is one (`take_first`, used at `src/util.rs` 289, 306, 311, 324, 329): what it
makes of a part of the mode, and the characters after it. -/
def takePart {α : Type} (f : Char → Option α) (old : α) : List Char → Option (α × List Char)
  | [] => some (old, [])
  | ch :: rest => (f ch).map fun a => (a, rest)

/-- `new_with` of `TextFileMode` (`src/util.rs` 248-336) on the characters of the text. -/
def TextMode.newWith (spec : List Char) (dflt : TextMode) : Res TextMode :=
  match takePart headLetter dflt.head spec with
  | none => .err
  | some (head, spec) => match takePart (fun c => some (autoEscape c)) dflt.delim spec with
    | none => .err
    | some (delim, spec) => match takePart quoteLetter dflt.col spec with
      | none => .err
      | some (col, spec) => match takePart (fun c => some (autoEscape c)) dflt.repl spec with
        | none => .err
        | some (repl, spec) => match takePart (fun c => some (autoEscape c)) dflt.eol spec with
          | none => .err
          | some (eol, _) => .ok { head := head, col := col, delim := delim, eol := eol, repl := repl }

/-- `new` of text modes (`src/util.rs` 275-277). -/
def TextMode.new (spec : List Char) : Res TextMode := TextMode.newWith spec .default

/-! ## Words -/

/-- `Tri::new` (`src/util.rs` 94-112). -/
def Tri.new (x : Bytes) : Res Tri :=
  if eqIgnoreCase x (ascii "yes") || eqIgnoreCase x (ascii "true") || eqIgnoreCase x (ascii "1") || eqIgnoreCase x (ascii "on") then
    .ok .yes
  else if eqIgnoreCase x (ascii "no") || eqIgnoreCase x (ascii "false") || eqIgnoreCase x (ascii "0") || eqIgnoreCase x (ascii "off") then
    .ok .no
  else if eqIgnoreCase x (ascii "maybe") || eqIgnoreCase x (ascii "sometimes") then .ok .maybe
  else .err

/-- `DupColHandling::new` (`src/column.rs` 23-33). -/
def DupColHandling.new (spec : Bytes) : Res DupColHandling :=
  if lower spec = ascii "fail" then .ok .fail
  else if lower spec = ascii "allow" then .ok .allow
  else if lower spec = ascii "numeric" then .ok .numeric
  else .err

/-- `EndMode::new` (`src/bin/cdx/paste_main.rs` 15-25). -/
def EndMode.new (spec : Bytes) : Res EndMode :=
  if eqIgnoreCase spec (ascii "exact") then .ok .exact
  else if eqIgnoreCase spec (ascii "early") then .ok .early
  else if eqIgnoreCase spec (ascii "late") then .ok .late
  else .err

/-- The value of `--pad` (`src/bin/cdx/cat_main.rs` 99-107). -/
def PadMode.new (value : Bytes) : Res PadMode :=
  if lower value = ascii "yes" then .ok .all
  else if lower value = ascii "no" then .ok .none
  else if lower value = ascii "end" then .ok .stop
  else .panic

/-! ## Errors and the end of the program -/

/-- The errors `main` tells apart (`src/util.rs` 27-38, 53-66): `CdxError`, a broken pipe, and all others. -/
inductive CdxErr | error | needLookup | silent | noError | brokenPipe | other
deriving DecidableEq, Repr

/-- What running part of a command gives (`Result` or a panic, `src/bin/cdx/main.rs` 27-49). -/
inductive Run (α : Type) | ok (a : α) | fail (e : CdxErr) | panic
deriving DecidableEq, Repr

/-- The `?` operator, as at `src/bin/cdx/globals.rs` 83. -/
def Run.bind {α β : Type} (r : Run α) (f : α → Run β) : Run β :=
  match r with
  | .ok a => f a
  | .fail e => .fail e
  | .panic => .panic

/-- A result whose errors have no kind (`err!`, `src/util.rs` 20-23). -/
def Res.run {α : Type} : Res α → Run α
  | .ok a => .ok a
  | .err => .fail .other
  | .panic => .panic

/-- `suppress` (`src/util.rs` 52-59). -/
def suppress (e : CdxErr) : Bool := e = .brokenPipe || e = .noError

/-- `silent` (`src/util.rs` 62-65). -/
def silent (e : CdxErr) : Bool := e = .silent

/-- `main` (`src/bin/cdx/main.rs` 27-49): the status, and whether "Error" is written; 101 is what a panic gives. -/
def exitOf : Run Unit → Nat × Bool
  | .ok _ => (0, false)
  | .panic => (101, true)
  | .fail e => if suppress e then (0, false) else if silent e then (1, false) else (1, true)

/-! ## Arguments -/

/-- `ArgSpec` (`src/bin/cdx/args.rs` 83-90) without the short name and the help text: `takes` is whether `value` is not
empty. -/
structure ArgSpec where
  name : String
  takes : Bool := true
  values : List String := []
  positional : Bool := false
deriving DecidableEq, Repr

/-- `ArgValue` (`src/bin/cdx/args.rs` 93-97). -/
structure ArgValue where
  name : String
  value : Bytes
  index : Nat
deriving DecidableEq, Repr

/-- One piece of a command line as clap sees it (used at `src/bin/cdx/args.rs` 176). -/
inductive Tok | flag (name : String) | opt (name : String) (value : Bytes) | pos (name : String) (value : Bytes)
deriving DecidableEq, Repr

/-- The numbers clap gives to what it finds (`indices_of`, used at `src/bin/cdx/args.rs` 130, 136): every flag, every name of
an option and every value counts one; the number of an option is that of its value. -/
def tokValues : Nat → List Tok → List ArgValue
  | _, [] => []
  | i, .flag n :: ts => ⟨n, [], i + 1⟩ :: tokValues (i + 1) ts
  | i, .opt n v :: ts => ⟨n, v, i + 2⟩ :: tokValues (i + 2) ts
  | i, .pos n v :: ts => ⟨n, v, i + 1⟩ :: tokValues (i + 1) ts

/-- `get_arg` (`src/bin/cdx/args.rs` 127-142). -/
def getArg (m : List ArgValue) (x : ArgSpec) : List ArgValue :=
  if x.takes = false then (m.filter fun a => a.name = x.name).map fun a => ⟨x.name, [], a.index⟩
  else (m.filter fun a => a.name = x.name).map fun a => ⟨x.name, a.value, a.index⟩

/-- `FileCount` (`src/bin/cdx/args.rs` 47-51). -/
inductive FileCount | zero | one | many
deriving DecidableEq, Repr

/-- `A` of the settings (`src/bin/cdx/globals.rs` 15-26). -/
def globalArgs : List ArgSpec :=
  [{ name := "text-in" }, { name := "text-out" }, { name := "std-agg", takes := false }, { name := "std-comp", takes := false },
   { name := "std-const", takes := false }, { name := "std-func", takes := false }, { name := "std-gen", takes := false },
   { name := "std-match", takes := false }, { name := "std-text", takes := false }, { name := "std-trans", takes := false }]

/-- `Settings` (`src/bin/cdx/globals.rs` 33-38) without the checker of headers. -/
structure Settings where
  textIn : TextMode
  textOut : Option TextMode
deriving DecidableEq, Repr

/-- `Settings::new` (`src/bin/cdx/globals.rs` 41-43). -/
def Settings.new : Settings := ⟨.default, none⟩

/-- `text_out` (`src/bin/cdx/globals.rs` 44-49). -/
def Settings.out (s : Settings) : TextMode := s.textOut.getD s.textIn

/-- `text_out2` (`src/bin/cdx/globals.rs` 50-59). -/
def Settings.out2 (s : Settings) (delim : UInt8) : TextMode :=
  match s.textOut with
  | some x => x
  | none => { s.textIn with delim := delim }

/-- The body of the loop of `consume` (`src/bin/cdx/globals.rs` 80-117); `chars` gives the characters of a text. -/
def Settings.take (chars : Bytes → List Char) (s : Settings) (x : ArgValue) : Run Settings :=
  if x.name = "text-in" then (TextMode.new (chars x.value)).run.bind fun t => .ok { s with textIn := t }
  else if x.name = "text-out" then (TextMode.new (chars x.value)).run.bind fun t => .ok { s with textOut := some t }
  else if x.name = "std-agg" then .fail .noError
  else if x.name = "std-comp" then .fail .noError
  else if x.name = "std-const" then .fail .noError
  else if x.name = "std-func" then .fail .noError
  else if x.name = "std-gen" then .fail .noError
  else if x.name = "std-match" then .fail .noError
  else if x.name = "std-text" then .fail .noError
  else if x.name = "std-trans" then .fail .noError
  else if x.name = "foo" then .ok s
  else .panic

/-- `consume` (`src/bin/cdx/globals.rs` 80-117). -/
def Settings.consume (chars : Bytes → List Char) : Settings → List ArgValue → Run Settings
  | s, [] => .ok s
  | s, x :: xs => (s.take chars x).bind fun s => Settings.consume chars s xs

/-- The names of the files (`src/bin/cdx/args.rs` 188-199). -/
def argFiles (files : FileCount) (m : List ArgValue) : List Bytes :=
  if files = .zero then []
  else
    let v := (m.filter fun a => a.name = "input_files").map (·.value)
    if v = [] then [ascii "-"] else v

/-- `parse` (`src/bin/cdx/args.rs` 144-202): the settings, the options in the order of the command line, and the files. -/
def parseArgs (chars : Bytes → List Char) (s : Settings) (spec : List ArgSpec) (files : FileCount) (toks : List Tok) :
    Run (Settings × List ArgValue × List Bytes) :=
  let m := tokValues 0 toks
  if m.any fun a => a.name = "std-help" then .fail .noError
  else (s.consume chars (globalArgs.flatMap (getArg m))).bind fun s =>
    .ok (s, stableSort (fun a b => decide (a.index ≤ b.index)) (spec.flatMap (getArg m)), argFiles files m)

/-! ## The commands -/

/-- A command: its name (`src/bin/cdx/cdxmain.rs` 27-44), the options it declares, the names its loop over the options tests
for, and how many files it takes. -/
structure Cmd where
  name : String
  spec : List ArgSpec
  handles : List String
  files : FileCount

/-- `MAINLIST` (`src/bin/cdx/cdxmain.rs` 27-44) with the tables and loops of all commands:
`src/bin/cdx/binsearch_main.rs` 91-127, `calc_main.rs` 10-19, `cat_main.rs` 82-121, `cgrep_main.rs` 8-39, `cut_main.rs` 7-33,
`filegen_main.rs` 6-39, `join_main.rs` 7-64, `paste_main.rs` 30-61, `sample_main.rs` 88-127, `sort_main.rs` 8-47,
`tabs_main.rs` 16-27, `tooltest_main.rs` 7-29, `transpose_main.rs` 6-24, `uniq_main.rs` 157-188, `verify_main.rs` 22-71,
`wc_main.rs` 24-79. -/
def mainList : List Cmd :=
  [⟨"binsearch",
    [{ name := "key" }, { name := "filename" }, { name := "context" }, { name := "sub-delim" },
     { name := "pattern", positional := true }],
    ["key", "filename", "context", "subdelim", "pattern"], .many⟩,
   ⟨"calc", [{ name := "fmt" }], ["fmt"], .many⟩,
   ⟨"cat",
    [{ name := "pad", values := ["Yes", "No", "End"] }, { name := "remove" }, { name := "skip" }, { name := "number" },
     { name := "begin", takes := false }, { name := "end", takes := false }],
    ["pad", "number", "begin", "end", "skip", "remove"], .many⟩,
   ⟨"cgrep",
    [{ name := "pattern" }, { name := "show-const", takes := false }, { name := "show-func", takes := false },
     { name := "or", takes := false }, { name := "invert", takes := false }, { name := "location" }],
    ["pattern", "or", "invert", "location", "show-const", "show-func"], .many⟩,
   ⟨"cut",
    [{ name := "fields" }, { name := "group" }, { name := "expr" }, { name := "composite" },
     { name := "dups", values := ["Fail", "Allow", "Numeric"] }],
    ["dups", "fields", "group", "expr", "composite"], .many⟩,
   ⟨"filegen",
    [{ name := "lines" }, { name := "column" }, { name := "multi" }, { name := "with-header", takes := false }],
    ["lines", "with-header", "column", "multi"], .zero⟩,
   ⟨"join", [{ name := "also" }, { name := "file" }, { name := "key" }, { name := "output" }],
    ["key", "output", "file", "also"], .many⟩,
   ⟨"paste",
    [{ name := "end", values := ["Exact", "Early", "Late"] }, { name := "default" }, { name := "last", takes := false },
     { name := "rename" }, { name := "rename-sloppy", takes := false },
     { name := "dups", values := ["Fail", "Allow", "Numeric"] }],
    ["end", "default", "dups", "rename", "rename-sloppy", "last"], .many⟩,
   ⟨"sample", [{ name := "for" }, { name := "sample" }, { name := "range" }], ["for", "range", "sample"], .many⟩,
   ⟨"sort",
    [{ name := "key" }, { name := "unique", takes := false }, { name := "merge", takes := false },
     { name := "check", takes := false }, { name := "Check" }, { name := "alt-sort", takes := false },
     { name := "alt-merge", takes := false }],
    ["key", "alt-merge", "alt-sort", "merge", "check", "Check", "unique"], .many⟩,
   ⟨"tabs", [{ name := "end", takes := false }], ["end"], .many⟩,
   ⟨"tooltest",
    [{ name := "verbose", takes := false }, { name := "bin" }, { name := "tmp" }, { name := "file-format", takes := false }],
    ["bin", "verbose", "tmp", "file-format"], .many⟩,
   ⟨"transpose", [{ name := "head", takes := false }, { name := "lines" }], ["head", "lines"], .one⟩,
   ⟨"uniq",
    [{ name := "agg" }, { name := "agg-pre" }, { name := "agg-post" }, { name := "key" }, { name := "count" },
     { name := "which" }, { name := "agg-help", takes := false }],
    ["key", "count", "which", "agg", "agg-post", "agg-pre"], .one⟩,
   ⟨"verify",
    [{ name := "report" }, { name := "first" }, { name := "last" }, { name := "key" }, { name := "sort", takes := false },
     { name := "unique", takes := false }, { name := "pattern" }, { name := "show-matchers", takes := false },
     { name := "show-const", takes := false }, { name := "show-func", takes := false }],
    ["pattern", "key", "or", "fail", "sort", "first", "last", "unique", "show-const", "show-func"], .many⟩,
   ⟨"wc",
    [{ name := "agg" }, { name := "lines", takes := false }, { name := "bytes", takes := false },
     { name := "chars", takes := false }, { name := "words", takes := false }, { name := "file" }, { name := "with-header" },
     { name := "total" }, { name := "format" }, { name := "columns", takes := false }],
    ["agg", "lines", "bytes", "chars", "words", "format", "columns", "total", "with-header", "file"], .many⟩]

/-- The loop over the options of a command (e.g. `src/bin/cdx/binsearch_main.rs` 106-128): an option it has a branch for does
what `act` says, any other reaches `unreachable!()`. -/
def optLoop {σ : Type} (handles : List String) (act : σ → ArgValue → Run σ) : σ → List ArgValue → Run σ
  | s, [] => .ok s
  | s, x :: xs => if handles.contains x.name then (act s x).bind fun s => optLoop handles act s xs else .panic

/-- The first part of every command (e.g. `src/bin/cdx/cut_main.rs` 14-33): arguments, then the loop over the options. -/
def Cmd.start {σ : Type} (chars : Bytes → List Char) (c : Cmd) (act : σ → ArgValue → Run σ) (s : σ) (toks : List Tok) :
    Run (Settings × σ × List Bytes) :=
  (parseArgs chars .new c.spec c.files toks).bind fun p => (optLoop c.handles act s p.2.1).bind fun s => .ok (p.1, s, p.2.2)

/-- What `inner_main` does (`src/bin/cdx/main.rs` 51-82): help or version, run the command with this name on these
arguments, or print the usage or the list of commands. -/
inductive MainChoice | usage | help | version | run (cmd : String) (args : List Bytes) | unknown
deriving DecidableEq, Repr

/-- `inner_main` (`src/bin/cdx/main.rs` 51-82). -/
def chooseMain (args : List Bytes) : MainChoice :=
  match args with
  | a0 :: a1 :: rest =>
    if a1 = ascii "help" ∨ a1 = ascii "--help" then .help
    else if a1 = ascii "version" ∨ a1 = ascii "--version" then .version
    else match mainList.find? fun x => decide (a1 = ascii x.name) with
      | some x => .run x.name ((a0 ++ [SP] ++ a1) :: rest)
      | none => .unknown
  | _ => .usage

/-- The result of `inner_main` (`src/bin/cdx/main.rs` 51-82), `proc` being the commands. -/
def innerMain (proc : String → List Bytes → Run Unit) (args : List Bytes) : Run Unit :=
  match chooseMain args with
  | .usage => .fail .silent
  | .help => .ok ()
  | .version => .ok ()
  | .run c args => proc c args
  | .unknown => .fail .silent

/-! ## Options with a text of their own -/

/-- `FileNameColumn` (`src/bin/cdx/binsearch_main.rs` 9-12). -/
structure FileNameColumn where
  name : Bytes
  tail : Nat
deriving DecidableEq, Repr

/-- `set` of `FileNameColumn` (`src/bin/cdx/binsearch_main.rs` 9-34). -/
def FileNameColumn.set (f : FileNameColumn) (spec : Bytes) : Res FileNameColumn :=
  match spec with
  | [] => .ok ⟨[], 0⟩
  | c :: _ =>
    match splitOnce 58 spec with
    | some (name, tail) => (toUsizeWhole tail).bind fun n => .ok { f with name := name, tail := n }
    | none =>
      if isDigit c then (toUsizeWhole spec).bind fun n => .ok { f with name := [], tail := n }
      else .ok { f with tail := 0, name := spec }

/-- `Context` (`src/bin/cdx/binsearch_main.rs` 38-43). -/
structure Context where
  beforeMatch : Nat
  beforeNon : Nat
  afterMatch : Nat
  afterNon : Nat
deriving DecidableEq, Repr

/-- `Context::new` (`src/bin/cdx/binsearch_main.rs` 60-62). -/
def Context.new : Context := ⟨0, 0, 0, 0⟩

/-- `do_set` (`src/bin/cdx/binsearch_main.rs` 45-57): the numbers for lines found and for none found. -/
def doSet (spec : Bytes) : Res (Nat × Nat) :=
  match sliceSplit 46 spec with
  | [a] => (toUsizeWhole a).bind fun n => .ok (n, n)
  | [a, b] => (toUsizeWhole a).bind fun n => (toUsizeWhole b).bind fun k => .ok (n, k)
  | _ => .err

/-- `set` of `Context` (`src/bin/cdx/binsearch_main.rs` 38-87). -/
def Context.set (spec : Bytes) : Res Context :=
  match sliceSplit 44 spec with
  | [a] => (doSet a).bind fun p => .ok ⟨p.1, p.2, p.1, p.2⟩
  | [a, b] => (doSet a).bind fun p => (doSet b).bind fun q => .ok ⟨p.1, p.2, q.1, q.2⟩
  | _ => .err

/-- `get` of `Context` (`src/bin/cdx/binsearch_main.rs` 38-72). -/
def Context.get (c : Context) (isEmpty : Bool) : Nat × Nat :=
  if isEmpty then (c.beforeNon, c.afterNon) else (c.beforeMatch, c.afterMatch)

/-- `LineNumber::new` (`src/bin/cdx/cat_main.rs` 24-26). -/
def LineNumber.new : LineNumber := ⟨false, 0, [], false⟩

/-- The third and fourth part of `set` (`src/bin/cdx/cat_main.rs` 28-68). -/
def LineNumber.setWhere (ln : LineNumber) : List Bytes → Res LineNumber
  | [] => .ok ln
  | third :: rest =>
    if eqIgnoreCase (ascii "begin") third then if rest = [] then .ok { ln with atEnd := false } else .err
    else if eqIgnoreCase (ascii "end") third then if rest = [] then .ok { ln with atEnd := true } else .err
    else .err

/-- `set` of `LineNumber` (`src/bin/cdx/cat_main.rs` 15-68). -/
def LineNumber.set (ln : LineNumber) (spec : Bytes) : Res LineNumber :=
  match sliceSplit 44 spec with
  | [] => .ok { ln with doIt := true }
  | [name] => .ok { ln with doIt := true, name := name }
  | name :: second :: rest => (toIsizeWhole second).bind fun n =>
    LineNumber.setWhere { ln with doIt := true, name := name, start := n } rest

/-- The options `--number`, `--begin` and `--end` in turn (`src/bin/cdx/cat_main.rs` 108-113). -/
def LineNumber.sets : LineNumber → List Bytes → Res LineNumber
  | ln, [] => .ok ln
  | ln, s :: ss => (ln.set s).bind fun ln => LineNumber.sets ln ss

/-- `is_empty` of a set of columns (`src/column.rs` 736-738). -/
def ColumnSet.isEmpty (c : ColumnSet) : Bool := c.pos.isEmpty && c.neg.isEmpty

/-- The loop over the parts of `--output` of join (`src/bin/cdx/join_main.rs` 22-48). `none` for the file stands for no file
yet; a set that is not empty without a file panics. -/
def joinOutput (transOk : Bytes → Bool) : (file : Option Nat) → (set : ColumnSet) → List Bytes →
    Res (List (Nat × ColumnSet))
  | file, set, [] =>
    if set.isEmpty then .ok []
    else match file with
      | none => .panic
      | some f => .ok [(f, set)]
  | file, set, y :: ys =>
    match splitOnce 46 y with
    | some (num, spec) =>
      let next : ColumnSet → Res (List (Nat × ColumnSet)) := fun set =>
        (toUsizeWhole num).bind fun n =>
          if n = 0 then .err
          else (set.add transOk spec false).bind fun set => joinOutput transOk (some (n - 1)) set ys
      if set.isEmpty then next set
      else match file with
        | none => .panic
        | some f => (next ColumnSet.empty).bind fun r => .ok ((f, set) :: r)
    | none =>
      match file with
      | none => .err
      | some f => (set.add transOk y false).bind fun set => joinOutput transOk (some f) set ys

/-- `--output` of join (`src/bin/cdx/join_main.rs` 20-48). -/
def joinOutputs (transOk : Bytes → Bool) (value : Bytes) : Res (List (Nat × ColumnSet)) :=
  joinOutput transOk none ColumnSet.empty (sliceSplit 44 value)

/-- `--also` of join (`src/bin/cdx/join_main.rs` 51-60): the number and the name of the file. -/
def joinAlso (value : Bytes) : Res (Nat × Bytes) :=
  match splitOnce 44 value with
  | some (a, b) => (toUsizeWhole a).bind fun n => .ok (n, b)
  | none => .err

end Cdx
