import Verif.Model.Match
import Verif.Model.Files
import Verif.Model.Agg

/-!
Test files and the `tooltest` command: `/repo/src/tooltest.rs` and `/repo/src/bin/cdx/tooltest_main.rs`.

Simplifications. Messages on stderr are left out. The temporary directory is a list of files with their contents, without
directories in it; the names of files in a test are taken to be names in this directory. Running a program is a parameter, from the
words of the command, the standard input and the directory to the exit status (none for a signal), both outputs and the directory
afterwards. A test file is a text; reading it cannot fail.
-/

namespace Cdx

/-! ## Test files -/

/-- `OutFile` (`src/tooltest.rs` 33-38). -/
structure OutSpec where
  name : Bytes
  content : Bytes
  matcher : Matcher

/-- The matcher made by `MatchMaker::make("empty")` (`src/tooltest.rs` 44). -/
def emptyMatcher : Matcher := ⟨MFlags.ofMethod (ascii "empty"), .one (.length 0 (some 0))⟩

/-- `default` of `OutFile` (`src/tooltest.rs` 39-47). -/
def OutSpec.default : OutSpec := ⟨[], [], emptyMatcher⟩

/-- `Test` (`src/tooltest.rs` 49-61) with `InFile` (27-31), a pair of a name and a content. The name of the test is left out. -/
structure ToolTest where
  cmd : Bytes
  stdin : Bytes
  stdout : OutSpec
  stderr : OutSpec
  code : Int
  inFiles : List (Bytes × Bytes)
  outFiles : List OutSpec

/-- `new` (`src/tooltest.rs` 132-136). -/
def ToolTest.new : ToolTest := ⟨[], [], .default, .default, 0, [], []⟩

/-- What is left after a part of the test file was read: the text of the part, the last line read, the rest of the file, and whether a
new line is needed (`src/tooltest.rs` 94-100). -/
structure Grabbed where
  buff : Bytes
  line : Bytes
  rest : Bytes
  needRead : Bool
deriving DecidableEq, Repr

/-- The loop of `grab` (`src/tooltest.rs` 106-124). The first argument bounds the number of lines. -/
def grabLoop : Nat → Bytes → Bytes → Grabbed
  | 0, buff, rest => ⟨buff, [], rest, true⟩
  | fuel + 1, buff, rest =>
    let r := readUntil NL rest
    if r.1 = [] then ⟨buff, [], r.2, true⟩
    else if startsWith r.1 (ascii "#") then
      if startsWith r.1 (ascii "#nonewline") then ⟨buff.dropLast, r.1, r.2, true⟩ else ⟨buff, r.1, r.2, false⟩
    else grabLoop fuel (buff ++ r.1) r.2

/-- `grab` (`src/tooltest.rs` 94-129) if the line is the tag (or the line was cleared); something after the tag is an error. -/
def grab (tag buff line rest : Bytes) : Res (Option Grabbed) :=
  if startsWith line tag then
    if line.drop tag.length ≠ [] then .err else .ok (some (grabLoop (rest.length + 1) buff rest))
  else .ok none

/-- `str::from_utf8` (`src/tooltest.rs` 150). -/
def utf8 (env : MEnv) (b : Bytes) : Res Bytes := if env.str.valid b then .ok b else .err

/-- `add_outfile` (`src/tooltest.rs` 137-170), without storing the result: the expected output, and the state of the reading. -/
def addOutfile (env : MEnv) (tag line rest : Bytes) : Res (Option (OutSpec × Grabbed)) :=
  if startsWith line tag then
    if line.drop tag.length = [] then
      (grab tag [] line rest).bind fun g => match g with
        | none => .panic
        | some g => (utf8 env g.buff).bind fun b => (Matcher.make2 env (ascii "exact") b).bind fun m => .ok (some (⟨tag.drop 1, g.buff, m⟩, g))
    else
      let x := trimwStart (line.drop tag.length)
      (utf8 env x).bind fun x => (Matcher.make env x).bind fun m => .ok (some (⟨tag.drop 1, x, m⟩, ⟨[], line, rest, true⟩))
  else .ok none

/-- `as i32` (`src/tooltest.rs` 202). -/
def asI32 (n : Int) : Int := (n + 2 ^ 31) % 2 ^ 32 - 2 ^ 31

/-- `str::trim_start` (`src/text.rs` 351-353), for white space within ASCII. -/
def strTrimStart (a : Bytes) : Bytes := a.dropWhile fun c => c = 32 ∨ (9 ≤ c ∧ c ≤ 13)

/-- The lines that are not `#command`, `#stdout`, `#stderr` or `#stdin` (`src/tooltest.rs` 200-241). -/
def otherLine (env : MEnv) (t : ToolTest) (line rest : Bytes) : Res (ToolTest × Grabbed) :=
  if startsWith line (ascii "#status") then
    (toIsizeWhole (trimwStart (line.drop 7))).bind fun n => .ok ({ t with code := asI32 n }, ⟨[], line, rest, true⟩)
  else if startsWith line (ascii "#infile") then
    (utf8 env (trimwStart (line.drop 7))).bind fun name => (grab [] [] [] rest).bind fun g => match g with
      | none => .panic
      | some g => .ok ({ t with inFiles := t.inFiles ++ [(name, g.buff)] }, g)
  else if startsWith line (ascii "#outfile") then
    (utf8 env (line.drop 8)).bind fun y =>
      match splitOnce 32 (strTrimStart y) with
      | some (name, matcher) =>
        (Matcher.make env matcher).bind fun m => .ok ({ t with outFiles := t.outFiles ++ [⟨name, matcher, m⟩] }, ⟨[], line, rest, true⟩)
      | none => (grab [] [] [] rest).bind fun g => match g with
        | none => .panic
        | some g => (utf8 env g.buff).bind fun b => (Matcher.make2 env (ascii "exact") b).bind fun m =>
          .ok ({ t with outFiles := t.outFiles ++ [⟨strTrimStart y, g.buff, m⟩] }, g)
  else if startsWith line (ascii "# ") then .ok (t, ⟨[], line, rest, true⟩)
  else .err

/-- One round of `open` (`src/tooltest.rs` 181-241), without reading the next line. -/
def testLine (env : MEnv) (t : ToolTest) (line0 rest : Bytes) : Res (ToolTest × Grabbed) :=
  let line := if line0.getLast? = some NL then line0.dropLast else line0
  if startsWith line (ascii "#command") then .ok ({ t with cmd := trimwStart (line.drop 8) }, ⟨[], line, rest, true⟩)
  else (addOutfile env (ascii "#stdout") line rest).bind fun o => match o with
    | some (o, g) => .ok ({ t with stdout := o }, g)
    | none => (addOutfile env (ascii "#stderr") line rest).bind fun o => match o with
      | some (o, g) => .ok ({ t with stderr := o }, g)
      | none => (grab (ascii "#stdin") t.stdin line rest).bind fun g => match g with
        | some g => .ok ({ t with stdin := g.buff }, g)
        | none => otherLine env t line rest

/-- The loop of `open` (`src/tooltest.rs` 181-249). The first argument bounds the number of lines. -/
def testLoop (env : MEnv) : Nat → ToolTest → Bytes → Bytes → Res ToolTest
  | 0, _, _, _ => .panic
  | fuel + 1, t, line, rest => (testLine env t line rest).bind fun p =>
    if p.2.needRead then
      let r := readUntil NL p.2.rest
      if r.1 = [] then .ok p.1 else testLoop env fuel p.1 r.1 r.2
    else testLoop env fuel p.1 p.2.line p.2.rest

/-- `open` (`src/tooltest.rs` 172-251) on the text of a test file. -/
def ToolTest.open (env : MEnv) (text : Bytes) : Res ToolTest :=
  let r := readUntil NL text
  if r.1 = [] then .ok .new else testLoop env (text.length + 1) .new r.1 r.2

/-! ## Running a test -/

/-- The temporary directory (used at `src/tooltest.rs` 254-273). -/
abbrev Dir := List (Bytes × Bytes)

/-- The content of a file (used at `src/tooltest.rs` 348). -/
def Dir.get (d : Dir) (n : Bytes) : Option Bytes := (d.find? fun x => x.1 == n).map (·.2)

/-- A file made or replaced (used at `src/tooltest.rs` 274-279). -/
def Dir.set (d : Dir) (n c : Bytes) : Dir := (n, c) :: d.filter fun x => x.1 != n

/-- Writing through `get_writer`, which does not cut off what was there (used at `src/tooltest.rs` 268, 382, 386; see `overwrite`). -/
def Dir.put (d : Dir) (n c : Bytes) : Dir := d.set n (overwrite ((d.get n).getD []) 0 c)

/-- `delete_file` (`src/tooltest.rs` 64-69); none if there is no such file. -/
def Dir.del (d : Dir) (n : Bytes) : Option Dir := if (d.get n).isSome then some (d.filter fun x => x.1 != n) else none

/-- What running a program gives (used at `src/tooltest.rs` 297-307). -/
structure Ran where
  code : Option Int
  stdout : Bytes
  stderr : Bytes
  dir : Dir

/-- What a test runs with (`Config`, `src/tooltest.rs` 399-406, and the parameters). `dirName` ends in a slash; `keep` says whether
it was given with `--tmp`. -/
structure ToolEnv where
  env : MEnv
  gunzip : Bytes → Bytes
  exec : List Bytes → Bytes → Dir → Option Ran
  dirName : Bytes
  binDir : Bytes
  keep : Bool

/-- `replace` of a text by another (used at `src/tooltest.rs` 282). The first argument bounds the length. -/
def replaceText (old new : Bytes) : Nat → Bytes → Bytes
  | 0, _ => []
  | _ + 1, [] => []
  | fuel + 1, c :: cs =>
    if startsWith (c :: cs) old then new ++ replaceText old new fuel ((c :: cs).drop old.length)
    else c :: replaceText old new fuel cs

/-- Splitting at every byte that is a space or below (`src/tooltest.rs` 286). -/
def splitWords : Bytes → List Bytes
  | [] => [[]]
  | c :: cs => if c ≤ 32 then [] :: splitWords cs else
      match splitWords cs with
      | [] => [[c]]
      | w :: ws => (c :: w) :: ws

/-- The words of the command (`src/tooltest.rs` 281-296), the first with the directory of the programs in front. -/
def ToolEnv.words (e : ToolEnv) (cmd : Bytes) : List Bytes :=
  let n := e.env.str.lossy cmd
  match splitWords (replaceText (ascii "$TMP") e.dirName (n.length + 1) n) with
  | [] => []
  | w :: ws => (e.binDir ++ w) :: ws

/-- `nuke` (`src/tooltest.rs` 72-79): the names, and the directory; none if there is no such file. -/
def nuke (keep : Bool) (names : List Bytes) (n : Bytes) (d : Dir) : List Bytes × Option Dir :=
  (names.filter fun x => x != n, if keep then some d else d.del n)

/-- The loop over the input files (`src/tooltest.rs` 308-311): the names left and the directory, or the directory at an error. -/
def nukeAll (keep : Bool) : List Bytes → List Bytes → Dir → Except Dir (List Bytes × Dir)
  | [], names, d => .ok (names, d)
  | n :: ns, names, d => match nuke keep names n d with
    | (_, none) => .error d
    | (names, some d) => nukeAll keep ns names d

/-- The loop over the output files (`src/tooltest.rs` 345-370): whether something failed, the names left and the directory. Errors are
those of `nuke`; a matcher that panics is a panic. -/
def outLoop (e : ToolEnv) : List OutSpec → Bool → List Bytes → Dir → Res (Except Dir (Bool × List Bytes × Dir))
  | [], failed, names, d => .ok (.ok (failed, names, d))
  | x :: xs, failed, names, d =>
    (match d.get x.name with
      | none => Res.ok true
      | some b => (x.matcher.doMatchSafe e.env (if startsWith b gzMagic then e.gunzip b else b)).bind fun ok => .ok (!ok)).bind fun bad =>
        match nuke e.keep names x.name d with
        | (_, none) => .ok (.error d)
        | (names, some d) => outLoop e xs (failed || bad) names d

/-- After the program ran (`src/tooltest.rs` 307-393): the directory, and whether the test passed; an error is none. -/
def ToolTest.check (e : ToolEnv) (t : ToolTest) (o : Ran) : Res (Dir × Option Bool) :=
  match nukeAll e.keep (ascii "stdin" :: t.inFiles.map (·.1)) (o.dir.map (·.1)) o.dir with
  | .error d => .ok (d, none)
  | .ok (names, d) =>
    (t.stderr.matcher.doMatchSafe e.env o.stderr).bind fun okErr => (t.stdout.matcher.doMatchSafe e.env o.stdout).bind fun okOut =>
      (outLoop e t.outFiles (decide (o.code ≠ some t.code) || !okErr || !okOut) names d).bind fun r => match r with
        | .error d => .ok (d, none)
        | .ok (failed, names, d) =>
          if e.keep then .ok ((d.put (ascii "stdout") o.stdout).put (ascii "stderr") o.stderr, some !failed)
          else .ok (d.filter fun x => !names.contains x.1, some !(failed || decide (names ≠ [])))

/-- `run` (`src/tooltest.rs` 254-394). -/
def ToolTest.run (e : ToolEnv) (t : ToolTest) (d : Dir) : Res (Dir × Option Bool) :=
  let d := t.inFiles.foldl (fun d x => d.put x.1 x.2) d
  let d := d.set (ascii "stdin") t.stdin
  match e.exec (e.words t.cmd) t.stdin d with
  | none => .ok (d, none)
  | some o => t.check e o

/-! ## Running many tests -/

/-- `Config::run` (`src/tooltest.rs` 449-470): passed and failed tests, and the directory. -/
def runOne (e : ToolEnv) (s : Nat × Nat × Dir) (text : Bytes) : Res (Nat × Nat × Dir) :=
  match ToolTest.open e.env text with
  | .panic => .panic
  | .err => .ok (s.1, s.2.1 + 1, s.2.2)
  | .ok t => (t.run e s.2.2).bind fun r =>
    if r.2 = some true then .ok (s.1 + 1, s.2.1, r.1) else .ok (s.1, s.2.1 + 1, r.1)

/-- The loop over the test files (`src/bin/cdx/tooltest_main.rs` 30-35). -/
def runTests (e : ToolEnv) : Nat × Nat × Dir → List Bytes → Res (Nat × Nat × Dir)
  | s, [] => .ok s
  | s, t :: ts => (runOne e s t).bind fun s => runTests e s ts

/-- `report` (`src/tooltest.rs` 436-448): the line written, and whether the command succeeds. -/
def report (pass fail : Nat) : Bytes × Bool :=
  (decText (pass + fail) ++ ascii " test run, " ++ decText pass ++ ascii " pass, " ++ decText fail ++ ascii " failed\n", decide (fail = 0))

/-- `main` (`src/bin/cdx/tooltest_main.rs` 5-37) after the options. -/
def toolTestMain (e : ToolEnv) (d : Dir) (tests : List Bytes) : Res (Bytes × Bool) :=
  (runTests e (0, 0, d) tests).bind fun s => .ok (report s.1 s.2.1)

end Cdx
