import Verif.Model.Match
import Verif.Model.Header

/-!
Matching with explanations, clones of matchers, `copy` and the words for header modes: `/repo/src/matcher.rs` 44-106, 1076-1088,
1223-1294, 1449-1460 and 1532-1543, `/repo/src/util.rs` 1847-1866 and 2028-2037.

Simplifications. What a matcher shows of itself (`show`) is a parameter. Standard error is the bytes written to it.
-/

namespace Cdx

/-- The message of `ok_verbose` (`src/matcher.rs` 56). -/
def failMessage (num : Nat) (fname shown : Bytes) : Bytes :=
  ascii "Line " ++ decText num ++ ascii " of " ++ fname ++ ascii " failed to " ++ shown ++ [NL]

/-- The message of `ok_verbose` of `CountMatcher` (`src/matcher.rs` 1079-1085). -/
def countMessage (num : Nat) (fname : Bytes) (len count : Nat) : Bytes :=
  ascii "Line " ++ decText num ++ ascii " of " ++ fname ++ ascii " had " ++ decText len ++ ascii " columns where " ++ decText count
    ++ ascii " were expected." ++ [NL]

/-- The message of `ok_verbose_or` (`src/matcher.rs` 1284). -/
def orMessage (num : Nat) (fname : Bytes) : Bytes :=
  ascii "Line " ++ decText num ++ ascii " of " ++ fname ++ ascii " failed to match OR matcher" ++ [NL]

/-- `ok_verbose` of a `LineMatch` (`src/matcher.rs` 53-59 and 1076-1088): the answer and what is written. -/
def LineTest.okVerbose (env : MEnv) (shown : LineTest → Bytes) (line : TextLine) (num : Nat) (fname : Bytes) (t : LineTest) :
    Res (Bool × Bytes) :=
  (t.ok env line).bind fun ret =>
    .ok (ret, if !ret then (match t with
      | .count n => countMessage num fname line.len n
      | _ => failMessage num fname (shown t)) else [])

/-- `ok_verbose_and` (`src/matcher.rs` 1257-1265), given the answer so far and the matchers left. -/
def okVerboseAnd (env : MEnv) (shown : LineTest → Bytes) (line : TextLine) (num : Nat) (fname : Bytes) (ret : Bool) :
    List LineTest → Res (Bool × Bytes)
  | [] => .ok (ret, [])
  | t :: ts => (t.okVerbose env shown line num fname).bind fun r =>
    (okVerboseAnd env shown line num fname (if !r.1 then false else ret) ts).bind fun q => .ok (q.1, r.2 ++ q.2)

/-- `ok_verbose_or` (`src/matcher.rs` 1276-1286). -/
def okVerboseOr (env : MEnv) (line : TextLine) (num : Nat) (fname : Bytes) : List LineTest → Res (Bool × Bytes)
  | [] => .ok (false, orMessage num fname)
  | t :: ts => (t.ok env line).bind fun b => if b then .ok (true, []) else okVerboseOr env line num fname ts

/-- `ok_verbose` of `LineMatcherList` (`src/matcher.rs` 1235-1246 and 1292-1294). -/
def lineListOkVerbose (env : MEnv) (shown : LineTest → Bytes) (c : Combiner) (ts : List LineTest) (line : TextLine) (num : Nat)
    (fname : Bytes) : Res (Bool × Bytes) :=
  match c with
  | .and => okVerboseAnd env shown line num fname true ts
  | .or => okVerboseOr env line num fname ts

/-- `not_str` (`src/matcher.rs` 62-68). -/
def notStr (negate : Bool) : Bytes := if negate then ascii "not-" else []

/-- `verbose_smatch` and `verbose_umatch` (`src/matcher.rs` 81-105 and 1449-1460), given the answer of the match and the text as
it is shown: the answer and what is written. -/
def verboseMatch (res negate : Bool) (buff shown : Bytes) : Bool × Bytes :=
  (res, if res != negate then
    ascii "Failed to " ++ notStr negate ++ ascii "match " ++ buff ++ ascii " against " ++ shown ++ [NL] else [])

/-- `clone` of `Matcher` (`src/matcher.rs` 1532-1543). -/
def Matcher.clone (m : Matcher) : Matcher := ⟨m.flags, .one .yes⟩

/-- `remake` (`src/matcher.rs` 1951-1960). -/
def Matcher.remake (env : MEnv) (m : Matcher) (pattern : Bytes) : Res Matcher :=
  (makeKind env m.flags pattern).bind fun k => .ok ⟨k.1, .one k.2⟩

/-- The loop of `copy` (`src/util.rs` 2030-2036). `reads` is what each `read` puts into the buffer, or `none` for an error; when there
are none left the input ends. The result is what was written, and whether the copy ended well. -/
def copyLoop (buff : Bytes) : List (Option Bytes) → Bytes × Bool
  | [] => ([], true)
  | none :: _ => ([], false)
  | some c :: rs =>
    if c.length = 0 then ([], true)
    else
      let buff := c ++ buff.drop c.length
      let r := copyLoop buff rs
      (buff.take c.length ++ r.1, r.2)

/-- `copy` (`src/util.rs` 2028-2037). -/
def copyAll (reads : List (Option Bytes)) : Bytes × Bool := copyLoop (List.replicate (16 * 1024) 0) reads

/-- `HeaderMode::from_str` (`src/util.rs` 1847-1866). -/
def HeaderMode.fromStr (spec : Bytes) : Res HeaderMode :=
  if lower spec = ascii "match" then .ok .matching
  else if lower spec = ascii "require" then .ok .require
  else if lower spec = ascii "strip" then .ok .strip
  else if lower spec = ascii "none" then .ok .none
  else if lower spec = ascii "trust" then .ok .trust
  else if lower spec = ascii "ignore" then .ok .ignore
  else .err

end Cdx
