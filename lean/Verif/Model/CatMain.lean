import Verif.Model.Settings
import Verif.Model.Match

/-!
The `cat` command from its options, `/repo/src/bin/cdx/cat_main.rs`.

Simplifications. Options come as pairs of a name and a value, as `args::parse` gives them. As in `Model/Cat.lean` the line number is not
bounded and the header is written in the default text mode.
-/

namespace Cdx

/-- What the options ask for (`src/bin/cdx/cat_main.rs` 92-95). -/
structure CatConf where
  pad : PadMode := .all
  num : LineNumber := LineNumber.new
  skips : List Matcher := []
  removes : List Matcher := []

/-- The options (`src/bin/cdx/cat_main.rs` 97-121). Any other name is a panic. -/
def catOptions (env : MEnv) : CatConf → List (Bytes × Bytes) → Res CatConf
  | c, [] => .ok c
  | c, (name, value) :: os =>
    if name = ascii "pad" then (PadMode.new value).bind fun p => catOptions env { c with pad := p } os
    else if name = ascii "number" then (c.num.set value).bind fun n => catOptions env { c with num := n } os
    else if name = ascii "begin" then (c.num.set (ascii "number,1,begin")).bind fun n => catOptions env { c with num := n } os
    else if name = ascii "end" then (c.num.set (ascii "number,1,end")).bind fun n => catOptions env { c with num := n } os
    else if name = ascii "skip" then (Matcher.make env value).bind fun t => catOptions env { c with skips := c.skips ++ [t] } os
    else if name = ascii "remove" then (Matcher.make env value).bind fun t => catOptions env { c with removes := c.removes ++ [t] } os
    else .panic

/-- `slow` (`src/bin/cdx/cat_main.rs` 125). -/
def CatConf.slow (c : CatConf) : Bool := c.num.doIt || !c.skips.isEmpty || !c.removes.isEmpty

/-- `main` (`src/bin/cdx/cat_main.rs` 71-213). The lists of matchers are those of `MatcherList::new`, which are satisfied by any one
matcher (`src/matcher.rs` 1350-1355). -/
def catMain (env : MEnv) (nameOk : Bytes → Bool) (m : TextMode) (mode : HeaderMode) (opts : List (Bytes × Bytes)) (files : List Bytes) :
    Res Bytes :=
  (catOptions env {} opts).bind fun c =>
    if c.slow then
      catSlow nameOk m c.num (matcherListUmatch env .or c.removes) (matcherListUmatch env .or c.skips) (.fromMode mode) c.num.start files
    else match catFast nameOk c.pad (.fromMode mode) true files with
      | Option.none => .err
      | some out => .ok out

end Cdx
