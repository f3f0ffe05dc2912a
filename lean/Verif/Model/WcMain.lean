import Verif.Model.Wc
import Verif.Model.Settings

/-!
The `wc` command from its options, `/repo/src/bin/cdx/wc_main.rs`.

Simplifications. Options come as pairs of a name and a value, as `args::parse` gives them. The others are those of `Model/Wc.lean`.
-/

namespace Cdx

/-- What the options ask for (`src/bin/cdx/wc_main.rs` 38-45). The aggregators are kept as texts. -/
structure WcAsk where
  specs : List Bytes := []
  columns : Bool := false
  conf : WcConf := .default
deriving DecidableEq

/-- The options (`src/bin/cdx/wc_main.rs` 46-80). Any other name is a panic. -/
def wcOptions {F : Type} (env : AggEnv F) : WcAsk → List (Bytes × Bytes) → Res WcAsk
  | c, [] => .ok c
  | c, (name, value) :: os =>
    let push : Bytes → Res WcAsk := fun spec => (Agger.new env spec).bind fun _ => wcOptions env { c with specs := c.specs ++ [spec] } os
    if name = ascii "agg" then push value
    else if name = ascii "lines" then push (ascii "lines,count")
    else if name = ascii "bytes" then push (ascii "bytes,asum,chars")
    else if name = ascii "chars" then push (ascii "chars,asum,utf8.chars")
    else if name = ascii "words" then push (ascii "words,asum,swords")
    else if name = ascii "format" then (NumFormat.parse value).bind fun f => wcOptions env { c with conf := { c.conf with fmt := f } } os
    else if name = ascii "columns" then wcOptions env { c with columns := true } os
    else if name = ascii "total" then
      if eqIgnoreCase value (ascii "only") then wcOptions env { c with conf := { c.conf with totalOnly := true } } os
      else (Tri.new value).bind fun t => wcOptions env { c with conf := { c.conf with showTotals := t } } os
    else if name = ascii "with-header" then (Tri.new value).bind fun t => wcOptions env { c with conf := { c.conf with showHeader := t } } os
    else if name = ascii "file" then
      match splitOnce 44 value with
      | some (a, b) => (Tri.new a).bind fun t => wcOptions env { c with conf := { c.conf with showFile := t, fileCol := b } } os
      | none => (Tri.new value).bind fun t => wcOptions env { c with conf := { c.conf with showFile := t } } os
    else .panic

/-- `main` (`src/bin/cdx/wc_main.rs` 22-247). `out` is the format of the output, if one was asked for. -/
def wcMain {F : Type} (env : AggEnv F) (prn : NumFormat → F → Bytes) (m : TextMode) (out : Option TextMode) (opts : List (Bytes × Bytes))
    (files : List (Bytes × Bytes)) : Res Bytes :=
  (wcOptions env {} opts).bind fun c =>
    let conf := { c.conf with out := out }
    if c.columns then wcColumns env prn m conf c.specs (files.map (·.2)) else wcCmd env prn m conf c.specs files

end Cdx
