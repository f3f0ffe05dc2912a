import Verif.Model.Paste
import Verif.Model.Settings
import Verif.Model.Cut

/-!
The `paste` command from its options, `/repo/src/bin/cdx/paste_main.rs`.

Simplifications. Options come as pairs of a name and a value, as `args::parse` gives them. The others are those of `Model/Paste.lean`.
-/

namespace Cdx

/-- What the options ask for (`src/bin/cdx/paste_main.rs` 40-43). -/
structure PasteAsk where
  mode : EndMode := .exact
  data : List ScopedValue := []
  header : ColumnHeader := ⟨[], .fail, []⟩
  sloppy : Bool := false
  useLast : Bool := false

/-- The options (`src/bin/cdx/paste_main.rs` 45-61). Any other name is a panic. -/
def pasteOptions (transOk : Bytes → Bool) : PasteAsk → List (Bytes × Bytes) → Res PasteAsk
  | c, [] => .ok c
  | c, (name, value) :: os =>
    if name = ascii "end" then (EndMode.new value).bind fun e => pasteOptions transOk { c with mode := e } os
    else if name = ascii "default" then
      (ScopedValue.new transOk value 44).bind fun v => pasteOptions transOk { c with data := c.data ++ [v] } os
    else if name = ascii "dups" then
      (DupColHandling.new value).bind fun d => pasteOptions transOk { c with header := { c.header with dups := d } } os
    else if name = ascii "rename" then (c.header.addRename value).bind fun h => pasteOptions transOk { c with header := h } os
    else if name = ascii "rename-sloppy" then pasteOptions transOk { c with sloppy := true } os
    else if name = ascii "last" then pasteOptions transOk { c with useLast := true } os
    else .panic

/-- `main` (`src/bin/cdx/paste_main.rs` 28-155): what is written, and whether the command succeeds. -/
def pasteMain (m : TextMode) (transOk : Bytes → Bool) (mk : Bytes → Res (Bytes → Bool)) (opts : List (Bytes × Bytes)) (files : List Bytes) :
    Res (Bytes × Bool) :=
  (pasteOptions transOk {} opts).bind fun c => pasteCmd m mk c.mode c.useLast c.data c.header files c.sloppy

end Cdx
