import Verif.Model.Verify
import Verif.Model.BinMain

/-!
The `verify` command from its options, `/repo/src/bin/cdx/verify_main.rs`.

Simplifications. Options come as pairs of a name and a value, as `args::parse` gives them; so the names `or` and `fail`, which are handled but
not declared, do not occur. `compiles` tells whether an expression of a key can be compiled and `eval` what it computes. The texts printed
by `--show-const` and `--show-func` are left out. The random comparator is not modelled; a key with it is an error.
-/

namespace Cdx

/-- The options (`src/bin/cdx/verify_main.rs` 44-70); nothing if a list was printed instead. Any other name is a panic. -/
def verifyOptions (env : MEnv) (compiles : Bytes → Bool) : VerifyConf → List LineCompMade → List (Bytes × Bytes) →
    Res (Option (VerifyConf × List LineCompMade))
  | c, ks, [] => .ok (some (c, ks))
  | c, ks, (name, value) :: os =>
    if name = ascii "pattern" then (makeLine env value).bind fun t => verifyOptions env compiles { c with matchers := c.matchers ++ [t] } ks os
    else if name = ascii "key" then (makeLineComp compiles value).bind fun k => verifyOptions env compiles c (ks ++ [k]) os
    else if name = ascii "sort" then verifyOptions env compiles { c with sort := true } ks os
    else if name = ascii "first" then (CheckLine.new value).bind fun l => verifyOptions env compiles { c with first := some l } ks os
    else if name = ascii "last" then (CheckLine.new value).bind fun l => verifyOptions env compiles { c with last := some l } ks os
    else if name = ascii "unique" then verifyOptions env compiles { c with sort := true, unique := true } ks os
    else if name = ascii "show-const" then .ok none
    else if name = ascii "show-func" then .ok none
    else .panic

/-- The keys, or the default (`src/bin/cdx/verify_main.rs` 71-73). -/
def verifyKeys (compiles : Bytes → Bool) (ks : List LineCompMade) : Res (List LineCompMade) :=
  if ks = [] then (makeLineComp compiles []).bind fun k => .ok [k] else .ok ks

/-- `main` (`src/bin/cdx/verify_main.rs` 20-140): whether it succeeds. -/
def verifyMain (env : MEnv) (compiles : Bytes → Bool) (eval : Bytes → List Bytes → Res (Bytes → F64)) (m : TextMode)
    (opts : List (Bytes × Bytes)) (files : List Bytes) : Res Bool :=
  (verifyOptions env compiles ⟨[], false, false, none, none⟩ [] opts).bind fun o =>
    match o with
    | none => .ok true
    | some (c, ks) => (verifyKeys compiles ks).bind fun ks => verifyFiles env m c (fun names => resolveKeys eval names ks) 0 files

end Cdx
