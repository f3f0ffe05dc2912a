import Verif.Model.Sample

/-!
The `sample` command from its options, `/repo/src/bin/cdx/sample_main.rs`.

Simplifications. Options come as pairs of a name and a value, as `args::parse` gives them. The height of the screen is a parameter.
-/

namespace Cdx

/-- The options (`src/bin/cdx/sample_main.rs` 99-126); `seen` is what was asked for so far. Any other name is a panic. -/
def sampleOptions : (seen : Option SampleMode) → List (Bytes × Bytes) → Res (Option SampleMode)
  | seen, [] => .ok seen
  | seen, (name, value) :: os =>
    if name = ascii "for" then
      if seen.isSome then .err else (ForLoop.parse value).bind fun f => sampleOptions (some (.loop f)) os
    else if name = ascii "range" then
      if seen.isSome then .err else (rangesParse (sliceSplit 44 value)).bind fun rs => sampleOptions (some (.range rs)) os
    else if name = ascii "sample" then
      if seen.isSome then .err else (toUsizeWhole value).bind fun n => sampleOptions (some (.sample n)) os
    else .panic

/-- `main` (`src/bin/cdx/sample_main.rs` 86-180). -/
def sampleMain (nameOk : Bytes → Bool) (height : Nat) (m : TextMode) (opts : List (Bytes × Bytes)) (files : List Bytes) : Res Bytes :=
  (sampleOptions none opts).bind fun mode => sampleFiles nameOk m (mode.getD (.sample height)) (.fromMode .matching) files

end Cdx
