import Verif.Model.Float
import Verif.Model.Match

/-!
Texts of determiners with thresholds, `/repo/src/matcher.rs` 142-167 and 244-275.

Simplifications. A fraction is kept as the exact value of the double that was read. `libm::exp10`, used to read exponents, is a parameter.
-/

namespace Cdx

/-- `Thresh::new_frac` (`src/matcher.rs` 161-167). -/
def Thresh.newFrac (c : F64) : Res Thresh :=
  if c.ge (F64.ofNat 0) && (F64.ofNat 1).ge c then .ok (.frac c.abs (2 ^ 1074)) else .err

/-- `Thresh::new` (`src/matcher.rs` 145-154) with `to_f64_whole` (`src/text.rs` 183-194). -/
def Thresh.new (exp10 : Int → F64) (spec : Bytes) : Res Thresh :=
  if spec.contains 46 then
    match readF64 exp10 spec with
    | none => .panic
    | some (v, rest) => if rest ≠ [] then .err else Thresh.newFrac v
  else (toUsizeWhole spec).bind fun n => .ok (.count n)

/-- The determiners with a threshold (`src/matcher.rs` 258-271): the word with its comma, and what is made of it. -/
def threshWords : List (Bytes × (Thresh → Determiner)) := [
  (ascii "atmost,", .atMost), (ascii "atleast,", .atLeast), (ascii "exactly,", .exactly), (ascii "atmostno,", .atMostNo),
  (ascii "atleastno,", .atLeastNo), (ascii "exactlyno,", .exactlyNo)]

/-- `Determiner::new` in full (`src/matcher.rs` 246-274). -/
def Determiner.newAll (exp10 : Int → F64) (spec : Bytes) : Res Determiner :=
  if eqIgnoreCase spec (ascii "all") then .ok .all
  else if eqIgnoreCase spec (ascii "some") then .ok .some
  else if eqIgnoreCase spec (ascii "none") then .ok .none
  else if eqIgnoreCase spec (ascii "notall") then .ok .notAll
  else if eqIgnoreCase spec (ascii "mixed") then .ok .mixed
  else if eqIgnoreCase spec (ascii "uniform") then .ok .uniform
  else match threshWords.find? fun w => w.1.isPrefixOf spec with
    | Option.some w => (Thresh.new exp10 (spec.drop w.1.length)).bind fun t => .ok (w.2 t)
    | Option.none => .err

/-- `ColSetMatcher::new` (`src/matcher.rs` 1101-1111) with all determiners. -/
def mkSetAll (exp10 : Int → F64) (env : MEnv) (cols method pattern : Bytes) : Res LineMatcher :=
  match splitOnce 44 cols with
  | none => .err
  | some (a, b) => (Matcher.make2 env method pattern).bind fun m => (ColumnSet.fromSpec env b).bind fun c =>
      (Determiner.newAll exp10 a).bind fun d => .ok (.set m c d)

end Cdx
