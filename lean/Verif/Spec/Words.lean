import Verif.Model.Expr
import Verif.Model.Num

/-!
The words a user can write: functions and constants of formulas, determiners of column sets, formats of numbers.
-/

namespace Cdx

/-- The functions of formulas and how many arguments they take; none is any number but zero. -/
def funcWords : List (String × FuncOp × Option Nat) := [
  ("acos", .acos, some 1), ("acosh", .acosh, some 1), ("asin", .asin, some 1), ("asinh", .asinh, some 1), ("atan", .atan, some 1),
  ("atan2", .atan2, some 2), ("atanh", .atanh, some 1), ("cbrt", .cbrt, some 1), ("ceil", .ceil, some 1), ("copysign", .copysign, some 2),
  ("cos", .cos, some 1), ("cosh", .cosh, some 1), ("erf", .erf, some 1), ("exp", .exp, some 1), ("exp2", .exp2, some 1),
  ("exp10", .exp10, some 1), ("expm1", .expm1, some 1), ("fabs", .fabs, some 1), ("fdim", .fdim, some 2), ("floor", .floor, some 1),
  ("fma", .fma, some 3), ("fmax", .fmax, some 2), ("fmin", .fmin, some 2), ("fmod", .fmod, some 2), ("hypot", .hypot, some 2),
  ("j0", .j0, some 1), ("j1", .j1, some 1), ("jn", .jn, some 2), ("ldexp", .ldexp, some 2), ("lgamma", .lgamma, some 1),
  ("log", .log, some 1), ("log1p", .log1p, some 1), ("log2", .log2, some 1), ("log10", .log10, some 1), ("nextafter", .nextafter, some 2),
  ("pow", .pow, some 2), ("remainder", .remainder, some 2), ("round", .round, some 1), ("scalbn", .scalbn, some 2), ("sin", .sin, some 1),
  ("sinh", .sinh, some 1), ("sqrt", .sqrt, some 1), ("tan", .tan, some 1), ("tanh", .tanh, some 1), ("tgamma", .tgamma, some 1),
  ("trunc", .trunc, some 1), ("y0", .y0, some 1), ("y1", .y1, some 1), ("yn", .yn, some 2), ("abs", .abs, some 1),
  ("if", .if_, some 3), ("max", .max, none), ("min", .min, none), ("avg", .avg, none)]

/-- The constants of formulas. -/
def constWords : List String := [
  "pi", "e", "M_E", "M_LOG2E", "M_LOG10E", "M_LN2", "M_LN10", "M_PI", "M_PI_2", "M_PI_4", "M_1_PI", "M_2_PI", "M_2_SQRTPI", "M_SQRT2",
  "M_SQRT1_2", "M_INF", "M_NEG_INF", "M_MAX", "M_MIN", "M_MIN_POS"]

/-- The determiners that can be written without a number. -/
def detWords : List (String × Determiner) := [
  ("all", .all), ("some", .some), ("none", .none), ("notall", .notAll), ("mixed", .mixed), ("uniform", .uniform)]

/-- The determiners that are written with a number after a comma. -/
def threshNames : List (String × (Thresh → Determiner)) := [
  ("atmost", .atMost), ("atleast", .atLeast), ("exactly", .exactly), ("atmostno", .atMostNo), ("atleastno", .atLeastNo),
  ("exactlyno", .exactlyNo)]

/-- The formats of numbers that can be written without a precision. -/
def formatWords : List (String × NumFormat) := [
  ("plain", .plain none), ("short", .short none), ("float", .float none), ("power2", .power2), ("p2", .power2), ("power10", .power10),
  ("p10", .power10)]

/-- Those with a precision after a point. -/
def precWords : List (String × (Nat → NumFormat)) := [
  ("plain", fun n => .plain (some n)), ("short", fun n => .short (some n)), ("float", fun n => .float (some n))]

end Cdx
