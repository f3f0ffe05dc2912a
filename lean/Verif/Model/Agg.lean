import Verif.Model.Sort
import Verif.Model.Expr
import Verif.Model.Match

/-!
Aggregation of values, `/repo/src/agg.rs`.

Simplifications. Arithmetic on f64 is left open (`FloatOps`), and so are the parser of numbers, the Unicode tables and the
reader of comparator specifications (`AggEnv`). `result` gives the number to print instead of printing it. Sums of counts
(`usize`, `isize`) are assumed not to overflow. Aggregators that users of the library register are left out.
-/

namespace Cdx

/-! ## Signed numbers -/

/-- The largest `isize` (used at `src/text.rs` 646). -/
def isizeMax : Nat := 2 ^ 63 - 1

/-- `usize as isize` (used at `src/text.rs` 669). -/
def asIsize (n : Nat) : Int := if n ≤ isizeMax then n else (n : Int) - 2 ^ 64

/-- The product of two `isize`; `none` if it does not fit (used at `src/text.rs` 669 and 672). -/
def mulIsize (a b : Int) : Option Int :=
  if -(isizeMax : Int) - 1 ≤ a * b ∧ a * b ≤ isizeMax then some (a * b) else none

/-- The sign of `to_isize` and what follows (`src/text.rs` 647-656). -/
def isizeSign : Bytes → Int × Bytes
  | [] => (1, [])
  | c :: cs => if c = 43 then (1, cs) else if c = 45 then (-1, cs) else (1, c :: cs)

/-- `to_isize` (`src/text.rs` 646-674); `none` is an overflow. -/
def toIsize (self : Bytes) : Option (Int × Bytes) :=
  match (isizeSign self).2 with
  | [] => some (0, self)
  | c :: cs =>
    if isDigit c = false then some (0, self)
    else match digitLoop isizeMax 0 (c :: cs) with
      | none => none
      | some (ret, rest) => match rest with
        | [] => (mulIsize ret (isizeSign self).1).bind fun v => some (v, [])
        | s :: rest' => match suffixValU s with
          | none => (mulIsize ret (isizeSign self).1).bind fun v => some (v, s :: rest')
          | some mul => (mulIsize ret (asIsize mul)).bind fun v =>
            (mulIsize v (isizeSign self).1).bind fun v => some (v, rest')

/-- `to_isize_whole` (`src/text.rs` 143-155). -/
def toIsizeWhole (self : Bytes) : Res Int :=
  match toIsize self with
  | none => .panic
  | some (v, rest) => if rest ≠ [] then .err else .ok v

/-! ## Counters -/

/-- What the aggregators (`src/agg.rs` 689-1241) take from outside. -/
structure AggEnv (F : Type) where
  /-- arithmetic on f64 -/
  ops : FloatOps F
  /-- `to_f64_lossy` (`src/text.rs` 179-181) -/
  toF : Bytes → F
  /-- the same, for comparators -/
  toF64 : Bytes → F64
  /-- the characters of `String::from_utf8_lossy` (`src/agg.rs` 254) -/
  chars : Bytes → List Char
  /-- `char::is_whitespace` (`src/agg.rs` 276) -/
  space : Char → Bool
  /-- `char::is_alphanumeric` (`src/agg.rs` 315) -/
  alnum : Char → Bool
  /-- `CompMaker::make_comp` (`src/comp.rs`) -/
  mkComp : Bytes → Res CompKind

/-- `Chars`, `Swords` and `Awords` (`src/agg.rs` 243-338). -/
inductive CounterKind | chars | swords | awords
deriving DecidableEq

/-- A counter (`src/agg.rs` 243-338). -/
structure Counter where
  kind : CounterKind
  utf8 : Bool
deriving DecidableEq

/-- The loop counting words (`src/agg.rs` 275-284, 286-295, 314-323 and 325-334). -/
def wordLoop {α : Type} (good : α → Bool) : List α → (sawSpace : Bool) → (ret : Nat) → Nat
  | [], _, ret => ret
  | x :: xs, sawSpace, ret =>
    if good x then (if sawSpace then wordLoop good xs false (ret + 1) else wordLoop good xs sawSpace ret)
    else wordLoop good xs true ret

/-- `u8::is_ascii_alphanumeric` (used at `src/agg.rs` 326). -/
def isAlnumByte (c : UInt8) : Bool := isDigit c || (65 ≤ c && c ≤ 90) || (97 ≤ c && c ≤ 122)

/-- `counter` (`src/agg.rs` 252-258, 271-298 and 310-337). -/
def Counter.count {F : Type} (env : AggEnv F) (c : Counter) (data : Bytes) : Nat :=
  match c.kind, c.utf8 with
  | .chars, true => (env.chars data).length
  | .chars, false => data.length
  | .swords, true => wordLoop (fun x => !env.space x) (env.chars data) true 0
  | .swords, false => wordLoop (fun x => decide (x > 32)) data true 0
  | .awords, true => wordLoop env.alnum (env.chars data) true 0
  | .awords, false => wordLoop isAlnumByte data true 0

/-! ## Merge -/

/-- `Merge` without its data (`src/agg.rs` 689-710). -/
structure MergeConf where
  delim : UInt8
  outDelim : UInt8
  maxParts : Nat
  comp : CompKind
  doSort : Bool
  doUniq : Bool
  minLen : Nat
  maxLen : Nat
  doCount : Bool
deriving DecidableEq

/-- `Merge::default` (`src/agg.rs` 712-727); `Comp::default` compares plainly. -/
def MergeConf.default : MergeConf := ⟨44, 44, usizeMax, .plain, false, false, 0, usizeMax, false⟩

/-- `Merge::add_one` (`src/agg.rs` 764-791). -/
def MergeConf.addOne (mkComp : Bytes → Res CompKind) (m : MergeConf) (spec : Bytes) : Res MergeConf :=
  match spec with
  | [] => .err
  | c :: _ =>
    if c = 68 then
      match spec with
      | [_, x, y] => .ok { m with delim := x, outDelim := y }
      | _ => .err
    else if eqIgnoreCase spec (ascii "sort") then .ok { m with doSort := true }
    else if eqIgnoreCase spec (ascii "uniq") then .ok { m with doUniq := true }
    else if eqIgnoreCase spec (ascii "count") then .ok { m with doCount := true }
    else if (ascii "comp:").isPrefixOf spec then (mkComp (spec.drop 5)).bind fun k => .ok { m with comp := k }
    else if (ascii "min_len:").isPrefixOf spec then
      (toUsizeWhole (spec.drop 8)).bind fun n => .ok { m with minLen := n }
    else if (ascii "max_len:").isPrefixOf spec then
      (toUsizeWhole (spec.drop 8)).bind fun n => .ok { m with maxLen := n }
    else if (ascii "max_parts:").isPrefixOf spec then
      (toUsizeWhole (spec.drop 10)).bind fun n => .ok { m with maxParts := n }
    else .err

/-- The part of the loop of `Merge::new` that deals with a leading `D` (`src/agg.rs` 741-753). -/
def mergeDelim (mkComp : Bytes → Res CompKind) (m : MergeConf) (sp : Bytes) : Res (MergeConf × Bytes) :=
  match sp with
  | 68 :: _ =>
    if sp.length < 3 then .err
    else if cutsChar sp 3 then .panic
    else (m.addOne mkComp (sp.take 3)).bind fun m =>
      match sp.drop 3 with
      | [] => .ok (m, [])
      | c :: rest => if c ≠ 46 then .err else .ok (m, rest)
  | _ => .ok (m, sp)

/-- The loop of `Merge::new` (`src/agg.rs` 733-761). -/
def mergeLoop (mkComp : Bytes → Res CompKind) : Nat → MergeConf → Bytes → Res MergeConf
  | 0, _, _ => .panic
  | fuel + 1, m, sp =>
    if sp = [] then .ok m
    else if (ascii "comp:").isPrefixOf sp then m.addOne mkComp sp
    else (mergeDelim mkComp m sp).bind fun r =>
      match splitOnce 46 r.2 with
      | some (a, b) => (r.1.addOne mkComp a).bind fun m => mergeLoop mkComp fuel m b
      | none => r.1.addOne mkComp r.2

/-- `Merge::new` (`src/agg.rs` 730-763). Each turn shortens the text, so the fuel suffices. -/
def mergeNew (mkComp : Bytes → Res CompKind) (spec : Bytes) : Res MergeConf :=
  mergeLoop mkComp (spec.length + 1) MergeConf.default spec

/-- The slices `result` prints from (`src/agg.rs` 804-816). -/
def mergeSlices {F : Type} (env : AggEnv F) (c : MergeConf) (line : Bytes) : List Slice :=
  let parts := splitPlain line c.delim
  let parts := if c.doSort then
    stableSort (fun a b => decide (compK env.toF64 c.comp (a.get line) (b.get line) ≠ .gt)) parts else parts
  if c.doUniq then dedupBy (fun a b => equalK env.toF64 c.comp (a.get line) (b.get line)) parts else parts

/-- The loop writing the parts (`src/agg.rs` 820-832). -/
def mergeWrite (c : MergeConf) (line : Bytes) : List Slice → (written : Nat) → Bytes
  | [], _ => []
  | x :: xs, written =>
    if x.fin - x.beg ≥ c.minLen ∧ x.fin - x.beg ≤ c.maxLen then
      (if written > 0 then [c.outDelim] else []) ++ x.get line ++
        (if written + 1 ≥ c.maxParts then [] else mergeWrite c line xs (written + 1))
    else mergeWrite c line xs written

/-! ## Prefix and suffix -/

/-- The first position at or after `i` where the two differ (`src/agg.rs` 1131-1136). -/
def mismatch : Bytes → Bytes → (i : Nat) → Option Nat
  | x :: xs, y :: ys, i => if x ≠ y then some i else mismatch xs ys (i + 1)
  | _, _, _ => none

/-- `common_prefix` (`src/agg.rs` 1126-1137). -/
def commonPrefix (val data : Bytes) : Bytes :=
  let val := if val.length > data.length then val.take data.length else val
  match mismatch val data 0 with
  | some i => val.take i
  | none => val

/-- How many bytes agree (`src/agg.rs` 1180-1187). -/
def okBytes : Bytes → Bytes → Nat
  | x :: xs, y :: ys => if x = y then okBytes xs ys + 1 else 0
  | _, _ => 0

/-- `common_suffix` (`src/agg.rs` 1179-1191). -/
def commonSuffix (val data : Bytes) : Bytes :=
  let ok := okBytes val.reverse data.reverse
  if ok < val.length then val.drop (val.length - ok) else val

/-! ## Aggregators -/

/-- The aggregators with their state (`src/agg.rs` 689-1241). -/
inductive Agg (F : Type)
  | merge (c : MergeConf) (line : Bytes)
  | min (k : CompKind) (val : Bytes) (empty : Bool)
  | max (k : CompKind) (val : Bytes)
  | mean (val cnt : F)
  | sum (val : F)
  | asum (c : Counter) (val : Nat)
  | amin (c : Counter) (val : Nat)
  | amax (c : Counter) (val : Nat)
  | amean (c : Counter) (val num : Nat)
  | prefix (val : Bytes) (empty : Bool)
  | suffix (val : Bytes) (empty : Bool)
  | count (val init : Int)
deriving DecidableEq

/-- What `result` (`src/agg.rs` 18) prints. -/
inductive AggOut (F : Type)
  | text (b : Bytes)
  | num (x : F)
deriving DecidableEq

/-- `isize as f64` (used at `src/agg.rs` 1230). -/
def ofIsize {F : Type} (ops : FloatOps F) (n : Int) : F := if 0 ≤ n then ops.ofNat n.toNat else ops.neg (ops.ofNat (-n).toNat)

/-- `add` (`src/agg.rs` 795-802, 861-871, 898-901, 934-936, 966-968, 995-997, 1024-1026, 1059-1062, 1087-1092, 1140-1147,
1194-1201 and 1232-1234). -/
def Agg.add {F : Type} (env : AggEnv F) (a : Agg F) (data : Bytes) : Agg F :=
  match a with
  | .merge c line => if data ≠ [] then .merge c ((if line ≠ [] then line ++ [c.delim] else line) ++ data) else .merge c line
  | .min k val empty =>
    if empty then .min k (val ++ data) false
    else if compK env.toF64 k val data = .gt then .min k data empty else .min k val empty
  | .max k val => if compK env.toF64 k val data = .lt then .max k data else .max k val
  | .mean val cnt => .mean (env.ops.add val (env.toF data)) (env.ops.add cnt (env.ops.ofNat 1))
  | .sum val => .sum (env.ops.add val (env.toF data))
  | .asum c val => .asum c (val + c.count env data)
  | .amin c val => .amin c (Nat.min val (c.count env data))
  | .amax c val => .amax c (Nat.max val (c.count env data))
  | .amean c val num => .amean c (val + c.count env data) (num + 1)
  | .prefix val empty => if empty then .prefix (val ++ data) false else .prefix (commonPrefix val data) empty
  | .suffix val empty => if empty then .suffix (val ++ data) false else .suffix (commonSuffix val data) empty
  | .count val init => .count (val + 1) init

/-- `value` (`src/agg.rs` 22-24, 858-860, 906-912, 940-942, 963-965, 992-994, 1021-1023, 1052-1058, 1100-1102 and
1229-1231). -/
def Agg.value {F : Type} (env : AggEnv F) : Agg F → F
  | .merge _ _ => env.ops.zero
  | .min _ val _ => env.toF val
  | .max _ val => env.toF val
  | .mean val cnt => if env.ops.gt cnt env.ops.zero then env.ops.div val cnt else env.ops.zero
  | .sum val => val
  | .asum _ val => env.ops.ofNat val
  | .amin _ val => env.ops.ofNat val
  | .amax _ val => env.ops.ofNat val
  | .amean _ val num => if num > 0 then env.ops.div (env.ops.ofNat val) (env.ops.ofNat num) else env.ops.zero
  | .prefix _ _ => env.ops.zero
  | .suffix _ _ => env.ops.zero
  | .count val _ => ofIsize env.ops val

/-- `result` (`src/agg.rs` 803-835, 872-875, 903-905, 937-939, 969-971, 998-1000, 1027-1029, 1063-1065, 1093-1096,
1148-1151, 1202-1205 and 1235-1237). -/
def Agg.result {F : Type} (env : AggEnv F) (a : Agg F) : AggOut F :=
  match a with
  | .merge c line =>
    if c.doCount then .num (env.ops.ofNat (mergeSlices env c line).length)
    else .text (mergeWrite c line (mergeSlices env c line) 0)
  | .min _ val _ => .text val
  | .max _ val => .text val
  | .prefix val _ => .text val
  | .suffix val _ => .text val
  | .asum _ val => .num (env.ops.ofNat val)
  | .amin _ val => .num (env.ops.ofNat val)
  | .amax _ val => .num (env.ops.ofNat val)
  | .amean _ val _ => .num (env.ops.ofNat val)
  | .mean val cnt => .num ((Agg.mean val cnt).value env)
  | .sum val => .num ((Agg.sum val).value env)
  | .count val init => .num ((Agg.count val init).value env)

/-- `reset` (`src/agg.rs` 836-838, 876-879, 913-916, 943-945, 972-974, 1001-1003, 1030-1032, 1066-1069, 1097-1099,
1152-1155, 1206-1209 and 1238-1240). -/
def Agg.reset {F : Type} (env : AggEnv F) : Agg F → Agg F
  | .merge c _ => .merge c []
  | .min k _ _ => .min k [] true
  | .max k _ => .max k []
  | .mean _ _ => .mean env.ops.zero env.ops.zero
  | .sum _ => .sum env.ops.zero
  | .asum c _ => .asum c 0
  | .amin c _ => .amin c usizeMax
  | .amax c _ => .amax c 0
  | .amean c _ _ => .amean c 0 0
  | .prefix _ _ => .prefix [] true
  | .suffix _ _ => .suffix [] true
  | .count _ init => .count init init

/-! ## Making aggregators -/

/-- `resolve_alias` (`src/agg.rs` 1366-1373) with the aliases of `init` (1284-1287). -/
def aggAlias (name : Bytes) : Bytes :=
  if name = ascii "minimum" then ascii "min" else if name = ascii "maximum" then ascii "max"
  else if name = ascii "avg" then ascii "mean" else if name = ascii "aavg" then ascii "amean" else name

/-- The loop of `make_counter2` over the words (`src/agg.rs` 1502-1508). -/
def counterWords : List Bytes → (utf8 : Bool) → (name : Bytes) → Bool × Bytes
  | [], utf8, name => (utf8, name)
  | x :: xs, utf8, name => if eqIgnoreCase x (ascii "utf8") then counterWords xs true name else counterWords xs utf8 x

/-- `make_counter2` (`src/agg.rs` 1495-1517); the pattern is not used. -/
def makeCounter2 (spec : Bytes) : Res Counter :=
  let w := if spec = [] then (false, []) else counterWords (sliceSplit 46 spec) false []
  let name := if spec = [] then w.2 else aggAlias w.2
  if name = ascii "chars" then .ok ⟨.chars, w.1⟩
  else if name = ascii "swords" then .ok ⟨.swords, w.1⟩
  else if name = ascii "awords" then .ok ⟨.awords, w.1⟩
  else .err

/-- `make_counter` (`src/agg.rs` 1527-1533). -/
def makeCounter (spec : Bytes) : Res Counter :=
  match splitOnce 44 spec with
  | some (a, _) => makeCounter2 a
  | none => makeCounter2 spec

/-- The makers of `init` (`src/agg.rs` 1280-1343). -/
def aggBox {F : Type} (env : AggEnv F) (name pattern : Bytes) : Res (Agg F) :=
  if name = ascii "asum" then (makeCounter pattern).bind fun c => .ok (.asum c 0)
  else if name = ascii "amin" then (makeCounter pattern).bind fun c => .ok (.amin c usizeMax)
  else if name = ascii "amax" then (makeCounter pattern).bind fun c => .ok (.amax c 0)
  else if name = ascii "amean" then (makeCounter pattern).bind fun c => .ok (.amean c 0 0)
  else if name = ascii "merge" then (mergeNew env.mkComp pattern).bind fun m => .ok (.merge m [])
  else if name = ascii "count" then
    if pattern = [] then .ok (.count 0 0) else (toIsizeWhole pattern).bind fun n => .ok (.count n n)
  else if name = ascii "prefix" then if pattern = [] then .ok (.prefix [] true) else .err
  else if name = ascii "suffix" then if pattern = [] then .ok (.suffix [] true) else .err
  else if name = ascii "min" then (env.mkComp pattern).bind fun k => .ok (.min k [] true)
  else if name = ascii "max" then (env.mkComp pattern).bind fun k => .ok (.max k [])
  else if name = ascii "mean" then if pattern = [] then .ok (.mean env.ops.zero env.ops.zero) else .err
  else if name = ascii "sum" then if pattern = [] then .ok (.sum env.ops.zero) else .err
  else .err

/-- `make2` (`src/agg.rs` 1476-1493): the last of the dotted words counts. -/
def aggMake2 {F : Type} (env : AggEnv F) (spec pattern : Bytes) : Res (Agg F) :=
  if spec = [] then aggBox env [] pattern else aggBox env (aggAlias ((sliceSplit 46 spec).getLastD [])) pattern

/-- `make` (`src/agg.rs` 1519-1525). -/
def aggMake {F : Type} (env : AggEnv F) (spec : Bytes) : Res (Agg F) :=
  match splitOnce 44 spec with
  | some (a, b) => aggMake2 env a b
  | none => aggMake2 env spec []

end Cdx
