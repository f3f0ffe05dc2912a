import Verif.Model.Text
import Verif.Model.TextLine

/-!
Comparators. Models `/repo/src/comp.rs` and the parts of `/repo/src/num.rs` and `/repo/src/text.rs` it uses.

Simplifications: a 64-bit float is its bit pattern; `==` and `>` on floats are IEEE 754 (`F64.eq`, `F64.gt`);
the conversion of text to a float (`to_f64_lossy`) is a parameter. A cache is a natural number (below 2^64); the
top bit of `size_plus` is a separate field, so lines are assumed shorter than 2^31. The `random` comparator is not
modelled.
-/

namespace Cdx

/-! ## Floats -/

/-- A 64-bit float (`f64`, `src/num.rs` 118): its bit pattern. -/
abbrev F64 := UInt64

/-- Not a number: exponent all ones and a non-zero fraction (IEEE 754; `f64` at `src/num.rs` 106-115). -/
def F64.isNaN (x : F64) : Bool := 0x7ff0000000000000 < x.toNat % 2 ^ 63

/-- The value times 2^1074, an integer; infinity gets the next integer of the same formula. (IEEE 754; `f64` at
`src/num.rs` 106-115). -/
def F64.scaled (x : F64) : Int :=
  let e := x.toNat / 2 ^ 52 % 2048
  let m := x.toNat % 2 ^ 52
  let v : Nat := if e = 0 then m else (2 ^ 52 + m) * 2 ^ (e - 1)
  if x.toNat / 2 ^ 63 = 0 then v else - v

/-- `x == y` of `f64` (used at `src/num.rs` 107). -/
def F64.eq (x y : F64) : Bool := !x.isNaN && !y.isNaN && x.scaled == y.scaled

/-- `x > y` of `f64` (used at `src/num.rs` 110). -/
def F64.gt (x y : F64) : Bool := !x.isNaN && !y.isNaN && decide (x.scaled > y.scaled)

/-- `fcmp` (`src/num.rs` 106-114). -/
def fcmp (x y : F64) : Ordering := if F64.eq x y then .eq else if F64.gt x y then .gt else .lt

/-- `ulp_to_ulong` (`src/num.rs` 118-125). -/
def ulpToUlong (x : F64) : UInt64 :=
  if x &&& 0x8000000000000000 ≠ 0 then x ^^^ 0xffffffffffffffff else x ||| 0x8000000000000000

/-! ## Byte comparisons -/

/-- `cmp` of byte slices (used at `src/comp.rs` 1583): lexicographic. -/
def lexCmp : Bytes → Bytes → Ordering
  | [], [] => .eq
  | [], _ :: _ => .lt
  | _ :: _, [] => .gt
  | x :: xs, y :: ys => if x < y then .lt else if x > y then .gt else lexCmp xs ys

/-- Loop of `cmp_insens` (`src/text.rs` 567-579): the first difference of the lower case bytes, if any. -/
def insensLoop : Bytes → Bytes → Option Ordering
  | x :: xs, y :: ys =>
    if lowerByte x < lowerByte y then some .lt
    else if lowerByte x > lowerByte y then some .gt
    else insensLoop xs ys
  | _, _ => none

/-- `cmp_insens` (`src/text.rs` 567-581). -/
def cmpInsens (a b : Bytes) : Ordering := (insensLoop a b).getD (compare a.length b.length)

/-- Loop of `cmp_insens_quick` (`src/text.rs` 582-589): the left side is not lowered. -/
def insensQuickLoop : Bytes → Bytes → Option Ordering
  | x :: xs, y :: ys =>
    if x < lowerByte y then some .lt else if x > lowerByte y then some .gt else insensQuickLoop xs ys
  | _, _ => none

/-- `cmp_insens_quick` (`src/text.rs` 582-592). -/
def cmpInsensQuick (a b : Bytes) : Ordering := (insensQuickLoop a b).getD (compare a.length b.length)

/-- `eq_ignore_ascii_case` of std (used at `src/text.rs` 562). -/
def equalInsens (a b : Bytes) : Bool := lower a == lower b

/-! ## Numbers of any length -/

/-- `skip_comma_zero` (`src/comp.rs` 636-641). -/
def skipCommaZero (a : Bytes) : Bytes := a.dropWhile fun c => c == 48 || c == 44

/-- `skip_comma` (`src/comp.rs` 643-648). -/
def skipComma (a : Bytes) : Bytes := a.dropWhile fun c => c == 44

/-- The loop of `frac_cmp` (`src/comp.rs` 657-660). -/
def fracPrefix : Bytes → Bytes → Bytes × Bytes
  | x :: xs, y :: ys => if x = y ∧ isDigit x then fracPrefix xs ys else (x :: xs, y :: ys)
  | a, b => (a, b)

/-- `frac_cmp` (`src/comp.rs` 650-684); both texts start with a point. -/
def fracCmp (a b : Bytes) : Ordering :=
  match fracPrefix a.tail b.tail with
  | ([], []) => .eq
  | ([], y :: _) => if isDigit y then .lt else .eq
  | (x :: _, []) => if isDigit x then .gt else .eq
  | (x :: _, y :: _) =>
    if isDigit x then (if isDigit y then compare x y else .gt) else if isDigit y then .lt else .eq

/-- The first loop of `num_cmp_unsigned` (`src/comp.rs` 689-694): skips common digits. The fuel is the length of
the first text, enough since every round shortens it. -/
def numPrefix : Nat → Bytes → Bytes → Bytes × Bytes
  | n + 1, x :: xs, y :: ys =>
    if x = y ∧ isDigit x then numPrefix n (skipComma xs) (skipComma ys) else (x :: xs, y :: ys)
  | _, a, b => (a, b)

/-- The loops of `num_cmp_unsigned` that count digits (`src/comp.rs` 715-719 and 722-726); `sk` says whether commas
are skipped before the next test. -/
def numLog : Bool → Bytes → Nat
  | _, [] => 0
  | sk, x :: xs => if sk && x == 44 then numLog true xs else if isDigit x then numLog true xs + 1 else 0

/-- `num_cmp_unsigned` after the first loop (`src/comp.rs` 695-735). -/
def numDiff : Bytes → Bytes → Ordering
  | [], [] => .eq
  | [], y :: _ => if isDigit y then .lt else .eq
  | x :: _, [] => if isDigit x then .gt else .eq
  | x :: xs, y :: ys =>
    if x = 46 ∧ y = 46 then fracCmp (x :: xs) (y :: ys)
    else
      let la := numLog false (x :: xs)
      let lb := numLog false (y :: ys)
      if la ≠ lb then compare la lb else if la = 0 then .eq else compare x y

/-- `num_cmp_unsigned` (`src/comp.rs` 686-736). -/
def numCmpUnsigned (a b : Bytes) : Ordering :=
  let p := numPrefix (skipCommaZero a).length (skipCommaZero a) (skipCommaZero b)
  numDiff p.1 p.2

/-- `trimw_start` (`src/text.rs` 529-534). -/
def trimwStart (a : Bytes) : Bytes := a.dropWhile fun c => c ≤ 32

/-- Removes a minus sign (`src/comp.rs` 742-754). -/
def takeMinus : Bytes → Bool × Bytes
  | 45 :: xs => (true, xs)
  | a => (false, a)

/-- `num_cmp_signed` (`src/comp.rs` 738-767). -/
def numCmpSigned (a b : Bytes) : Ordering :=
  let a := takeMinus (trimwStart a)
  let b := takeMinus (trimwStart b)
  if a.1 then (if b.1 then numCmpUnsigned b.2 a.2 else .lt)
  else if b.1 then .gt
  else numCmpUnsigned a.2 b.2

/-! ## IP addresses -/

/-- The inner loop of `ip_cmp` (`src/comp.rs` 785-789) on two digit groups of equal length. -/
def groupDiff : Bytes → Bytes → Option Ordering
  | x :: xs, y :: ys => if x ≠ y then some (compare x y) else groupDiff xs ys
  | _, _ => none

/-- The loop of `ip_cmp` (`src/comp.rs` 773-803). Fuel: every round but the last removes at least the point. -/
def ipLoop : Nat → Bytes → Bytes → Ordering
  | 0, _, _ => .eq
  | n + 1, a, b =>
    let ga := a.takeWhile isDigit
    let gb := b.takeWhile isDigit
    if ga.length ≠ gb.length then compare ga.length gb.length
    else match groupDiff ga gb with
      | some o => o
      | none =>
        match a.dropWhile isDigit, b.dropWhile isDigit with
        | 46 :: ra, 46 :: rb => ipLoop n ra rb
        | 46 :: _, _ => .gt
        | _, 46 :: _ => .lt
        | _, _ => .eq

/-- `ip_cmp` (`src/comp.rs` 769-804). -/
def ipCmp (a b : Bytes) : Ordering := ipLoop ((trimwStart a).length + 1) (trimwStart a) (trimwStart b)

/-! ## Comparison methods -/

/-- The comparison methods (`src/comp.rs` 878-908), without `random`. -/
inductive CompKind | plain | lower | length | ip | numeric | float | equal
deriving DecidableEq, Repr

/-- `comp` of each `Compare` (`src/comp.rs` 1582-1720). -/
def compK (toF64 : Bytes → F64) : CompKind → Bytes → Bytes → Ordering
  | .plain, a, b => lexCmp a b
  | .lower, a, b => cmpInsens a b
  | .length, a, b => compare a.length b.length
  | .ip, a, b => ipCmp a b
  | .numeric, a, b => numCmpSigned a b
  | .float, a, b => fcmp (toF64 a) (toF64 b)
  | .equal, _, _ => .eq

/-- `equal` of each `Compare` (`src/comp.rs` 1585-1720). -/
def equalK (toF64 : Bytes → F64) : CompKind → Bytes → Bytes → Bool
  | .plain, a, b => a == b
  | .lower, a, b => equalInsens a b
  | .length, a, b => a.length == b.length
  | .ip, a, b => ipCmp a b == .eq
  | .numeric, a, b => numCmpSigned a b == .eq
  | .float, a, b => F64.eq (toF64 a) (toF64 b)
  | .equal, _, _ => true

/-- `comp_self` after `set` of each `Compare` (`src/comp.rs` 1592-1730). `CompareLen` keeps 32 bits. -/
def compSelfK (toF64 : Bytes → F64) : CompKind → Bytes → Bytes → Ordering
  | .plain, v, b => lexCmp v b
  | .lower, v, b => cmpInsensQuick (lower v) b
  | .length, v, b => compare (v.length % 2 ^ 32) (b.length % 2 ^ 32)
  | .ip, v, b => ipCmp v b
  | .numeric, v, b => numCmpSigned v b
  | .float, v, b => fcmp (toF64 v) (toF64 b)
  | .equal, _, _ => .eq

/-! ## Cached comparison -/

/-- `Item` (`src/comp.rs` 808-815). -/
structure Item where
  offset : Nat
  size : Nat
  complete : Bool
  cache : Nat
deriving DecidableEq, Repr

/-- `get` (`src/comp.rs` 1748-1750). -/
def Item.get (i : Item) (base : Bytes) : Bytes := (base.drop i.offset).take i.size

/-- `make_array` (`src/comp.rs` 611-626). -/
def makeArray (v : Bytes) : Bytes := (v ++ List.replicate 8 0).take 8

/-- `u64::from_be_bytes` of std (used at `src/comp.rs` 1589). -/
def beVal (a : Bytes) : Nat := a.foldl (fun n c => n * 256 + c.toNat) 0

/-- `fill_cache` of each `Compare` (`src/comp.rs` 1588-1726): cache and complete bit. -/
def fillCache (toF64 : Bytes → F64) (k : CompKind) (i : Item) (v : Bytes) : Item :=
  match k with
  | .plain => { i with cache := beVal (makeArray v), complete := decide (v.length ≤ 8) }
  | .lower => { i with cache := beVal (lower (makeArray v)), complete := decide (v.length ≤ 8) }
  | .length => { i with cache := v.length, complete := true }
  | .ip => { i with cache := 0, complete := false }
  | .numeric => { i with cache := (ulpToUlong (toF64 v)).toNat }
  | .float => { i with cache := (ulpToUlong (toF64 v)).toNat, complete := true }
  | .equal => { i with cache := 0, complete := true }

/-! ## Line comparators -/

/-- The kinds of `LineCompare`: whole line (`src/comp.rs` 380-382), one column (472-475; the column number for each
file), expression (1834-1837; its value for each file and line). -/
inductive LineKind
  | whole (k : CompKind)
  | col (k : CompKind) (num : Nat → Nat)
  | expr (eval : Nat → Bytes → F64)

/-- `LineComp` (`src/comp.rs` 192-208). -/
structure LineComp where
  kind : LineKind
  reverse : Bool
  delim : UInt8

/-- `LineComp::reverse` (`src/comp.rs` 263-269). -/
def rev (r : Bool) (x : Ordering) : Ordering := if r then x.swap else x

/-- `comp_lines` of each `LineCompare` (`src/comp.rs` 413-422, 519-531 and 1874-1885). -/
def LineComp.inner (toF64 : Bytes → F64) (c : LineComp) (lf rf : Nat) (l r : Bytes) : Ordering :=
  match c.kind with
  | .whole k => compK toF64 k l r
  | .col k num => compK toF64 k (getCol l (num lf) c.delim) (getCol r (num rf) c.delim)
  | .expr eval => fcmp (eval lf l) (eval rf r)

/-- `comp_lines_n` of `LineComp` (`src/comp.rs` 309-320). -/
def LineComp.compLines (toF64 : Bytes → F64) (c : LineComp) (lf rf : Nat) (l r : Bytes) : Ordering :=
  rev c.reverse (c.inner toF64 lf rf l r)

/-- `equal_lines_n` of `LineComp` (`src/comp.rs` 326-335) and of each `LineCompare` (424-433, 533-545, 1886-1897). -/
def LineComp.equalLines (toF64 : Bytes → F64) (c : LineComp) (lf rf : Nat) (l r : Bytes) : Bool :=
  match c.kind with
  | .whole k => equalK toF64 k l r
  | .col k num => equalK toF64 k (getCol l (num lf) c.delim) (getCol r (num rf) c.delim)
  | .expr eval => F64.eq (eval lf l) (eval rf r)

/-- `fill_cache_line` of each `LineCompare` (`src/comp.rs` 446-448, 557-560 and 1909-1913). The whole-line
comparator passes the entire buffer on. -/
def LineComp.fillCacheLine (toF64 : Bytes → F64) (c : LineComp) (i : Item) (base : Bytes) : Item :=
  match c.kind with
  | .whole k => fillCache toF64 k i base
  | .col k num => fillCache toF64 k i (getCol (i.get base) (num 0) c.delim)
  | .expr eval => { i with cache := (ulpToUlong (eval 0 (i.get base))).toNat, complete := true }

/-- `comp_items` of `LineComp` (`src/comp.rs` 242-253). -/
def LineComp.compItems (toF64 : Bytes → F64) (c : LineComp) (base : Bytes) (l r : Item) : Ordering :=
  rev c.reverse
    (if l.cache < r.cache then .lt
    else if l.cache > r.cache then .gt
    else if l.complete && r.complete then .eq
    else c.compLines toF64 0 0 (l.get base) (r.get base))

/-- `equal_items` of `LineComp` (`src/comp.rs` 255-261). -/
def LineComp.equalItems (toF64 : Bytes → F64) (c : LineComp) (base : Bytes) (l r : Item) : Bool :=
  if l.complete && r.complete then l.cache == r.cache
  else c.equalLines toF64 0 0 (l.get base) (r.get base)

/-! ## Lists of comparators -/

/-- `comp_lines_n` of `LineCompList` (`src/comp.rs` 1339-1353). -/
def compLinesList (toF64 : Bytes → F64) : List LineComp → (lf rf : Nat) → (l r : Bytes) → Ordering
  | [], _, _, _, _ => .eq
  | c :: cs, lf, rf, l, r =>
    if c.compLines toF64 lf rf l r ≠ .eq then c.compLines toF64 lf rf l r else compLinesList toF64 cs lf rf l r

/-- `equal_lines_n` of `LineCompList` (`src/comp.rs` 1359-1372). -/
def equalLinesList (toF64 : Bytes → F64) : List LineComp → (lf rf : Nat) → (l r : Bytes) → Bool
  | [], _, _, _, _ => true
  | c :: cs, lf, rf, l, r => if !c.equalLines toF64 lf rf l r then false else equalLinesList toF64 cs lf rf l r

/-- `comp_items` of `LineCompList` (`src/comp.rs` 1268-1283). -/
def compItemsList (toF64 : Bytes → F64) (cs : List LineComp) (base : Bytes) (l r : Item) : Ordering :=
  match cs with
  | [] => .eq
  | c :: cs =>
    if c.compItems toF64 base l r ≠ .eq then c.compItems toF64 base l r
    else compLinesList toF64 cs 0 0 (l.get base) (r.get base)

/-- `equal_items` of `LineCompList` (`src/comp.rs` 1285-1298). -/
def equalItemsList (toF64 : Bytes → F64) (cs : List LineComp) (base : Bytes) (l r : Item) : Bool :=
  match cs with
  | [] => true
  | c :: cs =>
    if !c.equalItems toF64 base l r then false
    else equalLinesList toF64 cs 0 0 (l.get base) (r.get base)

/-- `fill_cache_line` of `LineCompList` (`src/comp.rs` 1404-1408). -/
def fillCacheList (toF64 : Bytes → F64) (cs : List LineComp) (i : Item) (base : Bytes) : Item :=
  match cs with
  | [] => i
  | c :: _ => c.fillCacheLine toF64 i base

/-- `comp_self_line` of a `LineComp` after `set` (`src/comp.rs` 369-372, 462-464, 574-576 and 1925-1928). -/
def LineComp.compSelf (toF64 : Bytes → F64) (c : LineComp) (value r : Bytes) : Ordering :=
  rev c.reverse (match c.kind with
    | .whole k => compSelfK toF64 k value r
    | .col k num => compSelfK toF64 k value (getCol r (num 0) c.delim)
    | .expr eval => fcmp (toF64 value) (eval 0 r))

/-- `comp_self_line` of `LineCompList` (`src/comp.rs` 1453-1461), given one value for each comparator. -/
def compSelfParts (toF64 : Bytes → F64) : List LineComp → List Bytes → Bytes → Ordering
  | c :: cs, v :: vs, r =>
    if c.compSelf toF64 v r ≠ .eq then c.compSelf toF64 v r else compSelfParts toF64 cs vs r
  | _, _, _ => .eq

/-- `set` of `LineCompList` (`src/comp.rs` 1415-1433): the values for the comparators, or an error. -/
def setParts (n : Nat) (value : Bytes) (delim : UInt8) : Res (List Bytes) :=
  if n = 1 then .ok [value]
  else if (sliceSplit delim value).length ≠ n then .err
  else .ok (sliceSplit delim value)

/-- `comp_check` (`src/comp.rs` 1937-1957): whether two neighbouring lines are out of order. -/
def compCheck (c : Ordering) (unique : Bool) : Bool :=
  match c with
  | .lt => false
  | .eq => unique
  | .gt => true

end Cdx
