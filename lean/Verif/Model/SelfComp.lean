import Verif.Model.Ops
import Verif.Model.Comp

/-!
Tests for equality with a stored value, and the packed `Item`: `/repo/src/comp.rs` 36-47, 360-377, 454-470, 566-582, 1170-1236, 1435-1472,
1582-1830 and 1917-1932.

Simplifications. `toF64` is the conversion of texts to numbers. The method `random` is left out.
-/

namespace Cdx

/-- `equal_self` after `set` of each `Compare` (`src/comp.rs` 1598-1732). `equal_insens_quick` is `eq_ignore_ascii_case`
(`src/text.rs` 565-567), and the length is kept in 32 bits. -/
def equalSelfK (toF64 : Bytes → F64) : CompKind → Bytes → Bytes → Bool
  | .plain, v, b => v == b
  | .lower, v, b => equalInsens (lower v) b
  | .length, v, b => v.length % 2 ^ 32 == b.length % 2 ^ 32
  | .ip, v, b => ipCmp v b == .eq
  | .numeric, v, b => numCmpSigned v b == .eq
  | .float, v, b => F64.eq (toF64 v) (toF64 b)
  | .equal, _, _ => true

/-- `equal_self_line` of a `LineComp` after `set` (`src/comp.rs` 374-376, 466-468, 578-581 and 1929-1932). -/
def LineComp.equalSelf (toF64 : Bytes → F64) (c : LineComp) (value r : Bytes) : Bool :=
  match c.kind with
  | .whole k => equalSelfK toF64 k value r
  | .col k num => equalSelfK toF64 k value (getCol r (num 0) c.delim)
  | .expr eval => F64.eq (toF64 value) (eval 0 r)

/-- `equal_self_cols` of a `LineComp` after `set` (`src/comp.rs` 365-367, 458-460, 570-572 and 1921-1924). -/
def LineComp.equalSelfCols (toF64 : Bytes → F64) (c : LineComp) (value : Bytes) (r : TextLine) : Bool :=
  match c.kind with
  | .whole k => equalSelfK toF64 k value r.text
  | .col k num => equalSelfK toF64 k value (r.get (num 0))
  | .expr eval => F64.eq (toF64 value) (eval 0 r.text)

/-- `equal_self_line` of `LineCompList` (`src/comp.rs` 1464-1471), given one value for each comparator. -/
def equalSelfParts (toF64 : Bytes → F64) : List LineComp → List Bytes → Bytes → Bool
  | c :: cs, v :: vs, r => if !c.equalSelf toF64 v r then false else equalSelfParts toF64 cs vs r
  | _, _, _ => true

/-- `equal_self_cols` of `LineCompList` (`src/comp.rs` 1445-1452), given one value for each comparator. -/
def equalSelfCols (toF64 : Bytes → F64) : List LineComp → List Bytes → TextLine → Bool
  | c :: cs, v :: vs, r => if !c.equalSelfCols toF64 v r then false else equalSelfCols toF64 cs vs r
  | _, _, _ => true

/-- `fill_cache_cols` of each `LineCompare` (`src/comp.rs` 442-444, 553-555 and 1905-1908); the expression is given by its value. -/
def LineComp.fillCacheCols (toF64 : Bytes → F64) (c : LineComp) (i : Item) (v : TextLine) : Item :=
  match c.kind with
  | .whole k => fillCache toF64 k i v.text
  | .col k num => fillCache toF64 k i (v.get (num 0))
  | .expr eval => { i with cache := (ulpToUlong (eval 0 v.text)).toNat, complete := true }

/-- `fill_cache_cols` of `LineCompList` (`src/comp.rs` 1398-1402). -/
def fillCacheColsList (toF64 : Bytes → F64) (cs : List LineComp) (i : Item) (v : TextLine) : Item :=
  match cs with
  | [] => i
  | c :: _ => c.fillCacheCols toF64 i v

/-! ## Packed items -/

/-- `Item` as it is stored (`src/comp.rs` 808-815). -/
structure PackedItem where
  offset : UInt32
  sizePlus : UInt32
  cache : UInt64
deriving DecidableEq, Repr

/-- `size` (`src/comp.rs` 1753-1755). -/
def PackedItem.size (i : PackedItem) : UInt32 := i.sizePlus &&& 0x7fffffff

/-- `complete` (`src/comp.rs` 1758-1760). -/
def PackedItem.complete (i : PackedItem) : Bool := (i.sizePlus &&& 0x80000000) != 0

/-- `set_complete` (`src/comp.rs` 1762-1764). -/
def PackedItem.setComplete (i : PackedItem) : PackedItem := { i with sizePlus := i.sizePlus ||| 0x80000000 }

/-- `clear_complete` (`src/comp.rs` 1766-1768). -/
def PackedItem.clearComplete (i : PackedItem) : PackedItem := { i with sizePlus := i.sizePlus &&& 0x7fffffff }

/-- `assign_complete` (`src/comp.rs` 1770-1776). -/
def PackedItem.assignComplete (i : PackedItem) (tag : Bool) : PackedItem := if tag then i.setComplete else i.clearComplete

/-- `begin` (`src/comp.rs` 1779-1781). -/
def PackedItem.begin (i : PackedItem) : Nat := i.offset.toNat

/-- `end` (`src/comp.rs` 1784-1786). -/
def PackedItem.end (i : PackedItem) : Nat := i.offset.toNat + i.size.toNat

/-- `get` (`src/comp.rs` 1748-1750): outside of the buffer it panics. -/
def PackedItem.get (i : PackedItem) (base : Bytes) : Option Bytes :=
  if i.end ≤ base.length then some ((base.drop i.begin).take (i.end - i.begin)) else none

/-- The item of the bytes from `off` up to the end of line at `nl` (`src/sort.rs` 438-439): both numbers are cut to 32 bits. -/
def PackedItem.ofLine (i : PackedItem) (off nl : Nat) : PackedItem :=
  { i with offset := UInt32.ofNat off, sizePlus := UInt32.ofNat (nl - off + 1) }

/-- `equal` (`src/comp.rs` 1789-1797). -/
def PackedItem.equal (a b : PackedItem) (base : Bytes) : Option Bool :=
  if a.cache ≠ b.cache then some false
  else if a.complete && b.complete then some true
  else (a.get base).bind fun x => (b.get base).bind fun y => some (x == y)

/-- `compare2` (`src/comp.rs` 1813-1824); `compare` (1800-1811) is this with the order of bytes. -/
def PackedItem.compare2 (a b : PackedItem) (base : Bytes) (cmp : Bytes → Bytes → Ordering) : Option Ordering :=
  if a.cache < b.cache then some .lt
  else if a.cache > b.cache then some .gt
  else if (a.cache == b.cache) && a.complete && b.complete then some .eq
  else (a.get base).bind fun x => (b.get base).bind fun y => some (cmp x y)

/-- `compare` (`src/comp.rs` 1800-1811). -/
def PackedItem.compare (a b : PackedItem) (base : Bytes) : Option Ordering := a.compare2 b base lexCmp

/-- `fill_cache` of `ComparePlain` (`src/comp.rs` 1588-1591). -/
def PackedItem.fillPlain (i : PackedItem) (v : Bytes) : PackedItem :=
  { i with cache := UInt64.ofNat (beVal (makeArray v)) }.assignComplete (decide (v.length ≤ 8))

end Cdx
