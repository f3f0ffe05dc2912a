import Verif.Model.Verify
import Verif.Model.Sort
import Verif.Model.CompMake
import Verif.Model.Settings
import Verif.Model.BinMain

/-!
The alternate sort, `/repo/src/sort.rs` 631-715, and the `sort` command, `/repo/src/bin/cdx/sort_main.rs`.

A part `&mut s[a..b]` that is handed to a call is cut out, changed and put back. `none` is a panic or, for the arguments called
fuel, a recursion or loop that has not ended.

Simplifications. The comparison is a function of two items (`comp_items` has no effect on the comparators but to use their
scratch space). The options are given parsed, as names with values (C125); what is written to stderr is left
out.
-/

namespace Cdx

variable {α : Type}

/-- `s[i] = x` on a slice (`src/sort.rs` 642, 653, 658, 676, 691-695). -/
def put (s : List α) (i : Nat) (x : α) : Option (List α) := if i < s.length then some (s.set i x) else none

/-- What is left of `low` is copied (`src/sort.rs` 657-661). -/
def copyLow : List α → Nat → List α → Option (List α)
  | dst, _, [] => some dst
  | dst, pos, x :: low => (put dst pos x).bind fun dst => copyLow dst (pos + 1) low

/-- The loop of `merge_lines` (`src/sort.rs` 640-664). The first argument is fuel. -/
def mergeLinesLoop (cmp : α → α → Ordering) : Nat → List α → Nat → List α → Nat → Nat → Option (List α)
  | 0, _, _, _, _, _ => none
  | fuel + 1, dst, pos, low, hi, hiEnd =>
    match low, dst[hi]? with
    | x :: low, some y =>
      if cmp x y ≠ .gt then
        (put dst pos x).bind fun dst => if low = [] then some dst else mergeLinesLoop cmp fuel dst (pos + 1) low hi hiEnd
      else
        (put dst pos y).bind fun dst =>
          if hi + 1 = hiEnd then copyLow dst (pos + 1) (x :: low)
          else mergeLinesLoop cmp fuel dst (pos + 1) (x :: low) (hi + 1) hiEnd
    | _, _ => none

/-- `merge_lines` (`src/sort.rs` 631-665). -/
def mergeLines (cmp : α → α → Ordering) (dst low : List α) (hi hiEnd : Nat) : Option (List α) :=
  mergeLinesLoop cmp (dst.length + low.length + 1) dst 0 low hi hiEnd

mutual

/-- `sort_lines` (`src/sort.rs` 668-683): `items` and `temp` afterwards. The first argument is fuel. -/
def sortLines (cmp : α → α → Ordering) : Nat → List α → List α → Option (List α × List α)
  | 0, _, _ => none
  | fuel + 1, items, temp =>
    match items with
    | [a, b] => some (if cmp a b = .gt then [b, a] else [a, b], temp)
    | _ =>
      let low := items.length / 2
      (sortLines cmp fuel (items.drop low) temp).bind fun p =>
        let items := items.take low ++ p.1
        (if low = 1 then (items[0]?).bind fun x => (put p.2 0 x).map fun temp => (items, temp)
          else (sortLinesTemp cmp fuel (items.take low) p.2).map fun q => (q.1 ++ items.drop low, q.2)).bind fun q =>
            if low ≤ q.2.length then
              (mergeLines cmp q.1 (q.2.take low) low q.1.length).map fun items => (items, q.2)
            else none

/-- `sort_lines_temp` (`src/sort.rs` 687-705): `items` and `temp` afterwards. The first argument is fuel. -/
def sortLinesTemp (cmp : α → α → Ordering) : Nat → List α → List α → Option (List α × List α)
  | 0, _, _ => none
  | fuel + 1, items, temp =>
    match items with
    | [a, b] =>
      if cmp a b = .gt then (put temp 0 b).bind fun temp => (put temp 1 a).map fun temp => (items, temp)
      else (put temp 0 a).bind fun temp => (put temp 1 b).map fun temp => (items, temp)
    | _ =>
      let low := items.length / 2
      let len := items.length
      if len ≤ temp.length then
        (sortLinesTemp cmp fuel (items.drop low) ((temp.take len).drop low)).bind fun p =>
          let items := items.take low ++ p.1
          let temp := temp.take low ++ p.2 ++ temp.drop len
          (if low > 1 then (sortLines cmp fuel (items.take low) temp).map fun q => (q.1 ++ items.drop low, q.2)
            else some (items, temp)).bind fun q =>
              (mergeLines cmp q.2 (q.1.take low) low len).map fun temp => (q.1, temp)
      else none

end

/-- `do_sort_lines` (`src/sort.rs` 708-715). `dflt` is `Item::default()`. The recursion is no deeper than the list is long. -/
def doSortLines (cmp : α → α → Ordering) (dflt : α) (items : List α) : Option (List α) :=
  if items.length > 1 then
    (sortLines cmp items.length items (List.replicate (items.length / 2 + 1) dflt)).map (·.1)
  else some items

/-- `SortConfig` (`src/sort.rs` 34-41), by default all off. -/
structure SortConfig where
  altSort : Bool := false
  altMerge : Bool := false
deriving DecidableEq, Repr

/-- `Item::default()` (`src/comp.rs` 1739). -/
def Item.dflt : Item := ⟨0, 0, false, 0⟩

/-- `do_sort` (`src/sort.rs` 469-481) with any configuration. -/
def doSortConf (conf : SortConfig) (toF64 : Bytes → F64) (cs : List LineComp) (unique : Bool) (base : Bytes)
    (ptrs : List Item) : Option (List Item) :=
  (if conf.altSort then doSortLines (compItemsList toF64 cs base) Item.dflt ptrs
    else some (stableSort (fun a b => decide (compItemsList toF64 cs base a b ≠ .gt)) ptrs)).map fun sorted =>
      if unique then dedupBy (equalItemsList toF64 cs base) sorted else sorted

/-- `merge_t` and `merge` (`src/sort.rs` 45-59 and 204-217). -/
def mergeConf (conf : SortConfig) (toF64 : Bytes → F64) (cs : List LineComp) (pick : Nat → List (Nat × Bytes) → Nat)
    (unique : Bool) (contents : List Bytes) : Bytes :=
  if conf.altMerge then mergeT1 toF64 cs unique contents else mergeT2 toF64 cs pick unique contents

/-! ## The command -/

/-- The key of a specification (`comp.add`, `src/bin/cdx/sort_main.rs` 29; `make_line_comp`, `src/comp.rs` 1064-1074). Not modelled
here, and refused, are expressions and the random order. -/
def keyOfSpec (spec : Bytes) : Res Key :=
  (makeLineComp (fun _ => true) spec).bind fun c =>
    match c.what with
    | .whole (.kind k) => .ok (.whole k c.conf.reverse)
    | .col (.kind k) (col :: _) => .ok (.col k col c.conf.reverse)
    | _ => .err

/-- The options of `sort` (`src/bin/cdx/sort_main.rs` 8-16). -/
inductive SortOpt
  | key (spec : Bytes) | unique | merge | check | checkN (value : Bytes) | altSort | altMerge
deriving DecidableEq, Repr

/-- The variables of `main` (`src/bin/cdx/sort_main.rs` 19-24). -/
structure SortOpts where
  keys : List Key := []
  unique : Bool := false
  merge : Bool := false
  check : Bool := false
  numChecks : Nat := 1
  conf : SortConfig := {}
deriving DecidableEq, Repr

/-- One option (`src/bin/cdx/sort_main.rs` 28-46). -/
def SortOpts.add (o : SortOpts) : SortOpt → Res SortOpts
  | .key spec => (keyOfSpec spec).bind fun k => .ok { o with keys := o.keys ++ [k] }
  | .altMerge => .ok { o with conf := { o.conf with altMerge := true } }
  | .altSort => .ok { o with conf := { o.conf with altSort := true } }
  | .merge => .ok { o with merge := true }
  | .check => .ok { o with check := true, numChecks := 1 }
  | .checkN v => (toUsizeWhole v).bind fun n => .ok { o with check := true, numChecks := n }
  | .unique => .ok { o with unique := true }

/-- The loop over the options (`src/bin/cdx/sort_main.rs` 25-47). -/
def SortOpts.addAll (o : SortOpts) : List SortOpt → Res SortOpts
  | [] => .ok o
  | x :: xs => (o.add x).bind fun o => o.addAll xs

/-- The made-up header of `make_header` (`src/util.rs` 1284-1288): `c1`, `c2`, … -/
def madeNames (n : Nat) : Bytes := (((List.range n).map fun i => (99 : UInt8) :: decText (i + 1) ++ [TAB]).flatten).dropLast

/-- `make_header` (`src/util.rs` 1279-1292), the columns. -/
def makeHeader (line : Bytes) : Res (List Bytes) :=
  if isCdx line then if line.length < 5 then .panic else .ok (lineNames (line.drop 5) TAB)
  else .ok (lineNames (madeNames (sliceSplit TAB line).length) TAB)

/-- The keys, after `comp.add("")` if there are none (`src/bin/cdx/sort_main.rs` 51-53). -/
def SortOpts.sortKeys (o : SortOpts) : List Key := if o.keys.isEmpty then [.whole .plain false] else o.keys

/-- `main` of `sort` (`src/bin/cdx/sort_main.rs` 48-85) after the loop over the options: what is written. -/
def SortOpts.run (o : SortOpts) (toF64 : Bytes → F64) (nameOk : Bytes → Bool) (pick : Nat → List (Nat × Bytes) → Nat)
    (rd : Nat → Nat → Nat) (cap : Nat) (m : TextMode) (files : List Bytes) : Run Bytes :=
  if o.check && o.merge then .fail .other
  else if o.check then
    match sortCheck toF64 m o.sortKeys o.unique o.numChecks files with
    | none => .panic
    | some ok => if ok then .ok [] else .fail .silent
  else if o.merge then .ok (mergeConf o.conf toF64 (o.sortKeys.map (·.fresh)) pick o.unique files)
  else (sortFiles toF64 nameOk (fun _ line => (makeHeader line).bind fun names => lookupKeys names o.sortKeys) pick rd cap
    o.unique (o.sortKeys.map (·.fresh)) files).run

/-- `main` of `sort` (`src/bin/cdx/sort_main.rs` 6-85). `Sorter::new` (`src/sort.rs` 349) takes the default configuration, so that
of the options matters for merging only. -/
def sortMain (toF64 : Bytes → F64) (nameOk : Bytes → Bool) (pick : Nat → List (Nat × Bytes) → Nat) (rd : Nat → Nat → Nat)
    (cap : Nat) (m : TextMode) (opts : List SortOpt) (files : List Bytes) : Run Bytes :=
  (SortOpts.addAll {} opts).run.bind fun o => o.run toF64 nameOk pick rd cap m files

end Cdx
