import Verif.Model.Column
import Verif.Model.Comp
import Verif.Model.Header

/-!
Sorting and merging. Models `/repo/src/sort.rs`.

Simplifications: `binary_heap_plus::BinaryHeap` and the stable sort of std are outside the repository. Popping from
the heap is a parameter `pick` that says which of the equally small entries comes out; the theorems hold for
every `pick` that returns a smallest entry. `sort_by` is `stableSort`, an insertion sort: std's is another algorithm, but
for a total preorder there is only one stable result (otherwise std leaves the result open). How many bytes each `read` delivers is a parameter. A file that
is being merged is its header and the list of its unread lines, the first being the current one; by C10 this is what
the `Reader` shows. Temporary files and output are byte strings; I/O errors are not modelled. Resolving column names
(`cmp.lookup`) is a parameter.
-/

namespace Cdx

/-! ## Comparing split lines -/

/-- `comp_cols` of `LineComp` (`src/comp.rs` 272-275) and of each `LineCompare` (393-401, 493-505, 1849-1859). An
expression is taken to depend on the text of the line. -/
def LineComp.compCols (toF64 : Bytes → F64) (c : LineComp) (l r : TextLine) : Ordering :=
  rev c.reverse (match c.kind with
    | .whole k => compK toF64 k l.text r.text
    | .col k num => compK toF64 k (l.get (num 0)) (r.get (num 0))
    | .expr eval => fcmp (eval 0 l.text) (eval 0 r.text))

/-- `equal_cols` of `LineComp` (`src/comp.rs` 288-290) and of each `LineCompare` (403-411, 506-518, 1863-1873). -/
def LineComp.equalCols (toF64 : Bytes → F64) (c : LineComp) (l r : TextLine) : Bool :=
  match c.kind with
  | .whole k => equalK toF64 k l.text r.text
  | .col k num => equalK toF64 k (l.get (num 0)) (r.get (num 0))
  | .expr eval => F64.eq (eval 0 l.text) (eval 0 r.text)

/-- `comp_cols` of `LineCompList` (`src/comp.rs` 1299-1317). -/
def compColsList (toF64 : Bytes → F64) : List LineComp → (l r : TextLine) → Ordering
  | [], _, _ => .eq
  | c :: cs, l, r =>
    if c.compCols toF64 l r ≠ .eq then c.compCols toF64 l r else compColsList toF64 cs l r

/-- `equal_cols` of `LineCompList` (`src/comp.rs` 1319-1336). -/
def equalColsList (toF64 : Bytes → F64) : List LineComp → (l r : TextLine) → Bool
  | [], _, _ => true
  | c :: cs, l, r => if !c.equalCols toF64 l r then false else equalColsList toF64 cs l r

/-- A line as the `Reader` of a merge holds it: split at tabs (`Reader::new_open2`, `src/util.rs` 1531-1534). When no
comparator needs columns `do_split(false)` leaves out the splitting (`src/sort.rs` 86-90), which then has no effect. -/
def mergeLine (l : Bytes) : TextLine := (TextLine.ofRaw l).split .plain TAB

/-- The comparison used by a merge (`src/sort.rs` 24-28 without the reversal, 614). -/
def mergeComp (toF64 : Bytes → F64) (cs : List LineComp) (l r : Bytes) : Ordering :=
  compColsList toF64 cs (mergeLine l) (mergeLine r)

/-- The equality used by a merge (`src/sort.rs` 29-31, 185). -/
def mergeEqual (toF64 : Bytes → F64) (cs : List LineComp) (l r : Bytes) : Bool :=
  equalColsList toF64 cs (mergeLine l) (mergeLine r)

/-! ## Merging -/

/-- `Reader::new_open2` (`src/util.rs` 1531-1534), used at `src/sort.rs` 83 and 158: the header, if any, and the lines
after it. -/
def openMerge (content : Bytes) : Bytes × List Bytes :=
  match readHeader .default content with
  | none => ([], [])
  | some (h, rest) => (h, readLines .plain NL rest)

/-- The current line of file `f` (`curr_line`, `src/sort.rs` 26). -/
def curOf (files : List (List Bytes)) (f : Nat) : Bytes := (files.getD f []).headD []

/-- The loops of `merge_t2` that pop the heap (`src/sort.rs` 106-110, 113-125 and 127-134): the sequence of lines popped.
`heap` is the content of the heap in any order; `pick` is told the round and the entries with their current lines. A
popped file that has another line goes back into the heap. -/
def heapRun (pick : Nat → List (Nat × Bytes) → Nat) : Nat → Nat → List Nat → List (List Bytes) → List Bytes
  | 0, _, _, _ => []
  | fuel + 1, round, heap, files =>
    let i := pick round (heap.map fun f => (f, curOf files f))
    match heap[i]? with
    | none => []
    | some f =>
      let files' := files.set f (files.getD f []).tail
      let heap' := if files'.getD f [] = [] then heap.eraseIdx i else heap.eraseIdx i ++ [f]
      curOf files f :: heapRun pick fuel (round + 1) heap' files'

/-- The loop of `merge_t2` for unique output (`src/sort.rs` 113-125): skips what equals the last line written. -/
def skipWritten (eq : Bytes → Bytes → Bool) (prev : Bytes) : List Bytes → List Bytes
  | [] => []
  | x :: xs => if !eq prev x then x :: skipWritten eq x xs else skipWritten eq prev xs

/-- `skipWritten` with the first line (`src/sort.rs` 106-111). -/
def uniqueWritten (eq : Bytes → Bytes → Bool) : List Bytes → List Bytes
  | [] => []
  | x :: xs => x :: skipWritten eq x xs

/-- The files that enter the heap (`src/sort.rs` 97-101). -/
def liveFiles (files : List (List Bytes)) : List Nat :=
  (List.range files.length).filter fun f => decide (files.getD f [] ≠ [])

/-- `merge_t2` (`src/sort.rs` 62-137) on the contents of the files. -/
def mergeT2 (toF64 : Bytes → F64) (cs : List LineComp) (pick : Nat → List (Nat × Bytes) → Nat) (unique : Bool)
    (contents : List Bytes) : Bytes :=
  match contents with
  | [] => []
  | c :: rest =>
    if rest = [] ∧ unique = false then c
    else
      let opened := contents.map openMerge
      let files := opened.map (·.2)
      let seq := heapRun pick files.flatten.length 0 (liveFiles files) files
      (openMerge c).1 ++ (if unique then uniqueWritten (mergeEqual toF64 cs) seq else seq).flatten

/-- `MergeTreeItem` with `LeafData` and `NodeData` (`src/sort.rs` 524-557). -/
inductive MTree
  | leaf (file : Nat) (first : Bool)
  | node (l r : MTree) (ld rd : Option Nat)
deriving DecidableEq, Repr

/-- `new_tree` (`src/sort.rs` 560-572). The fuel bounds the depth; no files is a panic there and not reachable. -/
def MTree.new : Nat → List Nat → MTree
  | 0, nums => .leaf (nums.headD 0) true
  | fuel + 1, nums =>
    if nums.length ≤ 1 then .leaf (nums.headD 0) true
    else
      let mid := nums.length / 2
      .node (MTree.new fuel (nums.take mid)) (MTree.new fuel (nums.drop mid)) none none

/-- The choice in `next` at a node (`src/sort.rs` 603-624), once both sides have been asked for a line: the answer and
what stays on the left and on the right. -/
def nodeChoice (cmp : Bytes → Bytes → Ordering) (files : List (List Bytes)) :
    Option Nat → Option Nat → Option Nat × Option Nat × Option Nat
  | none, none => (none, none, none)
  | none, some r => (some r, none, none)
  | some l, none => (some l, none, none)
  | some l, some r =>
    if cmp (curOf files l) (curOf files r) = .gt then (some r, some l, none) else (some l, none, some r)

/-- `next` (`src/sort.rs` 582-627). -/
def MTree.next (cmp : Bytes → Bytes → Ordering) :
    MTree → List (List Bytes) → Option Nat × MTree × List (List Bytes)
  | .leaf f first, files =>
    if files.getD f [] = [] then (none, .leaf f first, files)
    else if first then (some f, .leaf f false, files)
    else
      let files' := files.set f (files.getD f []).tail
      (if files'.getD f [] = [] then none else some f, .leaf f false, files')
  | .node l r ld rd, files =>
    let a := if ld = none then l.next cmp files else (ld, l, files)
    let b := if rd = none then r.next cmp a.2.2 else (rd, r, a.2.2)
    let c := nodeChoice cmp b.2.2 a.1 b.1
    (c.1, .node a.2.1 b.2.1 c.2.1 c.2.2, b.2.2)

/-- The loops of `merge_t1` that ask the tree (`src/sort.rs` 171-198): the sequence of lines delivered. -/
def treeRun (cmp : Bytes → Bytes → Ordering) : Nat → MTree → List (List Bytes) → List Bytes
  | 0, _, _ => []
  | fuel + 1, t, files =>
    let a := t.next cmp files
    match a.1 with
    | none => []
    | some f => curOf a.2.2 f :: treeRun cmp fuel a.2.1 a.2.2

/-- The loop of `merge_t1` for unique output (`src/sort.rs` 179-189): skips what equals the line before it. -/
def skipPrev (eq : Bytes → Bytes → Bool) (prev : Bytes) : List Bytes → List Bytes
  | [] => []
  | x :: xs => if !eq prev x then x :: skipPrev eq x xs else skipPrev eq x xs

/-- `skipPrev` with the first line (`src/sort.rs` 171-178). -/
def uniquePrev (eq : Bytes → Bytes → Bool) : List Bytes → List Bytes
  | [] => []
  | x :: xs => x :: skipPrev eq x xs

/-- `merge_t1` (`src/sort.rs` 139-201) on the contents of the files. -/
def mergeT1 (toF64 : Bytes → F64) (cs : List LineComp) (unique : Bool) (contents : List Bytes) : Bytes :=
  match contents with
  | [] => []
  | c :: rest =>
    if rest = [] ∧ unique = false then c
    else
      let opened := contents.map openMerge
      let files := opened.map (·.2)
      let tree := MTree.new files.length (List.range files.length)
      let seq := treeRun (mergeComp toF64 cs) (files.flatten.length + 1) tree files
      (openMerge c).1 ++ (if unique then uniquePrev (mergeEqual toF64 cs) seq else seq).flatten

/-! ## Sorting -/

/-- The parts of `Sorter` that change (`src/sort.rs` 311-336): the comparators, the header checker, the used part of the
buffer (`data[..data_used]`), the rest of it, the temporary files, and what was written to the output. -/
structure Sorter where
  cs : List LineComp
  checker : HeaderChecker
  buf : Bytes
  stale : Bytes
  tmp : List Bytes
  out : Bytes

/-- The loop of `calc` (`src/sort.rs` 432-446): the items of the complete lines and the offset after them. `pos` is the
position of the rest in the buffer. -/
def calcLoop (toF64 : Bytes → F64) (cs : List LineComp) (base : Bytes) : Nat → Nat → Bytes → List Item × Nat
  | off, _, [] => ([], off)
  | off, pos, x :: xs =>
    if x = NL then
      let r := calcLoop toF64 cs base (pos + 1) (pos + 1) xs
      (fillCacheList toF64 cs ⟨off, pos - off + 1, false, 0⟩ base :: r.1, r.2)
    else calcLoop toF64 cs base off (pos + 1) xs

/-- `calc` (`src/sort.rs` 431-446). -/
def Sorter.calc (toF64 : Bytes → F64) (s : Sorter) : List Item × Nat :=
  calcLoop toF64 s.cs (s.buf ++ s.stale) 0 0 s.buf

/-- `dedup_by` of std (used at `src/sort.rs` 478), after the first element: drops what is equal to the last one kept. -/
def dedupLoop {α : Type} (eq : α → α → Bool) (last : α) : List α → List α
  | [] => []
  | x :: xs => if eq x last then dedupLoop eq last xs else x :: dedupLoop eq x xs

/-- `dedup_by` of std (used at `src/sort.rs` 478). -/
def dedupBy {α : Type} (eq : α → α → Bool) : List α → List α
  | [] => []
  | x :: xs => x :: dedupLoop eq x xs

/-- Puts `x` before the first element that is not less. -/
def insertLe {α : Type} (le : α → α → Bool) (x : α) : List α → List α
  | [] => [x]
  | y :: ys => if le x y then x :: y :: ys else y :: insertLe le x ys

/-- `sort_by` of std (used at `src/sort.rs` 474 and 476), a stable sort. -/
def stableSort {α : Type} (le : α → α → Bool) : List α → List α
  | [] => []
  | x :: xs => insertLe le x (stableSort le xs)

/-- `do_sort` (`src/sort.rs` 469-481) with the default configuration. -/
def doSort (toF64 : Bytes → F64) (cs : List LineComp) (unique : Bool) (base : Bytes) (ptrs : List Item) : List Item :=
  let sorted := stableSort (fun a b => decide (compItemsList toF64 cs base a b ≠ .gt)) ptrs
  if unique then dedupBy (equalItemsList toF64 cs base) sorted else sorted

/-- The lines the items refer to, written one after the other (`src/sort.rs` 455-457 and 487-489). -/
def itemsText (base : Bytes) (ptrs : List Item) : Bytes := (ptrs.map (·.get base)).flatten

/-- `calc`, `do_sort` and `write_tmp` (`src/sort.rs` 431-481): a sorted run goes to a temporary file, everything from
`data_calc` on (to the end of the buffer, not of its used part) moves to the front. -/
def Sorter.spill (toF64 : Bytes → F64) (unique : Bool) (s : Sorter) : Sorter :=
  let data := s.buf ++ s.stale
  let p := s.calc toF64
  { s with tmp := s.tmp ++ [itemsText data (doSort toF64 s.cs unique data p.1)],
           buf := data.drop p.2, stale := data.drop (data.length - p.2) }

/-- `prepare` (`src/sort.rs` 376-390): enlarges the buffer; the answer is the number of bytes available. -/
def Sorter.prepare (cap n : Nat) (s : Sorter) : Sorter × Nat :=
  let len := s.buf.length + s.stale.length
  let nsize := min (s.buf.length + n) cap
  let s := { s with stale := s.stale ++ List.replicate (nsize - len) 0 }
  (s, min s.stale.length n)

/-- `add_data` (`src/sort.rs` 392-405). -/
def Sorter.addData (cap : Nat) (s : Sorter) (d : Bytes) : Res Sorter :=
  let p := s.prepare cap d.length
  if p.2 ≠ d.length then .err
  else .ok { p.1 with buf := p.1.buf ++ d, stale := p.1.stale.drop d.length }

/-- The loop of `add` (`src/sort.rs` 408-430) on the unread bytes of the file. `rd i` is how many bytes the `i`-th read
would like to deliver: at least one, at most what there is room for. A full buffer is a panic (the `debug_assert`;
without it the index in line 418 panics or the rest of the file is ignored). The fuel is the number of unread bytes plus one. -/
def Sorter.addLoop (toF64 : Bytes → F64) (cap : Nat) (unique : Bool) (rd : Nat → Nat) :
    Nat → Nat → Sorter → Bytes → Res Sorter
  | 0, _, _, _ => .panic
  | fuel + 1, i, s, file =>
    let p := s.prepare cap (16 * 1024)
    let s := p.1
    if p.2 = 0 then .panic
    else if file = [] then
      if s.buf ≠ [] ∧ s.buf.getLast? ≠ some NL then .ok { s with buf := s.buf ++ [NL], stale := s.stale.drop 1 }
      else .ok s
    else
      let k := max 1 (min (rd i) (min p.2 file.length))
      let s := { s with buf := s.buf ++ file.take k, stale := s.stale.drop k }
      let s := if s.buf.length ≥ cap then s.spill toF64 unique else s
      Sorter.addLoop toF64 cap unique rd fuel (i + 1) s (file.drop k)

/-- `add_file` (`src/sort.rs` 502-521). `lookup` resolves the column names given the first line. -/
def Sorter.addFile (toF64 : Bytes → F64) (nameOk : Bytes → Bool) (lookup : List LineComp → Bytes → Res (List LineComp))
    (cap : Nat) (unique : Bool) (rd : Nat → Nat) (s : Sorter) (file : Bytes) : Res Sorter :=
  let r := readUntil NL file
  if r.1 = [] then .ok s
  else match s.checker.check nameOk r.1 with
    | none => .err
    | some (ck, b) =>
      let s := { s with checker := ck }
      let s1 : Res Sorter :=
        if b then
          (lookup s.cs r.1).bind fun cs =>
            let s := { s with cs := cs }
            if isCdx r.1 then .ok { s with out := s.out ++ r.1 } else s.addData cap r.1
        else .ok s
      s1.bind fun s => Sorter.addLoop toF64 cap unique rd (r.2.length + 1) 0 s r.2

/-- `finalize` (`src/sort.rs` 482-496): the output. -/
def Sorter.finalize (toF64 : Bytes → F64) (pick : Nat → List (Nat × Bytes) → Nat) (unique : Bool) (s : Sorter) : Bytes :=
  if s.tmp = [] then
    s.out ++ itemsText (s.buf ++ s.stale) (doSort toF64 s.cs unique (s.buf ++ s.stale) (s.calc toF64).1)
  else s.out ++ mergeT2 toF64 s.cs pick unique (s.spill toF64 unique).tmp

/-- The loop of `sort` over the files (`src/sort.rs` 299-302). -/
def Sorter.addFiles (toF64 : Bytes → F64) (nameOk : Bytes → Bool)
    (lookup : List LineComp → Bytes → Res (List LineComp)) (cap : Nat) (unique : Bool) (rd : Nat → Nat → Nat) :
    Nat → Sorter → List Bytes → Res Sorter
  | _, s, [] => .ok s
  | i, s, f :: fs =>
    (s.addFile toF64 nameOk lookup cap unique (rd i) f).bind fun s =>
      Sorter.addFiles toF64 nameOk lookup cap unique rd (i + 1) s fs

/-- `Sorter::new` (`src/sort.rs` 341-361). The capacity of the buffer is a parameter of the other functions. -/
def Sorter.new (cs : List LineComp) : Sorter := ⟨cs, .fromMode .matching, [], [], [], []⟩

/-- `sort` (`src/sort.rs` 290-305): everything written to the output. -/
def sortFiles (toF64 : Bytes → F64) (nameOk : Bytes → Bool) (lookup : List LineComp → Bytes → Res (List LineComp))
    (pick : Nat → List (Nat × Bytes) → Nat) (rd : Nat → Nat → Nat) (cap : Nat) (unique : Bool) (cs : List LineComp)
    (files : List Bytes) : Res Bytes :=
  (Sorter.addFiles toF64 nameOk lookup cap unique rd 0 (Sorter.new cs) files).bind fun s =>
    .ok (s.finalize toF64 pick unique)

end Cdx
