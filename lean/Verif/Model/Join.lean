import Verif.Model.Sort

/-!
Quick join. Models `/repo/src/join.rs` 121-129 and 157-324, with the parts of `Reader` it uses
(`/repo/src/util.rs` 369-375, 1302-1335, 1531-1560).

Key columns and output columns are given resolved (`LineCompList::lookup_n` and `ColumnSet::lookup`, see `Model/Column`).
The output files are different files and are empty when opened.
-/

namespace Cdx

/-! ## Opened files -/

/-- What `Reader::new_open2` (`src/util.rs` 1531-1560) leaves: header text, whether it was in the file, column names, and
the lines still to come, the current one first. -/
structure Opened where
  header : Bytes
  hasHeader : Bool
  names : List Bytes
  lines : List Bytes
deriving DecidableEq, Repr

/-- `split_head` (`src/util.rs` 369-375) and `StringLine::vec` (952-955): the names in a header line. -/
def headNames (h : Bytes) (delim : UInt8 := TAB) : List Bytes :=
  let v := ((TextLine.ofRaw h).split .plain delim).vec
  if isCdx h then v.tail else v

/-- The made-up header of a file without one (`src/util.rs` 1320-1332). -/
def fakeHeader (n : Nat) : Bytes :=
  List.intercalate [TAB] ((List.range n).map fun i => 99 :: decText (i + 1)) ++ [NL]

/-- `InfileContext::read_header` (`src/util.rs` 1307-1335) on the content of a file. The made-up header is split
without `split_head`, which makes no difference as it does not start with " CDX". -/
def openReader (content : Bytes) : Opened :=
  match readHeader .default content with
  | none => ⟨[], false, [], []⟩
  | some (h, rest) =>
    let lines := readLines .plain NL rest
    if h ≠ [] then ⟨h, true, headNames h, lines⟩
    else match lines with
      | [] => ⟨[], false, [], []⟩
      | l :: _ =>
        let fake := fakeHeader (mergeLine l).len
        ⟨fake, false, headNames fake, lines⟩

/-! ## Comparing lines of different files -/

/-- `comp_cols_n` of `LineComp` (`src/comp.rs` 277-286) and `comp_cols` of each `LineCompare` (393-401, 493-505,
1849-1859). -/
def LineComp.compColsN (toF64 : Bytes → F64) (c : LineComp) (lf rf : Nat) (l r : TextLine) : Ordering :=
  rev c.reverse (match c.kind with
    | .whole k => compK toF64 k l.text r.text
    | .col k num => compK toF64 k (l.get (num lf)) (r.get (num rf))
    | .expr eval => fcmp (eval lf l.text) (eval rf r.text))

/-- `comp_cols_n` of `LineCompList` (`src/comp.rs` 1303-1317). -/
def compColsListN (toF64 : Bytes → F64) : List LineComp → (lf rf : Nat) → (l r : TextLine) → Ordering
  | [], _, _, _, _ => .eq
  | c :: cs, lf, rf, l, r =>
    if c.compColsN toF64 lf rf l r ≠ .eq then c.compColsN toF64 lf rf l r else compColsListN toF64 cs lf rf l r

/-- The comparison of two lines, each with the number of its file (`src/join.rs` 256-258). -/
def joinComp (toF64 : Bytes → F64) (cs : List LineComp) (l r : Nat × Bytes) : Ordering :=
  compColsListN toF64 cs l.1 r.1 (mergeLine l.2) (mergeLine r.2)

/-! ## The loop -/

/-- What `join_quick` writes: the pairs behind the rows of the main output, and the unmatched lines of both files. -/
structure Joined (α β : Type) where
  yes : List (α × β)
  no0 : List α
  no1 : List β
deriving DecidableEq, Repr

/-- `join_quick` (`src/join.rs` 254-323) on the lines still to come. When one file runs out, the rest of the other one
is unmatched (310-321). After a match of the last line of file 0 the current line of file 1 is passed over (268-271);
when the next line of file 0 does not match the current line of file 1, that line is passed over too (275-283). Every
round takes a line away, so `as.length + bs.length + 1` rounds suffice. -/
def joinLoop {α β : Type} (cmp : α → β → Ordering) : Nat → List α → List β → Joined α β
  | fuel + 1, a :: as, b :: bs =>
    match cmp a b with
    | .eq =>
      let r := match as with
        | [] => joinLoop cmp fuel [] bs
        | a' :: _ => if cmp a' b ≠ Ordering.eq then joinLoop cmp fuel as bs else joinLoop cmp fuel as (b :: bs)
      { r with yes := (a, b) :: r.yes }
    | .lt => let r := joinLoop cmp fuel as (b :: bs); { r with no0 := a :: r.no0 }
    | .gt => let r := joinLoop cmp fuel (a :: as) bs; { r with no1 := b :: r.no1 }
  | _, as, bs => ⟨[], as, bs⟩

/-! ## The whole join -/

/-- `used_cols` of `LineCompList` (`src/comp.rs` 1250-1256) and of each `LineCompare` (391, 489-491, 1860-1862);
`exprCols` gives the columns an expression uses. -/
def usedCols (exprCols : (Nat → Bytes → F64) → Nat → List Nat) (cs : List LineComp) (f : Nat) : List Nat :=
  cs.flatMap fun c => match c.kind with
    | .whole _ => []
    | .col _ num => [num f]
    | .expr eval => exprCols eval f

/-- The output columns when none are asked for (`src/join.rs` 212-219): all of the first file, then those of each
further file that are not keys. -/
def defaultOut (used : Nat → List Nat) (files : List Opened) : List (Nat × Nat) :=
  files.zipIdx.flatMap fun p =>
    ((List.range p.1.names.length).filter fun x => p.2 = 0 || !(used p.2).contains x).map fun x => (p.2, x)

/-- `out_cols` (`src/join.rs` 211-238); `none` is the error. `specs` are the resolved columns asked for. -/
def joinOut (used : Nat → List Nat) (specs : List (Nat × Nat)) (files : List Opened) : Option (List (Nat × Nat)) :=
  if specs = [] then
    if defaultOut used files = [] then none else some (defaultOut used files)
  else if specs.any fun s => decide (s.1 ≥ files.length) then none
  else some specs

/-- The header of the main output (`src/join.rs` 240-247, `write_head` 125-128). -/
def joinHeader (delim : UInt8) (out : List (Nat × Nat)) (files : List Opened) : Bytes :=
  if (files.map (·.hasHeader)).headD false then
    cdxTag ++ out.flatMap (fun c => delim :: ((files.map (·.names)).getD c.1 []).getD c.2 []) ++ [NL]
  else []

/-- The current line of each file (`src/join.rs` 121-124): those of files 0 and 1 are the matching ones, the further
files are never advanced. A file without a line has an empty current line. -/
def currLines (files : List Opened) (m : Bytes × Bytes) (f : Nat) : TextLine :=
  if f = 0 then mergeLine m.1
  else if f = 1 then mergeLine m.2
  else match (files.map (·.lines)).getD f [] with
    | [] => TextLine.ofRaw []
    | l :: _ => mergeLine l

/-- One row of the main output (`src/join.rs` 262-267). -/
def joinRow (delim : UInt8) (out : List (Nat × Nat)) (files : List Opened) (m : Bytes × Bytes) : Bytes :=
  List.intercalate [delim] (out.map fun c => (currLines files m c.1).get c.2) ++ [NL]

/-- The checks on `--also` (`src/join.rs` 182-198): file numbers start at 1, each at most once. -/
def alsoOk (n : Nat) (also : List Nat) : Bool := also.all (fun k => decide (1 ≤ k ∧ k ≤ n)) && decide also.Nodup

/-- `Joiner::join` (`src/join.rs` 167-253) with join type `Quick`: the main output, and for each file the output of its
unmatched lines if asked for. Those start with `write_header` (193). The outputs of files after the second get
nothing else (316-321). The order of the checks only matters for which error is reported. -/
def joinFiles (toF64 : Bytes → F64) (exprCols : (Nat → Bytes → F64) → Nat → List Nat) (cs : List LineComp)
    (specs : List (Nat × Nat)) (delim : UInt8) (also : List Nat) (contents : List Bytes) :
    Res (Bytes × List (Option Bytes)) :=
  if contents.length < 2 then .err
  else if alsoOk contents.length also = false then .err
  else
    let files := contents.map openReader
    match joinOut (usedCols exprCols cs) specs files with
    | none => .err
    | some out =>
      let l0 := (files.map (·.lines)).getD 0 []
      let l1 := (files.map (·.lines)).getD 1 []
      let j := joinLoop (fun a b => joinComp toF64 cs (0, a) (1, b)) (l0.length + l1.length + 1) l0 l1
      .ok (joinHeader delim out files ++ j.yes.flatMap (joinRow delim out files),
        files.zipIdx.map fun p =>
          if also.contains (p.2 + 1) then
            some (p.1.header ++ (if p.2 = 0 then j.no0.flatten else if p.2 = 1 then j.no1.flatten else []))
          else none)

end Cdx
