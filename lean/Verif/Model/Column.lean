import Verif.Model.Text
import Verif.Model.Header

/-!
Column selection and output. Models `/repo/src/column.rs` 67-226, 307-337, 758-819, 828-1106,
1232-1244, 1411-1425 and 1524-1542.

Column names and specs are byte strings; only ASCII letters count as alphabetic (the code uses the Unicode
classes `is_alphabetic` and `is_alphanumeric`).
-/

namespace Cdx

/-- The `?` operator, as used throughout (e.g. `src/column.rs` 743). -/
def Res.bind {α β : Type} (r : Res α) (f : α → Res β) : Res β :=
  match r with
  | .ok a => f a
  | .err => .err
  | .panic => .panic

/-- The value of a successful result, changed by `f` (`Result::map` of std, as for the `Ok(…?)` at `src/column.rs` 743). -/
def Res.map' {α β : Type} (f : α → β) : Res α → Res β
  | .ok a => .ok (f a)
  | .err => .err
  | .panic => .panic

@[simp] theorem Res.bind_ok {α β : Type} (a : α) (f : α → Res β) : (Res.ok a).bind f = f a := rfl
@[simp] theorem Res.bind_err {α β : Type} (f : α → Res β) : (Res.err : Res α).bind f = .err := rfl
@[simp] theorem Res.bind_panic {α β : Type} (f : α → Res β) : (Res.panic : Res α).bind f = .panic := rfl

/-- `char::is_alphabetic` on ASCII (used at `src/column.rs` 780, 1507, 1530). -/
def isAlpha (c : UInt8) : Bool := (65 ≤ c && c ≤ 90) || (97 ≤ c && c ≤ 122)

/-- A character that may continue a column name (`src/column.rs` 1535). -/
def isNameChar (c : UInt8) : Bool := isAlpha c || isDigit c || c == 95

/-- `get_col_name` (`src/column.rs` 1524-1542). -/
def getColName (spec : Bytes) : Nat :=
  match spec with
  | [] => 0
  | c :: cs => if isAlpha c = false then 0 else 1 + (cs.takeWhile isNameChar).length

/-- `is_valid_column_name` (`src/column.rs` 76-78). -/
def isValidColumnName (name : Bytes) : Bool := getColName name = name.length

/-! ## Resolving specs -/

/-- `OutCol` (`src/column.rs` 329-337). -/
structure OutCol where
  num : Nat
  name : Bytes
  trans : Option Nat
deriving DecidableEq, Repr

/-- `ColSetPart` (`src/column.rs` 316-319). -/
structure ColSetPart where
  val : Bytes
  trans : Option Nat
deriving DecidableEq, Repr

/-- `ColumnSet` (`src/column.rs` 307-313); translators are kept as their specs. `did_lookup` is not
modelled: the functions below take the looked up columns. -/
structure ColumnSet where
  pos : List ColSetPart
  neg : List ColSetPart
  columns : List OutCol
  trans : List Bytes
deriving DecidableEq, Repr

/-- `ColumnSet::default`, derived (`src/column.rs` 306-313). -/
def ColumnSet.empty : ColumnSet := ⟨[], [], [], []⟩

/-- `add_one` (`src/column.rs` 758-774). -/
def ColumnSet.addOne (c : ColumnSet) (s : Bytes) (negate : Bool) (trans : Option Nat) : ColumnSet :=
  match s with
  | 126 :: stripped =>
    if negate then { c with pos := c.pos ++ [⟨stripped, trans⟩] }
    else { c with neg := c.neg ++ [⟨stripped, trans⟩] }
  | _ =>
    if negate then { c with neg := c.neg ++ [⟨s, trans⟩] }
    else { c with pos := c.pos ++ [⟨s, trans⟩] }

/-- Loop of `find_trans` (`src/column.rs` 776-790): the parts before the plus and after it. `seen` is the
reversed text before the current character. -/
def findTransLoop : (seen : Bytes) → (lastPlus : Bool) → Bytes → Option (Bytes × Bytes)
  | _, _, [] => none
  | seen, true, x :: xs =>
    if isAlpha x then some (seen.tail.reverse, x :: xs) else findTransLoop (x :: seen) false xs
  | seen, false, x :: xs => findTransLoop (x :: seen) (x == 43) xs

/-- `find_trans` (`src/column.rs` 776-790). -/
def findTrans (spec : Bytes) : Option (Bytes × Bytes) := findTransLoop [] false spec

/-- The loop of `add` (`src/column.rs` 801-817). Fuel: the text gets shorter in every round (a round that
would not shorten it does not exist), so `length + 1` rounds suffice; running out is reported as a
panic and proved not to happen where it matters. -/
def ColumnSet.addLoop (negate : Bool) (trans : Option Nat) : Nat → ColumnSet → Bytes → Res ColumnSet
  | 0, _, _ => .panic
  | fuel + 1, c, spc =>
    match spc with
    | [] => .panic
    | ch :: _ =>
      if ch = 40 then
        match findClose spc with
        | none => .err
        | some pos =>
          let c := c.addOne (spc.take pos) negate trans
          if spc.drop pos = [] then .ok c else ColumnSet.addLoop negate trans fuel c (spc.drop pos)
      else match splitOnce 44 spc with
        | some (a, b) => ColumnSet.addLoop negate trans fuel (c.addOne a negate trans) b
        | none => .ok (c.addOne spc negate trans)

/-- `add` (`src/column.rs` 792-819); `transOk` says whether `TransList::new` accepts the translator. -/
def ColumnSet.add (transOk : Bytes → Bool) (c : ColumnSet) (spec : Bytes) (negate : Bool) : Res ColumnSet :=
  match findTrans spec with
  | none => ColumnSet.addLoop negate none (spec.length + 1) c spec
  | some (a, b) =>
    if transOk b then
      ColumnSet.addLoop negate (some c.trans.length) (a.length + 1) { c with trans := c.trans ++ [b] } a
    else .err

/-- `lookup_col` (`src/column.rs` 828-835). -/
def lookupCol (names : List Bytes) (col : Bytes) : Res Nat :=
  match names.findIdx? (· == col) with
  | some i => .ok i
  | none => .err

/-- `single` (`src/column.rs` 855-878). -/
def single (names : List Bytes) (col : Bytes) : Res Nat :=
  match col with
  | [] => .panic
  | ch :: rest =>
    if ch = 43 then
      (toUsizeWhole rest).bind fun n => if n > names.length then .err else .ok (names.length - n)
    else if isDigit ch ∧ ch ≠ 48 then
      (toUsizeWhole col).bind fun n => if n < 1 then .err else .ok (n - 1)
    else lookupCol names col

/-- `match_range` (`src/column.rs` 880-890); `mk` is `MatchMaker::make`, giving a test of names. -/
def matchRange (mk : Bytes → Res (Bytes → Bool)) (names : List Bytes) (rng : Bytes) : Res (List Nat) :=
  (mk rng).bind fun p => .ok ((names.zipIdx.filter fun f => p f.1).map (·.2))

/-- `to_outcols` (`src/column.rs` 891-897). -/
def toOutcols (data : List Nat) (name : Bytes) : List OutCol := data.map fun n => ⟨n, name, none⟩

/-- The name and the text after the first colon, in `range` (`src/column.rs` 911-915). -/
def nameSplit (rng : Bytes) : Bytes × Bytes := (splitOnce 58 rng).getD ([], rng)

/-- The last part of `range` (`src/column.rs` 924-951): `lo-hi` with open ends. -/
def rangeBody (names : List Bytes) (rng name : Bytes) : Res (List OutCol) :=
  match sliceSplit 45 rng with
  | [a] => (single names (if a = [] then [49] else a)).bind fun start =>
      .ok (toOutcols (List.range' start (start + 1 - start)) name)
  | [a, b] => (single names (if a = [] then [49] else a)).bind fun start =>
      (single names (if b = [] then [43, 49] else b)).bind fun fin =>
        if start > fin then .err else .ok (toOutcols (List.range' start (fin + 1 - start)) name)
  | _ => .err

/-- `range` (`src/column.rs` 907-952). -/
def range (mk : Bytes → Res (Bytes → Bool)) (names : List Bytes) (rng : Bytes) : Res (List OutCol) :=
  if rng = [] then .err
  else match (nameSplit rng).2 with
    | [] => .panic
    | ch :: rest =>
      if ch = 40 then
        if rest = [] then .panic
        else if cutsChar rest (rest.length - 1) then .panic
        else (matchRange mk names rest.dropLast).bind fun v => .ok (toOutcols v (nameSplit rng).1)
      else rangeBody names (nameSplit rng).2 (nameSplit rng).1

/-- The columns of all the negative parts (`src/column.rs` 970-974), as a list. -/
def noCols (mk : Bytes → Res (Bytes → Bool)) (names : List Bytes) : List ColSetPart → Res (List Nat)
  | [] => .ok []
  | s :: ss => (range mk names s.val).bind fun v => (noCols mk names ss).bind fun w => .ok (v.map (·.num) ++ w)

/-- The columns of all the positive parts (`src/column.rs` 983-990). -/
def yesCols (mk : Bytes → Res (Bytes → Bool)) (names : List Bytes) (no : List Nat) :
    List ColSetPart → Res (List OutCol)
  | [] => .ok []
  | s :: ss => (range mk names s.val).bind fun v => (yesCols mk names no ss).bind fun w =>
      .ok (((v.filter fun x => !no.contains x.num).map fun x => { x with trans := s.trans }) ++ w)

/-- `lookup` (`src/column.rs` 965-993). -/
def ColumnSet.lookup (mk : Bytes → Res (Bytes → Bool)) (c : ColumnSet) (names : List Bytes) :
    Res (List OutCol) :=
  (noCols mk names c.neg).bind fun no =>
    if c.pos = [] then
      .ok (((List.range names.length).filter fun x => !no.contains x).map fun x => ⟨x, [], none⟩)
    else yesCols mk names no c.pos

/-- `lookup1` (`src/column.rs` 1232-1244). -/
def lookup1 (transOk : Bytes → Bool) (mk : Bytes → Res (Bytes → Bool)) (spec : Bytes) (names : List Bytes) :
    Res Nat :=
  (ColumnSet.empty.add transOk spec false).bind fun c => (c.lookup mk names).bind fun cols =>
    match cols with
    | [x] => .ok x.num
    | _ => .err

/-! ## Writing -/

/-- `select` (`src/column.rs` 1009-1026). -/
def selectCols {α : Type} (columns : List OutCol) (cols : List α) : Res (List α) :=
  match columns with
  | [] => .ok []
  | x :: xs => match cols[x.num]? with
    | none => .err
    | some v => (selectCols xs cols).bind fun r => .ok (v :: r)

/-- `write` (`src/column.rs` 1030-1058) after the first column. -/
def writeRest (columns : List OutCol) (cols : List Bytes) (delim : Bytes) : Res Bytes :=
  match columns with
  | [] => .ok []
  | x :: xs => match cols[x.num]? with
    | none => .err
    | some v => (writeRest xs cols delim).bind fun r => .ok (delim ++ v ++ r)

/-- `write` (`src/column.rs` 1030-1058). -/
def ColumnSet.write (columns : List OutCol) (cols : List Bytes) (delim : Bytes) : Res Bytes :=
  match columns with
  | [] => .ok [NL]
  | first :: iter => match cols[first.num]? with
    | none => .panic
    | some v => (writeRest iter cols delim).bind fun r => .ok (v ++ r ++ [NL])

/-- `write2` (`src/column.rs` 1059-1076); `cols[i]` is `get` (`src/util.rs` 746-751). -/
def ColumnSet.write2 (columns : List OutCol) (cols : TextLine) (delim : UInt8) : Bytes :=
  match columns with
  | [] => [NL]
  | first :: iter => cols.get first.num ++ iter.flatMap (fun x => delim :: cols.get x.num) ++ [NL]

/-- `fetch` (`src/column.rs` 1078-1085); `tr` is the translator list, whose errors are `none` (panic). -/
def fetch (tr : Nat → Bytes → Option Bytes) (cols : TextLine) (col : OutCol) : Option Bytes :=
  match col.trans with
  | none => some (cols.get col.num)
  | some t => tr t (cols.get col.num)

/-- One further column in `write3` (`src/column.rs` 1101-1104). -/
def write3Step (tr : Nat → Bytes → Option Bytes) (wr : Bytes → Bytes) (delim : UInt8) (cols : TextLine)
    (acc : Option Bytes) (x : OutCol) : Option Bytes :=
  match acc with
  | none => none
  | some a => match fetch tr cols x with
    | none => none
    | some v => some (a ++ delim :: wr v)

/-- `write3` (`src/column.rs` 1088-1106): no newline. `wr` is `TextFileMode::write`. -/
def ColumnSet.write3 (tr : Nat → Bytes → Option Bytes) (wr : Bytes → Bytes) (delim : UInt8)
    (columns : List OutCol) (cols : TextLine) : Option Bytes :=
  match columns with
  | [] => some []
  | first :: iter => match fetch tr cols first with
    | none => none
    | some v => iter.foldl (write3Step tr wr delim cols) (some (wr v))

/-- `Writer::write` (`src/column.rs` 1411-1425) after the first writer. -/
def writerRest (delim : UInt8) : List (TextLine → Option Bytes) → TextLine → Option Bytes
  | [], _ => some []
  | x :: xs, line => match x line with
    | none => none
    | some v => match writerRest delim xs line with
      | none => none
      | some r => some (delim :: v ++ r)

/-- `Writer::write` (`src/column.rs` 1411-1425): a writer is the bytes it writes for a line. -/
def writerWrite (delim : UInt8) (v : List (TextLine → Option Bytes)) (line : TextLine) : Option Bytes :=
  match v with
  | [] => some [NL]
  | first :: iter => match first line with
    | none => none
    | some a => match writerRest delim iter line with
      | none => none
      | some r => some (a ++ r ++ [NL])

/-! ## Output header -/

/-- `DupColHandling` (`src/column.rs` 11-19). -/
inductive DupColHandling | fail | allow | numeric
deriving DecidableEq, Repr

/-- `ColumnHeader` (`src/column.rs` 67-73); `rename` is a list of (from, to). -/
structure ColumnHeader where
  cols : List Bytes
  dups : DupColHandling
  rename : List (Bytes × Bytes)
deriving DecidableEq, Repr

/-- `contains` (`src/column.rs` 156-163). -/
def ColumnHeader.contains (h : ColumnHeader) (name : Bytes) : Bool := h.cols.contains name

/-- The decimal digits of a number, as `format!("{x}")` writes them (`src/column.rs` 214); reversed, with fuel. -/
def decRev : Nat → Nat → Bytes
  | 0, _ => []
  | fuel + 1, n => UInt8.ofNat (48 + n % 10) :: if n / 10 = 0 then [] else decRev fuel (n / 10)

/-- `format!("{x}")` for an unsigned number (used at `src/column.rs` 214). -/
def decText (n : Nat) : Bytes := (decRev (n + 1) n).reverse

/-- The search for an unused number (`src/column.rs` 213-219): `x` runs from `10000 - left`. -/
def numericLoop (cols : List Bytes) (name : Bytes) : (left x : Nat) → List Bytes
  | 0, _ => cols
  | left + 1, x => if cols.contains (name ++ decText x) then numericLoop cols name left (x + 1)
    else cols ++ [name ++ decText x]

/-- `push` (`src/column.rs` 183-226). -/
def ColumnHeader.push (h : ColumnHeader) (name : Bytes) : Res ColumnHeader :=
  if isValidColumnName name = false then .err
  else if h.contains name then
    match h.rename.findIdx? (fun r => r.1 == name) with
    | some k => match h.rename[k]? with
      | none => .panic
      | some r =>
        if h.contains r.2 then .err
        else .ok { h with cols := h.cols ++ [r.2], rename := h.rename.eraseIdx k }
    | none => match h.dups with
      | .fail => .err
      | .allow => .ok { h with cols := h.cols ++ [name] }
      | .numeric => .ok { h with cols := numericLoop h.cols name 9999 1 }
  else .ok { h with cols := h.cols ++ [name] }

/-- `push_all` (`src/column.rs` 141-146), or any sequence of pushes. -/
def ColumnHeader.pushAll (h : ColumnHeader) : List Bytes → Res ColumnHeader
  | [] => .ok h
  | n :: ns => (h.push n).bind fun h => h.pushAll ns

end Cdx
