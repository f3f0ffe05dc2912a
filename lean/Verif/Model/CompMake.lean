import Verif.Model.Registry
import Verif.Model.Comp
import Verif.Model.Match
import Verif.Model.TextNum

/-!
Making comparators from specifications, and lists of comparators of values: `/repo/src/comp.rs` 108-189, 476-485, 870-908, 1034-1261.

Simplifications. The tables are those of `init`. Whether an expression can be compiled is a parameter. Names of methods are ASCII.
-/

namespace Cdx

/-- What `CompMaker::init` makes values with (`src/comp.rs` 878-906). -/
inductive Method | kind (k : CompKind) | random
deriving DecidableEq, Repr

/-- The words that are no names of methods (`src/comp.rs` 862). -/
def compMods : List Bytes := [ascii "rev", ascii "strict", ascii "trail", ascii "low"]

/-- `CompMaker::init` (`src/comp.rs` 871-908), for values. -/
def compInit : List (RegOp Method) :=
  [.alias (ascii "numeric") (ascii "num"), .alias (ascii "length") (ascii "len"), .alias (ascii "plain") [],
   .push (ascii "length") (.kind .length), .push (ascii "random") .random, .push (ascii "ip") (.kind .ip),
   .push (ascii "plain") (.kind .plain), .push (ascii "lower") (.kind .lower), .push (ascii "float") (.kind .float),
   .push (ascii "numeric") (.kind .numeric), .push (ascii "equal") (.kind .equal)]

/-- The table of `CompMaker` (`src/comp.rs` 858-860). -/
def compReg : Registry Method := .run compMods compInit

/-- The fields of `Comp` and `LineComp` that the words set (`src/comp.rs` 110-121, 192-208). -/
structure CompConf where
  junk : JunkType := .any
  junkMin : Bool := false
  ctype : Bytes := []
  reverse : Bool := false
deriving DecidableEq, Repr

/-- One word (`src/comp.rs` 1047-1057 and 1082-1092). -/
def CompConf.word (c : CompConf) (x : Bytes) : CompConf :=
  if eqIgnoreCase x (ascii "rev") then { c with reverse := true }
  else if eqIgnoreCase x (ascii "strict") then { c with junk := .none }
  else if eqIgnoreCase x (ascii "trail") then { c with junk := .trailing }
  else if eqIgnoreCase x (ascii "low") then { c with junkMin := true }
  else { c with ctype := x }

/-- All words (`src/comp.rs` 1045-1059 and 1080-1094). -/
def CompConf.ofMethod (method : Bytes) : CompConf :=
  if method = [] then {} else (sliceSplit 46 method).foldl CompConf.word {}

/-- `Comp` (`src/comp.rs` 110-121). -/
structure ValComp where
  conf : CompConf
  pattern : Bytes
  method : Method
deriving DecidableEq, Repr

/-- `make_comp_parts` and `remake_comp` (`src/comp.rs` 1042-1062 and 1099-1109). -/
def makeCompParts (method pattern : Bytes) : Res ValComp :=
  let c := CompConf.ofMethod method
  match getEntryI (compReg.resolve c.ctype) compReg.items with
  | some m => .ok ⟨c, pattern, m⟩
  | none => .err

/-- `make_comp` (`src/comp.rs` 1034-1040). -/
def makeComp (spec : Bytes) : Res ValComp :=
  match splitOnce 44 spec with
  | some (a, b) => makeCompParts a b
  | none => makeCompParts spec []

/-- What a `LineComp` compares (`src/comp.rs` 380-382, 472-475 and 1834-1837), before columns are looked up. -/
inductive LineWhat
  | whole (m : Method)
  | col (m : Method) (cols : List NamedCol)
  | expr (e : Bytes)
deriving DecidableEq, Repr

/-- `LineComp` (`src/comp.rs` 192-208), before columns are looked up. -/
structure LineCompMade where
  conf : CompConf
  pattern : Bytes
  what : LineWhat
deriving DecidableEq, Repr

/-- The loop of `LineCompCol::new` (`src/comp.rs` 479-485). -/
def colsNew : List Bytes → Res (List NamedCol)
  | [] => .ok []
  | x :: xs => (NamedCol.newFrom x).bind fun c => (colsNew xs).bind fun cs => .ok (c :: cs)

/-- `make_line_comp_parts` and `remake_line_comp` (`src/comp.rs` 1076-1097 and 1111-1133). `compiles` tells whether `Expr::new`
succeeds. -/
def makeLineCompParts (compiles : Bytes → Bool) (cols method pattern : Bytes) : Res LineCompMade :=
  let c := CompConf.ofMethod method
  let t := compReg.resolve c.ctype
  if eqIgnoreCase t (ascii "expr") then if compiles pattern then .ok ⟨c, pattern, .expr pattern⟩ else .err
  else match getEntryI t compReg.items with
    | some m =>
      if cols = [] then .ok ⟨c, pattern, .whole m⟩
      else (colsNew (sliceSplit 46 cols)).bind fun cs => .ok ⟨c, pattern, .col m cs⟩
    | none => .err

/-- `make_line_comp` (`src/comp.rs` 1064-1074). -/
def makeLineComp (compiles : Bytes → Bool) (spec : Bytes) : Res LineCompMade :=
  match splitOnce 44 spec with
  | some (a, b) => match splitOnce 44 b with
    | some (c, d) => makeLineCompParts compiles a c d
    | none => makeLineCompParts compiles a b []
  | none => makeLineCompParts compiles spec [] []

/-- `Comp::comp` (`src/comp.rs` 162-164); what the random comparator answers is a parameter. -/
def ValComp.comp (toF64 : Bytes → F64) (rnd : Bytes → Bytes → Ordering) (c : ValComp) (l r : Bytes) : Ordering :=
  match c.method with
  | .kind k => compK toF64 k l r
  | .random => rnd l r

/-- `Comp::equal` (`src/comp.rs` 167-169). -/
def ValComp.equal (toF64 : Bytes → F64) (rnd : Bytes → Bytes → Bool) (c : ValComp) (l r : Bytes) : Bool :=
  match c.method with
  | .kind k => equalK toF64 k l r
  | .random => rnd l r

/-- `CompList::comp` (`src/comp.rs` 1170-1178). -/
def compValues (toF64 : Bytes → F64) (rnd : Bytes → Bytes → Ordering) : List ValComp → Bytes → Bytes → Ordering
  | [], _, _ => .eq
  | c :: cs, l, r => if c.comp toF64 rnd l r ≠ .eq then c.comp toF64 rnd l r else compValues toF64 rnd cs l r

/-- `CompList::equal` (`src/comp.rs` 1181-1188). -/
def equalValues (toF64 : Bytes → F64) (rnd : Bytes → Bytes → Bool) : List ValComp → Bytes → Bytes → Bool
  | [], _, _ => true
  | c :: cs, l, r => if !c.equal toF64 rnd l r then false else equalValues toF64 rnd cs l r

/-- `Comp::comp_self` (`src/comp.rs` 180-182) after `set` (174-178) stored a value. -/
def ValComp.compSelf (toF64 : Bytes → F64) (rnd : Bytes → Bytes → Ordering) (c : ValComp) (v r : Bytes) : Ordering :=
  match c.method with
  | .kind k => compSelfK toF64 k v r
  | .random => rnd v r

/-- `CompList::comp_self` (`src/comp.rs` 1216-1224) after `set` (1196-1213) gave one value to each comparator. -/
def compSelfValues (toF64 : Bytes → F64) (rnd : Bytes → Bytes → Ordering) : List ValComp → List Bytes → Bytes → Ordering
  | c :: cs, v :: vs, r =>
    if c.compSelf toF64 rnd v r ≠ .eq then c.compSelf toF64 rnd v r else compSelfValues toF64 rnd cs vs r
  | _, _, _ => .eq

/-- `CompList::set` (`src/comp.rs` 1196-1213) and `comp_self` (1216-1224). -/
def setCompSelf (toF64 : Bytes → F64) (rnd : Bytes → Bytes → Ordering) (cs : List ValComp) (value : Bytes) (delim : UInt8) (r : Bytes) :
    Res Ordering :=
  (setParts cs.length value delim).bind fun vs => .ok (compSelfValues toF64 rnd cs vs r)

/-- `LineCompCol::lookup` (`src/comp.rs` 547-552): the columns for the files are filled up with copies of the last. -/
def fillCols (cols : List NamedCol) (fileNum : Nat) : List NamedCol :=
  if cols.length < fileNum + 1 then cols ++ List.replicate (fileNum + 1 - cols.length) (cols.getLastD ⟨[], 0⟩) else cols

/-- The column of a file, looked up in its header (`src/comp.rs` 547-552). -/
def lookupFile (cols : List NamedCol) (fileNum : Nat) (names : List Bytes) : Res Nat :=
  match (fillCols cols fileNum)[fileNum]? with
  | some c => c.lookup names
  | none => .panic

end Cdx
