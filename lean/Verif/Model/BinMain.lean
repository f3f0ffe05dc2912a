import Verif.Model.Binsearch
import Verif.Model.Header
import Verif.Model.CompMake
import Verif.Model.Join
import Verif.Model.Settings

/-!
The command binsearch: `/repo/src/binsearch.rs` 12-70 and `/repo/src/bin/cdx/binsearch_main.rs` 89-187, after its options have been
read (see `Model/Settings`).

Simplifications. Files are their contents. Whether a header is text in UTF-8 and whether a name of a column is valid are
parameters, and so is what an expression gives for a line. The random method of comparison is an error here.
-/

namespace Cdx

/-- `MemMap` (`src/binsearch.rs` 14-19). -/
structure MemMap where
  data : Bytes
  headerLen : Nat
  header : Bytes
  names : List Bytes
  delim : UInt8
deriving DecidableEq, Repr

/-- `StringLine::fake` (`src/util.rs` 891-899). -/
def fakeCdx (n : Nat) (delim : UInt8) : Bytes :=
  ascii " CDX" ++ ((List.range n).flatMap fun i => delim :: 99 :: decText (i + 1)) ++ [NL]

/-- The columns of a line of text (`src/util.rs` 943-950). -/
def lineNames (line : Bytes) (delim : UInt8) : List Bytes := ((TextLine.ofRaw line).split .plain delim).vec

/-- `MemMap::new` (`src/binsearch.rs` 23-46). -/
def MemMap.new (utf8 : Bytes → Bool) (data : Bytes) : Res MemMap :=
  let n := findEnd data 0
  if isCdx data then
    match data[4]? with
    | none => .panic
    | some delim =>
      if utf8 (data.take n) then
        match lineNames (data.take n) delim with
        | [] => .panic
        | _ :: names => .ok ⟨data, n, data.take n, names, delim⟩
      else .err
  else
    let header := fakeCdx (sliceSplit TAB (data.take n)).length TAB
    match lineNames header TAB with
    | [] => .panic
    | _ :: names => .ok ⟨data, 0, header, names, TAB⟩

/-- One key after its column is looked up (`src/comp.rs` 339-341, 437-440, 547-553 and 1899-1907); `eval` gives the value of an
expression for a line, given the names. -/
def LineCompMade.resolve (eval : Bytes → List Bytes → Res (Bytes → F64)) (names : List Bytes) (k : LineCompMade) : Res LineComp :=
  match k.what with
  | .whole (.kind m) => .ok ⟨.whole m, k.conf.reverse, TAB⟩
  | .col (.kind m) cols => (lookupFile cols 0 names).bind fun n => .ok ⟨.col m (fun _ => n), k.conf.reverse, TAB⟩
  | .expr e => (eval e names).bind fun f => .ok ⟨.expr (fun _ => f), k.conf.reverse, TAB⟩
  | _ => .err

/-- `lookup` of a list of comparators (`src/comp.rs` 1377-1386). -/
def resolveKeys (eval : Bytes → List Bytes → Res (Bytes → F64)) (names : List Bytes) : List LineCompMade → Res (List LineComp)
  | [] => .ok []
  | k :: ks => (k.resolve eval names).bind fun c => (resolveKeys eval names ks).bind fun cs => .ok (c :: cs)

/-- What the options ask for (`src/bin/cdx/binsearch_main.rs` 100-104). -/
structure BinOpts where
  keys : List LineCompMade
  values : List Bytes
  filename : Option FileNameColumn
  context : Context

/-- The header of the output (`src/bin/cdx/binsearch_main.rs` 145-154). -/
def binHeader (filename : Option FileNameColumn) (m : MemMap) : Bytes :=
  if m.headerLen > 0 then
    match filename with
    | some f => ascii " CDX\t" ++ f.name ++ m.header.drop 4
    | none => m.header
  else []

/-- `write_all_nl` (`src/util.rs` 761-769). -/
def withNl (b : Bytes) : Bytes := if b = [] then [] else if b.getLast? = some NL then b else b ++ [NL]

/-- The loop that writes lines with the name of the file (`src/bin/cdx/binsearch_main.rs` 175-182). -/
def prefixLoop (data tail : Bytes) : (fuel start stop : Nat) → Out Bytes
  | 0, _, _ => .noFuel
  | fuel + 1, start, stop =>
    if start < stop then
      match slice data start (findEnd data start) with
      | none => .panic
      | some line => match prefixLoop data tail fuel (findEnd data start) stop with
        | .ok rest => .ok (tail ++ [TAB] ++ withNl line ++ rest)
        | .panic => .panic
        | .noFuel => .noFuel
    else .ok []

/-- What is written for the lines found (`src/bin/cdx/binsearch_main.rs` 159-183). -/
def binBody (fuel : Nat) (o : BinOpts) (fname data : Bytes) (range : Nat × Nat) : Out Bytes :=
  let ba := o.context.get (decide (range.1 = range.2))
  match backLoop data ba.1 range.1 with
  | none => .panic
  | some start =>
    let stop := forwLoop data ba.2 range.2
    match o.filename with
    | none => match slice data start stop with
      | none => .panic
      | some s => .ok (withNl s)
    | some f => prefixLoop data (tailPath fname f.tail 47) fuel start stop

/-- The loop over the files, one file (`src/bin/cdx/binsearch_main.rs` 142-184): what is written and the state of the checker; `none`
is an error. -/
def binFile (toF64 : Bytes → F64) (eval : Bytes → List Bytes → Res (Bytes → F64)) (utf8 nameOk : Bytes → Bool) (fuel : Nat)
    (o : BinOpts) (chk : HeaderChecker) (fname data : Bytes) : Out (Option (HeaderChecker × Bytes)) :=
  match MemMap.new utf8 data with
  | .panic => .panic
  | .err => .ok none
  | .ok m =>
    match chk.check nameOk (binHeader o.filename m) with
    | none => .ok none
    | some (chk, show_) =>
      match resolveKeys eval m.names o.keys with
      | .panic => .panic
      | .err => .ok none
      | .ok cs =>
        match equalRangeN fuel data (compSelfParts toF64 cs o.values) with
        | .panic => .panic
        | .noFuel => .noFuel
        | .ok range => match binBody fuel o fname data range with
          | .panic => .panic
          | .noFuel => .noFuel
          | .ok b => .ok (some (chk, (if show_ then binHeader o.filename m else []) ++ b))

/-- The loop over the files (`src/bin/cdx/binsearch_main.rs` 142-184). -/
def binFiles (toF64 : Bytes → F64) (eval : Bytes → List Bytes → Res (Bytes → F64)) (utf8 nameOk : Bytes → Bool) (fuel : Nat)
    (o : BinOpts) : HeaderChecker → List (Bytes × Bytes) → Out (Option Bytes)
  | _, [] => .ok (some [])
  | chk, f :: fs =>
    match binFile toF64 eval utf8 nameOk fuel o chk f.1 f.2 with
    | .panic => .panic
    | .noFuel => .noFuel
    | .ok none => .ok none
    | .ok (some (chk, b)) => match binFiles toF64 eval utf8 nameOk fuel o chk fs with
      | .panic => .panic
      | .noFuel => .noFuel
      | .ok none => .ok none
      | .ok (some r) => .ok (some (b ++ r))

/-- The command after its options (`src/bin/cdx/binsearch_main.rs` 128-186): the values of the keys, then the files. No key means the
first column. -/
def binMain (toF64 : Bytes → F64) (eval : Bytes → List Bytes → Res (Bytes → F64)) (compiles utf8 nameOk : Bytes → Bool) (fuel : Nat)
    (keys : List LineCompMade) (filename : Option FileNameColumn) (context : Context) (pattern : Bytes)
    (files : List (Bytes × Bytes)) : Out (Option Bytes) :=
  let start (keys : List LineCompMade) : Out (Option Bytes) :=
    match setParts keys.length pattern 44 with
    | .ok values => binFiles toF64 eval utf8 nameOk fuel ⟨keys, values, filename, context⟩ (.fromMode .matching) files
    | .err => .ok none
    | .panic => .panic
  if keys = [] then match makeLineComp compiles (ascii "1") with
    | .ok k => start [k]
    | .err => .ok none
    | .panic => .panic
  else start keys

end Cdx
