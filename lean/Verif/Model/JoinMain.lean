import Verif.Model.Join
import Verif.Model.BinMain
import Verif.Model.Settings

/-!
The `join` command from its options, `/repo/src/bin/cdx/join_main.rs`, and the lookup of its columns, `/repo/src/join.rs` 200-235.

Simplifications. Options come as pairs of a name and a value, as `args::parse` gives them. `compiles` tells whether an expression of a key
can be compiled, `eval` what it computes and `exprCols` which columns it uses. The random comparator is not modelled; a key with it is an
error. The columns of a key are looked up for all files before those of the next key, which only matters for which error is reported. The
others are those of `Model/Join.lean`.
-/

namespace Cdx

/-- What the options ask for (`src/bin/cdx/join_main.rs` 15-16, `src/join.rs` 134-141). -/
structure JoinAsk where
  keys : List Bytes := []
  outs : List (Nat × ColumnSet) := []
  matchOut : Bytes := ascii "-"
  also : List (Nat × Bytes) := []
deriving DecidableEq, Repr

/-- The options (`src/bin/cdx/join_main.rs` 17-63). Any other name is a panic. -/
def joinOptions (transOk : Bytes → Bool) : JoinAsk → List (Bytes × Bytes) → Res JoinAsk
  | c, [] => .ok c
  | c, (name, value) :: os =>
    if name = ascii "key" then joinOptions transOk { c with keys := c.keys ++ [value] } os
    else if name = ascii "output" then
      (joinOutputs transOk value).bind fun l => joinOptions transOk { c with outs := c.outs ++ l } os
    else if name = ascii "file" then joinOptions transOk { c with matchOut := value } os
    else if name = ascii "also" then (joinAlso value).bind fun p => joinOptions transOk { c with also := c.also ++ [p] } os
    else .panic

/-- The comparators made (`src/join.rs` 200-206). -/
def joinMake (compiles : Bytes → Bool) : List Bytes → Res (List LineCompMade)
  | [] => .ok []
  | x :: xs => (makeLineComp compiles x).bind fun k => (joinMake compiles xs).bind fun ks => .ok (k :: ks)

/-- The column of a key in each file (`src/join.rs` 207-209, `src/comp.rs` 547-553); `i` is the number of the first file. -/
def lookupAt (cols : List NamedCol) : (i : Nat) → List (List Bytes) → Res (List Nat)
  | _, [] => .ok []
  | i, names :: rest => (lookupFile cols i names).bind fun n => (lookupAt cols (i + 1) rest).bind fun ns => .ok (n :: ns)

/-- The expression of a key for each file (`src/join.rs` 207-209, `src/comp.rs` 1899-1907). -/
def evalAt (eval : Bytes → List Bytes → Res (Bytes → F64)) (e : Bytes) : List (List Bytes) → Res (List (Bytes → F64))
  | [] => .ok []
  | names :: rest => (eval e names).bind fun f => (evalAt eval e rest).bind fun fs => .ok (f :: fs)

/-- One key after its columns are looked up in all files (`src/comp.rs` 339-341). -/
def LineCompMade.resolveN (eval : Bytes → List Bytes → Res (Bytes → F64)) (files : List (List Bytes)) (k : LineCompMade) : Res LineComp :=
  match k.what with
  | .whole (.kind m) => .ok ⟨.whole m, k.conf.reverse, TAB⟩
  | .col (.kind m) cols => (lookupAt cols 0 files).bind fun ns => .ok ⟨.col m (fun f => ns.getD f 0), k.conf.reverse, TAB⟩
  | .expr e => (evalAt eval e files).bind fun fs => .ok ⟨.expr (fun f => fs.getD f fun _ => 0), k.conf.reverse, TAB⟩
  | _ => .err

/-- All keys (`src/join.rs` 207-209, `src/comp.rs` 1381-1386). -/
def resolveKeysN (eval : Bytes → List Bytes → Res (Bytes → F64)) (files : List (List Bytes)) : List LineCompMade → Res (List LineComp)
  | [] => .ok []
  | k :: ks => (k.resolveN eval files).bind fun c => (resolveKeysN eval files ks).bind fun cs => .ok (c :: cs)

/-- The output columns asked for (`src/join.rs` 220-234). -/
def joinCols (mk : Bytes → Res (Bytes → Bool)) (files : List (List Bytes)) : List (Nat × ColumnSet) → Res (List (Nat × Nat))
  | [] => .ok []
  | (f, set) :: rest =>
    match files[f]? with
    | none => .err
    | some names => (set.lookup mk names).bind fun cols => (joinCols mk files rest).bind fun cs => .ok (cols.map (fun c => (f, c.num)) ++ cs)

/-- `main` (`src/bin/cdx/join_main.rs` 5-66) and `Joiner::join` (`src/join.rs` 167-253): the names of the files written and what is written
to them. Output columns asked for that turn out to be none are an error (236-238). -/
def joinMain (transOk compiles : Bytes → Bool) (mk : Bytes → Res (Bytes → Bool)) (eval : Bytes → List Bytes → Res (Bytes → F64))
    (toF64 : Bytes → F64) (exprCols : (Nat → Bytes → F64) → Nat → List Nat) (opts : List (Bytes × Bytes)) (contents : List Bytes) :
    Res (List (Bytes × Bytes)) :=
  (joinOptions transOk {} opts).bind fun c =>
    if contents.length < 2 then .err
    else if alsoOk contents.length (c.also.map (·.1)) = false then .err
    else
      let files := contents.map fun x => (openReader x).names
      (joinMake compiles (if c.keys = [] then [ascii "1"] else c.keys)).bind fun ks =>
      (resolveKeysN eval files ks).bind fun cs =>
      (joinCols mk files c.outs).bind fun specs =>
      if c.outs ≠ [] ∧ specs = [] then .err
      else (joinFiles toF64 exprCols cs specs TAB (c.also.map (·.1)) contents).bind fun r =>
        .ok ((c.matchOut, r.1) :: c.also.map fun p => (p.2, (r.2.getD (p.1 - 1) none).getD []))

end Cdx
