import Verif.Model.Registry
import Verif.Model.Match
import Verif.Model.Cat
import Verif.Model.Agg

/-!
Generating text, `/repo/src/textgen.rs` and `/repo/src/bin/cdx/filegen_main.rs`.

Simplifications. What the random generator answers is a parameter, a `Draw` for each cell; `fastrand::usize(..n)` is the drawn number
modulo `n`. What expressions and the normal distribution write is a parameter. The debug output of `DecimalGen::new` is left out. If
writing a cell fails, what was written before is not shown.
-/

namespace Cdx

/-- The answers of the random generator for one cell (`src/textgen.rs` 71-89). -/
structure Draw where
  coin : Bool
  pre : Nat
  post : Nat

/-- The generators (`src/textgen.rs` 23-29, 92-97, 121-124, 157, 164, 172-174). `expr` writes a text for a line and a column. -/
inductive Gen
  | null
  | expr (f : Nat → Nat → Res Bytes)
  | normal (f : Nat → Bytes)
  | decimal (sign : Bool) (pre post postSize : Nat)
  | grid
  | count (start : Int)

/-- What generators take from outside: `ExprGen::new` (`src/textgen.rs` 100-111) and `NormalDistGen::new` (126-148). -/
structure GenEnv where
  expr : Bytes → Res (Nat → Nat → Res Bytes)
  normal : Bytes → Res (Nat → Bytes)

/-- `10_usize.pow` (used at `src/textgen.rs` 45-49). -/
def powTen (n : Nat) : Res Nat := if 10 ^ n < 2 ^ 64 then .ok (10 ^ n) else .panic

/-- `DecimalGen::new` (`src/textgen.rs` 32-67). -/
def decimalNew (spec : Bytes) : Res Gen :=
  let sign := spec.head? == some 45
  let rest := if sign then spec.drop 1 else spec
  if rest = [] then .ok (.decimal sign 10000 0 0)
  else match splitOnce 46 rest with
    | some (a, b) => (powTen a.length).bind fun pre => (powTen b.length).bind fun post => .ok (.decimal sign pre post b.length)
    | none => (powTen rest.length).bind fun pre => .ok (.decimal sign pre 0 0)

/-- `CountGen::new` (`src/textgen.rs` 176-184). -/
def countNew (spec : Bytes) : Res Gen :=
  if spec = [] then .ok (.count 0) else (toIsizeWhole spec).bind fun n => .ok (.count n)

/-- `{:0post$}` of a number (used at `src/textgen.rs` 83). -/
def padZero (width n : Nat) : Bytes := List.replicate (width - (decText n).length) 48 ++ decText n

/-- Addition of `isize` (used at `src/textgen.rs` 188). -/
def addIsize (a b : Int) : Res Int := if -(2 ^ 63 : Int) ≤ a + b ∧ a + b < 2 ^ 63 then .ok (a + b) else .panic

/-- `Gen::write` (`src/textgen.rs` 71-89, 114-118, 151-154, 159-161, 166-169, 187-190). -/
def Gen.write (g : Gen) (line col : Nat) (d : Draw) : Res Bytes :=
  match g with
  | .null => .ok []
  | .expr f => f line col
  | .normal f => .ok (f d.pre)
  | .decimal sign pre post size =>
    let s : Bytes := if sign && d.coin then [45] else []
    .ok (if size = 0 then s ++ decText (d.pre % pre) else s ++ decText (d.pre % pre) ++ 46 :: padZero size (d.post % post))
  | .grid => .ok (decText line ++ 95 :: decText col)
  | .count start => (addIsize line start).bind fun x => (addIsize x (-1)).bind fun y => .ok (intText y)

/-- The maker of a generator (`src/textgen.rs` 295-321). -/
abbrev GenMk := GenEnv → Bytes → Res Gen

/-- `GenMaker::init` (`src/textgen.rs` 295-321). -/
def genInit : List (RegOp GenMk) :=
  [.alias (ascii "min") (ascii "minimum"), .push (ascii "null") (fun _ _ => .ok .null),
   .push (ascii "expr") (fun env p => (env.expr p).bind fun f => .ok (.expr f)),
   .push (ascii "normal") (fun env p => (env.normal p).bind fun f => .ok (.normal f)),
   .push (ascii "decimal") (fun _ p => decimalNew p), .push (ascii "grid") (fun _ _ => .ok .grid),
   .push (ascii "count") (fun _ p => countNew p)]

/-- The table of `GenMaker` (`src/textgen.rs` 286-292). -/
def genReg : Registry GenMk := .run [] genInit

/-- `GenMaker::make2` (`src/textgen.rs` 396-416). -/
def genMake2 (env : GenEnv) (spec pattern : Bytes) : Res Gen :=
  let name := if spec = [] then [] else genReg.resolve ((sliceSplit 46 spec).getLastD [])
  match getEntry name genReg.items with
  | some mk => mk env pattern
  | none => .err

/-- `GenMaker::make` (`src/textgen.rs` 418-424). -/
def genMake (env : GenEnv) (spec : Bytes) : Res Gen :=
  match splitOnce 44 spec with
  | some (a, b) => genMake2 env a b
  | none => genMake2 env spec []

/-- The loop of `GenList::write` (`src/textgen.rs` 255-264). -/
def genLoop (delim : UInt8) (line : Nat) (draw : Nat → Draw) : (needDelim : Bool) → (col : Nat) → List Gen → Res Bytes
  | _, _, [] => .ok []
  | needDelim, col, g :: gs => (g.write line col (draw col)).bind fun t =>
      (genLoop delim line draw true (col + 1) gs).bind fun out => .ok ((if needDelim then [delim] else []) ++ t ++ out)

/-- `GenList::write` (`src/textgen.rs` 248-267) of the line with this number. -/
def genWrite (delim : UInt8) (gs : List Gen) (line : Nat) (draw : Nat → Draw) : Res Bytes :=
  (genLoop delim line draw false 1 gs).bind fun out => .ok (out ++ [10])

/-- The options (`src/bin/cdx/filegen_main.rs` 6-11). -/
inductive FgOpt
  | lines (v : Bytes)
  | header
  | column (v : Bytes)
  | multi (v : Bytes)

/-- The variables of `main` (`src/bin/cdx/filegen_main.rs` 14-16). -/
structure FgConf where
  numLines : Nat
  list : List Gen
  header : Bool

/-- `push` again and again (`src/bin/cdx/filegen_main.rs` 30-32 with `src/textgen.rs` 232-235). -/
def pushGens (env : GenEnv) (spec : Bytes) : Nat → List Gen → Res (List Gen)
  | 0, gs => .ok gs
  | n + 1, gs => (genMake env spec).bind fun g => pushGens env spec n (gs ++ [g])

/-- One option (`src/bin/cdx/filegen_main.rs` 18-39). -/
def FgConf.opt (env : GenEnv) (c : FgConf) : FgOpt → Res FgConf
  | .lines v => (toUsizeWhole v).bind fun n => .ok { c with numLines := n }
  | .header => .ok { c with header := true }
  | .column v => (pushGens env v 1 c.list).bind fun gs => .ok { c with list := gs }
  | .multi v => match splitOnce 44 v with
    | some (a, b) => (toUsizeWhole a).bind fun n => (pushGens env b n c.list).bind fun gs => .ok { c with list := gs }
    | none => .err

/-- All options (`src/bin/cdx/filegen_main.rs` 18-39). -/
def fgOpts (env : GenEnv) : FgConf → List FgOpt → Res FgConf
  | c, [] => .ok c
  | c, o :: os => (c.opt env o).bind fun c => fgOpts env c os

/-- The header (`src/bin/cdx/filegen_main.rs` 45-51). -/
def fgHeader (n : Nat) : Bytes := cdxTag ++ ((List.range n).flatMap fun i => 9 :: 99 :: decText (i + 1)) ++ [10]

/-- The lines (`src/bin/cdx/filegen_main.rs` 53-55); `line` is the number of lines written. -/
def fgLines (gs : List Gen) (draw : Nat → Nat → Draw) : (left line : Nat) → Res Bytes
  | 0, _ => .ok []
  | left + 1, line => (genWrite 9 gs (line + 1) (draw (line + 1))).bind fun t =>
      (fgLines gs draw left (line + 1)).bind fun out => .ok (t ++ out)

/-- `main` (`src/bin/cdx/filegen_main.rs` 4-57). -/
def filegen (env : GenEnv) (opts : List FgOpt) (draw : Nat → Nat → Draw) : Res Bytes :=
  (fgOpts env ⟨10, [], false⟩ opts).bind fun c =>
  (if c.list.isEmpty then pushGens env (ascii "grid") 1 [] else .ok c.list).bind fun gs =>
  (fgLines gs draw c.numLines 0).bind fun out => .ok ((if c.header then fgHeader gs.length else []) ++ out)

end Cdx
