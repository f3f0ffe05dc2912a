import Verif.Model.SortAlt
import Verif.Model.BinMain

/-!
`sort` with formulas among its keys (`src/bin/cdx/sort_main.rs`, `LineCompExpr` in `src/comp.rs` 1834-1932).

Simplifications. `--check` and `--merge` never look up the columns of the keys, so that a formula has no program there and evaluating it
panics (`src/expr.rs` 610-636); these are refused here. The random order is refused, too. A formula that panics counts as 0 (C35 says
that accepted formulas do not panic).
-/

namespace Cdx

/-- The variables of `main` (`src/bin/cdx/sort_main.rs` 19-24) with any keys; `keys` of `rest` is not used. -/
structure FormulaOpts where
  keys : List LineCompMade := []
  rest : SortOpts := {}

/-- One option (`src/bin/cdx/sort_main.rs` 28-46). `Expr::new` accepts every text (`src/expr.rs` 434-439). -/
def FormulaOpts.add (o : FormulaOpts) : SortOpt → Res FormulaOpts
  | .key spec => (makeLineComp (fun _ => true) spec).bind fun k => .ok { o with keys := o.keys ++ [k] }
  | x => (o.rest.add x).bind fun r => .ok { o with rest := r }

/-- The loop over the options (`src/bin/cdx/sort_main.rs` 25-47). -/
def FormulaOpts.addAll (o : FormulaOpts) : List SortOpt → Res FormulaOpts
  | [] => .ok o
  | x :: xs => (o.add x).bind fun o => o.addAll xs

/-- `main` of `sort` (`src/bin/cdx/sort_main.rs` 48-85) after the loop over the options, sorting. No key is used before the header of the
first file is looked up (`src/sort.rs` 514), so that `Sorter::new` has none here. -/
def FormulaOpts.run (o : FormulaOpts) (eval : Bytes → List Bytes → Res (Bytes → F64)) (toF64 : Bytes → F64) (nameOk : Bytes → Bool)
    (pick : Nat → List (Nat × Bytes) → Nat) (rd : Nat → Nat → Nat) (cap : Nat) (files : List Bytes) : Run Bytes :=
  if o.rest.check || o.rest.merge then .fail .other
  else (sortFiles toF64 nameOk (fun _ line => (makeHeader line).bind fun names => resolveKeys eval names o.keys) pick rd cap
    o.rest.unique [] files).run

/-- `main` of `sort` (`src/bin/cdx/sort_main.rs` 6-85): without formulas it is `sortMain`. -/
def sortMainF (eval : Bytes → List Bytes → Res (Bytes → F64)) (toF64 : Bytes → F64) (nameOk : Bytes → Bool)
    (pick : Nat → List (Nat × Bytes) → Nat) (rd : Nat → Nat → Nat) (cap : Nat) (m : TextMode) (opts : List SortOpt) (files : List Bytes) :
    Run Bytes :=
  match SortOpts.addAll {} opts with
  | .ok _ => sortMain toF64 nameOk pick rd cap m opts files
  | _ => (FormulaOpts.addAll {} opts).run.bind fun o => o.run eval toF64 nameOk pick rd cap files

/-- Without formulas. -/
theorem sortMainF_plain {opts : List SortOpt} {o : SortOpts} (h : SortOpts.addAll {} opts = .ok o)
    (eval : Bytes → List Bytes → Res (Bytes → F64)) (toF64 : Bytes → F64) (nameOk : Bytes → Bool)
    (pick : Nat → List (Nat × Bytes) → Nat) (rd : Nat → Nat → Nat) (cap : Nat) (m : TextMode) (files : List Bytes) :
    sortMainF eval toF64 nameOk pick rd cap m opts files = sortMain toF64 nameOk pick rd cap m opts files := by
  unfold sortMainF
  rw [h]

/-- What is written without formulas. -/
theorem sortMainF_ok {toF64 : Bytes → F64} {nameOk : Bytes → Bool} {pick : Nat → List (Nat × Bytes) → Nat} {rd : Nat → Nat → Nat} {cap : Nat}
    {m : TextMode} {opts : List SortOpt} {files : List Bytes} {out : Bytes} (eval : Bytes → List Bytes → Res (Bytes → F64))
    (h : sortMain toF64 nameOk pick rd cap m opts files = .ok out) : sortMainF eval toF64 nameOk pick rd cap m opts files = .ok out := by
  cases ho : SortOpts.addAll {} opts with
  | ok o => rw [sortMainF_plain ho, h]
  | err => simp [sortMain, ho, Res.run, Run.bind] at h
  | panic => simp [sortMain, ho, Res.run, Run.bind] at h

end Cdx
