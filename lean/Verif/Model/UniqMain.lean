import Verif.Model.UniqAgg
import Verif.Model.BinMain

/-!
The `uniq` command from its options, `/repo/src/bin/cdx/uniq_main.rs`.

Simplifications. Options come as pairs of a name and a value, as `args::parse` gives them. `compiles` tells whether an expression of a key
can be compiled and `eval` what it computes. The random comparator is not modelled; a key with it is an error.
-/

namespace Cdx

/-- What the options ask for (`src/bin/cdx/uniq_main.rs` 168-170); the comparator is kept before its columns are looked up. -/
structure UniqConf (F : Type) where
  keys : List LineCompMade := []
  name : Bytes := []
  pos : CountPos := .none
  which : Which := .first
  comp : LineCompMade := ⟨{}, [], .whole (.kind .plain)⟩
  aggs : List (LineAggerSpec F) := []

/-- `Count::get_which2`, the choice of `Which` (`src/bin/cdx/uniq_main.rs` 81-93). -/
def whichNamed (s : Bytes) : Res Which :=
  if lower s = ascii "first" then .ok .first
  else if lower s = ascii "last" then .ok .last
  else if lower s = ascii "min" then .ok .min
  else if lower s = ascii "max" then .ok .max
  else .err

/-- `Count::get_which` (`src/bin/cdx/uniq_main.rs` 96-102, with the rest of `get_which2`, 81-95). -/
def UniqConf.getWhich {F : Type} (compiles : Bytes → Bool) (k : UniqConf F) (spec : Bytes) : Res (UniqConf F) :=
  let p := (splitOnce 44 spec).getD (spec, [])
  (whichNamed p.1).bind fun w => (makeLineComp compiles p.2).bind fun comp => .ok { k with which := w, comp := comp }

/-- The choice of position (`src/bin/cdx/uniq_main.rs` 105-118). -/
def posNamed (b : Bytes) : Res CountPos :=
  if b = [] ∨ lower b = ascii "begin" ∨ lower b = ascii "start" ∨ lower b = ascii "first" then .ok .begin
  else if lower b = ascii "stop" ∨ lower b = ascii "end" ∨ lower b = ascii "last" then .ok .stop
  else .err

/-- `Count::get_count` (`src/bin/cdx/uniq_main.rs` 103-133). -/
def UniqConf.getCount {F : Type} (k : UniqConf F) (spec : Bytes) : Res (UniqConf F) :=
  let p := (splitOnce 44 spec).getD (spec, [])
  (posNamed p.2).bind fun pos =>
    .ok { k with pos := pos, name := if p.1 = [] then ascii "count" else p.1 }

/-- One option (`src/bin/cdx/uniq_main.rs` 172-187). Any other name is a panic. -/
def UniqConf.opt {F : Type} (env : AggEnv F) (mkExpr : ExprMaker F) (compiles : Bytes → Bool) (k : UniqConf F) (o : Bytes × Bytes) :
    Res (UniqConf F) :=
  if o.1 = ascii "key" then (makeLineComp compiles o.2).bind fun c => .ok { k with keys := k.keys ++ [c] }
  else if o.1 = ascii "count" then k.getCount o.2
  else if o.1 = ascii "which" then k.getWhich compiles o.2
  else if o.1 = ascii "agg" then (LineAggerSpec.new2 env mkExpr .replace o.2).bind fun a => .ok { k with aggs := k.aggs ++ [a] }
  else if o.1 = ascii "agg-post" then (LineAggerSpec.newPost env mkExpr o.2).bind fun a => .ok { k with aggs := k.aggs ++ [a] }
  else if o.1 = ascii "agg-pre" then (LineAggerSpec.newPre env mkExpr o.2).bind fun a => .ok { k with aggs := k.aggs ++ [a] }
  else .panic

/-- All options (`src/bin/cdx/uniq_main.rs` 172-188). -/
def UniqConf.opts {F : Type} (env : AggEnv F) (mkExpr : ExprMaker F) (compiles : Bytes → Bool) : UniqConf F → List (Bytes × Bytes) → Res (UniqConf F)
  | k, [] => .ok k
  | k, o :: os => (k.opt env mkExpr compiles o).bind fun k => k.opts env mkExpr compiles os

/-- The command (`src/bin/cdx/uniq_main.rs` 166-293): its options, then its file. -/
def uniqMain {F : Type} (env : AggEnv F) (mkExpr : ExprMaker F) (prn : F → Bytes) (compiles : Bytes → Bool)
    (eval : Bytes → List Bytes → Res (Bytes → F64)) (m t : TextMode) (os : List (Bytes × Bytes)) (content : Bytes) : Res Bytes :=
  (UniqConf.opts env mkExpr compiles {} os).bind fun k =>
    let r := (Reader.newWith 1 m).open_ content
    if r.isEmpty then .ok []
    else (resolveKeys eval r.names k.keys).bind fun cs => (k.comp.resolve eval r.names).bind fun comp =>
      if k.aggs.isEmpty then uniqCmd env.toF64 m cs ⟨k.name, k.pos, k.which, comp⟩ content
      else uniqAggCmd env mkExpr prn m t cs ⟨k.name, k.pos, k.which, comp⟩ k.aggs content

end Cdx
