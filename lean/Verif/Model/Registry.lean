import Verif.Model.Ops
import Verif.Model.Column

/-!
Tables of makers and aliases: `/repo/src/agg.rs` 1345-1439, `/repo/src/comp.rs` 910-1007, `/repo/src/matcher.rs` 1769-1832,
`/repo/src/trans.rs` 318-381 and `/repo/src/textgen.rs` 321-382, which are the same code for different makers.

Simplifications. A maker is any value. The tables are those of one thread; locks are left out. `init` is the first part of the history.
-/

namespace Cdx

/-- A table of makers and a table of aliases, the new name first (`src/comp.rs` 853-860). -/
structure Registry (M : Type) where
  items : List (Bytes × M)
  aliases : List (Bytes × Bytes)

/-- The loop over a table that replaces the entry of this name, and `push` if there is none (`src/comp.rs` 972-981). -/
def putEntry {α : Type} (k : Bytes) (v : α) : List (Bytes × α) → List (Bytes × α)
  | [] => [(k, v)]
  | e :: es => if e.1 = k then (k, v) :: es else e :: putEntry k v es

/-- The loop over a table that returns the entry of this name (`src/comp.rs` 933-937). -/
def getEntry {α : Type} (k : Bytes) : List (Bytes × α) → Option α
  | [] => none
  | e :: es => if e.1 = k then some e.2 else getEntry k es

/-- `do_push` (`src/comp.rs` 958-982). -/
def Registry.doPush {M : Type} (mods : List Bytes) (r : Registry M) (tag : Bytes) (m : M) : Res (Registry M) :=
  if mods.contains tag then .err else .ok { r with items := putEntry tag m r.items }

/-- `do_add_alias` (`src/comp.rs` 940-957). -/
def Registry.doAddAlias {M : Type} (mods : List Bytes) (r : Registry M) (old new : Bytes) : Res (Registry M) :=
  if mods.contains new then .err else .ok { r with aliases := putEntry new old r.aliases }

/-- `resolve_alias` (`src/comp.rs` 931-939). -/
def Registry.resolve {M : Type} (r : Registry M) (name : Bytes) : Bytes := (getEntry name r.aliases).getD name

/-- The maker of a name, where names are compared exactly (`src/matcher.rs` 1959-1964, `src/trans.rs` 419-424, `src/agg.rs` 1486-1491,
`src/textgen.rs` 406-414). -/
def Registry.find {M : Type} (r : Registry M) (name : Bytes) : Option M := getEntry (r.resolve name) r.items

/-- The maker of a name, where names are compared without case (`src/comp.rs` 1101-1106). -/
def getEntryI {α : Type} (k : Bytes) : List (Bytes × α) → Option α
  | [] => none
  | e :: es => if eqIgnoreCase k e.1 then some e.2 else getEntryI k es

/-- One call of `push` or `add_alias` (`src/comp.rs` 910-929). -/
inductive RegOp (M : Type)
  | push (tag : Bytes) (m : M)
  | alias (old new : Bytes)

/-- A call (`src/comp.rs` 910-929); if it fails the tables stay as they are. -/
def Registry.step {M : Type} (mods : List Bytes) (r : Registry M) (op : RegOp M) : Registry M :=
  match (match op with
    | .push tag m => r.doPush mods tag m
    | .alias old new => r.doAddAlias mods old new) with
  | .ok r' => r'
  | _ => r

/-- All calls, those of `init` (`src/comp.rs` 871-908) first. -/
def Registry.run {M : Type} (mods : List Bytes) (ops : List (RegOp M)) : Registry M := ops.foldl (Registry.step mods) ⟨[], []⟩

end Cdx
