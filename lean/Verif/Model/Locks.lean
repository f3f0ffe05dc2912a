import Verif.Model.Text

/-!
The locks of the tables of makers: `/repo/src/agg.rs` 1270-1492, `/repo/src/comp.rs` 855-1140, `/repo/src/matcher.rs` 1612-1967,
`/repo/src/trans.rs` 267-426 and `/repo/src/textgen.rs` 286-417.

A function is the list of the locks it takes and gives back. A maker is called while the lock of its table is held, and some makers look
for makers in other tables.

Simplifications. What the functions do between taking and giving back is left out; that a call ends early with an error only makes its
list shorter by pairs. Makers pushed by a user are taken to be like the standard ones. A thread that holds a lock does not panic.
-/

namespace Cdx

/-- The locks (`src/agg.rs` 1270-1272, `src/comp.rs` 858-860, `src/matcher.rs` 1612-1613, `src/trans.rs` 267-268, `src/textgen.rs` 286-287). -/
inductive Lk
  | aggAlias | counter | agg | compAlias | line | comp | matchAlias | matcher | transAlias | trans | genAlias | gen
  deriving DecidableEq, Repr

/-- Taking a lock, `lock().unwrap()`, and giving it back, at the end of the statement or by `drop` (`src/agg.rs` 1384-1393). -/
inductive LkEvent
  | take (l : Lk)
  | give (l : Lk)
  deriving DecidableEq, Repr

/-- A statement that holds the lock while it does something else (`src/agg.rs` 1486-1491). -/
def within (l : Lk) (inner : List LkEvent) : List LkEvent := .take l :: inner ++ [.give l]

/-- A statement that takes a lock and does nothing with locks while holding it (`src/agg.rs` 1367-1371). -/
def brief (l : Lk) : List LkEvent := within l []

/-- `init`: the test, and the changes if the table was empty (`src/agg.rs` 1281-1344: aliases, counters, makers). -/
def aggInit (first : Bool) : List LkEvent :=
  brief .agg ++ if first then (List.replicate 4 Lk.aggAlias ++ List.replicate 3 Lk.counter ++ List.replicate 12 Lk.agg).flatMap brief else []

/-- `init` (`src/comp.rs` 871-908). -/
def lkCompInit (first : Bool) : List LkEvent :=
  brief .comp ++ if first then (List.replicate 3 Lk.compAlias ++ [Lk.line] ++ List.replicate 8 Lk.comp).flatMap brief else []

/-- `init` (`src/matcher.rs` 1625-1768). -/
def matchInit (first : Bool) : List LkEvent :=
  brief .matcher ++ if first then (List.replicate 3 Lk.matchAlias ++ List.replicate 19 Lk.matcher).flatMap brief else []

/-- `init` (`src/trans.rs` 279-316). -/
def transInit (first : Bool) : List LkEvent :=
  brief .trans ++ if first then (List.replicate 2 Lk.transAlias ++ List.replicate 6 Lk.trans).flatMap brief else []

/-- `init` (`src/textgen.rs` 295-319). -/
def lkGenInit (first : Bool) : List LkEvent :=
  brief .gen ++ if first then (List.replicate 1 Lk.genAlias ++ List.replicate 6 Lk.gen).flatMap brief else []

/-- `make_comp`: `init`, `resolve_alias` and the maker (`src/comp.rs` 1098-1108); no maker takes a lock (881-906). -/
def lkMakeComp (first : Bool) : List LkEvent := lkCompInit first ++ brief .compAlias ++ brief .comp

/-- `make_line_comp`, which looks among the comparators of lines first (`src/comp.rs` 1110-1133). -/
def lkMakeLineComp (first : Bool) (found : Bool) : List LkEvent :=
  lkCompInit first ++ brief .compAlias ++ brief .line ++ if found then [] else brief .comp

/-- `make_counter2`, which does not call `init` (`src/agg.rs` 1495-1519). -/
def lkMakeCounter : List LkEvent := brief .aggAlias ++ brief .counter

/-- What a maker does with locks: nothing, look for a counter (`src/agg.rs` 957, 986, 1015, 1046), or for comparators, as often as the
pattern says (`src/agg.rs` 780, 850, 1080, `src/util.rs` 2343-2355); each time `init` may find the table empty or not. -/
inductive MakerKind
  | plain
  | counter
  | comps (firsts : List Bool)

/-- The locks of a maker of the table of aggregators (`src/agg.rs` 1298-1342). -/
def MakerKind.locks : MakerKind → List LkEvent
  | .plain => []
  | .counter => lkMakeCounter
  | .comps firsts => firsts.flatMap lkMakeComp

/-- The locks of a maker of the table of matchers: only `range` looks for comparators (`src/matcher.rs` 1670-1674). -/
def matchMakerLocks (firsts : List Bool) : List LkEvent := firsts.flatMap lkMakeComp

/-- The modules that have tables (`src/agg.rs` 1270-1272, `src/comp.rs` 858-860, `src/matcher.rs` 1612-1613, `src/trans.rs` 267-268,
`src/textgen.rs` 286-287). -/
inductive LkTable
  | agg | comp | matcher | trans | gen

/-- Its `init` (`src/agg.rs` 1280, `src/comp.rs` 871, `src/matcher.rs` 1625, `src/trans.rs` 279, `src/textgen.rs` 295). -/
def LkTable.init : LkTable → Bool → List LkEvent
  | .agg => aggInit
  | .comp => lkCompInit
  | .matcher => matchInit
  | .trans => transInit
  | .gen => lkGenInit

/-- The calls of the library that take locks: makers of the modules (`src/agg.rs` 1475-1519, `src/comp.rs` 1046-1133, `src/matcher.rs`
1850-1892, `src/trans.rs` 392-426, `src/textgen.rs` 395-416), and all others. -/
inductive LkCall
  | agg (first : Bool) (k : MakerKind)
  | counter
  | comp (first : Bool)
  | lineComp (first found : Bool)
  | matcher (first : Bool) (parts : List (Bool × List Bool))
  | trans (first : Bool)
  | gen (first : Bool)
  | other (t : LkTable) (first : Bool) (ls : List Lk)

/-- `AggMaker::make2` (`src/agg.rs` 1475-1493), `make_counter2` (1495-1519), `CompMaker::make_comp` and `make_line_comp` (`src/comp.rs`
1046-1133), `MatchMaker::make2` with one `remake` for each part of a multi-pattern (`src/matcher.rs` 1850-1892, 1951-1960),
`TransMaker::make2` (`src/trans.rs` 392-426), `GenMaker::make2` (`src/textgen.rs` 395-416), and `push`, `push_counter`, `add_alias` and
`help` of any table, which call `init` and then take some locks one after another (`src/agg.rs` 1347-1365, 1441-1464). -/
def LkCall.events : LkCall → List LkEvent
  | .agg first k => aggInit first ++ brief .aggAlias ++ within .agg k.locks
  | .counter => lkMakeCounter
  | .comp first => lkMakeComp first
  | .lineComp first found => lkMakeLineComp first found
  | .matcher first parts =>
    matchInit first ++ brief .matchAlias ++ parts.flatMap fun p => matchInit p.1 ++ within .matcher (matchMakerLocks p.2)
  | .trans first => brief .transAlias ++ transInit first ++ brief .trans
  | .gen first => lkGenInit first ++ brief .genAlias ++ brief .gen
  | .other t first ls => t.init first ++ ls.flatMap brief

/-- Who holds each lock, and what each thread has yet to do. `std::sync::Mutex` is not reentrant
(`src/agg.rs` 1496). -/
structure LkSys where
  owner : Lk → Option Nat
  todo : Nat → List LkEvent

/-- One step of thread `i`, `none` if it has to wait or is done (`src/agg.rs` 1384). -/
def LkSys.step (s : LkSys) (i : Nat) : Option LkSys :=
  match s.todo i with
  | [] => none
  | .take l :: es =>
    match s.owner l with
    | some _ => none
    | none => some ⟨fun k => if k = l then some i else s.owner k, fun j => if j = i then es else s.todo j⟩
  | .give l :: es => some ⟨fun k => if k = l then none else s.owner k, fun j => if j = i then es else s.todo j⟩

/-- The threads take turns in some order; a thread that has to wait loses its turn (`src/agg.rs` 1384). -/
def LkSys.run (s : LkSys) (order : List Nat) : LkSys := order.foldl (fun s i => (s.step i).getD s) s

/-- All locks are free, and each thread makes some calls (`src/agg.rs` 1270-1272). -/
def LkSys.start (prog : Nat → List LkCall) : LkSys := ⟨fun _ => none, fun i => (prog i).flatMap LkCall.events⟩

end Cdx
