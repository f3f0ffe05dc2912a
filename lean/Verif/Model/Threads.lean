import Verif.Model.Registry

/-!
The tables of makers, used by several threads: `/repo/src/agg.rs` 1270-1492, `/repo/src/comp.rs` 855-1107, `/repo/src/matcher.rs`
1612-1967, `/repo/src/trans.rs` 267-426 and `/repo/src/textgen.rs` 286-417.

Each table is behind a lock of its own, which is taken for one look or one change at a time. So a call consists of steps, each of which
is one section under a lock, and the steps of different threads come in any order.

Simplifications. A maker is any value. The tables of one module are one `Registry`; the second table of `src/agg.rs` (counters) and of
`src/comp.rs` (comparators of lines) are left out. A failed call has no effect and the thread goes on.
-/

namespace Cdx

/-- A call of a thread: `push`, `add_alias`, or a look for a maker (`src/agg.rs` 1347-1365, 1475-1493). -/
inductive RegCall (M : Type)
  | push (tag : Bytes) (m : M)
  | alias (old new : Bytes)
  | find (name : Bytes)

/-- Where in its call a thread is: before `init`, in `init` with these changes still to do (`src/agg.rs` 1281-1343), behind it, or behind
`resolve_alias` (`src/agg.rs` 1484). -/
inductive RegPhase (M : Type)
  | idle
  | loading (rest : List (RegOp M))
  | loaded
  | resolved (name : Bytes)

/-- A thread: the calls it has yet to make (`src/agg.rs` 1347-1493), where it is in the first of them, and the answers it got. -/
structure RegThread (M : Type) where
  calls : List (RegCall M)
  phase : RegPhase M
  answers : List (Bytes × Option M)

/-- The next step of a thread. The test for being empty is a step of its own, the lock is given back before `init` goes on
(`src/agg.rs` 1281-1283). -/
def regStep {M : Type} (mods : List Bytes) (inits : List (RegOp M)) (r : Registry M) (t : RegThread M) : Registry M × RegThread M :=
  match t.calls with
  | [] => (r, t)
  | c :: cs =>
    match t.phase with
    | .idle => (r, { t with phase := if r.items.isEmpty then .loading inits else .loaded })
    | .loading [] => (r, { t with phase := .loaded })
    | .loading (op :: rest) => (r.step mods op, { t with phase := .loading rest })
    | .loaded =>
      match c with
      | .push tag m => (r.step mods (.push tag m), ⟨cs, .idle, t.answers⟩)
      | .alias old new => (r.step mods (.alias old new), ⟨cs, .idle, t.answers⟩)
      | .find name => (r, { t with phase := .resolved (r.resolve name) })
    | .resolved n =>
      match c with
      | .find name => (r, ⟨cs, .idle, t.answers ++ [(name, getEntry n r.items)]⟩)
      | _ => (r, t)

/-- The tables (`src/agg.rs` 1270-1272) and all threads. -/
structure RegSys (M : Type) where
  reg : Registry M
  threads : Nat → RegThread M

/-- One step of thread `i` (`src/agg.rs` 1281-1493). -/
def RegSys.step {M : Type} (mods : List Bytes) (inits : List (RegOp M)) (s : RegSys M) (i : Nat) : RegSys M :=
  let p := regStep mods inits s.reg (s.threads i)
  ⟨p.1, fun j => if j = i then p.2 else s.threads j⟩

/-- The steps of the threads in some order (`src/agg.rs` 1281-1493). -/
def RegSys.run {M : Type} (mods : List Bytes) (inits : List (RegOp M)) (s : RegSys M) (order : List Nat) : RegSys M :=
  order.foldl (RegSys.step mods inits) s

/-- Empty tables, and threads that have made no call yet (`src/agg.rs` 1270-1272). -/
def RegSys.start {M : Type} (prog : Nat → List (RegCall M)) : RegSys M := ⟨⟨[], []⟩, fun i => ⟨prog i, .idle, []⟩⟩

end Cdx
