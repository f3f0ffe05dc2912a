import Verif.Model.Basic

/-!
Binary search in text buffers. Models `/repo/src/binsearch.rs` 73-205.

The comparator (`LineCompList::comp_self_line`, which compares the stored search value with a line) is a
parameter `cmp : Bytes → Ordering`: `cmp l = .lt` means that the search value is less than `l`.
-/

namespace Cdx

/-- Outcome of a loop (`src/binsearch.rs` 140-205): a value, an index or slice panic, or fuel exhausted. -/
inductive Out (α : Type) | ok (a : α) | panic | noFuel
deriving DecidableEq, Repr

/-- Loop of `find_end` (`src/binsearch.rs` 76-84) on the bytes from position `p` on. -/
def findEndLoop : Bytes → Nat → Nat
  | [], p => p
  | c :: cs, p => if c = NL then p + 1 else findEndLoop cs (p + 1)

/-- `find_end` (`src/binsearch.rs` 75-85). -/
def findEnd (data : Bytes) (start : Nat) : Nat := findEndLoop (data.drop start) start

/-- `find_start` (`src/binsearch.rs` 89-98); `none` is an index panic. -/
def findStart (data : Bytes) : Nat → Option Nat
  | 0 => match data[0]? with
    | none => none
    | some c => if c = NL then some 1 else some 0
  | s + 1 => match data[s + 1]? with
    | none => none
    | some c => if c = NL then some (s + 2) else findStart data s

/-- `find_prev` (`src/binsearch.rs` 102-111). -/
def findPrev (data : Bytes) (start : Nat) : Option Nat :=
  if start ≤ 1 then some 0
  else match data[start - 1]? with
    | none => none
    | some c => if c ≠ NL then findStart data start else findStart data (start - 2)

/-- `&data[start..stop]` (`src/binsearch.rs` 161, 196); `none` is the slice panic. -/
def slice (data : Bytes) (start stop : Nat) : Option Bytes :=
  if start ≤ stop ∧ stop ≤ data.length then some ((data.drop start).take (stop - start)) else none

/-- Choice of the line to look at (`src/binsearch.rs` 146-159 and 186-195): its start and end. -/
def pickLine (data : Bytes) (begin_ end_ : Nat) (trapped : Bool) : Option (Nat × Nat) :=
  let start := if trapped then begin_ else findEnd data ((end_ + begin_ - 1) / 2)
  if start = end_ then
    match findStart data ((end_ + begin_ - 1) / 2) with
    | none => none
    | some s => some (s, start)
  else some (start, findEnd data start)

/-- Loop of `lower_bound_n` (`src/binsearch.rs` 144-177). -/
def lowerLoop (data : Bytes) (cmp : Bytes → Ordering) : Nat → (begin_ end_ : Nat) → (trapped : Bool) → Out (Nat × Nat)
  | 0, _, _, _ => .noFuel
  | fuel + 1, begin_, end_, trapped =>
    if begin_ < end_ then
      match pickLine data begin_ end_ trapped with
      | none => .panic
      | some (start, stop) =>
        match slice data start stop with
        | none => .panic
        | some line =>
          match cmp line with
          | .eq =>
            if start = begin_ then .ok (start, stop)
            else lowerLoop data cmp fuel begin_ stop (decide (stop = end_))
          | .lt => lowerLoop data cmp fuel begin_ start trapped
          | .gt => lowerLoop data cmp fuel stop end_ trapped
    else .ok (begin_, end_)

/-- `lower_bound_n` (`src/binsearch.rs` 140-178). -/
def lowerBoundN (fuel : Nat) (data : Bytes) (cmp : Bytes → Ordering) : Out (Nat × Nat) :=
  lowerLoop data cmp fuel 0 data.length false

/-- Loop of `upper_bound_n` (`src/binsearch.rs` 184-202). -/
def upperLoop (data : Bytes) (cmp : Bytes → Ordering) : Nat → (begin_ end_ : Nat) → Out Nat
  | 0, _, _ => .noFuel
  | fuel + 1, begin_, end_ =>
    if begin_ < end_ then
      match pickLine data begin_ end_ false with
      | none => .panic
      | some (start, stop) =>
        match slice data start stop with
        | none => .panic
        | some line =>
          if cmp line = .lt then upperLoop data cmp fuel begin_ start
          else upperLoop data cmp fuel stop end_
    else if begin_ = end_ then .ok begin_ else .panic

/-- `upper_bound_n` (`src/binsearch.rs` 181-205), with its `debug_assert`. -/
def upperBoundN (fuel : Nat) (data : Bytes) (cmp : Bytes → Ordering) : Out Nat :=
  upperLoop data cmp fuel 0 data.length

/-- `equal_range_n` (`src/binsearch.rs` 129-136). -/
def equalRangeN (fuel : Nat) (data : Bytes) (cmp : Bytes → Ordering) : Out (Nat × Nat) :=
  match lowerBoundN fuel data cmp with
  | .panic => .panic
  | .noFuel => .noFuel
  | .ok (start1, stop1) =>
    if start1 = stop1 then .ok (start1, stop1)
    else match upperBoundN fuel data cmp with
      | .panic => .panic
      | .noFuel => .noFuel
      | .ok u => .ok (start1, u)

/-- `lower_bound` (`src/binsearch.rs` 115-118). -/
def lowerBound (fuel : Nat) (data : Bytes) (cmp : Bytes → Ordering) : Out Bytes :=
  match lowerBoundN fuel data cmp with
  | .panic => .panic
  | .noFuel => .noFuel
  | .ok (s, e) => match slice data s e with
    | none => .panic
    | some l => .ok l

/-- `equal_range` (`src/binsearch.rs` 120-123). -/
def equalRange (fuel : Nat) (data : Bytes) (cmp : Bytes → Ordering) : Out Bytes :=
  match equalRangeN fuel data cmp with
  | .panic => .panic
  | .noFuel => .noFuel
  | .ok (s, e) => match slice data s e with
    | none => .panic
    | some l => .ok l

/-- The loop over lines of context before the range (`src/bin/cdx/binsearch_main.rs` 161-166). -/
def backLoop (data : Bytes) : (before start : Nat) → Option Nat
  | 0, start => some start
  | n + 1, start => if start = 0 then some start else
    match findPrev data start with
    | none => none
    | some s => backLoop data n s

/-- The loop over lines of context after the range (`src/bin/cdx/binsearch_main.rs` 167-169). -/
def forwLoop (data : Bytes) : (after stop : Nat) → Nat
  | 0, stop => stop
  | n + 1, stop => forwLoop data n (findEnd data stop)

/-- What is written for a found range (`src/bin/cdx/binsearch_main.rs` 160-171), before `write_all_nl`
adds a missing final newline; `none` is a panic. -/
def withContext (data : Bytes) (range : Nat × Nat) (before after : Nat) : Option Bytes :=
  match backLoop data before range.1 with
  | none => none
  | some start => slice data start (forwLoop data after range.2)

end Cdx
