import Verif.Model.Join

/-!
Fitting a table to the screen and transposing a table. Models `/repo/src/tabs.rs` and `/repo/src/transpose.rs`.

Files are opened in the default text mode. The widths of strings and cutting strings to a width are those of the crates
`unicode_width` and `unicode_truncate`; they are parameters here (`Glyphs`). Text is taken to be valid UTF-8
(`from_utf8_lossy` changes nothing then).
-/

namespace Cdx

/-! ## Column widths -/

/-- The loop of `dec_max` (`src/tabs.rs` 47-52): position of the first largest entry, `maxPos` if none is above `max`. -/
def maxPosLoop : List Nat → (i maxPos max : Nat) → Nat
  | [], _, maxPos, _ => maxPos
  | x :: xs, i, maxPos, max => if x > max then maxPosLoop xs (i + 1) i x else maxPosLoop xs (i + 1) maxPos max

/-- `sizes[p] -= 1` (`src/tabs.rs` 53), panicking when there is no such entry or it is 0. -/
def decAt (sizes : List Nat) (p : Nat) : Res (List Nat) :=
  match sizes[p]? with
  | some (x + 1) => .ok (sizes.set p x)
  | _ => .panic

/-- `dec_max` (`src/tabs.rs` 44-54). -/
def decMax (sizes : List Nat) : Res (List Nat) := decAt sizes (maxPosLoop sizes 0 0 0)

/-- The loop `while total > target` (`src/tabs.rs` 93-98, 164-169); `fuel` bounds the rounds, the total at the start is
enough. -/
def fitLoop (target : Nat) : Nat → List Nat → Res (List Nat)
  | 0, sizes => .ok sizes
  | fuel + 1, sizes => if sizes.sum > target then (decMax sizes).bind fun s => fitLoop target fuel s else .ok sizes

/-- The widths on a screen (`src/tabs.rs` 164-169); `screen.width - sizes.len()` panics when negative. -/
def fitSizes (width : Nat) (sizes : List Nat) : Res (List Nat) :=
  if width < sizes.length then .panic else fitLoop (width - sizes.length) sizes.sum sizes

/-! ## The table on the screen -/

/-- `UnicodeWidthStr::width` and `unicode_truncate` (used at `src/tabs.rs` 158 and 177). -/
structure Glyphs where
  width : Bytes → Nat
  trunc : Bytes → Nat → Bytes × Nat

/-- Widening the columns for one line (`src/tabs.rs` 157-162); `sizes[i]` panics on a column the header does not have. -/
def widenFor (g : Glyphs) : List Nat → List Bytes → Res (List Nat)
  | sizes, [] => .ok sizes
  | [], _ :: _ => .panic
  | s :: ss, c :: cs => (widenFor g ss cs).bind fun r => .ok ((if s < g.width c then g.width c else s) :: r)

/-- The widths needed (`src/tabs.rs` 156-163). -/
def neededSizes (g : Glyphs) : List Nat → List (List Bytes) → Res (List Nat)
  | sizes, [] => .ok sizes
  | sizes, l :: ls => (widenFor g sizes l).bind fun s => neededSizes g s ls

/-- One field (`src/tabs.rs` 177-197); `sizes[c] - width` panics when negative. -/
def showCell (g : Glyphs) (center : Bool) (size : Nat) (y : Bytes) : Res Bytes :=
  let t := g.trunc y size
  if size < t.2 then .panic
  else
    let num := (size - t.2) / 2
    .ok (if center then List.replicate num SP ++ t.1 ++ List.replicate (size - t.2 - num) SP
      else t.1 ++ List.replicate (size - t.2) SP)

/-- One line (`src/tabs.rs` 174-199). -/
def showRow (g : Glyphs) (center : Bool) : Bool → List Nat → List Bytes → Res Bytes
  | _, _, [] => .ok []
  | _, [], _ :: _ => .panic
  | needSpace, s :: ss, y :: ys =>
    (showCell g center s y).bind fun c => (showRow g center true ss ys).bind fun r =>
      .ok ((if needSpace then [SP] else []) ++ c ++ r)

/-- All lines (`src/tabs.rs` 171-202), the first one centered if there is a header. -/
def showRows (g : Glyphs) (sizes : List Nat) : Bool → List (List Bytes) → Res (List Bytes)
  | _, [] => .ok []
  | center, x :: xs =>
    (showRow g center false sizes x).bind fun r => (showRows g sizes false xs).bind fun rs => .ok (r :: rs)

/-- The lines shown (`src/tabs.rs` 140-155), split into fields. -/
def shownLines (f : Opened) (height : Nat) : List (List Bytes) :=
  let head := if f.hasHeader then [f.names] else []
  head ++ (f.lines.take (height - head.length)).map fun l => (mergeLine l).vec

/-- `show2` (`src/tabs.rs` 134-204): the lines on the screen, and the width returned. -/
def show2 (g : Glyphs) (width height : Nat) (content : Bytes) : Res (List Bytes × Nat) :=
  if content = [] then .ok ([], 0)
  else
    let f := openReader content
    (neededSizes g (List.replicate f.names.length 0) (shownLines f height)).bind fun need =>
      (fitSizes width need).bind fun sizes =>
        (showRows g sizes f.hasHeader (shownLines f height)).bind fun rows => .ok (rows, sizes.sum + sizes.length)

/-! ## Transposing -/

/-- The lines kept (`src/transpose.rs` 12-20): the current line is pushed before the end of the file is looked for, so a
file with a header only gives one empty line. -/
def transposeData (f : Opened) (maxLines : Nat) : List TextLine :=
  ((if f.lines = [] then [⟨[], [], []⟩] else f.lines.map mergeLine)).take maxLines

/-- One output line (`src/transpose.rs` 26-39). -/
def transposeRow (f : Opened) (data : List TextLine) (i : Nat) : Bytes :=
  let cells := data.map (·.get i)
  (if f.hasHeader then f.names.getD i [] ++ cells.flatMap (TAB :: ·)
    else cells.headD [] ++ cells.tail.flatMap (TAB :: ·)) ++ [NL]

/-- `transpose` (`src/transpose.rs` 6-42) on the content of a file. -/
def transposeFile (head : Bool) (maxLines : Nat) (content : Bytes) : Bytes :=
  if content = [] then []
  else
    let f := openReader content
    let data := transposeData f maxLines
    (if head then cdxTag ++ [TAB] else []) ++ (List.range f.names.length).flatMap (transposeRow f data)

end Cdx
