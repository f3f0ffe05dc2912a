import Verif.Model.Tabs
import Verif.Model.Settings

/-!
The commands `tabs` and `transpose`: `/repo/src/bin/cdx/tabs_main.rs` and `/repo/src/bin/cdx/transpose_main.rs`.

Files are pairs of a name and a content, opened in the default text mode. What is written is a list of lines, each of them
followed by a newline. The empty line written to the error output by `--end` is not modelled. If a later file panics, what was
written before it is lost here.
-/

namespace Cdx

/-- `Rect::from_screen` (`src/tabs.rs` 23-41): columns and rows as the terminal reports them, or nothing if there is no terminal.
The number of rows is a `u16`, `ws_row - 1` panics for 0. The result is width and height. -/
def screenOf : Option (Nat × Nat) → Res (Nat × Nat)
  | some (cols, rows) => if rows = 0 then .panic else .ok (cols, rows - 1)
  | none => .ok (100, 24)

/-- `print_centered` (`src/bin/cdx/tabs_main.rs` 5-12): no line or one. -/
def printCentered (txt : Bytes) (width : Nat) : List Bytes :=
  if txt.length > width then []
  else
    let left := (width - txt.length) / 2
    let right := width - txt.length - left
    [List.replicate left SP ++ txt ++ List.replicate right SP]

/-- The loop over the files (`src/bin/cdx/tabs_main.rs` 45-58). -/
def tabsLoop (g : Glyphs) (width : Nat) : (linesLeft filesLeft : Nat) → List (Bytes × Bytes) → Res (List Bytes)
  | _, _, [] => .ok []
  | linesLeft, filesLeft, f :: fs =>
    if filesLeft = 0 then .panic
    else (show2 g width (linesLeft / filesLeft) f.2).bind fun p =>
      if linesLeft < p.1.length then .panic
      else (tabsLoop g width (linesLeft - p.1.length) (filesLeft - 1) fs).bind fun rest =>
        .ok (printCentered f.1 p.2 ++ p.1 ++ (if filesLeft - 1 > 0 then [List.replicate p.2 45] else []) ++ rest)

/-- `main` of `tabs` (`src/bin/cdx/tabs_main.rs` 14-61) after the options. -/
def tabsFiles (g : Glyphs) (screen : Option (Nat × Nat)) (files : List (Bytes × Bytes)) : Res (List Bytes) :=
  match files with
  | [f] => (screenOf screen).bind fun s => (show2 g s.1 s.2 f.2).bind fun p => .ok p.1
  | _ => (screenOf screen).bind fun s =>
    if s.2 < 2 * files.length then .panic else tabsLoop g s.1 (s.2 - 2 * files.length + 1) files.length files

/-- `main` of `tabs` (`src/bin/cdx/tabs_main.rs` 14-61). -/
def tabsMain (g : Glyphs) (screen : Option (Nat × Nat)) : List (Bytes × Bytes) → List (Bytes × Bytes) → Res (List Bytes)
  | [], files => tabsFiles g screen files
  | o :: os, files => if o.1 = ascii "end" then tabsMain g screen os files else .panic

/-- The options of `transpose` (`src/bin/cdx/transpose_main.rs` 12-24). -/
def transposeOptions (head : Bool) (lines : Nat) : List (Bytes × Bytes) → Res (Bool × Nat)
  | [] => .ok (head, lines)
  | o :: os =>
    if o.1 = ascii "head" then transposeOptions true lines os
    else if o.1 = ascii "lines" then (toUsizeWhole o.2).bind fun n => transposeOptions head n os
    else .panic

/-- `main` of `transpose` (`src/bin/cdx/transpose_main.rs` 4-27) on a file. -/
def transposeMain (opts : List (Bytes × Bytes)) (content : Bytes) : Res Bytes :=
  (transposeOptions false (2 ^ 64 - 1) opts).bind fun p => .ok (transposeFile p.1 p.2 content)

end Cdx
