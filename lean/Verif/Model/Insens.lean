import Verif.Model.Text

/-!
# Comparing strings without case

`cmp_insens` and `equal_insens` of `str` (`src/text.rs` 382-418). A character is its code, `char::to_lowercase` is a function `low`
to one or more characters, and the length of a string is its number of bytes in UTF-8, as in std.
-/

namespace Cdx

/-- A string, as the codes of its characters (`str`, `src/text.rs` 382). -/
abbrev Chars := List Nat

/-- `char::len_utf8` of std (`src/text.rs` 377). -/
def utf8Len (c : Nat) : Nat := if c < 0x80 then 1 else if c < 0x800 then 2 else if c < 0x10000 then 3 else 4

/-- `str::len` of std (`src/text.rs` 392). -/
def strLen (s : Chars) : Nat := (s.map utf8Len).sum

/-- The loop of `equal_insens` (`src/text.rs` 383-391): false if two characters differ. -/
def strEqLoop : List (Nat × Nat) → Bool
  | [] => true
  | ch :: rest => if ch.1 ≠ ch.2 then false else strEqLoop rest

/-- `equal_insens` of `str` (`src/text.rs` 382-393). -/
def strEqualInsens (low : Nat → Chars) (a b : Chars) : Bool :=
  if strEqLoop ((a.flatMap low).zip (b.flatMap low)) then decide (strLen a = strLen b) else false

/-- The loop of `cmp_insens` (`src/text.rs` 405-416). -/
def strCmpLoop : List (Nat × Nat) → Option Ordering
  | [] => none
  | ch :: rest => if ch.1 < ch.2 then some .lt else if ch.1 > ch.2 then some .gt else strCmpLoop rest

/-- `cmp_insens` of `str` (`src/text.rs` 404-418). -/
def strCmpInsens (low : Nat → Chars) (a b : Chars) : Ordering :=
  match strCmpLoop ((a.flatMap low).zip (b.flatMap low)) with
  | some o => o
  | none => compare (strLen a) (strLen b)

end Cdx
