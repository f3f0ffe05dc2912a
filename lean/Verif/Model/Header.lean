import Verif.Model.Reader

/-!
The header policy. Models `/repo/src/util.rs` 1824-1843 and 1874-2023.
-/

namespace Cdx

/-- `HeaderMode` (`src/util.rs` 1827-1843). -/
inductive HeaderMode | matching | require | strip | none | trust | ignore
deriving DecidableEq, Repr

/-- `HeaderChecker` (`src/util.rs` 1874-1883). -/
structure HeaderChecker where
  mode : HeaderMode
  head : Bytes
  sawOne : Bool
deriving DecidableEq, Repr

/-- `u8::is_ascii_alphanumeric` of std (used at `src/util.rs` 1911). -/
def isAsciiAlnum (c : UInt8) : Bool :=
  (48 ≤ c && c ≤ 57) || (65 ≤ c && c ≤ 90) || (97 ≤ c && c ≤ 122)

/-- `is_valid_cdx` (`src/util.rs` 1893-1930); `Option.none` is the error. `nameOk` stands for the
per-name test of lines 1916-1927 including UTF-8 validity (non-empty, first character alphabetic, all
alphanumeric or underscore in the Unicode sense); the theorems hold for every `nameOk`. The split at the
delimiter is on characters in the code and on bytes here, which is the same since the delimiter is
ASCII. -/
def isValidCdx (nameOk : Bytes → Bool) (mode : HeaderMode) (dataIn : Bytes) : Option Bool :=
  if mode = .ignore then some false
  else if isCdx dataIn = false then some false
  else if mode = .strip ∨ mode = .none then some true
  else
    let data := if dataIn.getLast? = some NL then dataIn.dropLast else dataIn
    if data.length < 6 then Option.none
    else
      let delim := data.getD 4 0
      if delim = NL ∨ isAsciiAlnum delim = true ∨ delim > 127 then Option.none
      else if (sliceSplit delim (data.drop 5)).all nameOk then some true
      else Option.none

/-- `HeaderChecker::check` (`src/util.rs` 1957-2021); `Option.none` is an error, otherwise the new state
and whether the line is part of the output. -/
def HeaderChecker.check (nameOk : Bytes → Bool) (c : HeaderChecker) (firstLine : Bytes) :
    Option (HeaderChecker × Bool) :=
  match isValidCdx nameOk c.mode firstLine with
  | Option.none => Option.none
  | some cdx =>
    if firstLine = [] then some (c, false)
    else if firstLine.getLast? ≠ some NL ∧ cdx = true then Option.none
    else if c.sawOne then
      match c.mode with
      | .matching =>
        if cdx then
          if c.head = [] then Option.none
          else if firstLine ≠ c.head then Option.none
          else some (c, false)
        else if c.head ≠ [] then Option.none
        else some (c, true)
      | .require => if cdx = false then Option.none else some (c, false)
      | .strip => some (c, !cdx)
      | .ignore => some (c, true)
      | .none => if cdx then Option.none else some (c, true)
      | .trust => some (c, !cdx)
    else
      let c := { c with sawOne := true }
      if cdx ∧ c.mode = .strip then Option.none
      else if cdx = false ∧ c.mode = .require then Option.none
      else if cdx ∧ c.mode = .strip then some (c, false)
      else some ({ c with head := if cdx then firstLine else c.head }, true)

/-- Checking the first lines of a sequence of files in order, as the main loops do (for example
`src/bin/cdx/cat_main.rs` 180-215); `Option.none` if any check fails. -/
def HeaderChecker.checkAll (nameOk : Bytes → Bool) : HeaderChecker → List Bytes → Option (List Bool)
  | _, [] => some []
  | c, l :: ls =>
    match c.check nameOk l with
    | Option.none => Option.none
    | some (c', b) => (HeaderChecker.checkAll nameOk c' ls).map (b :: ·)

/-- `HeaderChecker::from_mode` (`src/util.rs` 1939-1944). -/
def HeaderChecker.fromMode (m : HeaderMode) : HeaderChecker := ⟨m, [], false⟩

end Cdx
