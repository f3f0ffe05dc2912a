/-!
Shared vocabulary of the model: bytes and the byte constants that appear in `/repo/src`.
-/

namespace Cdx

/-- A Rust `&[u8]` / `Vec<u8>` (all of `/repo/src`). Length is unbounded here; Rust's `usize` bound
and the `u32` offsets of `FakeSlice` (`src/util.rs` 470-474) are not modelled. -/
abbrev Bytes := List UInt8

/-- `b'\n'` (e.g. `src/util.rs` 268) -/
abbrev NL : UInt8 := 10
/-- `b'\t'` (e.g. `src/util.rs` 592) -/
abbrev TAB : UInt8 := 9
/-- `b'\r'` (e.g. `src/util.rs` 591) -/
abbrev CR : UInt8 := 13
/-- `b' '` (e.g. `src/util.rs` 269) -/
abbrev SP : UInt8 := 32
/-- `b'"'` (e.g. `src/util.rs` 548-562) -/
abbrev QUOTE : UInt8 := 34
/-- `b'\\'` (e.g. `src/util.rs` 536-546) -/
abbrev BSLASH : UInt8 := 92
/-- `b'n'` (e.g. `src/util.rs` 590) -/
abbrev CH_n : UInt8 := 110
/-- `b'r'` (e.g. `src/util.rs` 591) -/
abbrev CH_r : UInt8 := 114
/-- `b's'` (e.g. `src/util.rs` 1217-1239) -/
abbrev CH_s : UInt8 := 115
/-- `b't'` (e.g. `src/util.rs` 592) -/
abbrev CH_t : UInt8 := 116

end Cdx
