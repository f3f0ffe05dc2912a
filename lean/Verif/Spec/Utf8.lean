import Verif.Model.Text

/-!
# Strings

What a `str` of Rust is, from RFC 3629: the bytes of a sequence of Unicode scalar values, each written with one to four bytes. The
definitions do not look at any byte of a text; they only say how characters are written.
-/

namespace Cdx

/-- A Unicode scalar value: a code point that is not a surrogate. -/
def isScalar (c : Nat) : Prop := c < 0xD800 ∨ (0xE000 ≤ c ∧ c < 0x110000)

instance (c : Nat) : Decidable (isScalar c) := by unfold isScalar; exact inferInstance

/-- The bytes of one character. -/
def encChar (c : Nat) : Bytes :=
  if c < 0x80 then [UInt8.ofNat c]
  else if c < 0x800 then [UInt8.ofNat (192 + c / 64), UInt8.ofNat (128 + c % 64)]
  else if c < 0x10000 then [UInt8.ofNat (224 + c / 4096), UInt8.ofNat (128 + c / 64 % 64), UInt8.ofNat (128 + c % 64)]
  else [UInt8.ofNat (240 + c / 262144), UInt8.ofNat (128 + c / 4096 % 64), UInt8.ofNat (128 + c / 64 % 64), UInt8.ofNat (128 + c % 64)]

/-- The bytes of characters. -/
def encChars (cs : List Nat) : Bytes := cs.flatMap encChar

/-- The bytes are those of characters. -/
def IsStr (b : Bytes) : Prop := ∃ cs : List Nat, (∀ c ∈ cs, isScalar c) ∧ encChars cs = b

end Cdx
