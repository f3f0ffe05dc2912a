import Verif.Model.Basic

/-!
The fixed regular expressions of the matchers `float`, `integer`, `number` and `ip` (`/repo/src/matcher.rs` 1643-1664).

The regex crate is not modelled as such: an anchored expression is a term of `RE`, and `is_match` is membership in its
language, decided by derivatives. Patterns given by the user to `regex` stay opaque (see `Model/Match`).
-/

namespace Cdx

/-- Regular expressions over bytes, as far as `src/matcher.rs` 1643-1664 uses them. -/
inductive RE
  | none
  | eps
  | cls (p : UInt8 → Bool)
  | cat (r s : RE)
  | alt (r s : RE)
  | star (r : RE)

/-- Does the expression match the empty text (for `is_match` at `src/matcher.rs` 574-579)? -/
def RE.null : RE → Bool
  | .none => false
  | .eps => true
  | .cls _ => false
  | .cat r s => r.null && s.null
  | .alt r s => r.null || s.null
  | .star _ => true

/-- What has to follow a byte (for `is_match` at `src/matcher.rs` 574-579). -/
def RE.der (c : UInt8) : RE → RE
  | .none => .none
  | .eps => .none
  | .cls p => if p c then .eps else .none
  | .cat r s => if r.null then .alt (.cat (r.der c) s) (s.der c) else .cat (r.der c) s
  | .alt r s => .alt (r.der c) (s.der c)
  | .star r => .cat (r.der c) (.star r)

/-- `is_match` of an expression between `^` and `$` (`src/matcher.rs` 574-579). -/
def RE.isMatch (r : RE) : Bytes → Bool
  | [] => r.null
  | c :: cs => (r.der c).isMatch cs

/-- `[abc]` for one character (`src/matcher.rs` 1643-1664). -/
def RE.chr (c : UInt8) : RE := .cls (· == c)

/-- `[lo-hi]` (`src/matcher.rs` 1643-1664). -/
def RE.rng (lo hi : UInt8) : RE := .cls fun c => lo ≤ c && c ≤ hi

/-- `r?` (`src/matcher.rs` 1643-1664). -/
def RE.opt (r : RE) : RE := .alt .eps r

/-- `r+` (`src/matcher.rs` 1643-1664). -/
def RE.plus (r : RE) : RE := .cat r (.star r)

/-- `[0-9]` (`src/matcher.rs` 1643-1664). -/
def RE.digit : RE := .rng 48 57

/-- `^[-]?[0-9]*\.?[0-9]+([eE][-+]?[0-9]+)?$` (`src/matcher.rs` 1645). -/
def floatRE : RE :=
  .cat (.opt (.chr 45)) (.cat (.star .digit) (.cat (.opt (.chr 46)) (.cat (.plus .digit)
    (.opt (.cat (.cls fun c => c == 101 || c == 69)
      (.cat (.opt (.cls fun c => c == 45 || c == 43)) (.plus .digit)))))))

/-- `^[-]?[0-9]+$` (`src/matcher.rs` 1650). -/
def integerRE : RE := .cat (.opt (.chr 45)) (.plus .digit)

/-- `^[-]?[0-9]+(\.[0-9]+)?$` (`src/matcher.rs` 1657). -/
def numberRE : RE :=
  .cat (.opt (.chr 45)) (.cat (.plus .digit) (.opt (.cat (.chr 46) (.plus .digit))))

/-- `25[0-5]|2[0-4][0-9]|[01]?[0-9][0-9]?` (`src/matcher.rs` 1663). -/
def octetRE : RE :=
  .alt (.cat (.chr 50) (.cat (.chr 53) (.rng 48 53)))
    (.alt (.cat (.chr 50) (.cat (.rng 48 52) .digit))
      (.cat (.opt (.rng 48 49)) (.cat .digit (.opt .digit))))

/-- `^((octet)\.){3}(octet)$` (`src/matcher.rs` 1663). -/
def ipRE : RE :=
  let od := RE.cat octetRE (.chr 46)
  .cat od (.cat od (.cat od octetRE))

end Cdx
