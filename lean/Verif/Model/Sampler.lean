import Verif.Model.Column

/-!
Smooth sampling. Models `/repo/src/sampler.rs`.

The floating point arithmetic of `collapse` is modelled exactly, in integers. The sampler never looks at the lines, so
they are of any type `α`; `z` stands for the empty line.
-/

namespace Cdx

/-- Rounding `n / d` to an integer, ties to even (IEEE 754 rounding, used at `src/sampler.rs` 94 and 96). -/
def roundHE (n d : Nat) : Nat :=
  if 2 * (n % d) < d then n / d
  else if 2 * (n % d) > d then n / d + 1
  else if n / d % 2 = 0 then n / d else n / d + 1

/-- `a as f64 / b as f64` in units of `2^-52` (`src/sampler.rs` 94), for `b ≤ a ≤ 2 b < 2^53`: the quotient is in `[1, 2]`
and there the doubles are the multiples of `2^-52`. -/
def f64Ratio (a b : Nat) : Nat := roundHE (a * 2 ^ 52) b

/-- `((i as f64) * ratio) as usize` (`src/sampler.rs` 96), `r` being `ratio` in units of `2^-52` and `i < 2^53`: the
product is rounded to 53 bits, then cut off. -/
def f64MulFloor (i r : Nat) : Nat :=
  let e := (i * r).log2 - 52
  roundHE (i * r) (2 ^ e) * 2 ^ e / 2 ^ 52

/-- `Smooth` (`src/sampler.rs` 11-18). -/
structure Smooth (α : Type) where
  small : Nat
  large : Nat
  data : List α
  jump : Nat
  pos : Nat
  size : Nat
deriving DecidableEq, Repr

variable {α : Type}

/-- `Smooth::new` (`src/sampler.rs` 23-38). -/
def Smooth.new (z : α) (sz : Nat) : Smooth α :=
  let small := max sz 2
  let large := small * 2 - 2
  ⟨small, large, List.replicate large z, 1, 0, 0⟩

/-- `verify` (`src/sampler.rs` 39-45); an answer of false stands for the failed assertion. -/
def Smooth.verify (s : Smooth α) : Bool := s.data.length = s.large ∧ s.size ≤ s.large

/-- `slice::swap` of std (used at `src/sampler.rs` 88, 97 and 99): panics when out of range. -/
def swapAt (l : List α) (i j : Nat) : Res (List α) :=
  match l[i]?, l[j]? with
  | some x, some y => .ok ((l.set i y).set j x)
  | _, _ => .panic

/-- The loop of `collapse` (`src/sampler.rs` 95-98), `n` rounds starting with `i`. -/
def collapseLoop (r : Nat) : (n i : Nat) → List α → Res (List α)
  | 0, _, data => .ok data
  | n + 1, i, data => (swapAt data i (f64MulFloor i r)).bind fun d => collapseLoop r n (i + 1) d

/-- `collapse` (`src/sampler.rs` 79-101). -/
def Smooth.collapse (s : Smooth α) : Res (Smooth α) :=
  if s.verify = false then .panic
  else if s.size ≤ s.small then .ok s
  else if s.small = 2 then
    (swapAt s.data 1 (s.size - 1)).bind fun d => .ok { s with data := d, size := 2 }
  else
    (collapseLoop (f64Ratio (s.size - 2) (s.small - 2)) (s.small - 2) 1 s.data).bind fun d =>
      (swapAt d (s.small - 1) (s.size - 1)).bind fun d => .ok { s with data := d, size := s.small }

/-- `self.data[i].clear(); self.data[i].extend(x)` (`src/sampler.rs` 54-55, 61-62). -/
def setAt (l : List α) (i : Nat) (x : α) : Res (List α) := if i < l.length then .ok (l.set i x) else .panic

/-- `add` (`src/sampler.rs` 47-75). -/
def Smooth.add (s : Smooth α) (x : α) : Res (Smooth α) :=
  if s.verify = false then .panic
  else if s.pos = 0 then
    (if s.size ≥ s.large then ({ s with jump := s.jump * 2 } : Smooth α).collapse else .ok s).bind fun s =>
      (setAt s.data s.size x).bind fun d =>
        .ok { s with data := d, size := s.size + 1, pos := if s.jump > 1 then s.pos + 1 else s.pos }
  else if s.size = 0 then .panic
  else
    (setAt s.data (s.size - 1) x).bind fun d =>
      let limit := if s.size = s.large then 2 * s.jump else s.jump
      .ok { s with data := d, pos := if s.pos + 1 ≥ limit then 0 else s.pos + 1 }

/-- The lines added one after the other (`src/bin/cdx/sample_main.rs` 149-154). -/
def Smooth.addAll : List α → Smooth α → Res (Smooth α)
  | [], s => .ok s
  | x :: xs, s => (s.add x).bind fun s => Smooth.addAll xs s

/-- Sampling `sz` lines (`src/bin/cdx/sample_main.rs` 148-155 with `finalize` and `write`, `src/sampler.rs` 104-115). -/
def smooth (z : α) (sz : Nat) (input : List α) : Res (List α) :=
  (Smooth.addAll input (Smooth.new z sz)).bind fun s => s.collapse.bind fun s =>
    if s.size ≤ s.data.length then .ok (s.data.take s.size) else .panic

end Cdx
