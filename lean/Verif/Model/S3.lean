import Verif.Model.Files
import Verif.Model.Match

/-!
Reading an object of S3: `S3Reader` of `/repo/src/util.rs` 1028-1098, and how `get_reader` (1242-1261) sees it.

The object arrives in pieces, the body is their list; a piece that cannot be fetched is `none`. The connection itself
(1036-1051) is not modelled. A buffered reader asks again and again with buffers of any size and stops when it gets nothing.
-/

namespace Cdx

/-- `new_path` (`src/util.rs` 1052-1062): bucket and key. -/
def s3Path (spec : Bytes) : Option (Bytes × Bytes) :=
  if startsWith spec s3Tag then splitOnce 47 (spec.drop s3Tag.length) else none

/-- `S3Reader` (`src/util.rs` 1028-1034): what is left of a piece, and the pieces not fetched. -/
structure S3 where
  left : Option Bytes
  body : List (Option Bytes)
deriving DecidableEq, Repr

/-- Filling the buffer from a piece (`src/util.rs` 1067-1076, 1083-1092). -/
def s3Fill (bytes : Bytes) (size : Nat) (body : List (Option Bytes)) : Bytes × S3 :=
  if bytes.length > size then (bytes.take size, ⟨some (bytes.drop size), body⟩) else (bytes, ⟨none, body⟩)

/-- `read` (`src/util.rs` 1065-1097) into a buffer of a size; none is an error. -/
def S3.read (s : S3) (size : Nat) : Option (Bytes × S3) :=
  match s.left with
  | some bytes => some (s3Fill bytes size s.body)
  | none =>
    match s.body with
    | [] => some ([], ⟨none, []⟩)
    | none :: _ => none
    | some bytes :: body => some (s3Fill bytes size body)

/-- Reading until nothing comes, with buffers of the sizes in the list (the contract of `Read`, used at `src/util.rs` 1255). Besides
the bytes read it is told whether an error ended the reading. -/
def S3.drain : List Nat → S3 → Bytes × Bool
  | [], _ => ([], false)
  | n :: ns, s =>
    match s.read n with
    | none => ([], true)
    | some ([], _) => ([], false)
    | some (b, s') => let r := S3.drain ns s'; (b ++ r.1, r.2)

/-- `get_reader` (`src/util.rs` 1242-1261) of an object: the buffer is filled once and looked at, then all is read. None if the first
read fails. -/
def s3Reader (gunzip : Bytes → Bytes) (size : Nat) (sizes : List Nat) (s : S3) : Option (Bytes × Bool) :=
  (s.read size).map fun p =>
    let r := S3.drain sizes p.2
    if startsWith p.1 gzMagic then (gunzip (p.1 ++ r.1), r.2) else (p.1 ++ r.1, r.2)

end Cdx
