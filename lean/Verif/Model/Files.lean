import Verif.Model.TextLine

/-!
Opening files by name, `/repo/src/util.rs` 1203-1261.

Simplifications. A file is a list of bytes, and the files are a function of the name; all files may be read and written. What S3 and
gzip deliver are parameters. The buffer of a writer passes the bytes on in pieces, at any time.
-/

namespace Cdx

/-- Files, standard input, and what was written to the standard output and the standard error (used at `src/util.rs` 1205-1211). -/
structure Sys where
  files : Bytes → Option Bytes
  stdin : Bytes
  stdout : Bytes
  stderr : Bytes

/-- Where a writer writes (`src/util.rs` 1204-1212), with the position in the file. -/
inductive Sink
  | stdout
  | stderr
  | file (name : Bytes) (pos : Nat)
deriving DecidableEq

/-- `get_writer` (`src/util.rs` 1203-1214). A file is made if there is none, and otherwise left as it is. -/
def getWriter (s : Sys) (name : Bytes) : Sys × Sink :=
  if name = [45] then (s, .stdout)
  else if name = [45, 45] then (s, .stderr)
  else ({ s with files := fun n => if n = name then some ((s.files name).getD []) else s.files n }, .file name 0)

/-- Bytes written over those at a position (used at `src/util.rs` 1210). -/
def overwrite (old : Bytes) (pos : Nat) (new : Bytes) : Bytes := old.take pos ++ new ++ old.drop (pos + new.length)

/-- A piece of the output is written (used at `src/util.rs` 1213). -/
def Sys.write (s : Sys) (k : Sink) (b : Bytes) : Sys × Sink :=
  match k with
  | .stdout => ({ s with stdout := s.stdout ++ b }, k)
  | .stderr => ({ s with stderr := s.stderr ++ b }, k)
  | .file name pos =>
    ({ s with files := fun n => if n = name then some (overwrite ((s.files name).getD []) pos b) else s.files n },
      .file name (pos + b.length))

/-- Pieces of the output are written (used at `src/util.rs` 1213). -/
def Sys.writeAll (s : Sys) (k : Sink) : List Bytes → Sys × Sink
  | [] => (s, k)
  | b :: bs => let p := s.write k b; p.1.writeAll p.2 bs

/-- A writer is made, and the pieces of the output are written to it (`src/util.rs` 1203-1214). -/
def putFile (s : Sys) (name : Bytes) (bs : List Bytes) : Sys := let p := getWriter s name; (p.1.writeAll p.2 bs).1

/-- `starts_with`, for the names and the beginnings of files (used at `src/util.rs` 1247-1257). -/
def startsWith (t p : Bytes) : Bool := t.take p.length == p

/-- The three bytes every compressed file begins with (`src/util.rs` 1257). -/
def gzMagic : Bytes := [0x1f, 0x8b, 0x08]

/-- `s3://` (`src/util.rs` 1247). -/
def s3Tag : Bytes := [115, 51, 58, 47, 47]

/-- `get_reader` (`src/util.rs` 1242-1261): what is read under a name; none if the file is not there. -/
def getReader (s3 : Bytes → Option Bytes) (gunzip : Bytes → Bytes) (s : Sys) (name : Bytes) : Option Bytes :=
  let inner := if name = [45] then some s.stdin
    else if startsWith name s3Tag then s3 name
    else if startsWith name [60, 60] then some (unescapeVec (name.drop 2))
    else s.files name
  inner.map fun b => if startsWith b gzMagic then gunzip b else b

end Cdx
