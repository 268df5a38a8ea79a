import Verif.Model.ChunkedOps
/-!
# RBD diff streams: `rbd/rbd.py:182-326` and `utils.py:599-649`

The stream is the list of bytes the `rbd` process writes to its pipe; `read(n)` returns fewer than
`n` bytes only at the end.  The Python decoder is lazy.  As its consumer `integrate` cannot influence
the stream and either consumes all of it or stops with an exception, the decoder is modelled as
a function from the stream to the records it yields plus the exception that ends it, if any.
-/
namespace Verif.Diff
open Verif Verif.Chunked Verif.Spec

/-- A yielded record (`rbd/rbd.py:188-192`); `chunks` are the pieces `stream()` yields. -/
inductive Rec
  | fromSnap (name : Bytes)
  | toSnap (name : Bytes)
  | size (n : Nat)
  | zero (start length : Nat)
  | data (start length : Nat) (chunks : List Bytes)
deriving DecidableEq, Repr

/-- `RBDDiffV1.phase` after the header (`rbd/rbd.py:197`, `217`). -/
inductive Phase | metadata | data | end_
deriving DecidableEq, Repr

/-- `struct.unpack` of a little-endian unsigned number (builtin). -/
def unle : Bytes → Nat
  | [] => 0
  | b :: t => b.toNat + 256 * unle t

/-- `unpack_from(fmt, f)` for one unsigned field of `k` bytes (`rbd/rbd.py:182-185`): a short read makes
`struct.unpack` raise `struct.error`. -/
def unpack (k : Nat) (f : Bytes) : Except PyErr (Nat × Bytes) :=
  if (f.take k).length = k then .ok (unle (f.take k), f.drop k) else .error .struct

/-- `read_fbytes("ascii")` (`rbd/rbd.py:234-239`): the length is signed; `read(-1)` reads everything,
other negative lengths and bytes above 127 raise `ValueError`. -/
def readFbytes (f : Bytes) : Except PyErr (Bytes × Bytes) :=
  match unpack 4 f with
  | .error e => .error e
  | .ok (n, f) =>
    if n < 2 ^ 31 then
      if (f.take n).all (· < 128) then .ok (f.take n, f.drop n) else .error .value
    else if n = 2 ^ 32 - 1 then
      if f.all (· < 128) then .ok (f, []) else .error .value
    else .error .value

/-- `stream()` of `read_w` (`rbd/rbd.py:266-273`): pieces of at most `blk` bytes; a short read is not
noticed. -/
def streamChunks (blk : Nat) (hblk : 0 < blk) (remaining : Nat) (f : Bytes) : List Bytes × Bytes :=
  if _h : remaining = 0 then ([], f)
  else
    let n := min blk remaining
    let r := streamChunks blk hblk (remaining - n) (f.drop n)
    (f.take n :: r.1, r.2)
termination_by remaining

/-- `read_record` (`rbd/rbd.py:219-232`) with `read_f`, `read_t`, `read_s`, `read_e`, `read_w`, `read_z`
(`rbd/rbd.py:241-283`): `none` is the end record. -/
def readRecord (env : Env) (phase : Phase) (f : Bytes) : Except PyErr (Option Rec × Phase × Bytes) :=
  match f with
  | [] => .error .value
  | b :: f =>
    if b = 102 then
      if phase ≠ .metadata then .error .assertion
      else match readFbytes f with
        | .error e => .error e
        | .ok (n, f) => .ok (some (.fromSnap n), phase, f)
    else if b = 116 then
      if phase ≠ .metadata then .error .assertion
      else match readFbytes f with
        | .error e => .error e
        | .ok (n, f) => .ok (some (.toSnap n), phase, f)
    else if b = 115 then
      if phase ≠ .metadata then .error .assertion
      else match unpack 8 f with
        | .error e => .error e
        | .ok (n, f) => .ok (some (.size n), phase, f)
    else if b = 119 then
      match unpack 8 f with
      | .error e => .error e
      | .ok (o, f) =>
        match unpack 8 f with
        | .error e => .error e
        | .ok (l, f) =>
          let r := streamChunks env.blk env.blk_pos l f
          .ok (some (.data o l r.1), .data, r.2)
    else if b = 122 then
      match unpack 8 f with
      | .error e => .error e
      | .ok (o, f) =>
        match unpack 8 f with
        | .error e => .error e
        | .ok (l, f) => .ok (some (.zero o l), .data, f)
    else if b = 101 then .ok (none, .end_, f)
    else .error .value

/-- `read_metadata` and `read_data` (`rbd/rbd.py:285-301`): the yielded records and the exception that
ended the iteration.  Every record consumes at least one byte, hence the fuel. -/
def readRecords (env : Env) : Nat → Phase → Bytes → List Rec × Option PyErr
  | 0, _, _ => ([], some .diverge)
  | fuel + 1, phase, f =>
    match readRecord env phase f with
    | .error e => ([], some e)
    | .ok (none, _, _) => ([], none)
    | .ok (some r, phase, f) =>
      let rest := readRecords env fuel phase f
      (r :: rest.1, rest.2)

/-- `RBDDiffV1.header` (`rbd/rbd.py:201`): "rbd diff v1\n". -/
def header : Bytes := [114, 98, 100, 32, 100, 105, 102, 102, 32, 118, 49, 10]

/-- `RBDDiffV1.__init__` and iteration over all records (`rbd/rbd.py:203-217`, `285-301`). -/
def decode (env : Env) (f : Bytes) : List Rec × Option PyErr :=
  if f.take header.length ≠ header then ([], some .value)
  else readRecords env (f.length + 1) .metadata (f.drop header.length)

/-- A sequence of method calls that stops at the first exception (no line of its own). -/
def exec (env : Env) : List Op → S → Except PyErr Unit × S
  | [], s => (.ok (), s)
  | op :: ops, s =>
    let r := s.step env op
    match r.2 with
    | .error e => (.error e, r.1)
    | .ok _ => exec env ops r.1

/-- `punch_hole` (`utils.py:639-649`) on a chunked file: `fileno()` raises `OSError`
(`rbd/chunked/file.py:99-102`), so `_fake_fallocate` (`utils.py:599-611`) writes zeros. -/
def punchHole (env : Env) (offset length : Nat) (s : S) : Except PyErr Unit × S :=
  if length = 0 then (.error .os, s)
  else exec env [.seek offset .set, .write (zeros length), .seek s.f.pos .set] s

/-- The body of the loops of `integrate` (`rbd/rbd.py:307-314`, `316-323`).  Phases make sure that
metadata records only occur in the first loop and data records only in the second. -/
def applyRec (env : Env) (snapFrom snapTo : Bytes) (s : S) : Rec → Except PyErr Unit × S
  | .size n => exec env [.seek n .set, .truncate] s
  | .fromSnap b => if b = snapFrom then (.ok (), s) else (.error .assertion, s)
  | .toSnap b => if b = snapTo then (.ok (), s) else (.error .assertion, s)
  | .zero start length =>
    match exec env [.seek start .set] s with
    | (.error e, s) => (.error e, s)
    | (.ok (), s) => punchHole env s.f.pos length s
  | .data start _ chunks => exec env (.seek start .set :: chunks.map .write) s

/-- Apply records until the first exception (`rbd/rbd.py:307-323`). -/
def applyRecs (env : Env) (snapFrom snapTo : Bytes) : List Rec → S → Except PyErr Unit × S
  | [], s => (.ok (), s)
  | r :: rest, s =>
    match applyRec env snapFrom snapTo s r with
    | (.error e, s) => (.error e, s)
    | (.ok (), s) => applyRecs env snapFrom snapTo rest s

/-- `RBDDiffV1(stream).integrate(target, snapshot_from, snapshot_to)` (`rbd/rbd.py:203-210`, `303-326`). -/
def integrate (env : Env) (stream : Bytes) (snapFrom snapTo : Bytes) (s : S) : Except PyErr Unit × S :=
  let d := decode env stream
  match applyRecs env snapFrom snapTo d.1 s with
  | (.error e, s) => (.error e, s)
  | (.ok (), s) =>
    match d.2 with
    | some e => (.error e, s)
    | none => (.ok (), s)

end Verif.Diff
