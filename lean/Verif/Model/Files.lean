import Verif.Model.Rbd
import Verif.Model.ChunkedOps
/-!
# Copying and comparing files: `utils.py:246-430`, `rbd/__init__.py:267-359`

Regular files are a content and a position; buffering is transparent (the code flushes before it
leaves the buffered interface); `posix_fadvise`, `fsync`, log output and progress reports have no
effect.  `truncate` on special files (where it raises and is ignored) is not modelled: targets are
regular files.
-/
namespace Verif.Files
open Verif Verif.Chunked Verif.Spec Verif.Rbd Verif.Repo

/-- An open regular file (builtin). -/
structure PFile where
  content : Bytes
  pos : Nat
deriving DecidableEq, Repr

/-- `f.read(n)` (builtin). -/
def PFile.read (f : PFile) (n : Nat) : Bytes × PFile :=
  ((f.content.drop f.pos).take n, { f with pos := f.pos + ((f.content.drop f.pos).take n).length })

/-- `f.seek(n)` (builtin). -/
def PFile.seek (f : PFile) (n : Nat) : PFile := { f with pos := n }

/-- `f.write(d)` (builtin). -/
def PFile.write (f : PFile) (d : Bytes) : PFile :=
  { content := writeAt f.content f.pos d, pos := f.pos + d.length }

/-- `f.truncate(n)` (builtin): cuts or extends by zeros. -/
def PFile.truncate (f : PFile) (n : Nat) : PFile :=
  { f with content := f.content.take n ++ zeros (n - f.content.length) }

/-- `source.read(n)` on a chunked file, `rbd/chunked/file.py:205`. -/
def readS (env : Env) (n : Nat) (s : S) : Except PyErr Bytes × S := s.read env n

/-- The loop of `copy` (`utils.py:317-322`) from a chunked file.  Every iteration reads at least one
byte, hence the fuel. -/
def copyLoop (env : Env) : Nat → S → PFile → Except PyErr Unit × S × PFile
  | 0, s, t => (.error .diverge, s, t)
  | fuel + 1, s, t =>
    match readS env env.blk s with
    | (.error e, s) => (.error e, s, t)
    | (.ok chunk, s) =>
      if chunk = [] then (.ok (), s, t)
      else copyLoop env fuel s (t.write chunk)

/-- `copy` (`utils.py:298-335`) from a chunked file to a regular file. -/
def copy (env : Env) (s : S) (t : PFile) : Except PyErr Unit × S × PFile :=
  match s.seek env 0 .end_ with
  | (.error e, s) => (.error e, s, t)
  | (.ok _, s) =>
    match s.seek env 0 .set with
    | (.error e, s) => (.error e, s, t)
    | (.ok _, s) =>
      match copyLoop env (s.f.size + 1) s t with
      | (.error e, s, t) => (.error e, s, t)
      | (.ok (), s, t) => (.ok (), s, t.truncate s.f.pos)

/-- `restore_file` (`rbd/__init__.py:326-337`): the target is created if missing, opened "r+b" at
position 0. -/
def restoreFile (env : Env) (s : S) (target : Option Bytes) : Except PyErr Unit × S × Bytes :=
  match copy env s ⟨target.getD [], 0⟩ with
  | (r, s, t) => (r, s, t.content)

/-- The loop of `restore_stdout` (`rbd/__init__.py:347-352`); `out` is what was emitted so far. -/
def stdoutLoop (env : Env) : Nat → S → Bytes → Except PyErr Unit × S × Bytes
  | 0, s, out => (.error .diverge, s, out)
  | fuel + 1, s, out =>
    match readS env env.blk s with
    | (.error e, s) => (.error e, s, out)
    | (.ok chunk, s) =>
      if chunk = [] then (.ok (), s, out)
      else stdoutLoop env fuel s (out ++ chunk)

/-- `restore_stdout` (`rbd/__init__.py:339-352`). -/
def restoreStdout (env : Env) (s : S) : Except PyErr Unit × S × Bytes :=
  stdoutLoop env (s.f.size + 1) s []

/-- `RBDSource.restore` with the Python backend (`rbd/__init__.py:272-287`): to a file with the given
previous content (`none`: it does not exist). -/
def restore (env : Env) (w : World) (r : Rev) (target : Option Bytes) : Except PyErr Unit × Option Bytes :=
  match File.open w r.uuid rb with
  | .error e => (.error e, target)
  | .ok s =>
    match restoreFile env s target with
    | (res, _, t) => (res, some t)

/-- `RBDSource.restore` to standard output (`rbd/__init__.py:272-287`). -/
def restoreOut (env : Env) (w : World) (r : Rev) : Except PyErr Unit × Bytes :=
  match File.open w r.uuid rb with
  | .error e => (.error e, [])
  | .ok s =>
    match restoreStdout env s with
    | (res, _, out) => (res, out)

/-- `punch_hole` on a regular file (`utils.py:639-649`).  With `fallocate` support a region is zeroed
without changing the size (`FALLOC_FL_KEEP_SIZE`), otherwise zeros are written. -/
def PFile.punchHole (falloc : Bool) (offset length : Nat) (f : PFile) : Except PyErr PFile :=
  if length = 0 then .error .os
  else if falloc then
    .ok { f with content := (writeAt f.content offset (zeros length)).take f.content.length }
  else .ok (((f.seek offset).write (zeros length)).seek f.pos)

/-- State of `copy_overwrite`: both files and, as a ghost, the regions written or punched. -/
structure Over where
  source : PFile
  target : PFile
  touched : List (Nat × Nat)

/-- The write or punch of one differing block, `utils.py:273-279`. -/
def overBlock (ps : Nat) (falloc : Bool) (startpos : Nat) (chunk : Bytes) (source : PFile)
    (compare : Bytes) (target : PFile) (touched : List (Nat × Nat)) : Except PyErr (Bool × Over) :=
  if compare = [] ∨ chunk ≠ compare then
    if chunk = zeros ps then
      match target.punchHole falloc startpos chunk.length with
      | .error e => .error e
      | .ok target => .ok (false, ⟨source, target, touched ++ [(startpos, chunk.length)]⟩)
    else .ok (false, ⟨source, (target.seek startpos).write chunk, touched ++ [(startpos, chunk.length)]⟩)
  else .ok (false, ⟨source, target, touched⟩)

/-- The part of an iteration of `copy_overwrite` after reading from the source, `utils.py:269-279`. -/
def overRead (ps : Nat) (falloc : Bool) (startpos : Nat) (chunk : Bytes) (source : PFile) (o : Over) :
    Except PyErr (Bool × Over) :=
  if chunk = [] then .ok (true, { o with source })
  else
    overBlock ps falloc startpos chunk source ((o.target.seek startpos).read chunk.length).1
      ((o.target.seek startpos).read chunk.length).2 o.touched

/-- One iteration of `copy_overwrite` (`utils.py:267-280`); `true` means the loop ends. -/
def overStep (ps : Nat) (falloc : Bool) (o : Over) : Except PyErr (Bool × Over) :=
  overRead ps falloc o.source.pos (o.source.read ps).1 (o.source.read ps).2 o

/-- The loop of `copy_overwrite` (`utils.py:266-280`); every iteration reads at least one byte. -/
def overLoop (ps : Nat) (falloc : Bool) : Nat → Over → Except PyErr Over
  | 0, _ => .error .diverge
  | fuel + 1, o =>
    match overStep ps falloc o with
    | .error e => .error e
    | .ok (true, o) => .ok o
    | .ok (false, o) => overLoop ps falloc fuel o

/-- `copy_overwrite` (`utils.py:246-295`) between regular files: the new target content and the
touched regions.  `ps` is the block size (4 MiB, or 40 MiB for huge sources). -/
def copyOverwrite (ps : Nat) (falloc : Bool) (source target : PFile) : Except PyErr (PFile × List (Nat × Nat)) :=
  match overLoop ps falloc (source.content.length + 1) ⟨source.seek 0, target, []⟩ with
  | .error e => .error e
  | .ok o => .ok (o.target.truncate o.source.pos, o.touched)

/-- A reported mismatch (`utils.py:379`, `427`): both blocks and the offset. -/
abbrev Mismatch := Bytes × Bytes × Nat

/-- The loop of `files_are_equal` (`utils.py:368-382`). -/
def equalLoop (cs : Nat) : Nat → PFile → PFile → Nat → List Mismatch → Except PyErr (List Mismatch)
  | 0, _, _, _, _ => .error .diverge
  | fuel + 1, a, b, position, reports =>
    let (ca, a) := a.read cs
    let (cb, b) := b.read cs
    let reports := if ca ≠ cb then reports ++ [(ca, cb, position)] else reports
    if ca = [] then .ok reports
    else equalLoop cs fuel a b (position + cs) reports

/-- `files_are_equal` (`utils.py:356-383`): the result and the reports. -/
def filesAreEqual (cs : Nat) (a b : PFile) : Except PyErr (Bool × List Mismatch) :=
  match equalLoop cs (a.content.length + 1) a b 0 [] with
  | .error e => .error e
  | .ok reports => .ok (reports.length = 0, reports)

/-- The loop of `files_are_roughly_equal` (`utils.py:411-429`) comparing a plain file with a chunked
one; `expired i` says whether the time limit has passed at the `i`-th iteration. -/
def roughLoop (env : Env) (bs : Nat) (expired : Nat → Bool) :
    List Nat → Nat → PFile → S → Except PyErr (Bool × List Mismatch) × S
  | [], _, _, s => (.ok (true, []), s)
  | block :: rest, i, a, s =>
    if expired i then (.ok (true, []), s)
    else
      match s.seek env (block * bs : Nat) .set with
      | (.error e, s) => (.error e, s)
      | (.ok _, s) =>
        let (ca, a) := (a.seek (block * bs)).read bs
        match readS env bs s with
        | (.error e, s) => (.error e, s)
        | (.ok cb, s) =>
          if ca = cb then roughLoop env bs expired rest (i + 1) a s
          else (.ok (false, [(ca, cb, block * bs)]), s)

/-- Number of blocks that can be sampled (`utils.py:395-397`): `range(0, max(size // blocksize, 1))`. -/
def sampleBlocks (bs size : Nat) : Nat := max (size / bs) 1

/-- A result `random.sample` can have (`utils.py:398`): `n` distinct blocks from the range.  The number
`n = max(int(0.01 * blocks), 1)` is computed with floats; here it is any positive number. -/
structure ValidSample (n bs size : Nat) (sample : List Nat) : Prop where
  range : ∀ b ∈ sample, b < sampleBlocks bs size
  nodup : sample.Nodup
  count : sample.length = n

/-- `files_are_roughly_equal` (`utils.py:386-430`) with the sample `random.sample` returned. -/
def filesAreRoughlyEqual (env : Env) (bs : Nat) (expired : Nat → Bool) (sample : List Nat) (a : Bytes) (s : S) :
    Except PyErr (Bool × List Mismatch) × S :=
  roughLoop env bs expired sample 0 ⟨a, a.length⟩ s

end Verif.Files
