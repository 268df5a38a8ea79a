import Verif.Model.Files
/-!
# Restoring to a target that may fail: `utils.py:298-335`, `rbd/__init__.py:327-352`

`Model/Files.lean` assumes that the target is a regular file with room.  Here writing to the target may fail at any time (a full
disk, a block device that is too small, an input/output error, a pipe that was closed), `truncate` may not be supported (a block
device) and `fsync` may report that written data has not reached the disk.  Python collects what is written in a buffer, so that an
error is reported by a later call than the one that wrote the data, and closing the file writes the buffer again.
-/
namespace Verif.Device
open Verif Verif.Chunked Verif.Spec Verif.Rbd Verif.Repo Verif.Files

/-- The target of a restore (no line of its own).  `write n`: what the `n`-th write does, everything (`none`) or only the given number
of bytes before it fails; `truncFails`: `ftruncate` fails; `sync`: `fsync` succeeds (`none`), or it fails and of the new content only the
given number of bytes has reached the disk. -/
structure Target where
  write : Nat → Option Nat
  truncFails : Bool
  sync : Option Nat

/-- A buffered file object (builtin): what has been written, the position after that, the buffer, the number of writes so far. -/
structure Out where
  content : Bytes
  pos : Nat
  buf : Bytes
  n : Nat
deriving DecidableEq, Repr

/-- Write what is in the buffer (builtin `flush`).  What could not be written stays in the buffer. -/
def Out.flush (d : Target) (o : Out) : Except PyErr Unit × Out :=
  if o.buf = [] then (.ok (), o)
  else
    match d.write o.n with
    | none => (.ok (), { content := writeAt o.content o.pos o.buf, pos := o.pos + o.buf.length, buf := [], n := o.n + 1 })
    | some k => (.error .os, { content := writeAt o.content o.pos (o.buf.take k), pos := o.pos + (o.buf.take k).length,
                               buf := o.buf.drop k, n := o.n + 1 })

/-- Data that does not fit into the empty buffer is written at once (builtin `write`); if this fails it is not kept. -/
def Out.direct (d : Target) (b : Nat) (data : Bytes) (o : Out) : Except PyErr Unit × Out :=
  if data.length ≤ b then (.ok (), { o with buf := data })
  else
    match Out.flush d { o with buf := data } with
    | (.error e, o) => (.error e, { o with buf := [] })
    | (.ok (), o) => (.ok (), o)

/-- `target.write(chunk)` with a buffer of `b` bytes (builtin). -/
def Out.write (d : Target) (b : Nat) (data : Bytes) (o : Out) : Except PyErr Unit × Out :=
  if o.buf.length + data.length ≤ b then (.ok (), { o with buf := o.buf ++ data })
  else
    match o.flush d with
    | (.error e, o) => (.error e, o)
    | (.ok (), o) => o.direct d b data

/-- The loops of `copy` (`utils.py:317-322`) and `restore_stdout` (`rbd/__init__.py:348-352`) from a chunked file. -/
def copyLoop (env : Env) (d : Target) (b : Nat) : Nat → S → Out → Except PyErr Unit × S × Out
  | 0, s, o => (.error .diverge, s, o)
  | fuel + 1, s, o =>
    match readS env env.blk s with
    | (.error e, s) => (.error e, s, o)
    | (.ok chunk, s) =>
      if chunk = [] then (.ok (), s, o)
      else
        match o.write d b chunk with
        | (.error e, o) => (.error e, s, o)
        | (.ok (), o) => copyLoop env d b fuel s o

/-- `target.truncate(size)` (`utils.py:326-329`): an error is ignored. -/
def Out.truncate (d : Target) (n : Nat) (o : Out) : Out :=
  if d.truncFails then o else { o with content := o.content.take n ++ zeros (n - o.content.length) }

/-- The end of `copy` (`utils.py:324-329`). -/
def finish (d : Target) (s : S) (o : Out) : Except PyErr Unit × Out :=
  match o.flush d with
  | (.error e, o) => (.error e, o)
  | (.ok (), o) => (.ok (), o.truncate d s.f.pos)

/-- `copy` (`utils.py:298-329`) from a chunked file to the target; the buffer has `b` bytes. -/
def copy (env : Env) (d : Target) (b : Nat) (s : S) (o : Out) : Except PyErr Unit × Out :=
  match s.seek env 0 .end_ with
  | (.error e, _) => (.error e, o)
  | (.ok _, s) =>
    match s.seek env 0 .set with
    | (.error e, _) => (.error e, o)
    | (.ok _, s) =>
      match copyLoop env d b (s.f.size + 1) s o with
      | (.error e, _, o) => (.error e, o)
      | (.ok (), s, o) => finish d s o

/-- `os.fsync(target)` (`utils.py:330-333`): an error is ignored. -/
def Target.disk (d : Target) (old new : Bytes) : Bytes :=
  match d.sync with
  | none => new
  | some k => new.take k ++ old.drop k

/-- `restore_file` (`rbd/__init__.py:327-337`) with a buffer of `b` bytes.  At the end of the `with` block the file is closed, which
writes the buffer (again); an error of it does not turn an error into a success. -/
def restoreFile (env : Env) (d : Target) (b : Nat) (s : S) (target : Option Bytes) : Except PyErr Unit × Bytes :=
  match copy env d b s ⟨target.getD [], 0, [], 0⟩ with
  | (.error e, o) => (.error e, (o.flush d).2.content)
  | (.ok (), o) => (.ok (), d.disk (target.getD []) o.content)

/-- `RBDSource.restore` with the Python backend (`rbd/__init__.py:272-287`) to a file or a device with the given previous content. -/
def restore (env : Env) (d : Target) (b : Nat) (w : World) (r : Rev) (target : Option Bytes) : Except PyErr Unit × Option Bytes :=
  match File.open w r.uuid rb with
  | .error e => (.error e, target)
  | .ok s =>
    match restoreFile env d b s target with
    | (res, t) => (res, some t)

/-- The end of the `with` block of `restore_stdout` (`rbd/__init__.py:347-352`): closing writes the buffer. -/
def closeOut (d : Target) : Except PyErr Unit × S × Out → Except PyErr Unit × Bytes
  | (.error e, _, o) => (.error e, (o.flush d).2.content)
  | (.ok (), _, o) => ((o.flush d).1, (o.flush d).2.content)

/-- `RBDSource.restore` to standard output (`rbd/__init__.py:272-287`, `340-352`): what has arrived there. -/
def restoreOut (env : Env) (d : Target) (b : Nat) (w : World) (r : Rev) : Except PyErr Unit × Bytes :=
  match File.open w r.uuid rb with
  | .error e => (.error e, [])
  | .ok s => closeOut d (copyLoop env d b (s.f.size + 1) s ⟨[], 0, [], 0⟩)

end Verif.Device
