import Verif.Model.Dict
/-!
# Shared basic types

Byte strings, Python exceptions and the parameters of the model.
-/
namespace Verif

/-- Python `bytes` (builtin). -/
abbrev Bytes := List UInt8

/-- A chunk hash: the 128 bit murmur3 hex digest of `rbd/chunked/chunk.py:140-141`,
read as a number. -/
abbrev Hash := Nat

/-- Exceptions that the modelled code can raise (builtin classes and
`rbd/chunked/__init__.py:6-13`).  `InconsistentHash` is a `BackendException` and both are
`backend` here.  `diverge` marks a loop that does not terminate in Python. -/
inductive PyErr
  | assertion | value | type | key | index | backend | fileNotFound | os | runtime | locked
  | struct | client | unexpected | diverge
deriving DecidableEq, Repr

deriving instance DecidableEq for Except

/-- `whence` argument of `seek` (`rbd/chunked/file.py:158-165`, builtin `io.SEEK_*`). -/
inductive Whence | set | end_ | cur | other
deriving DecidableEq, Repr

/-- `n * b"\0"` (builtin). -/
def zeros (n : Nat) : Bytes := List.replicate n 0

/-- The result of `BytesIO.seek(off); BytesIO.write(d)` on a buffer, and of the same calls on a
plain file (builtin): a gap between the end and `off` reads as zeros. -/
def writeAt (buf : Bytes) (off : Nat) (d : Bytes) : Bytes :=
  if d = [] then buf
  else buf.take off ++ zeros (off - buf.length) ++ d ++ buf.drop (off + d.length)

/-- Parameters of the chunked-storage model.
* `cs`: `Chunk.CHUNK_SIZE` (`rbd/chunked/chunk.py:25`), any positive number here;
* `blk`: the literal 4 MiB block used for filling and streaming
  (`rbd/chunked/file.py:179`, `rbd/rbd.py`), any positive number here;
* `H`: the hash function (`rbd/chunked/chunk.py:140-141`), arbitrary;
* `now`: the results of successive `time.time()` calls (`rbd/chunked/file.py:249`), arbitrary. -/
structure Env where
  cs : Nat
  cs_pos : 0 < cs
  blk : Nat
  blk_pos : 0 < blk
  H : Bytes → Hash
  now : Nat → Nat

end Verif
