import Verif.Model.Base
/-!
# Files, crashes and power loss: `utils.py:85-190` (`SafeFile`), `rbd/chunked/chunk.py:110-141`, `rbd/chunked/file.py:122-130`

A small model of a POSIX file system.  Writes are visible to all processes at once; what survives a power loss is
`AfterPowerLoss` in `Spec/Crash.lean`.  Permissions (`chmod`) are left out.  Data passed to `write` may stay in the buffer
of the Python file object; `pieces` are what reaches the operating system, in order.
-/
namespace Verif.Fs
open Verif

/-- Names, contents, and for power loss: which contents are not yet on disk and which bindings a name had since the last
`sync` (no line of its own). -/
structure Fs where
  names : String → Option Nat
  content : Nat → Bytes
  next : Nat
  dirty : Nat → Bool
  past : String → List (Option Nat)

/-- System calls (no line of their own).  `append` writes through a handle to the file the name is bound to. -/
inductive Op
  | create (n : String)
  | truncate (n : String)
  | append (n : String) (b : Bytes)
  | fsync (n : String)
  | rename (a b : String)
  | unlink (n : String)
  | sync

/-- Bind a name and remember the old binding. -/
def Fs.bind (fs : Fs) (n : String) (i : Option Nat) : Fs :=
  { fs with names := fun x => if x = n then i else fs.names x,
            past := fun x => if x = n then fs.names n :: fs.past n else fs.past x }

/-- Change the content of a file in the page cache. -/
def Fs.put (fs : Fs) (i : Nat) (c : Bytes) : Fs :=
  { fs with content := fun x => if x = i then c else fs.content x, dirty := fun x => decide (x = i) || fs.dirty x }

/-- A new empty file. -/
def Fs.create (fs : Fs) (n : String) : Fs := { (fs.put fs.next []).bind n (some fs.next) with next := fs.next + 1 }

/-- Effect of a system call. -/
def Op.apply (fs : Fs) : Op → Fs
  | .create n => fs.create n
  | .truncate n =>
    match fs.names n with
    | none => fs.create n
    | some i => fs.put i []
  | .append n b =>
    match fs.names n with
    | none => fs
    | some i => fs.put i (fs.content i ++ b)
  | .fsync n =>
    match fs.names n with
    | none => fs
    | some i => { fs with dirty := fun x => if x = i then false else fs.dirty x }
  | .rename a b => (fs.bind b (fs.names a)).bind a none
  | .unlink n => fs.bind n none
  | .sync => { fs with dirty := fun _ => false, past := fun _ => [] }

/-- Run a sequence of system calls. -/
def run (ops : List Op) (fs : Fs) : Fs := ops.foldl Op.apply fs

/-- What happens inside one `with SafeFile(name) as f: f.open_new(...); ...` block: the data that reaches the file, whether the
block raises, whether `flush` or `fsync` in `__exit__` raise, whether the rename raises. -/
structure Block where
  pieces : List Bytes
  raises : Bool
  syncFails : Bool
  renameFails : Bool

/-- `SafeFile` with `open_new` (`utils.py:104-154`): the system calls of the block and of `__exit__`. -/
def safeFile (n tmp : String) (b : Block) : List Op :=
  .create tmp :: b.pieces.map (.append tmp) ++
    if b.syncFails then []
    else .fsync tmp :: (if b.raises then [.unlink tmp] else if b.renameFails then [] else [.rename tmp n])

/-- Whether the block ends without exception. -/
def Block.ok (b : Block) : Bool := !b.raises && !b.syncFails && !b.renameFails

/-- `Chunk.flush` (`rbd/chunked/chunk.py:119-137`): temporary file, rename, no `fsync`.  `pieces` is the compressed
data. -/
def chunkFlush (target tmp : String) (pieces : List Bytes) : List Op :=
  .create tmp :: pieces.map (.append tmp) ++ [.rename tmp target]

/-- `File.flush` (`rbd/chunked/file.py:127-130`): the mapping file is rewritten in place. -/
def mappingFlush (name : String) (pieces : List Bytes) : List Op :=
  .truncate name :: pieces.map (.append name) ++ [.fsync name]

/-- A chunk file to be written: name, temporary name, data. -/
structure ChunkWrite where
  target : String
  tmp : String
  pieces : List Bytes

/-- The file operations of a successful backup (`rbd/__init__.py:147-172`): chunks, mapping file, metadata of the complete
revision, `os.sync()`. -/
def backupFiles (chunks : List ChunkWrite) (mapName : String) (mapPieces : List Bytes) (revName revTmp : String)
    (revPieces : List Bytes) : List Op :=
  (chunks.map (fun c => chunkFlush c.target c.tmp c.pieces)).flatten ++ mappingFlush mapName mapPieces ++
    safeFile revName revTmp ⟨revPieces, false, false, false⟩ ++ [.sync]

end Verif.Fs
