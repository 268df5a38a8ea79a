import Verif.Spec.Crash
/-!
# Several processes writing files at once: `utils.py:85-190` (`SafeFile`), `revision.py:104-118`, `source.py:316-326`, `report.py:58-109`

Any number of processes are inside `with SafeFile(...)` blocks at the same time; their system calls are interleaved arbitrarily,
processes are killed and the machine loses power at any time.  Files that are not written through `SafeFile` (chunks and mapping
files) are changed by arbitrary system calls.
-/
namespace Verif.Fs
open Verif

/-- What a file name is for: metadata (written through `SafeFile` only), the temporary files of `SafeFile`, anything else. -/
inductive Kind | metadata | temp | data
deriving DecidableEq

/-- A process in a `SafeFile` block (`utils.py:104-154`): its temporary file, the file it is for, the block and the system calls that remain. -/
structure Writer where
  tmp : String
  target : String
  block : Block
  left : List Op

/-- The file system, the processes that are in a block, by their number, and a ghost: the contents that have been put under their
final name. -/
structure World where
  fs : Fs
  busy : Nat → Option Writer
  done : List (String × Bytes)

/-- The names a system call changes. -/
def Op.touches : Op → List String
  | .create n | .truncate n | .append n _ | .fsync n | .unlink n => [n]
  | .rename a b => [a, b]
  | .sync => []

/-- A change of one entry. -/
def setWriter (busy : Nat → Option Writer) (p : Nat) (w : Option Writer) : Nat → Option Writer :=
  fun x => if x = p then w else busy x

/-- The ghost after a system call: a rename puts the content under the name. -/
def noteDone (w : Writer) : Op → List (String × Bytes) → List (String × Bytes)
  | .rename _ _, done => (w.target, w.block.pieces.flatten) :: done
  | _, done => done

/-- The machine is started again after a power loss. -/
structure Rebooted (fs fs' : Fs) : Prop where
  lost : AfterPowerLoss fs fs'
  next : fs'.next = fs.next
  dirty : ∀ i, fs'.dirty i = false
  past : ∀ n, fs'.past n = []

/-- What may happen next.  `start`: `open_new` (`utils.py:143-149`), `NamedTemporaryFile` never uses an existing name.  `go`: the next
system call of a process in a block.  `killed`: a process is killed or leaves the block.  `remove`: `Revision.remove`
(`revision.py:143-157`) and the like. -/
inductive Happens (kind : String → Kind) : World → World → Prop
  | start (w : World) (p : Nat) (n tmp : String) (b : Block) (hp : w.busy p = none) (hn : kind n = .metadata) (ht : kind tmp = .temp)
      (hf : w.fs.names tmp = none) :
      Happens kind w ⟨Op.apply w.fs (.create tmp), setWriter w.busy p (some ⟨tmp, n, b, (safeFile n tmp b).tail⟩), w.done⟩
  | go (w : World) (p : Nat) (x : Writer) (op : Op) (rest : List Op) (hx : w.busy p = some x) (hl : x.left = op :: rest) :
      Happens kind w ⟨Op.apply w.fs op, setWriter w.busy p (some { x with left := rest }), noteDone x op w.done⟩
  | killed (w : World) (p : Nat) : Happens kind w { w with busy := setWriter w.busy p none }
  | remove (w : World) (n : String) (hn : kind n = .metadata) : Happens kind w { w with fs := Op.apply w.fs (.unlink n) }
  | data (w : World) (op : Op) (h : ∀ n ∈ op.touches, kind n = .data) : Happens kind w { w with fs := Op.apply w.fs op }
  | power (w : World) (fs' : Fs) (h : Rebooted w.fs fs') : Happens kind w ⟨fs', fun _ => none, w.done⟩

/-- Any number of events. -/
inductive Reach (kind : String → Kind) : World → World → Prop
  | refl (w : World) : Reach kind w w
  | step {a b c : World} (h : Reach kind a b) (h' : Happens kind b c) : Reach kind a c

end Verif.Fs
