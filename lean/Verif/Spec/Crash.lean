import Verif.Model.Fs
/-!
# Specification: what is left after a crash

If only the process is killed, files are as the last system call left them.  After a power loss, each name may have any of the
bindings it had since the last `sync` (independently of all others), and a file that was written
and not synchronised since may contain anything.
-/
namespace Verif.Fs
open Verif

/-- Content of a file. -/
def Fs.read (fs : Fs) (n : String) : Option Bytes := (fs.names n).map fs.content

/-- States after a power loss. -/
structure AfterPowerLoss (fs fs' : Fs) : Prop where
  names : ∀ n, fs'.names n = fs.names n ∨ fs'.names n ∈ fs.past n
  content : ∀ i, fs.dirty i = false → fs'.content i = fs.content i

/-- The file is on disk with this content (or not there: `none`). -/
structure Durable (fs : Fs) (n : String) (c : Option Bytes) : Prop where
  read : fs.read n = c
  names : ∀ b ∈ fs.past n, b = fs.names n
  clean : ∀ i, fs.names n = some i → fs.dirty i = false
  old : ∀ i, fs.names n = some i → i < fs.next

end Verif.Fs
