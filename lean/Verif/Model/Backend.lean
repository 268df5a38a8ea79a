import Verif.Model.Files
/-!
# The choice of the restore program: `rbd/__init__.py:40-77`, `268-323`

`backy-extract` is an external program.  What it prints for `--version`, its exit code and what it writes are parameters.
-/
namespace Verif.Backend
open Verif Verif.Chunked Verif.Rbd Verif.Repo Verif.Files

/-- `RestoreBackend` (`rbd/__init__.py:40-46`). -/
inductive Backend | auto | python | rust
deriving DecidableEq, Repr

/-- `RestoreBackend.value` (`rbd/__init__.py:41-43`), passed on the command line by `to_cmdargs` (`rbd/__init__.py:54-55`). -/
def Backend.value : Backend → String
  | .auto => "auto"
  | .python => "python"
  | .rust => "rust"

/-- `RestoreBackend(text)` (builtin Enum; the argument parser of `rbd/__init__.py:62-71`): ValueError otherwise. -/
def Backend.parse (text : String) : Except PyErr Backend :=
  if text = "auto" then .ok .auto
  else if text = "python" then .ok .python
  else if text = "rust" then .ok .rust
  else .error .value

/-- Where the data goes: standard output, or a file with the given content (`none`: it does not exist). -/
inductive Target
  | stdout
  | file (old : Option Bytes)
deriving DecidableEq, Repr

/-- `backy-extract`: the output of `--version` or a failure, the exit code and what is in the target (or emitted)
afterwards. -/
structure Extract where
  version : Except PyErr String
  run : World → String → Target → Int × Option Bytes

/-- The outcome: the result, what is in the target (for standard output: what was emitted), and whether `backy-extract` was
started to extract the revision. -/
structure Outcome where
  res : Except PyErr Unit
  data : Option Bytes
  extracted : Bool
deriving DecidableEq, Repr

/-- `str.startswith` (builtin). -/
def hasPrefix (p s : String) : Bool := p.toList.isPrefixOf s.toList

/-- `backy_extract_supported` (`rbd/__init__.py:289-307`): `CHUNK_SIZE` of `utils.py:44` is the same number as the chunk size. -/
def supported (env : Env) (x : Extract) (size : Nat) : Bool :=
  if size % env.cs ≠ 0 then false
  else
    match x.version with
    | .error _ => false
    | .ok v => if hasPrefix "backy-extract" v then true else false

/-- The Python branch (`rbd/__init__.py:280-285`). -/
def viaPython (env : Env) (w : World) (r : Rev) : Target → Outcome
  | .stdout => ⟨(restoreOut env w r).1, some (restoreOut env w r).2, false⟩
  | .file old => ⟨(restore env w r old).1, (restore env w r old).2, false⟩

/-- `restore_backy_extract` (`rbd/__init__.py:309-323`): any exit code except 0 is a RuntimeError. -/
def viaExtract (x : Extract) (w : World) (r : Rev) (t : Target) : Outcome :=
  ⟨if (x.run w r.uuid t).1 ≠ 0 then .error .runtime else .ok (), (x.run w r.uuid t).2, true⟩

/-- What is in the target before. -/
def Target.before : Target → Option Bytes
  | .stdout => some []
  | .file old => old

/-- The choice of the implementation (`rbd/__init__.py:272-279`). -/
def choose (env : Env) (x : Extract) (b : Backend) (size : Nat) : Backend :=
  if b = .auto then (if supported env x size then .rust else .python) else b

/-- `RBDSource.restore` (`rbd/__init__.py:270-287`). -/
def restoreVia (env : Env) (x : Extract) (w : World) (r : Rev) (b : Backend) (t : Target) : Outcome :=
  match File.open w r.uuid rb with
  | .error e => ⟨.error e, t.before, false⟩
  | .ok s =>
    if choose env x b s.f.size = .python then viaPython env w r t
    else viaExtract x w r t

end Verif.Backend
