import Verif.Model.Base
/-!
# The life of a daemon: `daemon/__init__.py:175-235`, `258-283`, `384-422`

Any number of daemons on one host.  `base-dir` is an absolute path in the form that `str(Path(...))` gives; two of them are the same directory only if they
are equal (no symbolic links).  `fcntl.flock` is modelled by the kernel's table: lock file to holder; the lock of a process goes away when it ends.
-/
namespace Verif.Life
open Verif

/-- `self.base_dir.with_suffix(self.base_dir.suffix + ".lock")` (`daemon/__init__.py:177`): ".lock" is appended to the name. -/
def lockFile (base : String) : String := base ++ ".lock"

/-- What a process does. -/
inductive Phase
  /-- it has read its configuration (`daemon/__init__.py:189-191`) -/
  | configured (base : String)
  /-- it has the lock (`daemon/__init__.py:193`) -/
  | locked (base : String)
  /-- its jobs are running (`daemon/__init__.py:195-223`); `home` is `base-dir` as read by `start`, `base` as read last -/
  | working (home base : String)
  /-- it has ended with this exit code; jobs or not, nothing of it is running any more -/
  | ended (code : Nat)
deriving DecidableEq

/-- All processes started so far, the kernel's table of locks, and the base directories that jobs were started in, with the process. -/
structure State where
  procs : List Phase
  locks : Dict String Nat
  started : List (Nat × String)

/-- A host without daemons. -/
def State.init : State := ⟨[], [], []⟩

/-- Events. -/
inductive Ev
  /-- `main` and `start` up to `chdir` (`daemon/__init__.py:185-191`, `413-419`); `none`: the configuration or the directory cannot be read -/
  | launch (base : Option String)
  /-- `lock()` (`daemon/__init__.py:175-183`, `193`) -/
  | lock (i : Nat)
  /-- `_apply_config` of `start` (`daemon/__init__.py:195`) and the rest of `start`; `ok`: nothing raises -/
  | apply (i : Nat) (ok : Bool)
  /-- `reload` (`daemon/__init__.py:225-235`): the base directory that it finds; `ok`: nothing raises.  If something raises, `terminate` ends the process: the loop stops and `main` returns (`daemon/__init__.py:219-223`, `421-422`), exit code 0. -/
  | reload (i : Nat) (base : String) (ok : Bool)
  /-- it is killed, or `terminate` (`daemon/__init__.py:258-283`) ends it -/
  | die (i : Nat) (code : Nat)

/-- A process ends: the kernel drops its locks (builtin). -/
def State.end_ (s : State) (i : Nat) (code : Nat) : State :=
  { s with procs := s.procs.set i (.ended code), locks := s.locks.filter (fun e => decide (e.2 ≠ i)) }

/-- `fcntl.flock(self._lock, LOCK_EX | LOCK_NB)` and `sys.exit(69)` (`daemon/__init__.py:175-183`). -/
def State.tryLock (s : State) (i : Nat) (base : String) : State :=
  match s.locks.get? (lockFile base) with
  | none => { s with procs := s.procs.set i (.locked base), locks := s.locks.set (lockFile base) i }
  | some j =>
    if j = i then { s with procs := s.procs.set i (.locked base) }
    else s.end_ i 69

/-- `_apply_config` (`daemon/__init__.py:121-173`): jobs are started in the base directory, even if something raises later; in that case
the process ends with this exit code. -/
def State.apply (s : State) (i : Nat) (home base : String) (code : Nat) (ok : Bool) : State :=
  if ok then { s with procs := s.procs.set i (.working home base), started := (i, base) :: s.started }
  else { s.end_ i code with started := (i, base) :: s.started }

/-- One event; nothing happens if it is not possible. -/
def step (s : State) : Ev → State
  | .launch (some base) => { s with procs := s.procs ++ [.configured base] }
  | .launch none => { s with procs := s.procs ++ [.ended 1] }
  | .lock i =>
    match s.procs[i]? with
    | some (.configured base) => s.tryLock i base
    | _ => s
  | .apply i ok =>
    match s.procs[i]? with
    | some (.locked base) => s.apply i base base 1 ok
    | _ => s
  | .reload i base ok =>
    match s.procs[i]? with
    | some (.working home _) => s.apply i home base 0 ok
    | _ => s
  | .die i code =>
    match s.procs[i]? with
    | some (.ended _) => s
    | some _ => s.end_ i code
    | none => s

/-- A sequence of events. -/
def runs (s : State) (es : List Ev) : State := es.foldl step s

end Verif.Life
