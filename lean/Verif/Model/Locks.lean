import Mathlib.Data.List.Basic
/-!
# Repository locks: `repository.py:127-206` and the functions that use them

Any number of executions (processes, each with its own `Repository` object) work on one repository.  The kernel's
`flock(2)` table is part of the state.  What the bodies of the functions do is left open: a body may change the shared
data (type `D`) in any way, any number of times.

Simplifications: opening and closing the lock file is part of taking and giving back the lock (nobody replaces the
files `.backup` and `.purge`); the conversion of a lock held by the same file description does not occur because a
`Repository` object refuses to lock a target twice.  `backy-extract` is another program, `restore` here is the Python
implementation.
-/
namespace Verif.Locks

/-- The lock files (`repository.py:295`, `rbd/__init__.py:131`). -/
inductive Target | backup | purge
  deriving DecidableEq, Repr

/-- Lock modes (`repository.py:143`). -/
inductive Mode | shared | exclusive
  deriving DecidableEq, Repr

/-- The functions decorated with `locked`. -/
inductive Op | backup | verify | gc | restore | clean | rm | expire | tags | distrust | pull | push
  deriving DecidableEq, Repr

/-- The decorators, outermost first (`rbd/__init__.py:130-131`, `191`, `255`, `327`, `339`, `repository.py:295`, `305`,
`310`, `314`, `348`, `daemon/scheduler.py:359`, `429`). -/
def Op.locks : Op → List (Target × Mode)
  | .backup => [(.backup, .exclusive), (.purge, .shared)]
  | .verify => [(.purge, .shared)]
  | .gc => [(.purge, .exclusive)]
  | .restore => [(.purge, .shared)]
  | .clean | .rm | .expire | .tags | .distrust => [(.backup, .exclusive)]
  | .pull | .push => [(.backup, .exclusive)]

/-- `async def` functions (`daemon/scheduler.py:360`, `430`): calling one only creates a coroutine. -/
def Op.isAsync : Op → Bool
  | .pull | .push => true
  | _ => false

/-- Calls with `skip_lock=True` (`rbd/__init__.py:158-160`, `187`, `251`): caller and callee. -/
def Op.callsUnlocked : Op → Op → Bool
  | .backup, .distrust => true
  | .backup, .verify => true
  | .verify, .gc => true
  | _, _ => false

/-- A lock in the kernel's table: the execution whose file description holds it. -/
structure Held where
  owner : Nat
  target : Target
  mode : Mode
  deriving DecidableEq, Repr

/-- Whether `flock` (mode `m` on `t`, by `p`) has to wait or fail (flock(2)). -/
def conflicts (table : List Held) (p : Nat) (t : Target) (m : Mode) : Bool :=
  table.any (fun h => decide (h.owner ≠ p ∧ h.target = t ∧ (h.mode = .exclusive ∨ m = .exclusive)))

/-- Where an execution is. -/
inductive Status
  /-- outside of the decorated functions -/
  | idle
  /-- in the wrappers of `op`, the locks `rest` have not been taken yet (`repository.py:147-155`) -/
  | acquiring (op : Op) (rest : List (Target × Mode))
  /-- in the body of `op`; `inner` are the functions called with `skip_lock=True`, innermost first -/
  | running (op : Op) (inner : List Op)
  /-- leaving the wrappers: the locks `rest` are still to be given back, innermost first (`repository.py:199-205`);
  `awaits` is the coroutine that will be awaited afterwards -/
  | releasing (rest : List Target) (awaits : Option Op)
  /-- awaiting the coroutine of an `async def` (`daemon/scheduler.py:253`, `263`, `265`) -/
  | awaiting (op : Op)
  deriving DecidableEq, Repr

/-- The state: where everybody is, `_lock_fds` of everybody (`repository.py:65`), the kernel's lock table, everything on
disk. -/
structure State (D : Type) where
  at_ : Nat → Status
  fds : Nat → List Target
  table : List Held
  data : D

/-- Change the entry of one execution. -/
def put {α : Type} (f : Nat → α) (p : Nat) (a : α) : Nat → α := fun q => if q = p then a else f q

/-- One step of one execution, or the death of one. -/
inductive Step {D : Type} : State D → State D → Prop
  /-- a decorated function is called (`repository.py:147`) -/
  | call (s : State D) (p : Nat) (op : Op) (h : s.at_ p = .idle) :
      Step s { s with at_ := put s.at_ p (.acquiring op op.locks) }
  /-- `RuntimeError("Bug: Locking is not re-entrant.")` (`repository.py:179-182`) -/
  | reentrant (s : State D) (p : Nat) (op : Op) (t : Target) (m : Mode) (rest : List (Target × Mode))
      (h : s.at_ p = .acquiring op ((t, m) :: rest)) (hf : t ∈ s.fds p) :
      Step s { s with at_ := put s.at_ p (.releasing (s.fds p) none) }
  /-- the lock is granted (`repository.py:183-188`) -/
  | acquire (s : State D) (p : Nat) (op : Op) (t : Target) (m : Mode) (rest : List (Target × Mode))
      (h : s.at_ p = .acquiring op ((t, m) :: rest)) (hf : t ∉ s.fds p) (hc : conflicts s.table p t m = false) :
      Step s { s with at_ := put s.at_ p (.acquiring op rest), fds := put s.fds p (t :: s.fds p),
                      table := ⟨p, t, m⟩ :: s.table }
  /-- `BlockingIOError` (`repository.py:189-197`): only exclusive locks are requested with `LOCK_NB` -/
  | refused (s : State D) (p : Nat) (op : Op) (t : Target) (rest : List (Target × Mode))
      (h : s.at_ p = .acquiring op ((t, .exclusive) :: rest)) (hf : t ∉ s.fds p)
      (hc : conflicts s.table p t .exclusive = true) :
      Step s { s with at_ := put s.at_ p (.releasing (s.fds p) none) }
  /-- all wrappers passed: the body starts (`repository.py:155`) -/
  | enter (s : State D) (p : Nat) (op : Op) (h : s.at_ p = .acquiring op []) (ha : op.isAsync = false) :
      Step s { s with at_ := put s.at_ p (.running op []) }
  /-- all wrappers passed, but the function is an `async def`: the call returns a coroutine -/
  | create (s : State D) (p : Nat) (op : Op) (h : s.at_ p = .acquiring op []) (ha : op.isAsync = true) :
      Step s { s with at_ := put s.at_ p (.releasing (s.fds p) (some op)) }
  /-- a body does anything -/
  | work (s : State D) (p : Nat) (op : Op) (inner : List Op) (d : D) (h : s.at_ p = .running op inner) :
      Step s { s with data := d }
  /-- a call with `skip_lock=True` (`repository.py:148-149`) -/
  | nested (s : State D) (p : Nat) (op : Op) (inner : List Op) (callee : Op) (h : s.at_ p = .running op inner)
      (hc : (inner.headD op).callsUnlocked callee = true) :
      Step s { s with at_ := put s.at_ p (.running op (callee :: inner)) }
  /-- the return from such a call -/
  | ret (s : State D) (p : Nat) (op callee : Op) (inner : List Op) (h : s.at_ p = .running op (callee :: inner)) :
      Step s { s with at_ := put s.at_ p (.running op inner) }
  /-- the body ends or raises an exception (from any depth) -/
  | leave (s : State D) (p : Nat) (op : Op) (inner : List Op) (h : s.at_ p = .running op inner) :
      Step s { s with at_ := put s.at_ p (.releasing (s.fds p) none) }
  /-- `LOCK_UN` (`repository.py:202-206`) -/
  | release (s : State D) (p : Nat) (t : Target) (rest : List Target) (a : Option Op)
      (h : s.at_ p = .releasing (t :: rest) a) :
      Step s { s with at_ := put s.at_ p (.releasing rest a), fds := put s.fds p ((s.fds p).erase t),
                      table := s.table.filter (fun e => !decide (e.owner = p ∧ e.target = t)) }
  /-- the wrappers are left -/
  | done (s : State D) (p : Nat) (h : s.at_ p = .releasing [] none) : Step s { s with at_ := put s.at_ p .idle }
  /-- the coroutine is awaited -/
  | await (s : State D) (p : Nat) (op : Op) (h : s.at_ p = .releasing [] (some op)) :
      Step s { s with at_ := put s.at_ p (.awaiting op) }
  /-- the body of the coroutine does anything -/
  | asyncWork (s : State D) (p : Nat) (op : Op) (d : D) (h : s.at_ p = .awaiting op) : Step s { s with data := d }
  /-- the coroutine ends -/
  | finish (s : State D) (p : Nat) (op : Op) (h : s.at_ p = .awaiting op) : Step s { s with at_ := put s.at_ p .idle }
  /-- the process dies: the kernel closes its files -/
  | die (s : State D) (p : Nat) :
      Step s { s with at_ := put s.at_ p .idle, fds := put s.fds p [],
                      table := s.table.filter (fun e => !decide (e.owner = p)) }

/-- All interleavings. -/
inductive Reachable {D : Type} (d : D) : State D → Prop
  | init : Reachable d ⟨fun _ => .idle, fun _ => [], [], d⟩
  | step {s s' : State D} (h : Reachable d s) (h' : Step s s') : Reachable d s'

end Verif.Locks
