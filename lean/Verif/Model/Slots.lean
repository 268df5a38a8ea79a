import Mathlib.Data.List.Count
/-!
# Worker slots: `daemon/scheduler.py:246-266`, `343-357` and `daemon/__init__.py:156-173`

A task is one run of `Job.run_forever`.  `asyncio.BoundedSemaphore` (standard library) is modelled by its counter:
`acquire` succeeds when the counter is positive and decrements it; leaving the `async with` block for any reason
(end, exception, cancellation) increments it.
-/
namespace Verif.Slots

/-- What a task is doing: nothing that needs a slot, waiting at `async with semaphore` (`daemon/scheduler.py:253-255`),
inside it (`256-266`), or ended. -/
inductive Phase
  | idle
  | waiting (fast : Bool) (sem : Nat)
  | running (fast : Bool) (sem : Nat)
  | ended
deriving DecidableEq

/-- An `asyncio.BoundedSemaphore` object: `_bound_value` and `_value`. -/
structure Sem where
  bound : Nat
  value : Nat
deriving DecidableEq

/-- The tasks and the semaphore objects created so far; `current` are the objects in `daemon.backup_semaphores`
(`"slow"`, `"fast"`). -/
structure State where
  tasks : List Phase
  sems : List Sem
  current : Option (Nat × Nat)

/-- The daemon at its start (`daemon/__init__.py:60-61`). -/
def State.init : State := ⟨[], [], none⟩

/-- `self.daemon.backup_semaphores[speed]` (`daemon/scheduler.py:255`). -/
def State.sem (s : State) (fast : Bool) : Option Nat := s.current.map (fun c => if fast then c.2 else c.1)

/-- The end of `_apply_config` (`daemon/__init__.py:156-173`). -/
def State.reload (s : State) (limit : Nat) : State :=
  match s.current with
  | some (slow, _) =>
    if (s.sems[slow]?.map Sem.bound) ≠ some limit then
      { s with sems := s.sems ++ [⟨limit, limit⟩, ⟨limit, limit⟩], current := some (s.sems.length, s.sems.length + 1) }
    else s
  | none => { s with sems := s.sems ++ [⟨limit, limit⟩, ⟨limit, limit⟩], current := some (s.sems.length, s.sems.length + 1) }

/-- Change the counter of a semaphore (builtin). -/
def State.add (s : State) (k : Nat) (f : Nat → Nat) : List Sem :=
  s.sems.modify k (fun x => { x with value := f x.value })

/-- Events of the event loop. -/
inductive Ev
  /-- `Job.start` (`daemon/scheduler.py:343-348`) -/
  | start
  /-- task `i` reaches `async with self.daemon.backup_semaphores[speed]` (`daemon/scheduler.py:253-255`) -/
  | request (i : Nat) (fast : Bool)
  /-- task `i` gets a slot (`daemon/scheduler.py:256`) -/
  | grant (i : Nat)
  /-- task `i` leaves the block normally or by an exception (`daemon/scheduler.py:267-286`) -/
  | leave (i : Nat)
  /-- task `i` is cancelled (`Job.stop`, `daemon/scheduler.py:350-357`, or `terminate`) or ends -/
  | cancel (i : Nat)
  /-- `_apply_config` with this worker limit -/
  | reload (limit : Nat)
deriving DecidableEq

/-- One event; `none` if it is not possible in this state. -/
def step (s : State) : Ev → Option State
  | .start => some { s with tasks := s.tasks ++ [.idle] }
  | .request i fast =>
    match s.tasks[i]?, s.sem fast with
    | some .idle, some k => some { s with tasks := s.tasks.set i (.waiting fast k) }
    | _, _ => none
  | .grant i =>
    match s.tasks[i]? with
    | some (.waiting fast k) =>
      match s.sems[k]? with
      | some x => if 0 < x.value then
          some { s with tasks := s.tasks.set i (.running fast k), sems := s.add k (· - 1) }
        else none
      | none => none
    | _ => none
  | .leave i =>
    match s.tasks[i]? with
    | some (.running _ k) => some { s with tasks := s.tasks.set i .idle, sems := s.add k (· + 1) }
    | _ => none
  | .cancel i =>
    match s.tasks[i]? with
    | some (.running _ k) => some { s with tasks := s.tasks.set i .ended, sems := s.add k (· + 1) }
    | some .ended => none
    | some _ => some { s with tasks := s.tasks.set i .ended }
    | none => none
  | .reload limit => some (s.reload limit)

/-- A sequence of events. -/
def runs : State → List Ev → Option State
  | s, [] => some s
  | s, e :: rest => (step s e).bind (fun s => runs s rest)

end Verif.Slots
