import Verif.Model.Schedule
/-!
# The daemon: `daemon/scheduler.py:99-295` and `daemon/__init__.py:70-173`, `285-329`

Times are microseconds.  The event loop, subprocesses and the network are parameters: every `await` may
return anything or raise.  Cancellation of a task (which ends its loop) is an event of `Model/Slots.lean`.
-/
namespace Verif.Daemon
open Verif Verif.Repo

/-! ## The loop of a job -/

/-- What `run_forever` does, as far as it can be seen from outside. -/
inductive Act
  /-- `repository.connect()` (`daemon/scheduler.py:208`) -/
  | connect
  /-- `_wait_for_deadline()` with this `next_time` (`daemon/scheduler.py:224-231`) -/
  | waitUntil (t : Int)
  /-- `_wait_for_leader(next_time)` (`daemon/scheduler.py:240-242`) -/
  | askPeers (t : Int)
  /-- `pull_metadata` (`daemon/scheduler.py:243`, `262`) -/
  | pull
  /-- `run_callback` (`daemon/scheduler.py:244`, `266`) -/
  | callback
  /-- entering `async with self.daemon.backup_semaphores[speed]` (`daemon/scheduler.py:255`) -/
  | acquire (fast : Bool)
  /-- `repository._clean()` before the backup (`daemon/scheduler.py:258`) -/
  | clean
  /-- `repository._clean()` after the backup (`daemon/scheduler.py:261`) -/
  | cleanAfter
  /-- `run_backup(next_tags)` (`daemon/scheduler.py:259`) -/
  | backup (tags : Finset String)
  /-- `repository.scan()` (`daemon/scheduler.py:260`) -/
  | scan
  /-- `run_expiry` (`daemon/scheduler.py:263`) -/
  | expire
  /-- `push_metadata` (`daemon/scheduler.py:264`) -/
  | push
  /-- `run_gc` (`daemon/scheduler.py:265`) -/
  | gc
deriving DecidableEq

/-- The retry state of a `Job` (`daemon/scheduler.py:45-46`); `backoff` in seconds. -/
structure Retry where
  errors : Nat
  backoff : Nat
deriving DecidableEq

/-- Everything the environment decides during one pass of the loop.  `connected`/`planned` are the results of
`repository.connect()` and `schedule.next(...)` (C24, C25), `triggered` whether the event woke the job,
`skip` the result of `_wait_for_leader`, `fast` the choice of lines 246-252, `failing` which of the following steps raise. -/
structure Pass where
  connected : Bool
  planned : Except PyErr (Int × Finset String)
  now : Int
  triggered : Bool
  skip : Bool
  fast : Bool
  failing : Act → Bool

/-- Run steps until one raises (Python): what was started, and whether all succeeded. -/
def runSteps (failing : Act → Bool) : List Act → List Act × Bool
  | [] => ([], true)
  | a :: rest =>
    if failing a then ([a], false)
    else (a :: (runSteps failing rest).1, (runSteps failing rest).2)

/-- The steps of a pass that makes a backup (`daemon/scheduler.py:255-266`). -/
def backupSteps (p : Pass) (tags : Finset String) : List Act :=
  [.acquire p.fast, .clean, .backup tags, .scan, .cleanAfter, .pull, .expire, .push, .gc, .callback]

/-- The `try` block (`daemon/scheduler.py:238-266`).  `_wait_for_leader` does not raise (`daemon/scheduler.py:173-175`). -/
def tryBlock (p : Pass) (t : Int) (tags : Finset String) : List Act × Bool :=
  if p.triggered then runSteps p.failing (backupSteps p tags)
  else if p.skip then ([Act.askPeers t] ++ (runSteps p.failing [.pull, .callback]).1, (runSteps p.failing [.pull, .callback]).2)
  else ([Act.askPeers t] ++ (runSteps p.failing (backupSteps p tags)).1, (runSteps p.failing (backupSteps p tags)).2)

/-- `except Exception` and `else` (`daemon/scheduler.py:267-286`). -/
def Retry.after (j : Retry) (ok : Bool) : Retry :=
  if ok then ⟨0, 0⟩ else ⟨j.errors + 1, min (2 ^ (j.errors + 1)) (6 * 60) * 60⟩

/-- The deadline (`daemon/scheduler.py:210-224`). -/
def Retry.deadline (j : Retry) (p : Pass) (planned : Int) : Int :=
  if j.errors ≠ 0 then p.now + seconds j.backoff else planned

/-- One pass of the loop (`daemon/scheduler.py:197-286`).  `none`: an exception left `run_forever`, the task has
ended. -/
def pass (j : Retry) (p : Pass) : List Act × Option Retry :=
  if p.connected = false then ([.connect], none)
  else
    match p.planned with
    | .error _ => ([.connect], none)
    | .ok (t, tags) =>
      ([.connect, .waitUntil (j.deadline p t)] ++ (tryBlock p (j.deadline p t) tags).1,
        some (j.after (tryBlock p (j.deadline p t) tags).2))

/-- The initial state (`daemon/scheduler.py:194-195`). -/
def Retry.init : Retry := ⟨0, 0⟩

/-- `run_forever` (`daemon/scheduler.py:180-286`) for any number of passes: what each pass did. -/
def runForever : Option Retry → List Pass → List (List Act)
  | _, [] => []
  | none, _ :: _ => []
  | some j, p :: rest => (pass j p).1 :: runForever (pass j p).2 rest

/-! ## Waiting for another server -/

/-- The part of a `StatusDict` (`repository.py:26-40`) that is used; an empty `status` means the job is stopped. -/
structure Status where
  localRevs : Nat
  lastTime : Option Int
  status : String
  nextTime : Option Int
deriving DecidableEq

/-- The answer of `fetch_status` (`daemon/api.py:325-339`): an exception or the matching jobs. -/
abbrev Answer := Except PyErr (List Status)

/-- Selecting the leader (`daemon/scheduler.py:115-135`).  `.error`: the answer is an empty list (`IndexError`). -/
def findLeader : List (String × Answer) → Nat → Option (String × Status) → Except PyErr (Option (String × Status))
  | [], _, leader => .ok leader
  | (_, .error _) :: rest, revs, leader => findLeader rest revs leader
  | (_, .ok []) :: _, _, _ => .error .index
  | (server, .ok (st :: _)) :: rest, revs, leader =>
    if st.localRevs > revs then findLeader rest st.localRevs (some (server, st)) else findLeader rest revs leader

/-- What happens while monitoring: after five minutes or an event, the next answer of the leader. -/
structure Poll where
  event : Bool
  answer : Answer

/-- "there was a backup in the last 5min" (`daemon/scheduler.py:145-148`). -/
def Status.recent (st : Status) (next : Int) : Bool :=
  match st.lastTime with
  | none => false
  | some t => decide (next - t < seconds (5 * 60))

/-- "not currently running or scheduled in the next 5min" (`daemon/scheduler.py:155-157`). -/
def Status.notScheduled (st : Status) (next : Int) : Bool :=
  match st.nextTime with
  | none => false
  | some t => decide (t - next > seconds (5 * 60))

/-- The loop of `_wait_for_leader` (`daemon/scheduler.py:143-170`), and `except Exception` (`173-175`).
`none`: still waiting. -/
def monitor (next : Int) : Status → List Poll → Option Bool
  | st, polls =>
    if st.recent next then some true
    else if st.status = "" then some false
    else if st.notScheduled next then some false
    else
      match polls with
      | [] => none
      | p :: rest =>
        if p.event then some false
        else
          match p.answer with
          | .error _ => some false
          | .ok [] => some false
          | .ok (st :: _) => monitor next st rest

/-- `_wait_for_leader` (`daemon/scheduler.py:107-178`): `revs` is the number of own complete local revisions. -/
def waitForLeader (answers : List (String × Answer)) (revs : Nat) (next : Int) (polls : List Poll) : Option Bool :=
  match findLeader answers revs none with
  | .error _ => some false
  | .ok none => some false
  | .ok (some (_, st)) => monitor next st polls

end Verif.Daemon
