import Verif.Model.Base
/-!
# Requests to run a job now: `daemon/scheduler.py:99-105`, `140-170`, `197-286`, `343-357`, `daemon/api.py:167-172`, `utils.py:478-488`

The task of one job and its event `run_immediately`, at the granularity of the event loop: between any two `await`s of the
job anything else may happen.  Times are left out: the environment decides when a timer expires.
-/
namespace Verif.Requests

/-- Where the task of a job is.  In `deadline` and `monitoring`, `first` is the result of the awaitable that completed first in
`delay_or_event` (`utils.py:478-481`): `true` for the event, `false` (`None` in Python) for the timer. -/
inductive Phase
  /-- not started, or stopped (`daemon/scheduler.py:343-357`) -/
  | stopped
  /-- an exception of `connect` or `schedule.next` has ended `run_forever` (`daemon/scheduler.py:208-212`) -/
  | crashed
  /-- the start of the loop (`daemon/scheduler.py:198-229`) -/
  | planning
  /-- `_wait_for_deadline` (`daemon/scheduler.py:99-105`, `231`) -/
  | deadline (first : Option Bool)
  /-- a request to the peers in `_wait_for_leader` (`daemon/scheduler.py:111-114`, `167`) -/
  | asking
  /-- waiting for five minutes (`daemon/scheduler.py:162`) -/
  | monitoring (first : Option Bool)
  /-- waiting for a worker slot and the backup (`daemon/scheduler.py:245-266`) -/
  | own
  /-- the backup was made elsewhere (`daemon/scheduler.py:243-244`) -/
  | skipping
deriving DecidableEq

/-- A job: its task and `run_immediately.is_set()`. -/
structure Job where
  phase : Phase
  flag : Bool
deriving DecidableEq

/-- `Job.__init__` (`daemon/scheduler.py:52-58`). -/
def Job.new : Job := ⟨.stopped, false⟩

/-- Events. -/
inductive Ev
  /-- `POST /v1/jobs/<name>/run` (`daemon/api.py:167-172`) -/
  | request
  /-- `Job.start` (`daemon/scheduler.py:343-348`) -/
  | start
  /-- `Job.stop` (`daemon/scheduler.py:350-357`) -/
  | stop
  /-- the next time is computed, or that fails -/
  | plan (ok : Bool)
  /-- the timer of `delay_or_event` expires -/
  | timer
  /-- `event.wait()` of `delay_or_event` completes; possible as soon as the event is set -/
  | wake
  /-- the task continues after `delay_or_event` -/
  | resume
  /-- the peers have answered: a backup exists (`some true`), make one (`some false`), or keep monitoring (`none`) -/
  | peers (decision : Option Bool)
  /-- the pass is over, successfully or not (`daemon/scheduler.py:267-286`) -/
  | done
deriving DecidableEq

/-- What can be seen of a job. -/
inductive Out
  /-- `_wait_for_deadline` is over -/
  | woken (trigger : Bool)
  /-- the job queues for a worker slot to make its own backup -/
  | attempt
  /-- the job leaves the backup to a peer -/
  | skip
deriving DecidableEq

/-- The first awaitable wins (`utils.py:478-481`). -/
def first (old : Option Bool) (new : Bool) : Option Bool :=
  match old with
  | none => some new
  | some b => some b

/-- One event: `none` if it is not possible now. -/
def step (j : Job) : Ev → Option (List Out × Job)
  | .request => some ([], { j with flag := true })
  | .start =>
    match j.phase with
    | .stopped => some ([], { j with phase := .planning })
    | _ => none
  | .stop => some ([], { j with phase := .stopped })
  | .plan ok =>
    match j.phase with
    | .planning => some ([], { j with phase := if ok then .deadline none else .crashed })
    | _ => none
  | .timer =>
    match j.phase with
    | .deadline f => some ([], { j with phase := .deadline (first f false) })
    | .monitoring f => some ([], { j with phase := .monitoring (first f false) })
    | _ => none
  | .wake =>
    match j.phase, j.flag with
    | .deadline f, true => some ([], { j with phase := .deadline (first f true) })
    | .monitoring f, true => some ([], { j with phase := .monitoring (first f true) })
    | _, _ => none
  | .resume =>
    match j.phase with
    | .deadline (some true) => some ([.woken true, .attempt], ⟨.own, false⟩)
    | .deadline (some false) => some ([.woken false], ⟨.asking, false⟩)
    | .monitoring (some true) => some ([.attempt], ⟨.own, false⟩)
    | .monitoring (some false) => some ([], { j with phase := .asking })
    | _ => none
  | .peers d =>
    match j.phase, d with
    | .asking, some true => some ([.skip], { j with phase := .skipping })
    | .asking, some false => some ([.attempt], { j with phase := .own })
    | .asking, none => some ([], { j with phase := .monitoring none })
    | _, _ => none
  | .done =>
    match j.phase with
    | .own => some ([], { j with phase := .planning })
    | .skipping => some ([], { j with phase := .planning })
    | _ => none

/-- A sequence of events: what was seen, and the job afterwards. -/
def runs : Job → List Ev → Option (List Out × Job)
  | j, [] => some ([], j)
  | j, e :: rest =>
    match step j e with
    | none => none
    | some (o, j') =>
      match runs j' rest with
      | none => none
      | some (os, j'') => some (o ++ os, j'')

end Verif.Requests
