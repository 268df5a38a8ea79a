import Verif.Model.Daemon
import Verif.Model.Logging
/-!
# Running the completion callback: `daemon/scheduler.py:306-341`

What the program is told is in `Model/Callback.lean`; here is what comes of it.  Cancellation (`daemon/scheduler.py:332-341`) ends
the task and is not modelled.
-/
namespace Verif.CallbackRun
open Verif Verif.Daemon Verif.Logging

/-- What running a program may lead to: it cannot be started (`create_subprocess_exec` raises), or it ends with a code and two
outputs. -/
inductive Ran
  | notStarted
  | ended (code : Int) (stdout stderr : Bytes)

/-- `bytes.decode()` (builtin): UTF-8, strictly; an exception if the bytes are no UTF-8. -/
def decode (b : Bytes) : Except PyErr Text :=
  match String.fromUTF8? ⟨b.toArray⟩ with
  | none => .error .value
  | some s => .ok s.toList

/-- `x.decode() if x else None` (`daemon/scheduler.py:329-330`). -/
def decodeOpt (b : Bytes) : Except PyErr (Option Text) :=
  if b = [] then .ok none
  else
    match decode b with
    | .error e => .error e
    | .ok t => .ok (some t)

/-- The entry `callback-finished` (`daemon/scheduler.py:325-331`), the process id and the values bound to the logger left out. -/
def finished (job : Text) (code : Int) (out err : Option Text) : Event :=
  { method := "info", level := some "info", jobName := job, subsystem := "job".toList, event := "callback-finished".toList,
    stdout := out, stderr := err, rest := [("return_code".toList, (toString code).toList)] }

/-- `run_callback` (`daemon/scheduler.py:306-331`): the entry that is logged at its end, if a callback is configured. -/
def runCallback (configured : Bool) (job : Text) (r : Ran) : Except PyErr (Option Event) :=
  if configured then
    match r with
    | .notStarted => .error .os
    | .ended code out err =>
      match decodeOpt out, decodeOpt err with
      | .error e, _ => .error e
      | .ok _, .error e => .error e
      | .ok o, .ok e => .ok (some (finished job code o e))
  else .ok none

/-- A pass of the job's loop in which this is what the callback does. -/
def withCallback (p : Pass) (configured : Bool) (job : Text) (r : Ran) : Pass :=
  { p with failing := fun a => if a = .callback then !(runCallback configured job r).isOk else p.failing a }

end Verif.CallbackRun
