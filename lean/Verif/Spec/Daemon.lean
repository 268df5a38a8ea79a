import Verif.Model.Daemon
/-!
# Specification: retries and skipped backups
-/
namespace Verif.Daemon.Spec
open Verif Verif.Repo Verif.Daemon

/-- Steps whose failure makes a pass fail. -/
def isWork : Act → Bool
  | .connect | .waitUntil _ | .askPeers _ => false
  | _ => true

/-- A pass failed if one of the steps it performed raised. -/
def failed (p : Pass) (acts : List Act) : Bool := acts.any (fun a => isWork a && p.failing a)

/-- The number of consecutive failures at the end. -/
def streak (l : List Bool) : Nat := (l.reverse.takeWhile id).length

/-- One minute. -/
def minute : Int := 60 * 1000000

/-- Nothing keeps the job from planning its next run. -/
def Plans (p : Pass) : Prop := p.connected = true ∧ ∃ x, p.planned = .ok x

/-- The deadline a pass waited for. -/
def deadlineOf (acts : List Act) : Option Int :=
  acts.findSome? (fun a => match a with
    | .waitUntil t => some t
    | _ => none)

/-- A backup was attempted: a worker slot was requested. -/
def Attempted (acts : List Act) : Prop := ∃ fast, Act.acquire fast ∈ acts

/-- The peer says that its newest backup is less than five minutes older than the scheduled time (or newer). -/
def Recent (st : Status) (scheduled : Int) : Prop := ∃ t, st.lastTime = some t ∧ scheduled - t < 5 * minute

/-- The peer's job is stopped, or will not run within five minutes after the scheduled time. -/
def Idle (st : Status) (scheduled : Int) : Prop :=
  st.status = "" ∨ ∃ t, st.nextTime = some t ∧ t - scheduled > 5 * minute

end Verif.Daemon.Spec
