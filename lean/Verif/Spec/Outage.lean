import Verif.Spec.Timeline
import Verif.Spec.Daemon
/-!
# Specification: the runs of a job around an outage

`late` bounds the time from the deadline of a run to its start (waiting for peers, for a worker slot), `long` the time from the start
of a run to the planning of the next one.  Runs may fail in any way; what they do to the directory is not restricted.
-/
namespace Verif.Outage
open Verif Verif.Repo Verif.Daemon Verif.Daemon.Spec Verif.Timeline

/-- A pass of `run_forever` (`daemon/scheduler.py:197-286`) and the time at which its backup (or its attempt) starts. -/
structure Run where
  pass : Daemon.Pass
  start : Int

/-- The runs of a job, oldest first: nothing keeps the job from planning, every run starts at most `late` after the deadline it waited
for and the next one is planned at most `long` after that. -/
structure Timely (late long : Int) (rs : List Run) : Prop where
  plans : ∀ r ∈ rs, Plans r.pass
  late : List.Forall₂ (fun r acts => ∀ d ∈ deadlineOf acts, r.start ≤ d + late) rs (runForever (some .init) (rs.map Run.pass))
  long : rs.IsChain (fun r r' => r'.pass.now ≤ r.start + long)

/-- The run `q` has planned with the schedule and the directory `before`, has made its own backup of the tags planned, and has
expired revisions; `t` are its clock readings. -/
structure Succeeds (q : Run) (t : Timeline.Pass) (sch : Schedule) (spread : Int) (tags : Finset String)
    (before mid : Dict String RevFile) : Prop where
  named : Named before
  era : ∀ e ∈ sch, e.2.interval ≤ t.plan
  real : t.plan < seconds (2 ^ 50)
  clock : t.plan ≤ t.nowM ∧ t.nowM ≤ t.now1 ∧ t.now1 ≤ t.now2 ∧ t.now2 ≤ t.now1 + seconds (5 * 60) ∧ t.now2 ≤ q.pass.now ∧
    q.pass.now ≤ q.start ∧ t.start = q.start
  planned : q.pass.planned = t.planned sch spread before ∧ ∃ time, q.pass.planned = .ok (time, tags)
  fresh : onDisk before t.uuid = none
  backs : Backs before mid t.uuid t.start tags

end Verif.Outage
