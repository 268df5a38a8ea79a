import Verif.Model.Config
import Verif.Model.Spread
/-!
# A schedule as it was configured, used for planning and expiry: `daemon/scheduler.py:210-212`, `schedule.py:121-162`

In `Model/Schedule.lean` each tag has a number `keep`.  The configuration is not checked for it: here it is what the file says.
-/
namespace Verif.Accepted
open Verif Verif.Repo Verif.Config

/-- The tags and intervals of a schedule (`schedule.py:63-67`); planning does not look at `keep`. -/
def intervals (o : SchedObj) : Schedule := o.tags.map (fun e => (e.1, ⟨e.2.1, 0⟩))

/-- Planning (`daemon/scheduler.py:210-212`). -/
def plan (env : Spread.Env) (name : String) (o : SchedObj) (relative : Int) (s : Repo) (nowM now1 now2 : Int) :
    Except PyErr (Int × Finset String) :=
  match Spread.spread env name (intervals o) with
  | .error e => .error e
  | .ok spread => (intervals o).next relative spread s nowM now1 now2

/-- `keep = args["keep"]` (`schedule.py:133`) and `len(revisions) < keep` (`schedule.py:134`).  A number with a fractional part fails
only in the slice of line 137; here it fails at once. -/
def keepOf (o : Option Yaml) : Except PyErr Int :=
  match o with
  | none => .error .key
  | some (.int n) => .ok n
  | some (.bool b) => .ok (if b then 1 else 0)
  | some _ => .error .type

/-- `revisions[:-keep]` (builtin), for any integer. -/
def upTo (keep : Int) (l : List Rev) : List Rev :=
  if keep ≤ 0 then l.take (-keep).toNat else l.take (l.length - keep.toNat)

/-- Phase 1 of `Schedule.expire` for one tag (`schedule.py:132-142`). -/
def expireTag (pd : String → Option Int) (now : Int) (tag : String) (interval : Int) (spec : List (String × Yaml)) (s : Repo) :
    Except PyErr Unit × Repo :=
  match findRevisions ⟨s.history, pd⟩ ("tag:" ++ tag) with
  | .error e => (.error e, s)
  | .ok revs =>
    match keepOf (Dict.get? spec "keep") with
    | .error e => (.error e, s)
    | .ok keep =>
      if (revs.length : Int) < keep then (.ok (), s)
      else expireRevs tag (now - keep * interval) (upTo keep revs) s

/-- Phase 1 of `Schedule.expire` (`schedule.py:131-142`). -/
def expirePhase1 (pd : String → Option Int) (now : String → Int) :
    List (String × Int × List (String × Yaml)) → Repo → Except PyErr Unit × Repo
  | [], s => (.ok (), s)
  | (tag, interval, spec) :: rest, s =>
    match expireTag pd (now tag) tag interval spec s with
    | (.error e, s) => (.error e, s)
    | (.ok (), s) => expirePhase1 pd now rest s

/-- `Schedule.expire` (`schedule.py:121-162`). -/
def expire (o : SchedObj) (pd : String → Option Int) (now : String → Int) (s : Repo) : Except PyErr (List Rev) × Repo :=
  match expirePhase1 pd now o.tags s.scan with
  | (.error e, s) => (.error e, s)
  | (.ok (), s) => (.ok (expirePhase3 (expirePhase2 (intervals o) s)).1, (expirePhase3 (expirePhase2 (intervals o) s)).2)

end Verif.Accepted
