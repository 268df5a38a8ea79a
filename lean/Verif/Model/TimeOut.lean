import Verif.Model.Consul
/-!
# Waiting for a snapshot: `utils.py:545-586` (`TimeOut`), `rbd/__init__.py:441-453`

Times are microseconds.  The clock is not changed while the program waits (`time.time()` is not monotonic in general).
`time.sleep` takes at least as long as asked for.
-/
namespace Verif.TimeOut
open Verif Verif.Consul

/-- `TimeOut` (`utils.py:557-562`); `raise_on_timeout` is set in all uses. -/
structure T where
  cutoff : Int
  interval : Int
  first : Bool
deriving DecidableEq

/-- `TimeOut.__init__` (`utils.py:546-562`) at time `now`. -/
def T.new (now timeout interval : Int) : T := ⟨now + timeout, interval, true⟩

/-- `TimeOut.tick` (`utils.py:564-586`) at time `now`: `none` for TimeOutError, otherwise for how long it sleeps. -/
def T.tick (t : T) (now : Int) : Option (T × Int) :=
  if t.cutoff - now ≤ 0 then none
  else if t.first then some ({ t with first := false }, 0)
  else some (t, t.interval)

/-- What one listing of the snapshots shows (`rbd/__init__.py:446-448`). -/
inductive Look | found | notFound | fails
deriving DecidableEq

/-- What the environment decides: how much longer than asked for the `i`-th sleep takes, how long the `i`-th listing takes, and
what it shows if it starts at a given time. -/
structure Env where
  extra : Nat → Int
  dur : Nat → Int
  look : Nat → Int → Look

/-- The outcome of the loop, when the listings started, and when it ended. -/
structure Result where
  poll : Option Poll
  looks : List Int
  endsAt : Int
deriving DecidableEq

/-- Note a listing that started at this time. -/
def Result.before (r : Result) (t : Int) : Result := { r with looks := t :: r.looks }

/-- How long the `i`-th sleep takes; no sleep takes no time. -/
def slept (e : Env) (i : Nat) (delay : Int) : Int := if delay = 0 then 0 else delay + e.extra i

/-- One round of the loop after `tick` (`rbd/__init__.py:446-448`): `again` is the rest of the loop. -/
def round (e : Env) (i : Nat) (at_ : Int) (again : Int → Result) : Result :=
  match e.look i at_ with
  | .found => ⟨some .seen, [at_], at_ + e.dur i⟩
  | .fails => ⟨some .lsFails, [at_], at_ + e.dur i⟩
  | .notFound => (again (at_ + e.dur i)).before at_

/-- `while timeout.tick(): ...` (`rbd/__init__.py:445-448`); `fuel` bounds the rounds, `none` means that it is used up. -/
def loop (e : Env) : Nat → Nat → T → Int → Result
  | 0, _, _, now => ⟨none, [], now⟩
  | fuel + 1, i, t, now =>
    match t.tick now with
    | none => ⟨some .timeout, [], now⟩
    | some (t', delay) => round e i (now + slept e i delay) (loop e fuel (i + 1) t')

/-- `snapshot_timeout` (`rbd/__init__.py:371`). -/
def snapshotTimeout : Int := 90 * 1000000

/-- The interval (`rbd/__init__.py:443`). -/
def pollInterval : Int := 2 * 1000000

/-- The `try` block up to the outcome (`rbd/__init__.py:441-449`), starting at `now`. -/
def waitSnapshot (e : Env) (fuel : Nat) (now : Int) : Result :=
  loop e fuel 0 (T.new now snapshotTimeout pollInterval) now

end Verif.TimeOut
