import Verif.Model.Repo
/-!
# Which worker slots a job uses: `daemon/scheduler.py:246-255`

Durations are whole seconds here (`time.time() - start` is a float).
-/
namespace Verif.Pool
open Verif Verif.Repo

/-- `…stats["duration"] < 600` (`daemon/scheduler.py:249-250`). -/
def short (r : Rev) : Except PyErr Bool :=
  match r.stats.get? "duration" with
  | none => .error .key
  | some d => .ok (decide (d < 600))

/-- The choice of `speed` (`daemon/scheduler.py:246-252`): whether it is `"fast"`.  The list of revisions is the one in memory, read when
the pass began (`daemon/scheduler.py:211`). -/
def fast (repo : Repo) : Except PyErr Bool :=
  match repo.cleanHistory.getLast? with
  | none => .ok false
  | some r => short r

end Verif.Pool
