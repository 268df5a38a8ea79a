import Verif.Model.Schedule
import Verif.Model.Sync
/-!
# What the completion callback is told: `daemon/scheduler.py:208`, `239-266`, `306-341`

The metadata of a repository during one run of its job, from the last time the directory is read to the callback.  Other
processes do not change the directory in this time.  Requests to the daemon meanwhile are in `Model/Queried.lean`.  The program of the callback and the YAML encoding are not modelled.
-/
namespace Verif.Callback
open Verif Verif.Repo Verif.Sync

/-- The revisions whose dictionaries `run_callback` passes to the program (`daemon/scheduler.py:312-314`). -/
def told (s : Repo) : List Rev := s.history

/-- A run that leaves the backup to a peer (`daemon/scheduler.py:208`, `243-244`): the directory is read when the run is planned,
then come the pull and the callback.  An exception of the pull ends the run (`none`). -/
def skipped (same : Rev → Rev → Bool) (answers : List (String × Answer)) (s : Repo) : Option Repo :=
  match pull same answers s.scan with
  | (.error _, _) => none
  | (.ok _, s) => some s

/-- A peer as `push_metadata` sees it (`daemon/scheduler.py:369-376`). -/
structure Peer where
  name : String
  token : String
  net : Nat → Net
  srv : Api.Server

/-- `push_metadata` (`daemon/scheduler.py:359-378`), the peers one after the other (see `Model/Sync.lean`); the changes for a
peer are selected when it is its turn, which is the same since a peer's changes concern its own revisions only. -/
def pushAll (pd : String → Option Int) (job : String) (peers : List Peer) (s : Repo) : Repo :=
  peers.foldl (fun s p => (push pd p.name p.token job p.net s p.srv).s) s

/-- A run with a backup of its own, from the end of the backup on (`daemon/scheduler.py:260-266`); `s` is the directory the
program that made the backup has left, with whatever is in the daemon's memory.  `gc` does not change metadata. -/
def own (same : Rev → Rev → Bool) (answers : List (String × Answer)) (sch : Schedule) (pd : String → Option Int)
    (now : String → Int) (job : String) (peers : List Peer) (s : Repo) : Option Repo :=
  match pull same answers s.scan.clean with
  | (.error _, _) => none
  | (.ok _, s) =>
    match sch.expire pd now s with
    | (.error _, _) => none
    | (.ok _, s) => some (pushAll pd job peers s)

end Verif.Callback
