import Verif.Model.Callback
/-!
# The exchange with all peers in one run: `daemon/scheduler.py:260-264`, `359-378`, `428-450`

Pull, expiry and push, with what becomes of the peers.  `Verif.Callback.own` is the part of it that concerns the repository here.
-/
namespace Verif.Moved
open Verif Verif.Repo Verif.Api Verif.Sync Verif.Callback

/-- A peer after `touch_backup` and `get_revs` (`daemon/scheduler.py:455-457`). -/
def asked (pd : String → Option Int) (job : String) (p : Peer) : Server := (fetch pd p.name p.token job p.srv).2

/-- What the peers answer (`daemon/scheduler.py:440-450`). -/
def answers (pd : String → Option Int) (job : String) (peers : List Peer) : List (String × Answer) :=
  peers.map (fun p => (p.name, (fetch pd p.name p.token job p.srv).1))

/-- `push_metadata` (`daemon/scheduler.py:359-378`): the repository and the peers afterwards. -/
def pushEach (pd : String → Option Int) (job : String) : List Peer → Repo → Repo × List Server
  | [], s => (s, [])
  | p :: rest, s =>
    ((pushEach pd job rest (push pd p.name p.token job p.net s (asked pd job p)).s).1,
      (push pd p.name p.token job p.net s (asked pd job p)).srv :: (pushEach pd job rest (push pd p.name p.token job p.net s (asked pd job p)).s).2)

/-- Pull, expiry and push (`daemon/scheduler.py:260-264`); `none` if an exception ends the run. -/
def exchange (same : Rev → Rev → Bool) (sch : Schedule) (pd : String → Option Int) (now : String → Int) (job : String)
    (peers : List Peer) (s : Repo) : Option (Repo × List Server) :=
  match pull same (answers pd job peers) s.scan.clean with
  | (.error _, _) => none
  | (.ok _, s) =>
    match sch.expire pd now s with
    | (.error _, _) => none
    | (.ok _, s) => some (pushEach pd job peers s)

end Verif.Moved
