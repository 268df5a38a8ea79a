import Verif.Model.Callback
/-!
# A push that is broken off: `daemon/scheduler.py:358-427`

An answer that does not arrive within 30 seconds (`daemon/api.py:316`) makes `put_tags` or `run_purge` raise `asyncio.TimeoutError`, which is
not a `ClientError`: it ends the coroutine of that peer, then `gather` and with it the run.  The coroutines of the other peers lose their
sessions (`daemon/scheduler.py:369-371`, `daemon/api.py:279-287`) and end with their next request.  So each coroutine may end at any of its
requests, and if one does, the push raises.
-/
namespace Verif.Sync
open Verif Verif.Repo Verif.Api

/-- The loop of `_push_metadata_single` (`daemon/scheduler.py:384-411`), which request number `stop` breaks off: the peer handles it
(unless `net` loses it), but no answer comes. -/
def pushLoopUntil (pd : String → Option Int) (token name : String) (net : Nat → Net) (stop : Option Nat) :
    Nat → List Rev → Push → Except PyErr Unit × Push
  | _, [], p => (.ok (), p)
  | i, r :: rest, p =>
    if stop = some i then (.error .unexpected, { p with srv := (send pd (net i) (putRequest token name r) p.srv).2 })
    else pushLoopUntil pd token name net stop (i + 1) rest (pushOne pd token name (net i) r p)

/-- The final request (`daemon/scheduler.py:413-426`); it may be the one that gets no answer. -/
def pushPurgeUntil (pd : String → Option Int) (token name : String) (net : Net) (stop : Bool) (p : Push) : Except PyErr Unit × Push :=
  if stop && p.purge then
    (.error .unexpected, { p with srv := (send pd net ⟨some ("Bearer " ++ token), .purge name⟩ p.srv).2 })
  else (.ok (), pushPurge pd token name net p)

/-- `_push_metadata_single` (`daemon/scheduler.py:379-427`). -/
def pushUntil (pd : String → Option Int) (peer token name : String) (net : Nat → Net) (stop : Option Nat) (s : Repo) (srv : Server) :
    Except PyErr Unit × Push :=
  match pushLoopUntil pd token name net stop 0 (pendingFor peer s) ⟨s, srv, false, false⟩ with
  | (.error e, p) => (.error e, p)
  | (.ok (), p) =>
    pushPurgeUntil pd token name (net (pendingFor peer s).length) (decide (stop = some (pendingFor peer s).length)) p

end Verif.Sync

namespace Verif.Callback
open Verif Verif.Repo Verif.Sync

/-- A peer and the request at which its coroutine is broken off. -/
structure Cut where
  peer : Peer
  stop : Option Nat

/-- `push_metadata` (`daemon/scheduler.py:358-378`), the peers one after the other: whether it raises, and the repository. -/
def pushCut (pd : String → Option Int) (job : String) : List Cut → Repo → Bool × Repo
  | [], s => (false, s)
  | c :: rest, s =>
    match pushUntil pd c.peer.name c.peer.token job c.peer.net c.stop s c.peer.srv with
    | (.error _, p) => (true, (pushCut pd job rest p.s).2)
    | (.ok (), p) => pushCut pd job rest p.s

end Verif.Callback
