import Verif.Model.Config
import Verif.Model.Sync
/-!
# The configured peers in a run of a job: `daemon/scheduler.py:107-175`, `428-450`

In `Model/Sync.lean` there is a client for every peer.  The entries of the configuration are not checked when it is read: here they are what the
file says.
-/
namespace Verif.PeersConf
open Verif Verif.Repo Verif.Config Verif.Sync

/-- `[apis[server] for server in apis]` (`daemon/scheduler.py:113`, `446`, `daemon/api.py:267-275`): a client for every peer, or the exception of the
first that cannot be made. -/
def clients (peers : List (String × Yaml)) : List String → Dict String Client → Except PyErr (Dict String Client)
  | [], made => .ok made
  | name :: rest, made =>
    match managerGet peers name made with
    | (.error e, _) => .error e
    | (.ok _, made) => clients peers rest made

/-- `pull_metadata` (`daemon/scheduler.py:428-450`): the clients are made before anything is done; `answer` is what each peer answers. -/
def pullConfigured (same : Rev → Rev → Bool) (peers : List (String × Yaml)) (answer : String → Answer) (s : Repo) : Except PyErr Nat × Repo :=
  match clients peers (peers.map Prod.fst) [] with
  | .error e => (.error e, s)
  | .ok _ => pull same (peers.map (fun e => (e.1, answer e.1))) s

/-- `_wait_for_leader` (`daemon/scheduler.py:107-175`): an exception, such as that of a client that cannot be made, means that the backup is not left to a peer;
`leader` is the outcome otherwise. -/
def waitForLeader (peers : List (String × Yaml)) (leader : Bool) : Bool :=
  match clients peers (peers.map Prod.fst) [] with
  | .error _ => false
  | .ok _ => leader

end Verif.PeersConf
