import Verif.Model.Api
/-!
# Exchange of metadata with peers: `daemon/scheduler.py:359-500` and the client in `daemon/api.py:289-394`

The coroutines for several peers are run by `asyncio.gather`; each changes the local repository only in code without
`await`, after its last answer, so they run here one after the other, in the (arbitrary) order in which the answers arrive.
An exception that is not a `ClientError` (such as the total time-out of 30 seconds, `daemon/api.py:310`) ends a pull (`gather`); the coroutines
that are left behind then, whose sessions are closed, are taken to change nothing.  A push with such exceptions is in `Model/PushStop.lean`.  All orders and requests
to the daemon meanwhile are in `Model/Queried.lean`.
-/
namespace Verif.Sync
open Verif Verif.Repo Verif.Api

/-- What `touch_backup` and `get_revs` of one peer give (`daemon/scheduler.py:455-476`): revisions, an HTTP error status, a
connection error, another client error, or another exception: no answer within 30 seconds (`asyncio.TimeoutError`), an answer that is
no JSON (`ValueError`) or lacks a key (`revision.py:81-97`). -/
inductive Answer
  | revs (l : List Rev)
  | status (code : Nat)
  | connection
  | client
  | raised

/-- What `Client.get_revs` makes of a revision (`daemon/api.py:373-376`). -/
def adopt (peer : String) (r : Rev) : Rev := { r with origTags := r.tags, server := peer }

/-- `touch_backup` and `get_revs` (`daemon/api.py:361-377`) on a peer that can be reached; `raise_for_status` is set
(`daemon/api.py:309`). -/
def fetch (pd : String → Option Int) (peer token name : String) (srv : Server) : Answer × Server :=
  if 400 ≤ (handle pd srv ⟨some ("Bearer " ++ token), .touch name⟩).1.code then
    (.status (handle pd srv ⟨some ("Bearer " ++ token), .touch name⟩).1.code,
      (handle pd srv ⟨some ("Bearer " ++ token), .touch name⟩).2)
  else if 400 ≤ (handle pd (handle pd srv ⟨some ("Bearer " ++ token), .touch name⟩).2
      ⟨some ("Bearer " ++ token), .revs name true⟩).1.code then
    (.status (handle pd (handle pd srv ⟨some ("Bearer " ++ token), .touch name⟩).2
        ⟨some ("Bearer " ++ token), .revs name true⟩).1.code,
      (handle pd (handle pd srv ⟨some ("Bearer " ++ token), .touch name⟩).2 ⟨some ("Bearer " ++ token), .revs name true⟩).2)
  else
    (.revs ((handle pd (handle pd srv ⟨some ("Bearer " ++ token), .touch name⟩).2
        ⟨some ("Bearer " ++ token), .revs name true⟩).1.revs.map (adopt peer)),
      (handle pd (handle pd srv ⟨some ("Bearer " ++ token), .touch name⟩).2 ⟨some ("Bearer " ++ token), .revs name true⟩).2)

/-- The revisions to go on with and the error flag; `none` for the early return (`daemon/scheduler.py:455-476`). -/
def Answer.revsAndError : Answer → Option (List Rev × Bool)
  | .revs l => some (l, false)
  | .status c => some ([], !(c = 404 || c = 403))
  | .connection => none
  | .client => some ([], true)
  | .raised => none

/-- The exchange ends with an exception that is not caught (`daemon/scheduler.py:459-476`). -/
def Answer.raises : Answer → Bool
  | .raised => true
  | _ => false

/-- The first loop after the answer (`daemon/scheduler.py:484-486`) over `local_uuids - remote_uuids`; the order of the set does
not matter as the uuids are distinct. -/
def dropUnknown (peer : String) (remote : List Rev) (s : Repo) : Repo :=
  (s.history.filter (fun r => decide (r.server = peer) && !(remote.any (fun x => x.uuid = r.uuid)))).foldl
    (fun s r => s.remove r true) s

/-- The second loop (`daemon/scheduler.py:488-498`).  `ids` is `local_uuids`; `same` compares the dictionaries, in which the tags
are lists whose order is arbitrary, so that it may be false for equal revisions. -/
def writeRemote (same : Rev → Rev → Bool) (ids : List String) : List Rev → Repo → Except PyErr Unit × Repo
  | [], s => (.ok (), s)
  | r :: rest, s =>
    if r.uuid ∈ ids then
      match s.history.find? (fun x => x.uuid = r.uuid) with
      | none => (.error .index, s)
      | some x => if same r x then writeRemote same ids rest s else writeRemote same ids rest (s.writeInfo r)
    else writeRemote same ids rest (s.writeInfo r)

/-- `_pull_metadata_single` (`daemon/scheduler.py:452-500`): an exception or the error flag. -/
def pullSingle (same : Rev → Rev → Bool) (peer : String) (a : Answer) (s : Repo) : Except PyErr Bool × Repo :=
  if a.raises then (.error .unexpected, s)
  else match a.revsAndError with
  | none => (.ok true, s)
  | some (remote, err) =>
    match writeRemote same ((s.history.filter (fun r => decide (r.server = peer))).map Rev.uuid) remote (dropUnknown peer remote s) with
    | (.error e, s) => (.error e, s)
    | (.ok (), s) => (.ok err, s)

/-- `remove_dead_peer` (`daemon/scheduler.py:430-439`). -/
def removeDeadPeers (peers : List String) (s : Repo) : Repo :=
  (s.history.filter (fun r => decide (r.server ≠ "") && !(peers.contains r.server))).foldl (fun s r => s.remove r true) s

/-- The peers' parts of `pull_metadata`, one after the other: the number of errors. -/
def pullPeers (same : Rev → Rev → Bool) : List (String × Answer) → Repo → Except PyErr Nat × Repo
  | [], s => (.ok 0, s)
  | (peer, a) :: rest, s =>
    match pullSingle same peer a s with
    | (.error e, s) => (.error e, s)
    | (.ok b, s) =>
      match pullPeers same rest s with
      | (.error e, s) => (.error e, s)
      | (.ok n, s) => (.ok (n + b.toNat), s)

/-- `pull_metadata` (`daemon/scheduler.py:428-450`). -/
def pull (same : Rev → Rev → Bool) (answers : List (String × Answer)) (s : Repo) : Except PyErr Nat × Repo :=
  pullPeers same answers (removeDeadPeers (answers.map Prod.fst) s)

/-- What happens to one request: it is answered, or the connection breaks before or after the peer has handled it. -/
inductive Net | ok | requestLost | responseLost
deriving DecidableEq

/-- One request over the network: the response, if it arrives, and the peer afterwards. -/
def send (pd : String → Option Int) (net : Net) (q : Request) (srv : Server) : Option Response × Server :=
  match net with
  | .ok => (some (handle pd srv q).1, (handle pd srv q).2)
  | .requestLost => (none, srv)
  | .responseLost => (none, (handle pd srv q).2)

/-- `raise_for_status` (`daemon/api.py:309`). -/
def succeeded : Option Response → Bool
  | none => false
  | some r => r.code < 400

/-- `Client.put_tags` (`daemon/api.py:379-385`). -/
def putRequest (token name : String) (r : Rev) : Request :=
  ⟨some ("Bearer " ++ token), .putTags name r.uuid (.obj (some r.origTags) (some r.tags)) true⟩

/-- Local repository, peer, `purge_required` and `error` of `_push_metadata_single` (`daemon/scheduler.py:382-383`). -/
structure Push where
  s : Repo
  srv : Server
  purge : Bool
  error : Bool

/-- The body of the loop (`daemon/scheduler.py:384-411`). -/
def pushOne (pd : String → Option Int) (token name : String) (net : Net) (r : Rev) (p : Push) : Push :=
  if succeeded (send pd net (putRequest token name r) p.srv).1 then
    if r.tags = ∅ then
      { p with s := p.s.remove r true, srv := (send pd net (putRequest token name r) p.srv).2, purge := true }
    else
      { p with s := p.s.store { r with origTags := r.tags }, srv := (send pd net (putRequest token name r) p.srv).2 }
  else { p with srv := (send pd net (putRequest token name r) p.srv).2, error := true }

/-- The loop (`daemon/scheduler.py:384-411`); `net i` is for the `i`-th request. -/
def pushLoop (pd : String → Option Int) (token name : String) (net : Nat → Net) : Nat → List Rev → Push → Push
  | _, [], p => p
  | i, r :: rest, p => pushLoop pd token name net (i + 1) rest (pushOne pd token name (net i) r p)

/-- The final request (`daemon/scheduler.py:413-426`). -/
def pushPurge (pd : String → Option Int) (token name : String) (net : Net) (p : Push) : Push :=
  if p.purge then
    { p with srv := (send pd net ⟨some ("Bearer " ++ token), .purge name⟩ p.srv).2,
             error := p.error || !succeeded (send pd net ⟨some ("Bearer " ++ token), .purge name⟩ p.srv).1 }
  else p

/-- The changes for one peer (`daemon/scheduler.py:361-364`). -/
def pendingFor (peer : String) (s : Repo) : List Rev :=
  s.cleanHistory.filter (fun r => r.pending && decide (r.server = peer))

/-- `_push_metadata_single` for the pending changes of one peer (`daemon/scheduler.py:379-427`). -/
def push (pd : String → Option Int) (peer token name : String) (net : Nat → Net) (s : Repo) (srv : Server) : Push :=
  pushPurge pd token name (net (pendingFor peer s).length) (pushLoop pd token name net 0 (pendingFor peer s) ⟨s, srv, false, false⟩)

end Verif.Sync
