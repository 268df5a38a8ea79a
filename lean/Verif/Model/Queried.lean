import Verif.Model.Callback
/-!
# A push with all its interleavings: `daemon/scheduler.py:358-426`, `daemon/__init__.py:338-343`, `daemon/api.py:199-210`

`push_metadata` talks to all peers at the same time (`asyncio.gather`), and while it waits for answers the daemon serves requests:
the status and the list of revisions read the directory again, so that the revisions in memory are new objects and the push goes on
with the old ones.  Requests that change tags wait for the lock `.backup` or are refused (`Model/Requests.lean`).
-/
namespace Verif.Queried
open Verif Verif.Repo Verif.Sync

/-- `_push_metadata_single` for one peer, between two requests (`daemon/scheduler.py:379-426`): the changes still to be sent, the peer
and the local variables; `i` is the number of the next request, `purged` that the last one has been made. -/
structure Task where
  token : String
  net : Nat → Net
  i : Nat
  revs : List Rev
  srv : Api.Server
  purge : Bool
  error : Bool
  purged : Bool

/-- The repository object of the job, whether its revisions have been read again since the push began, and the peers. -/
structure Run where
  s : Repo
  stale : Bool
  tasks : String → Task

/-- What happens next: a request to the daemon that reads the directory, or the answer to the request to a peer. -/
inductive Event
  | asked
  | answer (peer : String)
deriving DecidableEq

/-- What a change of a revision object makes of the repository: if the object is not in the history any more, only the file is
changed (`revision.py:107-112`, `150-157`: `self in self.repository.history` compares objects). -/
def through (stale : Bool) (s s' : Repo) : Repo := if stale then { s' with history := s.history } else s'

/-- The task of a peer is replaced. -/
def setTask (tasks : String → Task) (peer : String) (t : Task) : String → Task := fun q => if q = peer then t else tasks q

/-- One request for a change (`daemon/scheduler.py:384-411`). -/
def sendOne (pd : String → Option Int) (job peer : String) (r : Rev) (rest : List Rev) (st : Run) (t : Task) : Run :=
  { st with
    s := through st.stale st.s (pushOne pd t.token job (t.net t.i) r ⟨st.s, t.srv, t.purge, t.error⟩).s
    tasks := setTask st.tasks peer { t with
      i := t.i + 1, revs := rest,
      srv := (pushOne pd t.token job (t.net t.i) r ⟨st.s, t.srv, t.purge, t.error⟩).srv
      purge := (pushOne pd t.token job (t.net t.i) r ⟨st.s, t.srv, t.purge, t.error⟩).purge
      error := (pushOne pd t.token job (t.net t.i) r ⟨st.s, t.srv, t.purge, t.error⟩).error } }

/-- The last request (`daemon/scheduler.py:413-426`). -/
def sendPurge (pd : String → Option Int) (job peer : String) (st : Run) (t : Task) : Run :=
  { st with
    tasks := setTask st.tasks peer { t with
      purged := true
      srv := (pushPurge pd t.token job (t.net t.i) ⟨st.s, t.srv, t.purge, t.error⟩).srv
      error := (pushPurge pd t.token job (t.net t.i) ⟨st.s, t.srv, t.purge, t.error⟩).error } }

/-- The next answer of a peer (`daemon/scheduler.py:379-426`). -/
def answer (pd : String → Option Int) (job peer : String) (st : Run) : Run :=
  match (st.tasks peer).revs with
  | r :: rest => sendOne pd job peer r rest st (st.tasks peer)
  | [] => if (st.tasks peer).purge && !(st.tasks peer).purged then sendPurge pd job peer st (st.tasks peer) else st

/-- One event: `job.repository.scan()` (`daemon/__init__.py:342`), `backup.scan()` (`daemon/api.py:207`), or an answer. -/
def event (pd : String → Option Int) (job : String) (st : Run) : Event → Run
  | .asked => { st with s := st.s.scan, stale := true }
  | .answer peer => answer pd job peer st

/-- The grouping by server (`daemon/scheduler.py:360-363`); `peers` gives token, network and state of a peer (`daemon/scheduler.py:369-376`).
Changes for servers that are not configured are not sent: no answers of these come. -/
def start (peers : String → String × (Nat → Net) × Api.Server) (s : Repo) : Run :=
  ⟨s, false, fun peer => ⟨(peers peer).1, (peers peer).2.1, 0, pendingFor peer s, (peers peer).2.2, false, false, false⟩⟩

/-- `push_metadata` (`daemon/scheduler.py:358-377`) as far as it has come after these events. -/
def push (pd : String → Option Int) (job : String) (peers : String → String × (Nat → Net) × Api.Server) (es : List Event)
    (s : Repo) : Run :=
  es.foldl (event pd job) (start peers s)

/-- The peers' parts of `pull_metadata` in the order in which they are done (`daemon/scheduler.py:452-500`, see `Sync.pullPeers`), with
requests that read the directory (`none`) served in between: a part that has its answer is done without interruption. -/
def pullPeers (same : Rev → Rev → Bool) : List (Option (String × Answer)) → Repo → Except PyErr Nat × Repo
  | [], s => (.ok 0, s)
  | none :: rest, s => pullPeers same rest s.scan
  | some (peer, a) :: rest, s =>
    match pullSingle same peer a s with
    | (.error e, s) => (.error e, s)
    | (.ok b, s) =>
      match pullPeers same rest s with
      | (.error e, s) => (.error e, s)
      | (.ok n, s) => (.ok (n + b.toNat), s)

/-- `pull_metadata` (`daemon/scheduler.py:428-450`) with such requests. -/
def pull (same : Rev → Rev → Bool) (es : List (Option (String × Answer))) (s : Repo) : Except PyErr Nat × Repo :=
  pullPeers same es (removeDeadPeers ((es.filterMap id).map Prod.fst) s)

/-- A run that leaves the backup to a peer (`daemon/scheduler.py:208`, `243-244`), as `Callback.skipped`, with such requests. -/
def skipped (same : Rev → Rev → Bool) (es : List (Option (String × Answer))) (s : Repo) : Option Repo :=
  match pull same es s.scan with
  | (.error _, _) => none
  | (.ok _, s) => some s

/-- The coroutine of this peer has returned (`daemon/scheduler.py:426`). -/
def Task.finished (t : Task) : Bool := t.revs.isEmpty && (!t.purge || t.purged)

/-- A run with a backup of its own (`daemon/scheduler.py:260-266`) up to the push, as `Callback.own`; requests that are served before
the push begins make no difference, since the expiry reads the directory itself. -/
def own (same : Rev → Rev → Bool) (answers : List (String × Answer)) (sch : Schedule) (pd : String → Option Int)
    (now : String → Int) (job : String) (peers : String → String × (Nat → Net) × Api.Server) (es : List Event) (s : Repo) : Option Run :=
  match Sync.pull same answers s.scan.clean with
  | (.error _, _) => none
  | (.ok _, s) =>
    match sch.expire pd now s with
    | (.error _, _) => none
    | (.ok _, s) => some (push pd job peers es s)

end Verif.Queried
