import Verif.Model.Tags
/-!
# The HTTP API of the daemon: `daemon/api.py:31-250`

A request is what is left after aiohttp has routed it.  JSON encoding of revisions is the identity here (see
`Model/RevMeta.lean` for the dictionaries).
-/
namespace Verif.Api
open Verif Verif.Repo

/-- A repository known to the daemon (a `Repository` object and its directory): `locked` tells whether another process
holds the `.backup` lock, `purge` whether `.purge_pending` exists, `touched` counts changes of the directory's
modification time, `runNow` is the event `run_immediately` of the job, if any (`daemon/scheduler.py:45`). -/
structure Backup where
  repo : Repo
  locked : Bool
  purge : Bool
  touched : Nat
  runNow : Bool

/-- The parts of `BackyDaemon` and `BackyAPI` that requests use (`daemon/__init__.py:32-68`, `daemon/api.py:38-43`).
`reloads` counts calls of `BackyDaemon.reload` (see `Model/Reload.lean` for its effect). -/
structure Server where
  tokens : Dict String String
  dead : Dict String Backup
  jobs : Dict String Backup
  reloads : Nat

/-- The body of a `put_tags` request (`daemon/api.py:213-219`): the sets under `old_tags` and `new_tags`, if there.
`garbage` is anything on which decoding raises something else than KeyError. -/
inductive Body
  | garbage
  | obj (oldTags newTags : Option (Finset String))

/-- The routes (`daemon/api.py:52-66`).  `status` has the compiled filter (`none` if it does not compile). `other` is
any path or method not listed; aiohttp runs the middlewares for it as well and answers `code` (404 or 405). -/
inductive Route
  | status (filter : Option (String → Bool))
  | reload
  | jobs
  | runJob (name : String)
  | backups
  | purge (name : String)
  | touch (name : String)
  | revs (name : String) (onlyClean : Bool)
  | putTags (name spec : String) (body : Body) (autoremove : Bool)
  | other (code : Nat)

/-- A request: the `Authorization` header, if any, and the route. -/
structure Request where
  auth : Option String
  route : Route

/-- A response: status code and the revisions in the body, if it has any. -/
structure Response where
  code : Nat
  revs : List Rev

/-- `token.startswith("Bearer ")`, `token.removeprefix("Bearer ")` (`daemon/api.py:124-128`). -/
def bearer (h : String) : Option String :=
  if startsWith h "Bearer " then some (String.ofList (h.toList.drop 7)) else none

/-- `require_auth` (`daemon/api.py:122-135`): the client, if the request is accepted. -/
def authenticate (tokens : Dict String String) (q : Request) : Option String :=
  match bearer (q.auth.getD "") with
  | none => none
  | some token =>
    match tokens.get? token with
    | none => none
    | some client => if client = "" then none else some client

/-- Which dictionary a repository was found in. -/
inductive Kind | dead | active

/-- `get_backup` (`daemon/api.py:177-190`): a repository or a status code. -/
def getBackup (s : Server) (name : String) (allowActive : Bool) : Except Nat (Kind × Backup) :=
  match s.dead.get? name with
  | some b => .ok (.dead, b)
  | none =>
    match s.jobs.get? name with
    | some b => if allowActive then .ok (.active, b) else .error 403
    | none => .error 404

/-- The repository object `name` now is `b` (Python reference semantics). -/
def Server.put (s : Server) (k : Kind) (name : String) (b : Backup) : Server :=
  match k with
  | .dead => { s with dead := s.dead.set name b }
  | .active => { s with jobs := s.jobs.set name b }

/-- `run_purge` (`daemon/api.py:192-196`). -/
def runPurge (s : Server) (name : String) : Response × Server :=
  match getBackup s name false with
  | .error c => (⟨c, []⟩, s)
  | .ok (k, b) => (⟨202, []⟩, s.put k name { b with purge := true })

/-- `touch_backup` (`daemon/api.py:198-202`). -/
def touchBackup (s : Server) (name : String) : Response × Server :=
  match getBackup s name true with
  | .error c => (⟨c, []⟩, s)
  | .ok (k, b) => (⟨204, []⟩, s.put k name { b with touched := b.touched + 1 })

/-- `get_revs` (`daemon/api.py:204-212`). -/
def getRevs (s : Server) (name : String) (onlyClean : Bool) : Response × Server :=
  match getBackup s name true with
  | .error c => (⟨c, []⟩, s)
  | .ok (k, b) => (⟨200, b.repo.scan.getHistory onlyClean true⟩, s.put k name { b with repo := b.repo.scan })

/-- The status of the `try` block of `put_tags` (`daemon/api.py:233-250`). -/
def tagsStatus : Except PyErr Bool → Nat
  | .ok true => 204
  | .ok false => 412
  | .error .key => 404
  | .error _ => 500

/-- `put_tags` (`daemon/api.py:214-250`).  Repositories without a job have an empty schedule (`daemon/__init__.py:146`). -/
def putTags (pd : String → Option Int) (s : Server) (name spec : String) (body : Body) (autoremove : Bool) : Response × Server :=
  match body with
  | .garbage => (⟨500, []⟩, s)
  | .obj none _ => (⟨400, []⟩, s)
  | .obj _ none => (⟨400, []⟩, s)
  | .obj (some oldTags) (some newTags) =>
    match getBackup s name false with
    | .error c => (⟨c, []⟩, s)
    | .ok (k, b) =>
      if b.locked then (⟨503, []⟩, s.put k name { b with repo := b.repo.scan })
      else
        (⟨tagsStatus (b.repo.scan.tagsOp [] pd "set" spec newTags (some oldTags) autoremove true).1, []⟩,
          s.put k name { b with repo := (b.repo.scan.tagsOp [] pd "set" spec newTags (some oldTags) autoremove true).2 })

/-- `get_status` (`daemon/api.py:137-143`, `daemon/__init__.py:332-349`): reads the repositories of the selected jobs. -/
def getStatus (s : Server) (filter : Option (String → Bool)) : Response × Server :=
  match filter with
  | none => (⟨500, []⟩, s)
  | some p => (⟨200, []⟩, { s with
      jobs := s.jobs.map (fun e => (e.1, if p e.1 then { e.2 with repo := e.2.repo.scan } else e.2)) })

/-- `run_job` and `get_job` (`daemon/api.py:154-171`). -/
def runJob (s : Server) (name : String) : Response × Server :=
  match s.jobs.get? name with
  | none => (⟨404, []⟩, s)
  | some b => (⟨202, []⟩, { s with jobs := s.jobs.set name { b with runNow := true } })

/-- The routing table (`daemon/api.py:50-67`). -/
def dispatch (pd : String → Option Int) (s : Server) : Route → Response × Server
  | .status f => getStatus s f
  | .reload => (⟨204, []⟩, { s with reloads := s.reloads + 1 })
  | .jobs => (⟨200, []⟩, s)
  | .runJob n => runJob s n
  | .backups => (⟨200, []⟩, s)
  | .purge n => runPurge s n
  | .touch n => touchBackup s n
  | .revs n c => getRevs s n c
  | .putTags n spec body a => putTags pd s n spec body a
  | .other c => (⟨c, []⟩, s)

/-- The application: the middleware `require_auth` around the routes (`daemon/api.py:47-49`, `122-135`). -/
def handle (pd : String → Option Int) (s : Server) (q : Request) : Response × Server :=
  match authenticate s.tokens q with
  | none => (⟨401, []⟩, s)
  | some _ => dispatch pd s q.route

end Verif.Api
