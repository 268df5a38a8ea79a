import Verif.Model.Backup
import Verif.Model.Tags
import Verif.Model.Cli
/-!
# The commands of `backy`: `cli/__init__.py:89-323` and `source.py:194-244`

The state on disk and in Ceph is a `Sys`; a command starts by reading the directory (`connect`).  Output is in `Model/Listing`.
Locks held by other processes are parameters.
-/
namespace Verif.Commands
open Verif Verif.Chunked Verif.Rbd Verif.Repo Verif.Files Verif.Backup Verif.Cli

/-- `str.split(",")` (builtin). -/
def splitComma : List Char → List (List Char)
  | [] => [[]]
  | c :: l =>
    if c = ',' then [] :: splitComma l
    else
      match splitComma l with
      | [] => [[c]]
      | a :: r => (c :: a) :: r

/-- `set(t.strip() for t in tags.split(","))` (`cli/__init__.py:256`, `299`, `303`). -/
def parseTags (s : String) : Finset String :=
  ((splitComma s.toList).map (fun l => String.ofList (strip l))).toFinset

/-- What a command finds: the schedule in the `config` file (none if it cannot be read), the date parser, the clock, whether others
hold the lock `.backup` when the command needs it (for a backup: at its start, when the sub process starts, at the end) and
`.purge`, what `rbd` does, the id and time of a new revision, the content of the restore target. -/
structure Outside where
  sch : Option Schedule
  pd : String → Option Int
  now : String → Int
  busy : Bool
  busyRun : Bool
  busyEnd : Bool
  busyPurge : Bool
  alwaysFull : Bool
  rbd : Rbd
  uuid : String
  ts : Int
  target : Option Bytes

/-- Commands on the metadata of a repository. -/
inductive RCmd
  | revParse (spec : String)
  | log (spec : String)
  | distrust (spec : String)
  | rm (spec : String)
  | tags (action : String) (autoremove : Bool) (expect : Option String) (spec tags : String) (force : Bool)

/-- A function decorated with `locked(target=".backup", mode="exclusive")` (`repository.py:145-155`, `183-197`). -/
def ifFree {α : Type} (busy : Bool) (s : Repo) (body : Except PyErr α × Repo) : Except PyErr α × Repo :=
  if busy then (.error .locked, s) else body

/-- `int(not success)` (`cli/__init__.py:312`). -/
def tagsRet (r : Except PyErr Bool × Repo) : Except PyErr Ret × Repo :=
  match r.1 with
  | .error e => (.error e, r.2)
  | .ok b => (.ok (.int (if b then 0 else 1)), r.2)

/-- `None` as the result of a command. -/
def noneRet (r : Except PyErr Unit × Repo) : Except PyErr Ret × Repo :=
  match r.1 with
  | .error e => (.error e, r.2)
  | .ok _ => (.ok .other, r.2)

/-- Select revisions, then do something (`repo.find_revisions(revision)`, `cli/__init__.py:169`, `176`, `277`, `287`). -/
def withRevs (pd : String → Option Int) (spec : String) (s : Repo) (f : List Rev → Except PyErr Ret × Repo) :
    Except PyErr Ret × Repo :=
  match findRevisions ⟨s.history, pd⟩ spec with
  | .error e => (.error e, s)
  | .ok revs => f revs

/-- `rev_parse` (`cli/__init__.py:168-173`), `log_` (`175-229`), `distrust` (`276-277`), `rm` (`286-287`), `tags`
(`289-312`). -/
def RCmd.run (x : Outside) (sch : Schedule) : RCmd → Repo → Except PyErr Ret × Repo
  | .revParse spec, s => withRevs x.pd spec s (fun _ => (.ok .other, s))
  | .log spec, s => withRevs x.pd spec s (fun _ => (.ok .other, s))
  | .distrust spec, s => withRevs x.pd spec s (fun revs => noneRet (ifFree x.busy s (s.distrust revs)))
  | .rm spec, s => withRevs x.pd spec s (fun revs => noneRet (ifFree x.busy s (.ok (), s.rm revs)))
  | .tags action autoremove expect spec text force, s =>
    tagsRet (ifFree x.busy s (s.tagsOp sch x.pd action spec (parseTags text) (expect.map parseTags) autoremove force))

/-- `backy-rbd verify <uuid>` (`source.py:194-244`): the exit code. -/
def mainVerify (env : Env) (order : List Hash → List Hash) (uuid : String) (s : Sys) : Nat × Sys :=
  match Backup.findByUuid s.connect.src.repo uuid with
  | .error _ => (1, s.connect)
  | .ok r =>
    match Src.verify env order s.connect.src r with
    | (.error _, t) => (1, { s.connect with src := t })
    | (.ok (), t) => (0, { s.connect with src := t })

/-- `backy-rbd gc` (`source.py:194-244`): the exit code. -/
def mainGc (busyPurge : Bool) (s : Sys) : Nat × Sys :=
  if busyPurge then (1, s.connect)
  else
    match s.connect.src.gc with
    | (.error _, t) => (1, { s.connect with src := t })
    | (.ok (), t) => (0, { s.connect with src := t })

/-- `backy-rbd restore <uuid>` (`source.py:194-244`) to a file: the exit code and the target afterwards. -/
def mainRestore (env : Env) (uuid : String) (target : Option Bytes) (s : Sys) : Nat × Option Bytes :=
  match Backup.findByUuid s.connect.src.repo uuid with
  | .error _ => (1, target)
  | .ok r =>
    match restore env s.connect.src.w r target with
    | (.error _, t) => (1, t)
    | (.ok (), t) => (0, t)

/-- `backy-rbd backup <uuid>` (`source.py:194-244`) when others may hold the lock. -/
def mainBackupLocked (env : Env) (x : Outside) (s : Sys) : Nat × Sys :=
  if x.busyRun then (1, s.connect) else mainBackup env x.alwaysFull x.rbd x.uuid s

/-- `verify` (`cli/__init__.py:279-284`): the revisions one after the other. -/
def verifyLoop (env : Env) (order : List Hash → List Hash) : List Rev → Nat → Sys → Nat × Sys
  | [], ret, s => (ret, s)
  | r :: rest, ret, s =>
    match mainVerify env order r.uuid s with
    | (code, s) => verifyLoop env order rest (max ret code) s

/-- `verify` (`cli/__init__.py:279-284`). -/
def verifyCmd (env : Env) (x : Outside) (spec : String) (s : Sys) : Except PyErr Ret × Sys :=
  match findRevisions ⟨s.src.repo.history, x.pd⟩ spec with
  | .error e => (.error e, s)
  | .ok revs =>
    match verifyLoop env x.rbd.order revs 0 s with
    | (code, s) => (.ok (.int code), s)

/-- `restore` (`cli/__init__.py:266-274`): the result and the target. -/
def restoreCmd (env : Env) (x : Outside) (spec : String) (s : Sys) : Except PyErr Ret × Option Bytes :=
  match find ⟨s.src.repo.history, x.pd⟩ spec with
  | .error e => (.error e, x.target)
  | .ok r =>
    match mainRestore env r.uuid x.target s with
    | (code, t) => (.ok (.int code), t)

/-- `self.source.gc()` at the end of `gc` (`cli/__init__.py:323`): its return code is dropped. -/
def gcEnd (x : Outside) (s : Sys) : Except PyErr Ret × Sys := (.ok .other, (mainGc x.busyPurge s).2)

/-- `repo.expire()` (`cli/__init__.py:320`, `repository.py:310-312`). -/
def expireCmd (x : Outside) (sch : Schedule) (s : Sys) : Except PyErr (List Rev) × Sys :=
  if x.busy then (.error .locked, s)
  else
    match sch.expire x.pd x.now s.src.repo with
    | (r, repo) => (r, { s with src := { s.src with repo } })

/-- `gc` (`cli/__init__.py:314-323`). -/
def gcCmd (x : Outside) (sch : Schedule) (expire loc : Bool) (s : Sys) : Except PyErr Ret × Sys :=
  if expire = true ∧ loc = false then (.error .assertion, s)
  else if expire = true then
    match expireCmd x sch s with
    | (.error e, s) => (.error e, s)
    | (.ok _, s) => gcEnd x s
  else gcEnd x s

/-- `repo._clean()` at the end of a foreground backup (`cli/__init__.py:263-264`), with the list of revisions this process
has in memory.  If it raises, the result is lost. -/
def finalClean (x : Outside) (mem : List Rev) (r : Nat × Sys) : Except PyErr Ret × Sys :=
  if x.busyEnd then (.error .locked, r.2)
  else (.ok (.int r.1), { r.2 with src := { r.2.src with repo := ({ r.2.src.repo with history := mem } : Repo).clean } })

/-- The foreground part of `backup` (`cli/__init__.py:250-264`). -/
def backupCmd (env : Env) (x : Outside) (sch : Schedule) (tags : String) (force : Bool) (s : Sys) : Except PyErr Ret × Sys :=
  if x.busy then (.error .locked, s)
  else
    match (if force then .ok () else validateTags sch (parseTags tags)) with
    | .error e => (.error e, { s with src := { s.src with repo := s.src.repo.clean } })
    | .ok _ =>
      finalClean x s.src.repo.clean.history
        (mainBackupLocked env x
          { s with src := { s.src with repo := s.src.repo.clean.writeInfo (newRev x.uuid x.ts (parseTags tags)) } })

/-- The commands for one repository. -/
inductive Cmd
  | repo (c : RCmd)
  | backup (tags : String) (force : Bool)
  | restore (spec : String)
  | verify (spec : String)
  | gc (expire loc : Bool)
  /-- `init` (`cli/__init__.py:508-514`): there is no such method -/
  | init

/-- A command with a repository that has been read. -/
def Cmd.run (env : Env) (x : Outside) (sch : Schedule) : Cmd → Sys → Except PyErr Ret × Sys
  | .repo c, s =>
    match c.run x sch s.src.repo with
    | (r, m) => (r, { s with src := { s.src with repo := m } })
  | .backup tags force, s => backupCmd env x sch tags force s
  | .restore spec, s => ((restoreCmd env x spec s).1, s)
  | .verify spec, s => verifyCmd env x spec s
  | .gc expire loc, s => gcCmd x sch expire loc s
  | .init, s => (.error .unexpected, s)

/-- The exit code (`cli/__init__.py:100-102`, `107-111`, `119-125`). -/
def exitCode (r : Except PyErr Ret) : Int :=
  match r with
  | .error _ => 1
  | .ok r => max 0 r.code

/-- `backy [-n] <command>` in the directory of a repository (`cli/__init__.py:89-125`, `725-758`).  `dryRun` is the option `-n`;
no line of the code looks at it. -/
def main (env : Env) (x : Outside) (_dryRun : Bool) (c : Cmd) (s : Sys) : Int × Sys :=
  match x.sch with
  | none => (1, s)
  | some sch =>
    match c.run env x sch s.connect with
    | (r, s) => (exitCode r, s)

/-! ## `--jobs` -/

/-- What the daemon says about a job (`daemon/scheduler.py:86-93`). -/
structure JobRef where
  name : String
  path : String
  sch : Schedule

/-- `get_repos` with `--jobs` (`cli/__init__.py:142-157`): `answer` is that of the daemon, `matcher` the compiled regular
expression's `search`. -/
def getRepos (answer : Except PyErr (List JobRef)) (matcher : Except PyErr (String → Bool)) : Except PyErr (List JobRef) :=
  match answer with
  | .error e => .error e
  | .ok jobs =>
    if jobs = [] then .error .assertion
    else
      match matcher with
      | .error e => .error e
      | .ok m => if jobs.filter (fun j => m j.name) = [] then .error .assertion else .ok (jobs.filter (fun j => m j.name))

/-- The directories of the host, by path. -/
abbrev Host := Dict String Sys

/-- A command on the repository of one job (`cli/__init__.py:95-102`, `149-159`).  The daemon has created the directory. -/
def onJob (x : Outside) (c : RCmd) (j : JobRef) (h : Host) : Except PyErr Ret × Host :=
  match h.get? j.path with
  | none => (.error .os, h)
  | some s =>
    match c.run x j.sch s.connect.src.repo with
    | (r, repo) => (r, h.set j.path { s.connect with src := { s.connect.src with repo } })

/-- `backy --jobs <regex> <command>` (`cli/__init__.py:89-125`). -/
def mainJobs (x : Outside) (c : RCmd) (answer : Except PyErr (List JobRef)) (matcher : Except PyErr (String → Bool)) (h : Host) :
    Int × Host :=
  call (onJob x c) (getRepos answer matcher) h

end Verif.Commands
