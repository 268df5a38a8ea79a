import Verif.Model.Reload
import Verif.Model.Backup
/-!
# The directory of a job: `daemon/scheduler.py:49-67`, `197-295`, `source.py:283-326`, `repository.py:80-84`

A host with a daemon and, for every job name, its directory and its RBD image.  The daemon is `Model/Reload.lean`, the program that makes backups
`Model/Backup.lean`; here the `config` file joins them: `Job.configure` writes it, `backy-rbd` reads it.
-/
namespace Verif.JobDir
open Verif Verif.Repo Verif.Rbd Verif.Backup

/-- The content of `config` (`source.py:303-308`): the definition of the schedule and the source. -/
structure Stored where
  schedule : Option String
  source : String
deriving DecidableEq

/-- The directory of a job: whether it exists, its `config` file, its other content, and the image that is backed up. -/
structure Place where
  there : Bool
  config : Option Stored
  sys : Sys

/-- A host: the daemon, if one is running, and the directories by job name. -/
structure Host where
  daemon : Option Reload.Daemon
  places : String → Place

/-- Replace one directory. -/
def Host.set (h : Host) (n : String) (p : Place) : Host :=
  { h with places := fun m => if m = n then p else h.places m }

/-- The directory is deleted with all its content (`rm -r`, or a purge: `daemon/__init__.py:317-329`).  The image and its snapshots are in Ceph. -/
def Place.delete (p : Place) : Place :=
  { there := false, config := none,
    sys := { p.sys with src := ⟨⟨[], [], []⟩, { p.sys.src.w with chunks := [], metas := [], seen := [], force := false }⟩ } }

/-- The `config` file that `Job.configure` has written (`daemon/scheduler.py:60-67`, `source.py:310-326`): if the configuration the job has now is not
the one it had before. -/
def written (old : Option Reload.Job) (j : Reload.Job) : Option Stored :=
  match j.lastConfig with
  | none => none
  | some c => if old.bind Reload.Job.lastConfig = some c then none else some ⟨j.stored, c.source⟩

/-- `repository.connect()` and `source.store()` of `Job.configure` (`daemon/scheduler.py:61-65`): the directory is created if necessary. -/
def Place.store (p : Place) (c : Option Stored) : Place :=
  match c with
  | none => p
  | some c => { p with there := true, config := some c }

/-- All directories when the jobs have changed from `old` to `new`. -/
def storeAll (old new : Dict String Reload.Job) (places : String → Place) (n : String) : Place :=
  match new.get? n with
  | none => places n
  | some j => (places n).store (written (old.get? n) j)

/-- `_read_config` and `_apply_config` of a daemon in state `d` (`daemon/__init__.py:70-173`); the daemon ends if something raises
(`daemon/__init__.py:225-235`, `413-419`). -/
def Host.apply (h : Host) (fails : String → Bool) (entries : Reload.Entries) (d : Reload.Daemon) (cfg : Reload.Config) : Host :=
  { daemon := match Reload.reload fails entries d cfg with
      | (.ok (), d') => some d'
      | (.error _, _) => none
    places := storeAll d.jobs (Reload.reload fails entries d cfg).2.jobs h.places }

/-- `start` (`daemon/__init__.py:185-223`). -/
def Host.start (h : Host) (fails : String → Bool) (entries : Reload.Entries) (cfg : Reload.Config) : Host :=
  match h.daemon with
  | none => h.apply fails entries .init cfg
  | some _ => h

/-- `reload` (`daemon/__init__.py:225-235`). -/
def Host.reload (h : Host) (fails : String → Bool) (entries : Reload.Entries) (cfg : Reload.Config) : Host :=
  match h.daemon with
  | none => h
  | some d => h.apply fails entries d cfg

/-- The daemon has a task for the job (`daemon/scheduler.py:343-348`). -/
def Host.running (h : Host) (n : String) : Bool :=
  match h.daemon with
  | none => false
  | some d =>
    match d.jobs.get? n with
    | none => false
    | some j => j.task.isSome

/-- `repository.connect()` at the beginning of a pass (`daemon/scheduler.py:208`, `repository.py:80-84`).  The history in memory is left out: a run below reads
the directory when it begins. -/
def Host.plan (h : Host) (n : String) : Host :=
  if h.running n then h.set n { h.places n with there := true } else h

/-- What differs between runs: the settings of the source, the `rbd` commands, the new revision. -/
structure Run where
  alwaysFull : Bool
  rbd : Rbd
  uuid : String
  ts : Int
  tags : Finset String

/-- The new revision has been written (`daemon/scheduler.py:258`, `291-292`), and the directory is read again (`daemon/scheduler.py:208`). -/
def Run.created (x : Run) (s : Sys) : Sys :=
  ({ s.connect with src := { s.connect.src with repo := s.connect.src.repo.clean.writeInfo (newRev x.uuid x.ts x.tags) } } : Sys).connect

/-- `_clean` and `run_backup` of a pass (`daemon/scheduler.py:258-259`, `288-295`): whether it succeeds.  In a directory that does not exist nothing can be
written; without `config` the program ends with 1 before it does anything (`source.py:211`, `237-244`, `287-301`). -/
def Host.run (env : Env) (h : Host) (n : String) (x : Run) : Bool × Host :=
  if h.running n && (h.places n).there then
    match (h.places n).config with
    | none => (false, h.set n { h.places n with sys := x.created (h.places n).sys })
    | some _ =>
      ((runBackup env x.alwaysFull x.rbd x.uuid x.ts x.tags (h.places n).sys.connect).1 == 0,
        h.set n { h.places n with sys := (runBackup env x.alwaysFull x.rbd x.uuid x.ts x.tags (h.places n).sys.connect).2 })
  else (false, h)

end Verif.JobDir
