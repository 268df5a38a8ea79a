import Verif.Model.JobDir
import Verif.Spec.History
import Verif.Proofs.RepoScan
/-!
# Specification: what may happen to the directories of jobs
-/
namespace Verif.JobDir
open Verif Verif.Repo Verif.Rbd Verif.Backup

/-- Events. -/
inductive Ev
  /-- the daemon is started -/
  | start (fails : String → Bool) (entries : Reload.Entries) (cfg : Reload.Config)
  /-- the daemon reads its configuration again -/
  | reload (fails : String → Bool) (entries : Reload.Entries) (cfg : Reload.Config)
  /-- the daemon ends or is killed -/
  | ends
  /-- a pass of a job begins -/
  | plan (n : String)
  /-- a pass of a job makes a backup, or tries to -/
  | run (n : String) (x : Run)
  /-- anything else that happens to a directory with a `config` file: commands, expiry (`Spec/History.lean`) -/
  | other (n : String) (s : Sys)
  /-- the guest changes an image -/
  | guest (n : String) (image : Bytes)
  /-- metadata of another server's revision arrives -/
  | remote (n : String) (r : Rev)
  /-- a directory is deleted -/
  | delete (n : String)

/-- What an event does. -/
def step (env : Env) (h : Host) : Ev → Host
  | .start fails entries cfg => h.start fails entries cfg
  | .reload fails entries cfg => h.reload fails entries cfg
  | .ends => { h with daemon := none }
  | .plan n => h.plan n
  | .run n x => (h.run env n x).2
  | .other n s => h.set n { h.places n with sys := s }
  | .guest n image => h.set n { h.places n with sys := { (h.places n).sys with ceph := { (h.places n).sys.ceph with image } } }
  | .remote n r =>
    h.set n { h.places n with sys := { (h.places n).sys with src := { (h.places n).sys.src with repo := (h.places n).sys.src.repo.writeInfo r } } }
  | .delete n => h.set n (h.places n).delete

/-- Which events are possible: names in a configuration are unique, the ids of new revisions are new, `rbd` exports what the image contains. -/
def Possible (env : Env) (h : Host) : Ev → Prop
  | .start _ _ cfg => cfg.jobs.keys.Nodup
  | .reload _ _ cfg => cfg.jobs.keys.Nodup
  | .run n x => Fresh (h.places n).sys x.uuid ∧ Faithful x.rbd (h.places n).sys.ceph.snaps x.uuid (h.places n).sys.ceph.image
  | .other n s => (h.places n).config ≠ none ∧ Step env (h.places n).sys s
  | .remote _ r => r.server ≠ ""
  | _ => True

/-- A sequence of events. -/
def steps (env : Env) (h : Host) (es : List Ev) : Host := es.foldl (step env) h

/-- A possible sequence of events. -/
def Happens (env : Env) : Host → List Ev → Prop
  | _, [] => True
  | h, e :: es => Possible env h e ∧ Happens env (step env h e) es

/-- A host on which backy is new: there are no directories and the daemon is not running. -/
structure Bare (h : Host) : Prop where
  daemon : h.daemon = none
  dirs : ∀ n, (h.places n).there = false ∧ (h.places n).config = none
  sys : ∀ n, Initial (h.places n).sys

/-- The event does not configure the job `n`, which is configured as `c`: the daemon is not started again and finds the same configuration of the job. -/
def Same (n : String) (c : Reload.JobCfg) : Ev → Prop
  | .start _ _ _ => False
  | .reload _ _ cfg => cfg.jobs.get? n = some c
  | _ => True

/-- The daemon runs and the job is configured as `c`. -/
def Has (h : Host) (n : String) (c : Reload.JobCfg) : Prop :=
  ∃ d j, h.daemon = some d ∧ d.jobs.get? n = some j ∧ j.lastConfig = some c ∧ j.task ≠ none

/-- The directory contains a complete revision made here. -/
def HasBackup (h : Host) (n : String) : Prop :=
  ∃ u r, onDisk (h.places n).sys.src.repo.files u = some r ∧ r.server = "" ∧ r.clean = true

end Verif.JobDir
