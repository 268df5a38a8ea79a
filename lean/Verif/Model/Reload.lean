import Verif.Model.Base
/-!
# Configuration of the daemon: `daemon/__init__.py:70-173`, `225-235` and `daemon/scheduler.py:52-67`, `343-357`

The configuration is the parsed YAML file.  A schedule definition is an opaque text, the source part of a job's
configuration too.  `Schedule` objects and tasks are identified by numbers.  Creating the repository directory and writing
its `config` file (`source.py:312-325`) may fail (`fails`).  `filecmp.cmp` in `source.py:324` compares with a temporary file
whose content is still in the buffer (`SafeFile` has no `flush`), so that it never finds equal files; it is left out.
-/
namespace Verif.Reload
open Verif

/-- One entry of `config["jobs"]` (`daemon/__init__.py:123`, `daemon/scheduler.py:60-66`). -/
structure JobCfg where
  schedule : String
  source : String
deriving DecidableEq

/-- The configuration file (`daemon/__init__.py:74-110`). -/
structure Config where
  schedules : Dict String String
  jobs : Dict String JobCfg

/-- A `Job` (`daemon/scheduler.py:34-67`): last configuration, task, the `Schedule` object of its repository, and the schedule
definition in the repository's `config` file (`source.py:305-310`), which commands on the repository read. -/
structure Job where
  lastConfig : Option JobCfg
  task : Option Nat
  schedule : Option Nat
  stored : Option String
deriving DecidableEq

/-- `Job.__init__` (`daemon/scheduler.py:37-50`). -/
def Job.new : Job := ⟨none, none, none, none⟩

/-- `BackyDaemon` (`daemon/__init__.py:32-68`).  `defs` are the definitions of all `Schedule` objects, `cancelled` the tasks
that were cancelled; `nextTask`, `nextObj` generate identities. -/
structure Daemon where
  schedules : Dict String Nat
  defs : Dict Nat String
  jobs : Dict String Job
  dead : List String
  cancelled : List Nat
  nextTask : Nat
  nextObj : Nat

/-- `BackyDaemon.__init__` (`daemon/__init__.py:55-68`). -/
def Daemon.init : Daemon := ⟨[], [], [], [], [], 0, 0⟩

/-- The schedule loop of `_read_config` (`daemon/__init__.py:103-110`); `acc` is `new`. -/
def readSchedules (old : Dict String Nat) : List (String × String) → Dict String Nat → Daemon → Daemon
  | [], acc, d => { d with schedules := acc }
  | (name, text) :: rest, acc, d =>
    match old.get? name with
    | some o => readSchedules old rest (acc.set name o) { d with defs := d.defs.set o text }
    | none =>
      readSchedules old rest (acc.set name d.nextObj)
        { d with defs := d.defs.set d.nextObj text, nextObj := d.nextObj + 1 }

/-- `Job.stop` (`daemon/scheduler.py:350-357`). -/
def stop (d : Daemon) (j : Job) : Daemon × Job :=
  match j.task with
  | none => (d, j)
  | some t => ({ d with cancelled := t :: d.cancelled }, { j with task := none })

/-- `Job.configure` (`daemon/scheduler.py:60-67`). -/
def configure (fails : String → Bool) (d : Daemon) (name : String) (c : JobCfg) (j : Job) : Except PyErr Job :=
  match d.schedules.get? c.schedule with
  | none => .error .key
  | some o =>
    if fails name then .error .os
    else .ok { j with lastConfig := some c, schedule := some o, stored := d.defs.get? o }

/-- `Job.start` (`daemon/scheduler.py:343-348`). -/
def start (d : Daemon) (name : String) (j : Job) : Except PyErr Unit × Daemon :=
  match j.task with
  | some _ => (.error .assertion, { d with jobs := d.jobs.set name j })
  | none => (.ok (), { d with jobs := d.jobs.set name { j with task := some d.nextTask }, nextTask := d.nextTask + 1 })

/-- The body of the first loop of `_apply_config` for a job whose configuration has changed (`daemon/__init__.py:128-132`). -/
def restart (fails : String → Bool) (d : Daemon) (name : String) (c : JobCfg) (j : Job) : Except PyErr Unit × Daemon :=
  match configure fails (stop d j).1 name c (stop d j).2 with
  | .error e => (.error e, { (stop d j).1 with jobs := (stop d j).1.jobs.set name (stop d j).2 })
  | .ok j' => start (stop d j).1 name j'

/-- The first loop of `_apply_config` (`daemon/__init__.py:123-132`). -/
def updateJobs (fails : String → Bool) : List (String × JobCfg) → Daemon → Except PyErr Unit × Daemon
  | [], d => (.ok (), d)
  | (name, c) :: rest, d =>
    let j := (d.jobs.get? name).getD Job.new
    if some c ≠ j.lastConfig then
      match restart fails d name c j with
      | (.error e, d) => (.error e, d)
      | (.ok (), d) => updateJobs fails rest d
    else updateJobs fails rest d

/-- The second loop of `_apply_config` (`daemon/__init__.py:134-138`) over a copy of the jobs. -/
def deleteJobs (cfg : Dict String JobCfg) : List (String × Job) → Daemon → Daemon
  | [], d => d
  | (name, j) :: rest, d =>
    if cfg.has name then deleteJobs cfg rest d
    else deleteJobs cfg rest { (stop d j).1 with jobs := (stop d j).1.jobs.erase name }

/-- Directory entries of the base directory: name, and whether it is a directory and not a symbolic link. -/
abbrev Entries := List (String × Bool)

/-- `dead_repositories` (`daemon/__init__.py:140-154`). -/
def findDead (d : Daemon) (entries : Entries) : List String :=
  (entries.filter (fun e => !d.jobs.has e.1 && e.2)).map Prod.fst

/-- `_read_config` and `_apply_config` (`daemon/__init__.py:70-154`) without the worker slots
(`Model/Slots.lean`). -/
def reload (fails : String → Bool) (entries : Entries) (d : Daemon) (cfg : Config) : Except PyErr Unit × Daemon :=
  match updateJobs fails cfg.jobs (readSchedules d.schedules cfg.schedules [] d) with
  | (.error e, d) => (.error e, d)
  | (.ok (), d) =>
    (.ok (), { deleteJobs cfg.jobs d.jobs d with dead := findDead (deleteJobs cfg.jobs d.jobs d) entries })

end Verif.Reload
