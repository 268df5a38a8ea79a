import Verif.Model.Base
/-!
# Ids in log entries: `daemon/scheduler.py:51-68`, `195-207`, `source.py:148-154`, `202-209`, `263-281`, `349-357`, `daemon/api.py:98-103`, `254-310`,
`cli/__init__.py:130-136`, `742-743`

A logger is the dictionary of the values bound to it (`structlog`, library: `bind` returns a copy with values set; an entry has the bound values, and the
defaults given to `init_logging` for keys that are not bound, `logging.py:347-356`).  `generate_taskid` (`utils.py:501-502`) gives a value the environment chooses.
-/
namespace Verif.TaskId
open Verif

/-- A logger: the values bound to it. -/
abbrev Logger := Dict String String

/-- What an entry of a process with these defaults has for a key (`logging.py:347-356`). -/
def field (defaults log : Logger) (key : String) : Option String :=
  match log.get? key with
  | some v => some v
  | none => defaults.get? key

/-- `Repository.__init__` (`repository.py:77`); the directory has the name of the job. -/
def repoLog (name : String) (log : Logger) : Logger := (log.set "subsystem" "repo").set "job_name" name

/-- `CmdLineSource.__init__` (`source.py:278`). -/
def sourceLog (log : Logger) : Logger := log.set "subsystem" "cmdlinesource"

/-- The logger of the repository and the logger of the source of a job. -/
structure Source where
  repo : Logger
  log : Logger

/-- A `Job` as far as ids are concerned (`daemon/scheduler.py:47-48`). -/
structure Job where
  name : String
  taskid : String
  log : Logger
  source : Option Source

/-- `Job.__init__` (`daemon/scheduler.py:52-58`); `log` is the daemon's logger. -/
def Job.new (name : String) (log : Logger) : Job :=
  ⟨name, "", (log.set "job_name" name).set "subsystem" "job", none⟩

/-- `Job.configure` (`daemon/scheduler.py:60-67`). -/
def Job.configure (j : Job) : Job := { j with source := some ⟨repoLog j.name j.log, sourceLog j.log⟩ }

/-- `log.bind(job_name=self.name, sub_taskid=self.taskid)` (`daemon/scheduler.py:200-207`). -/
def bindRun (name id : String) (log : Logger) : Logger := (log.set "job_name" name).set "sub_taskid" id

/-- The same for the loggers of the source (`daemon/scheduler.py:202-207`). -/
def runSource (name id : String) : Option Source → Option Source
  | none => none
  | some s => some ⟨bindRun name id s.repo, bindRun name id s.log⟩

/-- The start of a pass of the job's loop (`daemon/scheduler.py:198-207`) in which `generate_taskid` gives `id`. -/
def Job.pass (j : Job) (id : String) : Job :=
  { name := j.name, taskid := id, log := bindRun j.name id j.log, source := runSource j.name id j.source }

/-- What happens to a job. -/
inductive Ev
  | configure
  | pass (id : String)

/-- One event. -/
def Job.step (j : Job) : Ev → Job
  | .configure => j.configure
  | .pass id => j.pass id

/-- A history. -/
def Job.steps (j : Job) (es : List Ev) : Job := es.foldl Job.step j

/-- `CmdLineSource.taskid` (`source.py:263-267`), where `generate_taskid` gives `fresh`. -/
def taskidOf (log : Logger) (fresh : String) : String :=
  match log.get? "subtaskid" with
  | some v => v
  | none =>
    match log.get? "taskid" with
    | some v => v
    | none => fresh

/-- What the program that is started by a source with this logger (`-t <taskid>`, `source.py:349-357`) writes in every entry: the defaults given to `init_logging` and
the values bound to its logger (`source.py:202-209`). -/
def programField (log : Logger) (fresh key : String) : Option String :=
  field [("taskid", taskidOf log fresh)] [("subsystem", "command")] key

/-- What the peer writes in the entries for a request with this `taskid` header (`daemon/api.py:46`, `98-103`, `301-309`); `fresh` is the peer's own id for the request.
A daemon has no defaults (`daemon/__init__.py:412`). -/
def peerField (daemonLog : Logger) (header fresh key : String) : Option String :=
  field [] ((((daemonLog.set "subsystem" "api").set "job_name" "~").set "sub_taskid" header).set "taskid" fresh) key

/-- The logger of the command `backy` (`cli/__init__.py:743`); its id is a default (`cli/__init__.py:742`). -/
def commandLog : Logger := [("subsystem", "command")]

/-- The header with which `backy` asks the daemon (`cli/__init__.py:135-136`). -/
def commandHeader (log : Logger) (fresh : String) : String :=
  match log.get? "taskid" with
  | some v => v
  | none => fresh

end Verif.TaskId
