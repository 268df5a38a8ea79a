import Verif.Model.Base
/-!
# Log files over time: `logging.py:359-390`, `daemon/__init__.py:412`, `source.py:203-208`

A directory entry is a name for a file (an inode).  `init_logging` opens the log file once, with mode "a": it is created if there is none, and all entries
of the process go to the end of that file, whatever happens to its name (`structlog.PrintLoggerFactory`, builtin files).  An entry is written at once
(simplification: what an entry looks like is `Model/Logging.lean`).
-/
namespace Verif.Rotate
open Verif

/-- The files with their names, and the file that each process (by number) has opened. -/
structure Logs where
  names : Dict String Nat
  data : Nat → List String
  next : Nat
  opened : List Nat

/-- No files and no processes. -/
def Logs.init : Logs := ⟨[], fun _ => [], 0, []⟩

/-- Events. -/
inductive Ev
  /-- a process is started with this log file: `init_logging` (`logging.py:381-382`) by `backy-scheduler` (`daemon/__init__.py:412`) or by a program for a
  backup source (`source.py:203-208`) -/
  | launch (name : String)
  /-- process `i` writes a log entry (`logging.py:108-118`, `structlog.PrintLogger`) -/
  | entry (i : Nat) (text : String)
  /-- somebody renames a file -/
  | rename (a b : String)

/-- `open(logfile, "a")` (`logging.py:382`). -/
def Logs.launch (s : Logs) (name : String) : Logs :=
  match s.names.get? name with
  | some k => { s with opened := s.opened ++ [k] }
  | none => { s with names := s.names.set name s.next, next := s.next + 1, opened := s.opened ++ [s.next] }

/-- An entry is added to the file the process has opened (`logging.py:108-118`). -/
def Logs.add (s : Logs) (i : Nat) (text : String) : Logs :=
  match s.opened[i]? with
  | none => s
  | some k => { s with data := fun m => if m = k then s.data m ++ [text] else s.data m }

/-- `rename(2)` (builtin). -/
def Logs.rename (s : Logs) (a b : String) : Logs :=
  match s.names.get? a with
  | none => s
  | some k => { s with names := (s.names.erase a).set b k }

/-- One event. -/
def step (s : Logs) : Ev → Logs
  | .launch name => s.launch name
  | .entry i text => s.add i text
  | .rename a b => s.rename a b

/-- A history. -/
def steps (s : Logs) (es : List Ev) : Logs := es.foldl step s

end Verif.Rotate
