import Verif.Model.Logging
/-!
# What a log is to its reader

A log is read line by line.  Every entry has one line that tells what happened; other lines are details that belong to the entry
above them and can be recognised by how they begin.
-/
namespace Verif.Logging

/-- The lines of a text. -/
def lines : Text → List Text
  | [] => [[]]
  | c :: s =>
    if c = '\n' then [] :: lines s
    else
      match lines s with
      | [] => [[c]]
      | l :: ls => (c :: l) :: ls

/-- The beginnings of detail lines. -/
def marks : List Text := [">\t".toList, "out>\t".toList, "err>\t".toList, "stack>\t".toList, "exception>\t".toList]

/-- Lines that are no entries of their own: empty lines, the rule between stack and traceback, and marked lines. -/
def isDetail (l : Text) : Bool := l == [] || l == List.replicate 79 '=' || marks.any (fun m => m.isPrefixOf l)

/-- The lines of a log that are entries. -/
def entries (log : Text) : List Text := (lines log).filter (fun l => !isDetail l)

/-- A text without line breaks and escape characters. -/
def Clean (s : Text) : Prop := ∀ c ∈ s, c ≠ '\n' ∧ c ≠ Char.ofNat 27

/-- An event with a time, whose names, ids and (printed) values are clean.  Nothing is assumed about outputs of programs, messages,
stacks and tracebacks. -/
structure Proper (e : Event) : Prop where
  ts : ∃ d t, e.ts = some (d :: t) ∧ d.isDigit = true ∧ Clean (d :: t)
  taskid : ∀ s, e.taskid = some s → Clean s
  jobName : Clean e.jobName
  subTaskid : ∀ s, e.subTaskid = some s → Clean s
  subsystem : Clean e.subsystem
  event : Clean e.event
  logger : ∀ s, e.logger = some s → Clean s
  rest : ∀ kv ∈ e.rest, Clean kv.1 ∧ Clean kv.2

/-- `s` and blanks up to `n` characters. -/
def padded (n : Nat) (s : Text) : Text := s ++ List.replicate (n - s.length) ' '

/-- A field followed by a blank, if it is there. -/
def field : Option Text → Text
  | none => []
  | some s => s ++ [' ']

/-- The key-value pairs, separated by blanks. -/
def pairs : List (Text × Text) → Text
  | [] => []
  | [(k, v)] => k ++ ['='] ++ v
  | (k, v) :: kv :: l => k ++ ['='] ++ v ++ [' '] ++ pairs (kv :: l)

/-- The line for an event: time, task, level, job, what happened, and the values. -/
def headline (e : Event) : Text :=
  field e.ts ++ field e.taskid ++ field (e.level.map (fun l => (l.toList.take 1).map Char.toUpper))
    ++ (if e.job = [] then [] else padded 20 e.job ++ [' '])
    ++ (padded 35 e.name ++ [' '])
    ++ field (e.logger.map (fun s => ['['] ++ s ++ [']']))
    ++ pairs e.rest

/-- The methods the program uses that show on the console without `--verbose`. -/
def important : List String := ["alert", "critical", "exception", "error", "warn", "warning", "info"]

end Verif.Logging
