import Verif.Model.Base
/-!
# Log entries: `logging.py:91-356`

Texts are lists of characters.  An event is what the processors before `ConsoleFileRenderer` hand over: the values of the keys that
are treated specially, already converted with `str`, and the others with their `repr`.  The formatting of `_fmt_msg` with
`PartialFormatter` (`logging.py:196-199`) is not modelled: `fmtMsg` is its result.  `test_mode` is false.
-/
namespace Verif.Logging
open Verif

abbrev Text := List Char

/-- The colour codes of `colorama` (`logging.py:25-36`), all of the form `ESC [ n m`. -/
def code (n : Text) : Text := Char.ofNat 27 :: '[' :: n ++ ['m']

/-- The order in which codes are removed (`logging.py:178-189`). -/
inductive Colour | resetAll | bright | dim | red | backred | blue | cyan | magenta | yellow | green
deriving DecidableEq

/-- `colorama.Style`, `Fore` and `Back` (library). -/
def Colour.seq : Colour → Text
  | .resetAll => code ['0']
  | .bright => code ['1']
  | .dim => code ['2']
  | .red => code ['3', '1']
  | .backred => code ['4', '1']
  | .blue => code ['3', '4']
  | .cyan => code ['3', '6']
  | .magenta => code ['3', '5']
  | .yellow => code ['3', '3']
  | .green => code ['3', '2']

/-- The list in `write` (`logging.py:178-189`). -/
def allColours : List Colour := [.resetAll, .bright, .dim, .red, .backred, .blue, .cyan, .magenta, .yellow, .green]

/-- The module constants (`logging.py:22-49`): empty unless stderr is a terminal. -/
def col (tty : Bool) (c : Colour) : Text := if tty then c.seq else []

/-- `line.replace(symb, "")` (builtin), `k` characters of a match still to be dropped. -/
def remove (symb : Text) : Nat → Text → Text
  | _, [] => []
  | k + 1, _ :: s => remove symb k s
  | 0, c :: s => if symb.isPrefixOf (c :: s) then remove symb (symb.length - 1) s else c :: remove symb 0 s

/-- What `write` adds to the log file for `line` (`logging.py:175-191`). -/
def plain (tty : Bool) (line : Text) : Text :=
  if tty then allColours.foldl (fun l c => remove c.seq 0 l) line else line

/-- `str.ljust` (builtin). -/
def ljust (n : Nat) (s : Text) : Text := s ++ List.replicate (n - s.length) ' '

/-- `line.replace("\n", "\n" + p)` (builtin). -/
def afterNewlines (p : Text) : Text → Text
  | [] => []
  | c :: s => if c = '\n' then c :: (p ++ afterNewlines p s) else c :: afterNewlines p s

/-- `prefix` (`logging.py:119-120`). -/
def prefixed (p line : Text) : Text := (p ++ ['>', '\t']) ++ afterNewlines (p ++ ['>', '\t']) line

/-- `exc_style` (`logging.py:252-261`). -/
inductive Style | long | short | banner
deriving DecidableEq

/-- What the renderer is given.  `rest` are the other keys in sorted order with the `repr` of their values; `excMsg` is one of
them, too, in its plain form. -/
structure Event where
  method : String
  fmtMsg : Option Text := none
  ts : Option Text := none
  taskid : Option Text := none
  level : Option String := none
  jobName : Text := ['-']
  subTaskid : Option Text := none
  subsystem : Text := []
  event : Text
  logger : Option Text := none
  output : Option Text := none
  stdout : Option Text := none
  stderr : Option Text := none
  stack : Option Text := none
  traceback : Option Text := none
  style : Style := .long
  excMsg : Option Text := none
  rest : List (Text × Text) := []
deriving DecidableEq

/-- `LEVELS` (`logging.py:129-139`). -/
def levels : List String := ["alert", "critical", "exception", "error", "warn", "warning", "info", "debug", "trace"]

/-- `LEVELS.index` (builtin): the position, or `ValueError`. -/
def levelIndex (l : String) : Except PyErr Nat := if l ∈ levels then .ok (levels.idxOf l) else .error .value

/-- `_level_to_color` (`logging.py:151-164`). -/
def levelColour (tty : Bool) (l : String) : Except PyErr Text :=
  if l ∈ ["alert", "critical", "exception", "error"] then .ok (col tty .red ++ col tty .bright)
  else if l ∈ ["warn", "warning"] then .ok (col tty .yellow ++ col tty .bright)
  else if l ∈ ["info", "debug", "trace"] then .ok (col tty .green ++ col tty .bright)
  else if l = "notset" then .ok (col tty .backred ++ col tty .bright)
  else .error .key

/-- `if x is not None: write(…)`. -/
def opt (f : Text → Text) : Option Text → List Text
  | none => []
  | some s => [f s]

/-- The level (`logging.py:214-218`); level names are not empty. -/
def levelPart (tty : Bool) : Option String → Except PyErr (List Text)
  | none => .ok []
  | some l =>
    match levelColour tty l with
    | .error e => .error e
    | .ok c => .ok [c ++ (l.toList.take 1).map Char.toUpper ++ col tty .resetAll ++ [' ']]

/-- Job name and id of the task (`logging.py:220-225`). -/
def Event.job (e : Event) : Text :=
  match e.subTaskid with
  | none => e.jobName
  | some t => if t = [] then e.jobName else e.jobName ++ (['['] ++ t ++ [']'])

/-- Subsystem and event (`logging.py:227-236`). -/
def Event.name (e : Event) : Text := (if e.subsystem = [] then [] else e.subsystem ++ ['/']) ++ e.event

/-- The traceback that is shown (`logging.py:251-261`); `str + None` raises. -/
def Event.shownTraceback (e : Event) : Except PyErr (Option Text) :=
  match e.style with
  | .long => .ok e.traceback
  | .short => .ok none
  | .banner =>
    match e.excMsg, e.traceback with
    | some m, _ => .ok (some (['\n'] ++ m ++ ['\n']))
    | none, some t => .ok (some (['\n'] ++ t ++ ['\n']))
    | none, none => .error .type

/-- One `key=value` (`logging.py:264-273`). -/
def keyValue (tty : Bool) (kv : Text × Text) : Text :=
  col tty .cyan ++ kv.1 ++ col tty .resetAll ++ ['='] ++ col tty .magenta ++ kv.2 ++ col tty .resetAll

/-- `" ".join` (builtin). -/
def joined : List Text → Text
  | [] => []
  | [a] => a
  | a :: b :: l => a ++ [' '] ++ joined (b :: l)

/-- A block of output (`logging.py:277-287`). -/
def block (tty : Bool) (before : Text) (p : Text) (s : Text) : Text :=
  ['\n'] ++ before ++ prefixed p (['\n'] ++ s ++ ['\n']) ++ col tty .resetAll

/-- The stack and the rule after it (`logging.py:289-292`). -/
def stackPart (tb : Option Text) : Option Text → List Text
  | none => []
  | some s => [['\n'] ++ prefixed "stack".toList s] ++
      (if tb.isSome then [['\n'] ++ List.replicate 79 '=' ++ ['\n']] else [])

/-- Everything `__call__` passes to `write`, in order (`logging.py:201-295`). -/
def pieces (tty : Bool) (e : Event) : Except PyErr (List Text) :=
  match levelPart tty e.level, e.shownTraceback with
  | .error x, _ => .error x
  | .ok _, .error x => .error x
  | .ok lvl, .ok tb =>
    .ok (opt (fun s => col tty .dim ++ s ++ col tty .resetAll ++ [' ']) e.ts
      ++ opt (fun s => col tty .dim ++ s ++ col tty .resetAll ++ [' ']) e.taskid
      ++ lvl
      ++ (if e.job = [] then [] else [ljust 20 e.job ++ [' ']])
      ++ [col tty .bright ++ ljust 35 e.name ++ col tty .resetAll ++ [' ']]
      ++ opt (fun s => ['['] ++ col tty .blue ++ col tty .bright ++ s ++ col tty .resetAll ++ [']', ' ']) e.logger
      ++ [joined (e.rest.map (keyValue tty))]
      ++ opt (block tty [] []) e.fmtMsg
      ++ opt (block tty [] []) e.output
      ++ opt (block tty (col tty .dim) "out".toList) e.stdout
      ++ opt (block tty [] "err".toList) e.stderr
      ++ stackPart tb e.stack
      ++ opt (fun s => ['\n'] ++ prefixed "exception".toList s) tb)

/-- `ConsoleFileRenderer.__call__` (`logging.py:169-302`): what is for the console and what for the file. -/
def render (tty : Bool) (minLevel : Nat) (e : Event) : Except PyErr (Text × Text) :=
  match pieces tty e with
  | .error x => .error x
  | .ok ps =>
    match levelIndex e.method.toLower with
    | .error x => .error x
    | .ok i => .ok (if i > minLevel then [] else ps.flatten, (ps.map (plain tty)).flatten)

/-- The two outputs: the log file, if there is one, and stderr. -/
structure Outputs where
  file : Option Text
  console : Text

/-- Which outputs accept what is written to them. -/
structure Works where
  file : Bool := true
  console : Bool := true

/-- `PrintLogger.msg` for the log file (library): the line and a newline.  Skipped for an empty line (`logging.py:111-113`). -/
def Outputs.toFile (o : Outputs) (w : Works) (line : Text) : Except PyErr Outputs :=
  match o.file with
  | none => .ok o
  | some f => if line = [] then .ok o else if w.file then .ok { o with file := some (f ++ line ++ ['\n']) } else .error .os

/-- `PrintLogger.msg` for stderr (library). -/
def Outputs.toConsole (o : Outputs) (w : Works) (line : Text) : Except PyErr Outputs :=
  if line = [] then .ok o else if w.console then .ok { o with console := o.console ++ line ++ ['\n'] } else .error .os

/-- `MultiOptimisticLogger.msg` (`logging.py:109-113`) with the loggers of `init_logging` (`logging.py:378-383`).  The docstring
says that errors are ignored; the code does not. -/
def msg (w : Works) (o : Outputs) (m : Text × Text) : Except PyErr Outputs :=
  match o.toFile w m.2 with
  | .error x => .error x
  | .ok o => o.toConsole w m.1

/-- `min_level` (`logging.py:364-366`). -/
def minLevel (verbose : Bool) : Nat := levels.idxOf (if verbose then "trace" else "info")

/-- One call of a logging method: the renderer, then the loggers. -/
def logEvent (tty verbose : Bool) (w : Works) (o : Outputs) (e : Event) : Except PyErr Outputs :=
  match render tty (minLevel verbose) e with
  | .error x => .error x
  | .ok m => msg w o m

/-- Any number of calls. -/
def logAll (tty verbose : Bool) (w : Works) : Outputs → List Event → Except PyErr Outputs
  | o, [] => .ok o
  | o, e :: es =>
    match logEvent tty verbose w o e with
    | .error x => .error x
    | .ok o => logAll tty verbose w o es

end Verif.Logging
