import Verif.Model.Schedule
/-!
# The command line: `cli/__init__.py`
-/
namespace Verif.Cli
open Verif Verif.Repo

/-- What a command returns for a repository: an int or something else (mostly None). -/
inductive Ret
  | int (n : Int)
  | other

/-- `if not isinstance(r, int): r = 0` (`cli/__init__.py:100-101`). -/
def Ret.code : Ret → Int
  | .int n => n
  | .other => 0

/-- The loop over the repositories (`cli/__init__.py:95-102`): the exit code so far, which an exception discards, and the state
`σ` that the command changes. -/
def callLoop {α σ : Type} (f : α → σ → Except PyErr Ret × σ) : List α → Int → σ → Except PyErr Int × σ
  | [], ret, s => (.ok ret, s)
  | a :: rest, ret, s =>
    match f a s with
    | (.error e, s) => (.error e, s)
    | (.ok r, s) => callLoop f rest (max ret r.code) s

/-- `Command.__call__` for a command on repositories (`cli/__init__.py:89-125`): the exit code.  `repos` is the result of
`get_repos`. -/
def call {α σ : Type} (f : α → σ → Except PyErr Ret × σ) (repos : Except PyErr (List α)) (s : σ) : Int × σ :=
  match repos with
  | .error _ => (1, s)
  | .ok l =>
    match callLoop f l 0 s with
    | (.error _, s) => (1, s)
    | (.ok n, s) => (n, s)

/-- A connected repository as `check` sees it. -/
structure Checked where
  repo : Repo
  sch : Schedule
  reports : List String

/-- `Command.check` (`cli/__init__.py:350-380`); logging is not modelled. -/
def check (now : Int) (c : Checked) : Except PyErr Nat :=
  match c.repo.slaOverdue c.sch now with
  | .error e => .error e
  | .ok v => .ok (max (if v ≠ 0 then 2 else 0) (if c.reports ≠ [] then 1 else 0))

/-- `check` as called by `__call__` (`cli/__init__.py:97`); it changes nothing. -/
def checkCommand (now : Checked → Int) (c : Checked) (s : Unit) : Except PyErr Ret × Unit :=
  match check (now c) c with
  | .error e => (.error e, s)
  | .ok n => (.ok (.int n), s)

/-- `backy check` (with `--jobs`, on several repositories; `cli/__init__.py:89-125`); the clock may differ for each. -/
def mainCheck (now : Checked → Int) (repos : Except PyErr (List Checked)) : Int := (call (checkCommand now) repos ()).1

end Verif.Cli
