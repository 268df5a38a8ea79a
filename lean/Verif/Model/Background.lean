import Verif.Model.Api
import Verif.Model.Commands
/-!
# `backy backup --bg` and `backy --jobs … backup`: `cli/__init__.py:231-249`

The daemon is asked to run jobs.  A job name is used as a part of a URL (`daemon/api.py:349-351`); names for which this gives another
URL (with `/`, `?`, `#` …) are left out.  The daemon may have changed since it listed its jobs (`answer` is arbitrary), but does not change between
two requests.
-/
namespace Verif.Background
open Verif Verif.Repo Verif.Api Verif.Cli Verif.Commands

/-- The way to the daemon: the token of the client (`cli/__init__.py:131-136`), whether the n-th request gets lost (no connection,
time-out). -/
structure Link where
  token : String
  lost : Nat → Bool

/-- `APIClient.run_job` (`daemon/api.py:349-351`) with `raise_for_status=True` (`daemon/api.py:306-313`): the status code of the
answer if there is one. -/
def ask (pd : String → Option Int) (l : Link) (n : Nat) (name : String) (s : Server) : Option Nat × Server :=
  if l.lost n then (none, s)
  else
    match handle pd s ⟨some ("Bearer " ++ l.token), .runJob name⟩ with
    | (r, s) => (some r.code, s)

/-- The loop (`cli/__init__.py:237-249`): 404 ends it with 1, any other code from 400 on and a lost request raise. -/
def bgLoop (pd : String → Option Int) (l : Link) : Nat → List String → Server → Except PyErr Ret × Server
  | _, [], s => (.ok (.int 0), s)
  | n, name :: rest, s =>
    match ask pd l n name s with
    | (none, s) => (.error .client, s)
    | (some code, s) =>
      if code = 404 then (.ok (.int 1), s)
      else if code ≥ 400 then (.error .client, s)
      else bgLoop pd l (n + 1) rest s

/-- `path.name` (builtin pathlib; `repository.py:206-208`): the part after the last slash. -/
def pathName (path : String) : String :=
  String.ofList ((path.toList.reverse.takeWhile (fun c => decide (c ≠ '/'))).reverse)

/-- `backup` for the repositories of `get_repos` (`cli/__init__.py:231-249`), for more than one repository or with `--bg`.  `tags` and
`force` are not used. -/
def backupBg (pd : String → Option Int) (l : Link) (repos : List JobRef) (_tags : String) (_force : Bool) (s : Server) :
    Except PyErr Ret × Server :=
  bgLoop pd l 0 (repos.map (fun j => pathName j.path)) s

/-- `backy --jobs <regex> backup --bg` (`cli/__init__.py:103-125`): the exit code and the daemon. -/
def mainBg (pd : String → Option Int) (l : Link) (answer : Except PyErr (List JobRef)) (matcher : Except PyErr (String → Bool))
    (tags : String) (force : Bool) (s : Server) : Int × Server :=
  match getRepos answer matcher with
  | .error _ => (1, s)
  | .ok repos =>
    match backupBg pd l repos tags force s with
    | (r, s) => (match r with | .error _ => 1 | .ok r => r.code, s)

end Verif.Background
