import Verif.Model.Commands
/-!
# Commands without `-r`: `cli/__init__.py:516-660`

What `argparse` makes of the command line for the commands that select revisions.
-/
namespace Verif.Commands
open Verif Verif.Chunked Verif.Backup Verif.Repo

/-- The commands with an option `-r`. -/
inductive Sub
  | revParse
  | log
  | restore
  | distrust
  | verify
  | rm
  | tags (action : String) (autoremove : Bool) (expect : Option String) (text : String) (force : Bool)

/-- The default of `-r` (`cli/__init__.py:525-529` rev-parse, `540-544` log, `570-574` restore, `590-594` distrust, `604-608` verify,
`618-622` rm, `649-653` tags); none: the option is required. -/
def Sub.default : Sub → Option String
  | .revParse => some "all"
  | .log => some "all"
  | .restore => some "latest"
  | .distrust => some "local"
  | .verify => some "trust:distrusted&local"
  | .rm => none
  | .tags .. => some "all"

/-- The command for a specification. -/
def Sub.command : Sub → String → Cmd
  | .revParse, spec => .repo (.revParse spec)
  | .log, spec => .repo (.log spec)
  | .restore, spec => .restore spec
  | .distrust, spec => .repo (.distrust spec)
  | .verify, spec => .verify spec
  | .rm, spec => .repo (.rm spec)
  | .tags action autoremove expect text force, spec => .repo (RCmd.tags action autoremove expect spec text force)

/-- `backy [-n] <command> [-r <spec>]` (`cli/__init__.py:725-758`): a usage error exits with 2 before anything is read. -/
def mainArgs (env : Env) (x : Outside) (dryRun : Bool) (c : Sub) (r : Option String) (s : Sys) : Int × Sys :=
  match (match r with | some spec => some spec | none => c.default) with
  | none => (2, s)
  | some spec => main env x dryRun (c.command spec) s

end Verif.Commands
