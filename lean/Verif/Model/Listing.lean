import Verif.Model.Cli
import Verif.Model.RevSpec
import Verif.Model.RevMeta
/-!
# What `backy rev-parse` and `backy log` print: `cli/__init__.py:168-229`

Layout, units and time zones of the table are left out: a row holds the values that are shown (markup in tag and server
names, which the library for tables would interpret, is left out too).  Iterating over a Python set gives its elements in an unspecified
order: `iter`.  The date parser is `pd`.
-/
namespace Verif.Listing
open Verif Verif.Repo Verif.Cli

/-- A repository as the commands get it: its directory and its object after `connect` (`cli/__init__.py:127-157`). -/
structure Job where
  dir : String
  repo : Repo

/-- `Revision.info_filename` (`revision.py:96-100`). -/
def infoFilename (dir : String) (r : Rev) : String := dir ++ "/" ++ (r.uuid ++ ".rev")

/-- `rev_parse` (`cli/__init__.py:168-173`): the lines it prints itself (what the lookup prints is in `Model/Said`). -/
def revParse (pd : String → Option Int) (spec : String) (uuid : Bool) (j : Job) : Except PyErr (List String) :=
  match findRevisions ⟨j.repo.history, pd⟩ spec with
  | .error e => .error e
  | .ok revs => .ok (revs.map (fun r => if uuid then r.uuid else infoFilename j.dir r))

/-- `Revision.to_dict` in JSON (`revision.py:114-126`, `utils.py:652-661`): the time is a text (`iso`: `datetime.isoformat`). -/
def jsonRev (iso : Int → String) (iter : Finset String → List String) (s : Repo) (r : Rev) : Dict String Val :=
  (r.toDict (((s.getParent r).map Rev.uuid).getD "") (iter r.tags) (iter r.origTags)).set "timestamp" (.str (iso r.ts))

/-- `log_` with `--json` (`cli/__init__.py:176-178`). -/
def logJson (pd : String → Option Int) (iso : Int → String) (iter : Finset String → List String) (spec : String) (j : Job) :
    Except PyErr (List (Dict String Val)) :=
  match findRevisions ⟨j.repo.history, pd⟩ spec with
  | .error e => .error e
  | .ok revs => .ok (revs.map (jsonRev iso iter j.repo))

/-- How a tag is shown: `+tag`, `-tag` or just `tag` (`cli/__init__.py:201-207`). -/
inductive Mark | added | removed | plain
deriving DecidableEq

/-- A row of the table (`cli/__init__.py:209-221`); `marked`: the server is underlined. -/
structure Row where
  ts : Int
  uuid : String
  size : Nat
  duration : Option Nat
  tags : List (Mark × String)
  trust : String
  server : String
  marked : Bool
deriving DecidableEq

/-- The tags of a row (`cli/__init__.py:201-207`). -/
def tagCell (iter : Finset String → List String) (r : Rev) : List (Mark × String) :=
  if r.pending then
    (iter (r.tags \ r.origTags)).map (fun t => (Mark.added, t)) ++
      ((iter (r.origTags \ r.tags)).map (fun t => (Mark.removed, t)) ++
        (iter (r.origTags ∩ r.tags)).map (fun t => (Mark.plain, t)))
  else (iter r.tags).map (fun t => (Mark.plain, t))

/-- The duration of a row (`cli/__init__.py:195-199`): a dash unless it is a number other than 0. -/
def durationCell (r : Rev) : Option Nat :=
  match r.stats.get? "duration" with
  | none => none
  | some d => if d = 0 then none else some d

/-- A row (`cli/__init__.py:193-221`). -/
def logRow (iter : Finset String → List String) (r : Rev) : Row where
  ts := r.ts
  uuid := r.uuid
  size := (r.stats.get? "bytes_written").getD 0
  duration := durationCell r
  tags := tagCell iter r
  trust := r.trust.value
  server := r.server
  marked := r.pending

/-- The loop of `log_` (`cli/__init__.py:193-221`). -/
def logLoop (iter : Finset String → List String) : List Rev → Nat → List Row → Nat × List Row
  | [], total, rows => (total, rows)
  | r :: rest, total, rows => logLoop iter rest (total + (r.stats.get? "bytes_written").getD 0) (rows ++ [logRow iter r])

/-- A table with the line below it: number of revisions and bytes (`cli/__init__.py:223-229`). -/
structure Listing where
  rows : List Row
  count : Nat
  bytes : Nat
deriving DecidableEq

/-- `log_` without `--json` (`cli/__init__.py:175-229`). -/
def logTable (pd : String → Option Int) (iter : Finset String → List String) (spec : String) (j : Job) : Except PyErr Listing :=
  match findRevisions ⟨j.repo.history, pd⟩ spec with
  | .error e => .error e
  | .ok revs => .ok ⟨(logLoop iter revs 0 []).2, revs.length, (logLoop iter revs 0 []).1⟩

/-- Print what a command says of a repository; the state is what was printed so far. -/
def printing {α : Type} (f : Job → Except PyErr α) (j : Job) (out : List α) : Except PyErr Ret × List α :=
  match f j with
  | .error e => (.error e, out)
  | .ok a => (.ok .other, out ++ [a])

/-- A listing command of the program (`cli/__init__.py:89-125`): exit code and what was printed, one entry for each repository. -/
def mainListing {α : Type} (f : Job → Except PyErr α) (repos : Except PyErr (List Job)) : Int × List α :=
  call (printing f) repos []

end Verif.Listing
