import Verif.Model.Base
import Mathlib.Data.Finset.Basic
import Mathlib.Data.Finset.SDiff
import Mathlib.Data.Finset.Filter
/-!
# Revision metadata: `revision.py` and the bookkeeping part of `repository.py`

`Repo` is a `Repository` object together with the metadata files of its directory.

Simplifications: a date is the number of microseconds since `datetime.min`; a statistics value is a natural number;
`set[str]` is a `Finset String`; a revision object is identified by its uuid, so the object in
`history` and the one in `_by_uuid` (always built and removed together, `repository.py:218-220`,
`revision.py:155-157`) are one; `materialize`, `writable`, `readonly` only change permissions and are
left out; YAML serialisation is the identity here (see `Model/RevMeta.lean` for the dictionaries).
-/
set_option linter.dupNamespace false
namespace Verif.Repo
open Verif

/-- `Trust` (`revision.py:20-23`). -/
inductive Trust | trusted | distrusted | verified
deriving DecidableEq, Repr

/-- `Revision` (`revision.py:34-58`). -/
structure Rev where
  uuid : String
  ts : Int
  stats : Dict String Nat
  trust : Trust
  tags : Finset String
  origTags : Finset String
  server : String
deriving DecidableEq

/-- Completeness, `"duration" in rev.stats` (`repository.py:239`). -/
def Rev.clean (r : Rev) : Bool := r.stats.has "duration"

/-- `not rev.server` (`repository.py:240`). -/
def Rev.isLocal (r : Rev) : Bool := r.server = ""

/-- `str.startswith` (builtin). -/
def startsWith (s p : String) : Bool := p.toList.isPrefixOf s.toList

/-- `TAG_MANUAL_PREFIX` (`revision.py:17`) test of `filter_schedule_tags` (`revision.py:26-27`). -/
def isManual (t : String) : Bool := startsWith t "manual:"

/-- `filter_schedule_tags` (`revision.py:26-27`). -/
def scheduleTags (t : Finset String) : Finset String := t.filter (fun x => isManual x = false)

/-- A `*.rev` directory entry: a metadata file or a symbolic link (to some metadata). -/
structure RevFile where
  link : Bool
  rev : Rev
deriving DecidableEq

/-- A `Repository` object: metadata files by stem (`<stem>.rev`) in directory order, and the
in-memory history (`repository.py:58-66`).  `log` is a ghost: the metadata files after every single
file operation, newest first, i.e. what an interruption leaves behind. -/
structure Repo where
  files : Dict String RevFile
  history : List Rev
  log : List (Dict String RevFile) := []

/-- The loop of `Repository.scan` (`repository.py:213-220`). -/
def scanLoop : List (String × RevFile) → List Rev → List Rev
  | [], acc => acc
  | (_, f) :: rest, acc =>
    if f.link then scanLoop rest acc
    else if acc.any (fun x => x.uuid = f.rev.uuid) then scanLoop rest acc
    else scanLoop rest (acc ++ [f.rev])

/-- Insert before the first revision that is not older. -/
def insertRev (r : Rev) : List Rev → List Rev
  | [] => [r]
  | x :: l => if r.ts ≤ x.ts then r :: x :: l else x :: insertRev r l

/-- `history.sort(key=lambda r: r.timestamp)` (`repository.py:222`), a stable sort (builtin; written as an
insertion sort, the result of a stable sort is unique). -/
def sortHist : List Rev → List Rev
  | [] => []
  | r :: l => insertRev r (sortHist l)

/-- `Repository.scan` (`repository.py:210-222`). -/
def Repo.scan (s : Repo) : Repo := { s with history := sortHist (scanLoop s.files []) }

/-- `Repository.get_history` (`repository.py:233-241`). -/
def Repo.getHistory (s : Repo) (clean isLocal : Bool) : List Rev :=
  s.history.filter (fun r => (!clean || r.clean) && (!isLocal || r.isLocal))

/-- `Repository.clean_history` (`repository.py:243-246`). -/
def Repo.cleanHistory (s : Repo) : List Rev := s.getHistory true false

/-- `Repository.local_history` (`repository.py:248-251`). -/
def Repo.localHistory (s : Repo) : List Rev := s.getHistory false true

/-- Mutating the attributes of a revision object which is in the history (Python reference
semantics): all entries with this uuid become `r`. -/
def Repo.assign (s : Repo) (r : Rev) : Repo :=
  { s with history := s.history.map (fun x => if x.uuid = r.uuid then r else x) }

/-- `Revision.write_info` (`revision.py:107-112`); the file is replaced atomically (C43). -/
def Repo.writeInfo (s : Repo) (r : Rev) : Repo := 
  { s with files := s.files.set r.uuid ⟨false, r⟩, log := s.files.set r.uuid ⟨false, r⟩ :: s.log }

/-- Set attributes and write them: the pattern `r.tags = ...; r.write_info()`. -/
def Repo.store (s : Repo) (r : Rev) : Repo := (s.assign r).writeInfo r

/-- Unlink the metadata file and drop the object (`revision.py:150-157`). -/
def Repo.drop (s : Repo) (r : Rev) : Repo :=
  { files := s.files.erase r.uuid, history := s.history.filter (fun x => decide (x.uuid ≠ r.uuid)),
    log := s.files.erase r.uuid :: s.log }

/-- `Revision.remove` (`revision.py:143-157`). -/
def Repo.remove (s : Repo) (r : Rev) (force : Bool := false) : Repo :=
  if force = false ∧ r.server ≠ "" then s.store { r with tags := ∅ } else s.drop r

/-- `Revision.pending_changes` (`revision.py:129-131`). -/
def Rev.pending (r : Rev) : Bool := r.server ≠ "" ∧ r.tags ≠ r.origTags

/-- `Revision.get_parent` (`revision.py:165-176`). -/
def getParentLoop (ignoreTrust : Bool) (r : Rev) : List Rev → Option Rev → Option Rev
  | [], prev => prev
  | x :: rest, prev =>
    if ignoreTrust = false ∧ x.trust = .distrusted then getParentLoop ignoreTrust r rest prev
    else if x.server ≠ r.server then getParentLoop ignoreTrust r rest prev
    else if x.uuid = r.uuid then prev
    else getParentLoop ignoreTrust r rest (some x)

/-- `Revision.get_parent` (`revision.py:165-176`). -/
def Repo.getParent (s : Repo) (r : Rev) (ignoreTrust : Bool := false) : Option Rev :=
  getParentLoop ignoreTrust r s.history none

/-- `Repository._clean` (`repository.py:295-303`) without the lock. -/
def Repo.clean (s : Repo) : Repo :=
  s.localHistory.foldl (fun s r => if r.clean then s else s.remove r) s

/-- `Repository.rm` (`repository.py:305-308`) without the lock. -/
def Repo.rm (s : Repo) (revs : List Rev) : Repo := revs.foldl (fun s r => s.remove r) s

/-- `Repository.distrust` (`repository.py:348-353`) without the lock: the assertion of line 351 stops
at the first remote revision. -/
def Repo.distrust (s : Repo) : List Rev → Except PyErr Unit × Repo
  | [] => (.ok (), s)
  | r :: rest =>
    if r.server ≠ "" then (.error .assertion, s)
    else (s.store { r with trust := .distrusted }).distrust rest

end Verif.Repo
