import Verif.Model.Repo
import Verif.Model.Base
/-!
# Problem reports: `report.py`, `repository.py:92-103`, `cli/__init__.py:325-348`

The directory `quarantine` with the reports (by file name, the YAML text is the record) and its subdirectory `chunks`.  MD5 is an
arbitrary function.  Ids contain no `/`.
-/
namespace Verif.Report
open Verif Verif.Repo

/-- What a report says (`report.py:29-33`, `80-86`); the stack trace is left out. -/
structure Report where
  uuid : String
  timestamp : Int
  sourceHash : String
  targetHash : String
  offset : Nat
deriving DecidableEq

/-- A mismatch as passed to `ChunkMismatchReport` (`report.py:71-78`) with the new id and time (`report.py:21-27`). -/
structure Mismatch where
  uuid : String
  timestamp : Int
  source : Bytes
  target : Bytes
  offset : Nat

/-- The directory and `Repository.report_ids`. -/
structure Quarantine where
  reports : Dict String Report
  chunks : Dict String Bytes
  ids : List String
deriving DecidableEq

/-- `_store_chunk` (`report.py:98-109`). -/
def storeChunk (chunk : Bytes) (hash : String) (q : Quarantine) : Quarantine :=
  if q.chunks.has hash = true then q else { q with chunks := q.chunks.set hash chunk }

/-- `ProblemReport.store` (`report.py:39-60`) with `to_dict`. -/
def storeReport (md5 : Bytes → String) (m : Mismatch) (q : Quarantine) : Quarantine :=
  if q.reports.has (m.uuid ++ ".report") = true then q
  else { q with reports := q.reports.set (m.uuid ++ ".report") ⟨m.uuid, m.timestamp, md5 m.source, md5 m.target, m.offset⟩ }

/-- `ChunkMismatchReport.store` (`report.py:91-96`). -/
def store (md5 : Bytes → String) (m : Mismatch) (q : Quarantine) : Quarantine :=
  storeReport md5 m (storeChunk m.target (md5 m.target) (storeChunk m.source (md5 m.source) q))

/-- `Repository.add_report` (`repository.py:92-95`). -/
def addReport (md5 : Bytes → String) (m : Mismatch) (q : Quarantine) : Quarantine :=
  { store md5 m q with ids := (store md5 m q).ids ++ [m.uuid] }

/-- `str.removesuffix(".report")` (builtin). -/
def removeSuffix (n : String) : String :=
  if ".report".toList.isSuffixOf n.toList then String.ofList (n.toList.take (n.toList.length - 7)) else n

/-- `Repository.scan_reports` (`repository.py:97-102`). -/
def scanReports (q : Quarantine) : Quarantine :=
  { q with ids := (q.reports.keys.filter (fun n => ".report".toList.isSuffixOf n.toList)).map removeSuffix }

/-- `PurePath.suffix` (pathlib): from the last dot, unless that is the first or last character. -/
def suffixLength (name : List Char) : Nat :=
  match name.reverse.idxOf? '.' with
  | none => 0
  | some i => if i = 0 ∨ i + 1 = name.length then 0 else i + 1

/-- `PurePath.with_suffix` (pathlib): ValueError if the suffix does not start with a dot. -/
def withSuffix (name suffix : String) : Except PyErr String :=
  if (suffix ≠ "" ∧ startsWith suffix "." = false) ∨ suffix = "." then .error .value
  else if name = "" then .error .value
  else .ok (String.ofList (name.toList.take (name.toList.length - suffixLength name.toList)) ++ suffix)

/-- The loop of `reports_delete` (`cli/__init__.py:345-348`). -/
def deleteLoop : List String → Quarantine → Except PyErr Unit × Quarantine
  | [], q => (.ok (), q)
  | id :: rest, q =>
    match withSuffix id "report" with
    | .error e => (.error e, q)
    | .ok path =>
      if q.reports.has path = true then deleteLoop rest { q with reports := q.reports.erase path }
      else (.error .fileNotFound, q)

/-- `reports_delete` (`cli/__init__.py:339-348`); `none` means all. -/
def reportsDelete (reports : Option (List String)) (q : Quarantine) : Except PyErr Unit × Quarantine :=
  deleteLoop (reports.getD q.ids) q

/-- The loop of `reports_show` (`cli/__init__.py:334-337`): the texts printed. -/
def showLoop : List String → Quarantine → Except PyErr (List Report)
  | [], _ => .ok []
  | id :: rest, q =>
    match withSuffix id ".report" with
    | .error e => .error e
    | .ok path =>
      match q.reports.get? path with
      | none => .error .fileNotFound
      | some r => match showLoop rest q with
        | .error e => .error e
        | .ok l => .ok (r :: l)

/-- `reports_show` (`cli/__init__.py:329-337`). -/
def reportsShow (reports : Option (List String)) (q : Quarantine) : Except PyErr (List Report) :=
  showLoop (reports.getD q.ids) q

end Verif.Report
