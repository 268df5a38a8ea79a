import Verif.Model.Backup
import Verif.Model.Schedule
import Verif.Model.Tags
/-!
# The file source: `file/__init__.py`

File names: the metadata of a revision is in `<id>.rev`, its data in `<id>`.  `FRepo.repo.files` is indexed by the name without
`.rev`, `FRepo.data` has all other files of the directory.
-/
namespace Verif.FileSource
open Verif Verif.Repo

/-- A repository of the file source. `taken` is a history variable: what the source file contained when it was copied for
a revision. -/
structure FRepo where
  repo : Repo
  data : Dict String Bytes
  taken : Dict String Bytes := []

/-- What the operating system does in `shutil.copy` (`file/__init__.py:64`): it works, the source cannot be opened, or it fails
after some bytes. -/
inductive Copy
  | ok
  | noSource
  | fails (n : Nat)

/-- `FileSource.backup` (`file/__init__.py:60-69`) of a file with the given content. -/
def backup (source : Bytes) (o : Copy) (duration : Nat) (r : Rev) (s : FRepo) : Except PyErr Bool × FRepo :=
  if s.data.has r.uuid = true then (.error .assertion, s)
  else match o with
    | .noSource => (.error .fileNotFound, s)
    | .fails n => (.error .os, { s with data := s.data.set r.uuid (source.take n) })
    | .ok =>
      (.ok true, { repo := s.repo.store { r with stats := r.stats.set "duration" duration }
                   data := s.data.set r.uuid source
                   taken := s.taken.set r.uuid source })

/-- `FileSource.restore` (`file/__init__.py:71-72`): the content of the target. -/
def restore (r : Rev) (s : FRepo) : Except PyErr Bytes :=
  match s.data.get? r.uuid with
  | none => .error .fileNotFound
  | some c => .ok c

/-- `FileSource.gc` (`file/__init__.py:74-82`): `*.rev` minus the paths `<id>` - without suffix - of the history. -/
def gc (s : FRepo) : FRepo :=
  { s with repo := { s.repo with files := s.repo.files.filter (fun e => (s.repo.history.map Rev.uuid).contains (e.1 ++ ".rev")) } }

/-- `FileSource.verify` (`file/__init__.py:84-85`). -/
def verify (r : Rev) (s : FRepo) : Except PyErr Unit :=
  if s.data.has r.uuid = true then .ok () else .error .assertion

/-- A fresh process (`source.py:219-220`). -/
def FRepo.connect (s : FRepo) : FRepo := { s with repo := s.repo.scan }

/-- `backy-file backup <uuid>` (`source.py:194-244`): the exit code. -/
def mainBackup (source : Bytes) (o : Copy) (duration : Nat) (uuid : String) (s : FRepo) : Nat × FRepo :=
  match Backup.findByUuid s.connect.repo uuid with
  | .error _ => (1, s.connect)
  | .ok r =>
    match backup source o duration r s.connect with
    | (.error _, s) => (1, s)
    | (.ok true, s) => (0, s)
    | (.ok false, s) => (1, s)

/-- `backy-file restore <uuid>` (`source.py:229-234`): the content of the target, if it is successful. -/
def mainRestore (uuid : String) (s : FRepo) : Option Bytes :=
  match Backup.findByUuid s.connect.repo uuid with
  | .error _ => none
  | .ok r => (restore r s.connect).toOption

/-- `backy-file verify <uuid>` (`source.py:229-231`): the exit code. -/
def mainVerify (uuid : String) (s : FRepo) : Nat :=
  match Backup.findByUuid s.connect.repo uuid with
  | .error _ => 1
  | .ok r =>
    match verify r s.connect with
    | .error _ => 1
    | .ok _ => 0

/-- `backy-file gc` (`source.py:235-236`). -/
def mainGc (s : FRepo) : FRepo := gc s.connect

/-- `backy backup` (`cli/__init__.py:255-264`), see `Verif.Backup.runBackup`. -/
def runBackup (source : Bytes) (o : Copy) (duration : Nat) (uuid : String) (ts : Int) (tags : Finset String) (s : FRepo) : Nat × FRepo :=
  mainBackup source o duration uuid { s with repo := s.repo.clean.writeInfo (Backup.newRev uuid ts tags) }

end Verif.FileSource
