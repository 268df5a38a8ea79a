import Verif.Model.Chunked
import Verif.Model.Repo
/-!
# `RBDSource`: opening revisions and garbage collection (`rbd/__init__.py`)

An `RBDSource` object is a `Repository` object plus a `Store` object; the mapping file of a
revision is named by its uuid (`rbd/__init__.py:103-104`).  Locks are modelled in
`Model/Locks.lean`; log output and the `.purge_pending` marker file are left out.
-/
namespace Verif.Rbd
open Verif Verif.Chunked Verif.Repo

/-- `RBDSource` (`rbd/__init__.py:80-94`): the repository and the image store below it. -/
structure Src where
  repo : Repo
  w : World

/-- Mode "rb" (`rbd/__init__.py:109`). -/
def rb : Mode := ⟨true, false, false⟩

/-- Mode "wb" (`rbd/__init__.py:148`). -/
def wb : Mode := ⟨false, true, false⟩

/-- `set(self.open(revision)._mapping.values())` for one revision (`rbd/__init__.py:106-118`, `262`). -/
def mappedHashes (w : World) (uuid : String) : Except PyErr (List Hash) :=
  match File.open w uuid rb with
  | .error e => .error e
  | .ok s => .ok s.f.mapping.values

/-- The loop `rbd/__init__.py:261-262`: the chunks used by the given revisions. -/
def usedChunks (w : World) : List Rev → List Hash → Except PyErr (List Hash)
  | [], acc => .ok acc
  | r :: rest, acc =>
    match mappedHashes w r.uuid with
    | .error e => .error e
    | .ok hs => usedChunks w rest (acc ++ hs)

/-- `RBDSource.gc` (`rbd/__init__.py:255-265`) without the lock. -/
def Src.gc (s : Src) : Except PyErr Unit × Src :=
  match usedChunks s.w s.repo.localHistory [] with
  | .error e => (.error e, s)
  | .ok used => (.ok (), { s with w := s.w.purge used })

end Verif.Rbd
