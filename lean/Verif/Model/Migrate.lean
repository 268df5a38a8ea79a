import Verif.Model.Base
import Verif.Model.Dict
/-!
# Migration of the chunk store: `rbd/chunked/store.py:30-71`

The directory of the chunk store.  Old stores keep a chunk file in `<xx>/<yy>/<name>`, new ones in `<xx>/<name>`.  The 256
directories `<xx>` are created at every start and not part of the state.  Files in other places are not looked at by
this code and left out.  Renaming replaces an existing target (rename(2)); removing a directory fails if it is not
empty (rmdir(2)).
-/
namespace Verif.Migrate
open Verif

/-- A chunk store directory: files `<xx>/<name>`, sub directories `<xx>/<yy>`, files `<xx>/<yy>/<name>` and whether the file
`store` exists. -/
structure Tree where
  top : Dict (String × String) Bytes
  subs : List (String × String)
  deep : Dict (String × String × String) Bytes
  marker : Bool
deriving DecidableEq

/-- What a start of backy did to the directory so far; `log` has every state an interruption may leave behind, newest
first. -/
structure Run where
  tree : Tree
  log : List Tree

/-- One more operation (no line of its own). -/
def Run.put (r : Run) (t : Tree) : Run := ⟨t, t :: r.log⟩

/-- The glob pattern `*.chunk.lzo` (`rbd/chunked/store.py:40`, `55`). -/
def isChunk (name : String) : Bool := ".chunk.lzo".toList.isSuffixOf name.toList

/-- `path.rename(new)` for one file (`rbd/chunked/store.py:41-44`). -/
def Tree.rename (t : Tree) (k : String × String × String) : Tree :=
  match t.deep.get? k with
  | none => t
  | some c => { t with top := t.top.set (k.1, k.2.2) c, deep := t.deep.erase k }

/-- `self.path.glob("*/*/*.chunk.lzo")` (`rbd/chunked/store.py:40`). -/
def Tree.oldChunks (t : Tree) : List (String × String × String) := t.deep.keys.filter (fun k => isChunk k.2.2)

/-- The first loop of `convert_to_v2` (`rbd/chunked/store.py:40-44`). -/
def renameAll (ks : List (String × String × String)) (r : Run) : Run := ks.foldl (fun r k => r.put (r.tree.rename k)) r

/-- The directories that match `*/??` (`rbd/chunked/store.py:45-46`). -/
def Tree.oldDirs (t : Tree) : List (String × String) := t.subs.filter (fun d => decide (d.2.length = 2))

/-- Whether a sub directory has a file. -/
def Tree.occupied (t : Tree) (d : String × String) : Bool := t.deep.keys.any (fun k => decide (k.1 = d.1 ∧ k.2.1 = d.2))

/-- `path.rmdir()` (`rbd/chunked/store.py:47`) of an empty directory. -/
def Tree.rmdir (t : Tree) (d : String × String) : Tree := { t with subs := t.subs.filter (fun x => decide (x ≠ d)) }

/-- The second loop of `convert_to_v2` (`rbd/chunked/store.py:45-47`). -/
def rmdirAll : List (String × String) → Run → Except PyErr Unit × Run
  | [], r => (.ok (), r)
  | d :: rest, r => if r.tree.occupied d then (.error .os, r) else rmdirAll rest (r.put (r.tree.rmdir d))

/-- `Store.__init__` (`rbd/chunked/store.py:30-36`) and `convert_to_v2` (`rbd/chunked/store.py:38-51`).  The file `store` is seen
as soon as it is opened. -/
def start (t : Tree) : Except PyErr Unit × Run :=
  if t.marker then (.ok (), ⟨t, [t]⟩)
  else
    match rmdirAll (renameAll t.oldChunks ⟨t, [t]⟩).tree.oldDirs (renameAll t.oldChunks ⟨t, [t]⟩) with
    | (.error e, r) => (.error e, r)
    | (.ok (), r) => (.ok (), r.put { r.tree with marker := true })

/-- `Store.chunk_path` (`rbd/chunked/store.py:68-71`) of a hash without a dot: directory and file name. -/
def chunkPath (hash : String) : String × String := (String.ofList (hash.toList.take 2), hash ++ ".chunk.lzo")

/-- `Store.ls` (`rbd/chunked/store.py:53-56`). -/
def Tree.ls (t : Tree) : List String :=
  (t.top.keys.filter (fun k => isChunk k.2)).map (fun k => String.ofList (k.2.toList.take (k.2.toList.length - 10)))

end Verif.Migrate
