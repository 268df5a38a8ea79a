import Verif.Model.Base
/-!
# Age-based purge and pending purges: `daemon/__init__.py:285-331` and `utils.py:447-475`

Times are integers (seconds).  While a candidate is examined, nothing else changes its tree.
-/
namespace Verif.Purge
open Verif

/-- A directory entry with its own modification time.  A symbolic link has the tree it points to, if any.  (Links form no
cycles here; the modelled code never follows one.) -/
inductive Node
  | file (mtime : Int)
  | link (mtime : Int) (target : Option Node)
  | dir (mtime : Int) (entries : List (String × Node))

/-- `os.stat(path, follow_symlinks=False).st_mtime` (builtin). -/
def Node.mtime : Node → Int
  | .file t => t
  | .link t _ => t
  | .dir t _ => t

/-- `os.path.islink` (builtin). -/
def Node.islink : Node → Bool
  | .link _ _ => true
  | _ => false

/-- `os.path.isdir` (builtin): follows links. -/
def Node.isdir : Node → Bool
  | .file _ => false
  | .link _ none => false
  | .link _ (some n) => n.isdir
  | .dir _ _ => true

/-- `os.scandir` (builtin): follows links. -/
def Node.scandir : Node → List (String × Node)
  | .file _ => []
  | .link _ none => []
  | .link _ (some n) => n.scandir
  | .dir _ es => es

/-- `is_dir_no_symlink` (`utils.py:447-448`). -/
def Node.isDirNoSymlink (n : Node) : Bool := n.isdir && !n.islink

theorem Node.scandir_lt : ∀ (n : Node) (c : String × Node), c ∈ n.scandir → sizeOf c.2 < sizeOf n
  | .file _, c, h => by simp [Node.scandir] at h
  | .link _ none, c, h => by simp [Node.scandir] at h
  | .link t (some n), c, h => by
    have := Node.scandir_lt n c (by simpa [Node.scandir] using h)
    simp only [Node.link.sizeOf_spec, Option.some.sizeOf_spec]
    omega
  | .dir t es, c, h => by
    have h : c ∈ es := by simpa [Node.scandir] using h
    have := List.sizeOf_lt_of_mem h
    obtain ⟨a, b⟩ := c
    simp only [Node.dir.sizeOf_spec, Prod.mk.sizeOf_spec] at *
    omega

/-- `has_recent_changes` (`utils.py:451-475`). -/
def hasRecentChanges (n : Node) (ref : Int) : Bool :=
  if ref ≤ n.mtime then true
  else if !n.isDirNoSymlink then false
  else if n.scandir.any (fun c => decide (ref ≤ c.2.mtime)) then true
  else n.scandir.attach.any (fun c => hasRecentChanges c.1.2 ref)
termination_by sizeOf n
decreasing_by exact Node.scandir_lt _ _ c.2

/-- `3 * 31 * 24 * 60 * 60` (`daemon/__init__.py:298`). -/
def age : Int := 3 * 31 * 24 * 60 * 60

/-- Result of `shutil.rmtree` on a tree: done, or an exception with some tree left. -/
abbrev RmTree := String → Node → Option Node

/-- One pass of `purge_old_files` (`daemon/__init__.py:285-307`) over the candidates listed at its start.  `clock i` is the time
at which the `i`-th candidate is examined.  The second component is false if an exception ended the pass. -/
def purgeOld (rm : RmTree) (clock : Nat → Int) : Nat → List (String × Node) → Dict String Node → Dict String Node × Bool
  | _, [], base => (base, true)
  | i, (name, n) :: rest, base =>
    if !n.isDirNoSymlink then purgeOld rm clock (i + 1) rest base
    else if !hasRecentChanges n (clock i - age) then
      match rm name n with
      | none => purgeOld rm clock (i + 1) rest (base.erase name)
      | some left => (base.set name left, false)
    else purgeOld rm clock (i + 1) rest base

/-- What matters of an entry of the base directory to `purge_pending_backups`: whether it is a directory (and no link), the file
`.purge_pending`, and how often garbage collection ran in it. -/
structure Entry where
  dir : Bool
  marked : Bool
  gcs : Nat
deriving DecidableEq

/-- Running `backy gc` in a repository (`daemon/scheduler.py:302-304`); the garbage collection removes the mark at its end
(`rbd/__init__.py:255-265`, `repository.py:230-231`). -/
def Entry.gc (e : Entry) : Entry := { e with gcs := e.gcs + 1, marked := false }

/-- A `Job` as far as `run_gc` is concerned: the attribute `source` exists only after `configure`
(`daemon/scheduler.py:36`, `60-66`). -/
structure Job where
  name : String
  source : Option Unit

/-- `Job.__init__` (`daemon/scheduler.py:52-58`). -/
def Job.new (name : String) : Job := ⟨name, none⟩

/-- `Job.run_gc` (`daemon/scheduler.py:302-304`); reading a missing attribute raises. -/
def Job.runGc (j : Job) (base : Dict String Entry) : Except PyErr (Dict String Entry) :=
  match j.source with
  | none => .error .unexpected
  | some () =>
    match base.get? j.name with
    | none => .error .os
    | some e => .ok (base.set j.name e.gc)

/-- One pass of `purge_pending_backups` (`daemon/__init__.py:309-329`); `jobs` are the names of the active jobs. -/
def purgePending (jobs : List String) : List (String × Entry) → Dict String Entry → Dict String Entry × Bool
  | [], base => (base, true)
  | (name, e) :: rest, base =>
    if name ∈ jobs ∨ e.dir = false ∨ e.marked = false then purgePending jobs rest base
    else
      match (Job.new name).runGc base with
      | .error _ => (base, false)
      | .ok base => purgePending jobs rest base

end Verif.Purge
