import Verif.Model.Backup
import Verif.Model.Tags
import Verif.Proofs.BackupData
import Verif.Spec.Locks
/-!
# Several executions on one repository

Every execution has its own `Repository` object, hence its own list of revisions, read when it connected
(`repository.py:80-84`) and not read again unless the code says so.  Disk and Ceph are shared.  The bodies of the decorated
functions take effect only while the execution is inside of the function (`Model/Locks.lean`).

Simplifications: the effect of one body is one step (that of `verify` two: up to the garbage collection, and the garbage
collection).  That the code of two bodies which may overlap is interleaved more finely is
modelled in `Model/Beside.lean` for the transfer of a backup, in `Model/Overlap.lean` for restores and verifications.
-/
namespace Verif.Conc
open Verif Verif.Chunked Verif.Rbd Verif.Repo Verif.Backup Verif.Locks

/-- Disk and Ceph, and the list of revisions in the memory of every execution (`Repository.history`). -/
structure Shared where
  sys : Sys
  mem : Nat → List Rev

/-- What an execution works with: the shared disk, its own revisions, a new `Store` object (`rbd/chunked/store.py`). -/
def Shared.view (c : Shared) (p : Nat) : Sys :=
  { c.sys with src := { repo := { c.sys.src.repo with history := c.mem p }, w := c.sys.src.w.fresh } }

/-- The state after an execution did something. -/
def Shared.commit (c : Shared) (p : Nat) (s : Sys) : Shared := ⟨s, put c.mem p s.src.repo.history⟩

/-- An execution changes metadata. -/
def Shared.repoStep (c : Shared) (p : Nat) (f : Repo → Repo) : Shared :=
  c.commit p { c.view p with src := { (c.view p).src with repo := f (c.view p).src.repo } }

/-- An execution of `RBDSource` does something. -/
def Shared.srcStep (c : Shared) (p : Nat) (f : Src → Src) : Shared :=
  c.commit p { c.view p with src := f (c.view p).src }

/-- `Revision.create` and `materialize` (`cli/__init__.py:259-260`, `daemon/scheduler.py:288-291`): without a lock. -/
def Shared.create (c : Shared) (p : Nat) (uuid : String) (ts : Int) (tags : Finset String) : Shared :=
  c.repoStep p (fun s => s.writeInfo (newRev uuid ts tags))

/-- `Repository.connect` (`repository.py:80-84`). -/
def Shared.load (c : Shared) (p : Nat) : Shared := c.repoStep p Repo.scan

/-- The effects of the bodies. -/
inductive Body (env : Env) (p : Nat) : Op → Shared → Shared → Prop
  /-- `_clean` (`repository.py:296-303`) -/
  | clean (c : Shared) : Body env p .clean c (c.repoStep p Repo.clean)
  /-- `rm` (`repository.py:306-308`) -/
  | rm (c : Shared) (revs : List Rev) (h : ∀ r ∈ revs, r ∈ c.mem p) : Body env p .rm c (c.repoStep p (fun s => s.rm revs))
  /-- `expire` (`repository.py:311-312`) -/
  | expire (c : Shared) (sch : Schedule) (pd : String → Option Int) (now : String → Int) :
      Body env p .expire c (c.repoStep p (fun s => (sch.expire pd now s).2))
  /-- `tags` (`repository.py:315-346`) -/
  | tags (c : Shared) (sch : Schedule) (pd : String → Option Int) (action spec : String) (tags : Finset String)
      (expect : Option (Finset String)) (autoremove force : Bool) :
      Body env p .tags c (c.repoStep p (fun s => (s.tagsOp sch pd action spec tags expect autoremove force).2))
  /-- `distrust` (`repository.py:349-353`) -/
  | distrust (c : Shared) (revs : List Rev) (h : ∀ r ∈ revs, r ∈ c.mem p) :
      Body env p .distrust c (c.repoStep p (fun s => (s.distrust revs).2))
  /-- `backup` (`rbd/__init__.py:132-189`) of a revision that was created for it -/
  | backup (c : Shared) (af : Bool) (o : Rbd) (r : Rev) (h : r ∈ c.mem p) (hl : r.server = "") (hc : r.clean = false)
      (hf : Faithful o c.sys.ceph.snaps r.uuid c.sys.ceph.image) :
      Body env p .backup c (c.commit p (backup env af o r (c.view p)).2)
  /-- `verify` (`rbd/__init__.py:193-247`) up to the garbage collection -/
  | verify (c : Shared) (order : List Hash → List Hash) (r : Rev) (h : r ∈ c.mem p) :
      Body env p .verify c (c.srcStep p (fun s => (Src.verifyMark env order s r).2))
  /-- `gc` (`rbd/__init__.py:256-265`) -/
  | gc (c : Shared) : Body env p .gc c (c.srcStep p (fun s => s.gc.2))

/-- The function whose body `p` is executing. -/
def Current (s : State Shared) (p : Nat) (op : Op) : Prop :=
  ∃ o inner, s.at_ p = .running o inner ∧ inner.headD o = op

/-- All interleavings of any number of executions, as far as the locks allow.  `G` is a condition on the moments at
which bodies take effect. -/
inductive Run (env : Env) (G : Nat → Op → Shared → Prop) (c0 : Shared) : State Shared → Prop
  | init : Run env G c0 ⟨fun _ => .idle, fun _ => [], [], c0⟩
  /-- taking and giving back locks, calls, returns, kills -/
  | locks {s s' : State Shared} (h : Run env G c0 s) (h' : Step s s') (hd : s'.data = s.data) : Run env G c0 s'
  /-- a body takes effect -/
  | body {s : State Shared} (h : Run env G c0 s) (p : Nat) (op : Op) (hin : Current s p op) (d : Shared)
      (hg : G p op s.data) (hb : Body env p op s.data d) : Run env G c0 { s with data := d }
  /-- an execution reads the directory before it calls anything -/
  | load {s : State Shared} (h : Run env G c0 s) (p : Nat) (hi : s.at_ p = .idle) :
      Run env G c0 { s with data := s.data.load p }
  /-- a new revision is created -/
  | create {s : State Shared} (h : Run env G c0 s) (p : Nat) (hi : s.at_ p = .idle) (uuid : String) (ts : Int)
      (tags : Finset String) : Run env G c0 { s with data := s.data.create p uuid ts tags }
  /-- the guest changes the image -/
  | guest {s : State Shared} (h : Run env G c0 s) (image : Bytes) :
      Run env G c0 { s with data := { s.data with sys := { s.data.sys with ceph := { s.data.sys.ceph with image } } } }

end Verif.Conc
