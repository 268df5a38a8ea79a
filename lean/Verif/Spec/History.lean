import Verif.Model.Backup
import Verif.Model.Tags
import Verif.Proofs.BackupData
/-!
# Specification: histories of a repository

The state is what is on disk and in the Ceph cluster.  Every event is one process (it starts with
`connect`: a scan of the directory, fresh caches), a change from outside, or a process that was killed.  Events do not
overlap in time (see `Model/Locks.lean` for what the locks exclude).
-/
namespace Verif.Backup
open Verif Verif.Chunked Verif.Spec Verif.Rbd Verif.Repo Verif.Files Verif.Diff

/-- A uuid nobody has used. -/
structure Fresh (s : Sys) (uuid : String) : Prop where
  file : s.src.repo.files.has uuid = false
  image : s.src.w.metas.get? uuid = none
  snap : s.ceph.snaps.has (snapName uuid) = false

/-- The metadata after a killed `_clean` (`repository.py:295-303`): the first `k` revisions were handled. -/
def cleanUpTo (k : Nat) (s : Repo) : Repo :=
  (s.localHistory.take k).foldl (fun s r => if r.clean then s else s.remove r) s

/-- The state in which `backy-rbd backup` (`source.py:219-220`) works when it was started by a process with the history in
memory: the revisions known to be incomplete are gone, the new one is written, the directory is scanned. -/
def Sys.launch (s : Sys) (uuid : String) (ts : Int) (tags : Finset String) : Sys :=
  ({ s with src := { s.src with repo := s.src.repo.clean.writeInfo (newRev uuid ts tags) } } : Sys).connect

/-- The same for a process that has just read the directory. -/
def Sys.prepared (s : Sys) (uuid : String) (ts : Int) (tags : Finset String) : Sys := s.connect.launch uuid ts tags

/-- A world a process that was stopped while it wrote the image `uuid` in `w` may leave behind: no chunk file is lost, a new
chunk file contains what its name says (it need not belong to the image: its block may have been half filled), the mapping file of
the new image is in any state. -/
structure Torn (env : Env) (uuid : String) (w v : World) : Prop where
  old : ∀ h x, w.chunks.get? h = some x → v.chunks.get? h = some x
  new : ∀ h x, v.chunks.get? h = some x → w.chunks.get? h = some x ∨
    ∃ d, x = some d ∧ env.H d = h ∧ d ∈ v.log ∧ d.length ≤ env.cs
  metas : ∀ n, n ≠ uuid → v.metas.get? n = w.metas.get? n
  log : w.log ⊆ v.log
  small : ∀ d ∈ v.log, d ∈ w.log ∨ d.length ≤ env.cs
  seen : v.seen = []
  force : v.force = w.force

/-- The states a `backy backup` run that is killed leaves behind (before the verification and garbage collection
at its end, which are events of their own). -/
inductive Killed (env : Env) (af : Bool) (o : Rbd) (uuid : String) (ts : Int) (tags : Finset String) (s : Sys) :
    Sys → Prop
  /-- while incomplete revisions are removed -/
  | cleaning (k : Nat) : Killed env af o uuid ts tags s
      { s with src := { s.src with repo := cleanUpTo k s.connect.src.repo } }
  /-- the metadata of the new revision has been written -/
  | created : Killed env af o uuid ts tags s (s.prepared uuid ts tags)
  /-- while the image is written, from any parent the code chooses -/
  | writing (parent : Option Rev) (v : World)
      (hp : cephGetParent af ((s.prepared uuid ts tags).snapshot (newRev uuid ts tags)).ceph.snaps o.infoFails
        (s.prepared uuid ts tags).src.repo (newRev uuid ts tags) = .ok parent)
      (hv : Torn env uuid (s.prepared uuid ts tags).src.w v) :
      Killed env af o uuid ts tags s
        { (s.prepared uuid ts tags).snapshot (newRev uuid ts tags) with
          src := { (s.prepared uuid ts tags).src with w := v } }
  /-- while old snapshots are removed and, after a backend error, revisions are distrusted -/
  | leaving (o' : Rbd) (k : Nat) : Killed env af o uuid ts tags s
      { src := { repo := ((s.prepared uuid ts tags).src.repo.distrust
                  ((s.prepared uuid ts tags).src.repo.localHistory.take k)).2,
                 w := (backupBody env af o (newRev uuid ts tags) s.ceph.image
                  ((s.prepared uuid ts tags).snapshot (newRev uuid ts tags))).2 },
        ceph := { ((s.prepared uuid ts tags).snapshot (newRev uuid ts tags)).ceph with
                  snaps := (deleteOldSnapshots o' af (s.prepared uuid ts tags).src.repo
                    ((s.prepared uuid ts tags).snapshot (newRev uuid ts tags)).ceph.snaps).2 } }
  /-- right after the revision was completed -/
  | completed (o' : Rbd)
      (hv : (backupBody env af o (newRev uuid ts tags) s.ceph.image
        ((s.prepared uuid ts tags).snapshot (newRev uuid ts tags))).1 = .ok true) :
      Killed env af o uuid ts tags s
        { src := { repo := (s.prepared uuid ts tags).src.repo.store (finished o (newRev uuid ts tags)),
                   w := (backupBody env af o (newRev uuid ts tags) s.ceph.image
                    ((s.prepared uuid ts tags).snapshot (newRev uuid ts tags))).2 },
          ceph := { ((s.prepared uuid ts tags).snapshot (newRev uuid ts tags)).ceph with
                    snaps := (deleteOldSnapshots o' af (s.prepared uuid ts tags).src.repo
                      ((s.prepared uuid ts tags).snapshot (newRev uuid ts tags)).ceph.snaps).2 } }

/-- A garbage collection that was killed or finished: some unused chunks are gone. -/
def gcSome (left : Hash → Bool) (s : Src) : Src :=
  match usedChunks s.w s.repo.localHistory [] with
  | .error _ => s
  | .ok used => { s with w := { s.w with chunks := s.w.chunks.filter (fun x => decide (x.1 ∈ used) || left x.1) } }

/-- One event. -/
inductive Step (env : Env) : Sys → Sys → Prop
  /-- the guest changes the image -/
  | guest (s : Sys) (image : Bytes) : Step env s { s with ceph := { s.ceph with image } }
  /-- a backup: full or incremental as the code decides, successful or not -/
  | backup (s : Sys) (af : Bool) (o : Rbd) (uuid : String) (ts : Int) (tags : Finset String) (hu : Fresh s uuid)
      (hf : Faithful o s.ceph.snaps uuid s.ceph.image) :
      Step env s (runBackup env af o uuid ts tags s.connect).2
  /-- a backup that is killed -/
  | killed (s s' : Sys) (af : Bool) (o : Rbd) (uuid : String) (ts : Int) (tags : Finset String) (hu : Fresh s uuid)
      (hf : Faithful o s.ceph.snaps uuid s.ceph.image) (hk : Killed env af o uuid ts tags s s') : Step env s s'
  /-- removal of revisions -/
  | rm (s : Sys) (revs : List Rev) (h : ∀ r ∈ revs, r ∈ s.connect.src.repo.history) :
      Step env s { s.connect with src := { s.connect.src with repo := s.connect.src.repo.rm revs } }
  /-- expiry -/
  | expire (s : Sys) (sch : Schedule) (pd : String → Option Int) (now : String → Int) :
      Step env s { s.connect with src := { s.connect.src with repo := (sch.expire pd now s.connect.src.repo).2 } }
  /-- distrusting revisions -/
  | distrust (s : Sys) (revs : List Rev) (h : ∀ r ∈ revs, r ∈ s.connect.src.repo.history) :
      Step env s { s.connect with src := { s.connect.src with repo := (s.connect.src.repo.distrust revs).2 } }
  /-- changing tags -/
  | tags (s : Sys) (sch : Schedule) (pd : String → Option Int) (action spec : String) (tags : Finset String)
      (expect : Option (Finset String)) (autoremove force : Bool) :
      Step env s { s.connect with src := { s.connect.src with
        repo := (s.connect.src.repo.tagsOp sch pd action spec tags expect autoremove force).2 } }
  /-- verification -/
  | verify (s : Sys) (order : List Hash → List Hash) (r : Rev) (h : r ∈ s.connect.src.repo.history) :
      Step env s { s.connect with src := (Src.verify env order s.connect.src r).2 }
  /-- a verification that is killed before its garbage collection -/
  | verifyKilled (s : Sys) (order : List Hash → List Hash) (r : Rev) (h : r ∈ s.connect.src.repo.history) :
      Step env s { s.connect with src := (Src.verifyMark env order s.connect.src r).2 }
  /-- garbage collection -/
  | gc (s : Sys) : Step env s { s.connect with src := s.connect.src.gc.2 }
  /-- a garbage collection that is killed -/
  | gcKilled (s : Sys) (left : Hash → Bool) : Step env s { s.connect with src := gcSome left s.connect.src }
  /-- metadata of another server's revision arrives -/
  | remote (s : Sys) (r : Rev) (h : r.server ≠ "") :
      Step env s { s with src := { s.src with repo := s.src.repo.writeInfo r } }
  /-- any metadata file is removed -/
  | drop (s : Sys) (r : Rev) : Step env s { s with src := { s.src with repo := s.src.repo.drop r } }
  /-- somebody deletes snapshots -/
  | snapsGone (s : Sys) (keep : String → Bool) :
      Step env s { s with ceph := { s.ceph with snaps := s.ceph.snaps.filter (fun x => keep x.1) } }
  /-- somebody else creates a snapshot -/
  | snapForeign (s : Sys) (name : String) (content : Bytes) (h : startsWith name "backy-" = false) :
      Step env s { s with ceph := { s.ceph with snaps := s.ceph.snaps ++ [(name, content)] } }

/-- A history of events. -/
inductive Steps (env : Env) : Sys → Sys → Prop
  | nil (s : Sys) : Steps env s s
  | cons {a b c : Sys} (h : Steps env a b) (h' : Step env b c) : Steps env a c

/-- An empty repository and an image with any snapshots of other owners.  There may be snapshots of backy from an earlier
repository whose directory was deleted: these have the content of the image when they were taken. -/
structure Initial (s : Sys) : Prop where
  files : s.src.repo.files = []
  metas : s.src.w.metas = []
  chunks : s.src.w.chunks = []
  seen : s.src.w.seen = []
  snaps : ∀ u d, s.ceph.snaps.get? (snapName u) = some d → s.ceph.taken.get? u = some d

/-- The same for an image that was never backed up: all snapshots have other owners. -/
structure New (s : Sys) : Prop where
  files : s.src.repo.files = []
  metas : s.src.w.metas = []
  chunks : s.src.w.chunks = []
  seen : s.src.w.seen = []
  snaps : ∀ n, s.ceph.snaps.has n = true → startsWith n "backy-" = false

end Verif.Backup
