import Verif.Spec.History
import Verif.Proofs.RepoScan
/-!
# Specification: histories with times

`img τ` is the content of the image at the time `τ`.  A backup that was made for a revision of the time `ts` takes its snapshot at some time
`τ` after `ts`, at most `lag` later, and is over at `done`.  All other events are those of `Step` that add no local revision.
-/
namespace Verif.Recovery
open Verif Verif.Chunked Verif.Spec Verif.Rbd Verif.Repo Verif.Backup Verif.Diff

/-- No local revision is added. -/
def Quiet (s s' : Sys) : Prop :=
  ∀ u r, onDisk s'.src.repo.files u = some r → r.server = "" → ∃ r0, onDisk s.src.repo.files u = some r0

/-- The states that can be reached from `s0` until a given time. -/
inductive Timed (env : Env) (img : Int → Bytes) (lag : Int) (s0 : Sys) : Sys → Int → Prop
  | start (t : Int) : Timed env img lag s0 s0 t
  | later (s : Sys) (t t' : Int) (h : Timed env img lag s0 s t) (ht : t ≤ t') : Timed env img lag s0 s t'
  /-- any event that adds no local revision -/
  | other (s s' : Sys) (t : Int) (h : Timed env img lag s0 s t) (hs : Step env s s') (hq : Quiet s s') : Timed env img lag s0 s' t
  /-- a backup, successful or not -/
  | backup (s : Sys) (t τ done : Int) (af : Bool) (o : Rbd) (uuid : String) (ts : Int) (tags : Finset String)
      (h : Timed env img lag s0 s t) (hu : Fresh s uuid) (hf : Faithful o s.ceph.snaps uuid s.ceph.image)
      (ht : t ≤ ts ∧ ts ≤ τ ∧ τ ≤ ts + lag ∧ τ ≤ done) (hi : s.ceph.image = img τ) :
      Timed env img lag s0 (runBackup env af o uuid ts tags s.connect).2 done
  /-- a backup that is killed -/
  | killed (s s' : Sys) (t τ done : Int) (af : Bool) (o : Rbd) (uuid : String) (ts : Int) (tags : Finset String)
      (h : Timed env img lag s0 s t) (hu : Fresh s uuid) (hf : Faithful o s.ceph.snaps uuid s.ceph.image)
      (ht : t ≤ ts ∧ ts ≤ τ ∧ τ ≤ ts + lag ∧ τ ≤ done) (hi : s.ceph.image = img τ) (hk : Killed env af o uuid ts tags s s') :
      Timed env img lag s0 s' done

end Verif.Recovery
