import Verif.Spec.History
import Verif.Proofs.Expire
/-!
# Specification: events that are not meant to remove a given revision
-/
namespace Verif.Backup
open Verif Verif.Chunked Verif.Spec Verif.Rbd Verif.Repo Verif.Repo.Spec Verif.Files Verif.Diff

/-- The record of the same backup: at most its tags and its trust have changed. -/
structure SameBackup (r y : Rev) : Prop where
  uuid : y.uuid = r.uuid
  ts : y.ts = r.ts
  stats : y.stats = r.stats
  server : y.server = r.server

/-- Events of `Step` that are not meant to remove the revision with the uuid `u`: everything except `backy rm` of it, a change of tags
with `--autoremove`, an expiry that leaves it no tag, and the removal of its file from outside or by a server that uses the same
uuid.  In particular backups, successful, failed or killed at any time, verifications (of any revision) and garbage collections,
finished or killed. -/
inductive Spares (env : Env) (u : String) : Sys → Sys → Prop
  | guest (s : Sys) (image : Bytes) : Spares env u s { s with ceph := { s.ceph with image } }
  | backup (s : Sys) (af : Bool) (o : Rbd) (ho : ∀ l, (o.order l).Perm l) (uuid : String) (ts : Int) (tags : Finset String)
      (hu : Fresh s uuid) (hf : Faithful o s.ceph.snaps uuid s.ceph.image) :
      Spares env u s (runBackup env af o uuid ts tags s.connect).2
  | killed (s s' : Sys) (af : Bool) (o : Rbd) (uuid : String) (ts : Int) (tags : Finset String) (hu : Fresh s uuid)
      (hf : Faithful o s.ceph.snaps uuid s.ceph.image) (hk : Killed env af o uuid ts tags s s') : Spares env u s s'
  | rm (s : Sys) (revs : List Rev) (h : ∀ r ∈ revs, r ∈ s.connect.src.repo.history ∧ r.uuid ≠ u) :
      Spares env u s { s.connect with src := { s.connect.src with repo := s.connect.src.repo.rm revs } }
  | expire (s : Sys) (sch : Schedule) (hs : GoodSchedule sch) (pd : String → Option Int) (now : String → Int)
      (h : ∀ r, onDisk s.src.repo.files u = some r → ∃ tag, tag ∈ keptTags sch now s.connect.src.repo.history r) :
      Spares env u s { s.connect with src := { s.connect.src with repo := (sch.expire pd now s.connect.src.repo).2 } }
  | distrust (s : Sys) (revs : List Rev) (h : ∀ r ∈ revs, r ∈ s.connect.src.repo.history) :
      Spares env u s { s.connect with src := { s.connect.src with repo := (s.connect.src.repo.distrust revs).2 } }
  | tags (s : Sys) (sch : Schedule) (pd : String → Option Int) (action spec : String) (tags : Finset String)
      (expect : Option (Finset String)) (force : Bool) :
      Spares env u s { s.connect with src := { s.connect.src with
        repo := (s.connect.src.repo.tagsOp sch pd action spec tags expect false force).2 } }
  | verify (s : Sys) (order : List Hash → List Hash) (ho : ∀ l, (order l).Perm l) (r : Rev) (h : r ∈ s.connect.src.repo.history) :
      Spares env u s { s.connect with src := (Src.verify env order s.connect.src r).2 }
  | verifyKilled (s : Sys) (order : List Hash → List Hash) (ho : ∀ l, (order l).Perm l) (r : Rev)
      (h : r ∈ s.connect.src.repo.history) :
      Spares env u s { s.connect with src := (Src.verifyMark env order s.connect.src r).2 }
  | gc (s : Sys) : Spares env u s { s.connect with src := s.connect.src.gc.2 }
  | gcKilled (s : Sys) (left : Hash → Bool) : Spares env u s { s.connect with src := gcSome left s.connect.src }
  | remote (s : Sys) (r : Rev) (h : r.server ≠ "") (hu : r.uuid ≠ u) :
      Spares env u s { s with src := { s.src with repo := s.src.repo.writeInfo r } }
  | drop (s : Sys) (r : Rev) (hu : r.uuid ≠ u) : Spares env u s { s with src := { s.src with repo := s.src.repo.drop r } }
  | snapsGone (s : Sys) (keep : String → Bool) :
      Spares env u s { s with ceph := { s.ceph with snaps := s.ceph.snaps.filter (fun x => keep x.1) } }
  | snapForeign (s : Sys) (name : String) (content : Bytes) (h : startsWith name "backy-" = false) :
      Spares env u s { s with ceph := { s.ceph with snaps := s.ceph.snaps ++ [(name, content)] } }

/-- Any number of such events. -/
inductive SparesAll (env : Env) (u : String) : Sys → Sys → Prop
  | nil (s : Sys) : SparesAll env u s s
  | cons {a b c : Sys} (h : SparesAll env u a b) (h' : Spares env u b c) : SparesAll env u a c

end Verif.Backup
