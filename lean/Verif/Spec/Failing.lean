import Verif.Spec.Lasting
import Verif.Spec.Daemon
import Verif.Props.FullDisk
/-!
# Specification: what the passes of a job do to its repository

The actions of `Model/Daemon.lean` with their effects on the system of `Model/Backup.lean`.  An effect is related to the outcome of the
action (`ok`); what matters is that a backup counts as successful exactly if its exit code is 0 (`daemon/scheduler.py:288-306`).
-/
namespace Verif.Failing
open Verif Verif.Chunked Verif.Spec Verif.Rbd Verif.Repo Verif.Files Verif.Diff Verif.Backup Verif.Daemon

/-- Metadata of revisions of other servers is written (`true`) or removed. -/
def exchange (changes : List (Bool × Rev)) (s : Repo) : Repo :=
  changes.foldl (fun s x => if x.1 then s.writeInfo x.2 else s.drop x.2) s

/-- What an action may do (`daemon/scheduler.py:208-266`), when it succeeds (`ok`) or fails. -/
inductive Effect (env : Env) : Act → Bool → Sys → Sys → Prop
  /-- nothing is changed by reading the directory, waiting, asking, taking a slot and the callback -/
  | quiet (a : Act) (ok : Bool) (s : Sys)
      (h : a = .connect ∨ (∃ t, a = .waitUntil t) ∨ (∃ t, a = .askPeers t) ∨ a = .callback ∨ (∃ f, a = .acquire f) ∨ a = .scan) :
      Effect env a ok s s
  /-- `_clean` removes incomplete revisions of this server (`repository.py:295-303`, C39) -/
  | clean (a : Act) (ha : a = .clean ∨ a = .cleanAfter) (ok : Bool) (s : Sys) (gone : List Rev)
      (h : ∀ r ∈ gone, onDisk s.src.repo.files r.uuid = some r ∧ r.clean = false ∧ r.server = "") :
      Effect env a ok s { s with src := { s.src with repo := gone.foldl (fun s r => s.drop r) s.src.repo } }
  /-- pulling and pushing write and remove metadata of other servers only (C49) -/
  | exchange (a : Act) (ha : a = .pull ∨ a = .push) (ok : Bool) (s : Sys) (changes : List (Bool × Rev))
      (h : ∀ x ∈ changes, x.2.server ≠ "" ∧ ∀ y, onDisk s.src.repo.files x.2.uuid = some y → y.server ≠ "") :
      Effect env a ok s { s with src := { s.src with repo := exchange changes s.src.repo } }
  /-- a backup that ran to its end: it has succeeded exactly if the exit code is 0 -/
  | backup (s : Sys) (af : Bool) (o : Rbd) (ho : ∀ l, (o.order l).Perm l) (uuid : String) (ts : Int) (tags : Finset String)
      (hu : Fresh s uuid) (hf : Faithful o s.ceph.snaps uuid s.ceph.image) :
      Effect env (.backup tags) (decide ((runBackup env af o uuid ts tags s.connect).1 = 0)) s
        (runBackup env af o uuid ts tags s.connect).2
  /-- a backup that was killed at any point -/
  | killed (s s' : Sys) (af : Bool) (o : Rbd) (uuid : String) (ts : Int) (tags : Finset String) (hu : Fresh s uuid)
      (hf : Faithful o s.ceph.snaps uuid s.ceph.image) (hk : Killed env af o uuid ts tags s s') :
      Effect env (.backup tags) false s s'
  /-- a backup during which the disk was full: what it leaves behind (`FullDisk.runBackup_cases`, C137) -/
  | full (s k s' : Sys) (af : Bool) (o : Rbd) (uuid : String) (ts : Int) (tags : Finset String) (hu : Fresh s uuid)
      (hf : Faithful o s.ceph.snaps uuid s.ceph.image) (hk : Killed env af o uuid ts tags s k) (ha : FullDisk.After uuid k s') :
      Effect env (.backup tags) false s s'
  /-- expiry, with any schedule and at any time -/
  | expire (s : Sys) (ok : Bool) (sch : Schedule) (pd : String → Option Int) (now : String → Int) :
      Effect env .expire ok s { s.connect with src := { s.connect.src with repo := (sch.expire pd now s.connect.src.repo).2 } }
  /-- garbage collection -/
  | gc (s : Sys) (ok : Bool) : Effect env .gc ok s { s.connect with src := s.connect.src.gc.2 }
  /-- a garbage collection that was stopped -/
  | gcStopped (s : Sys) (left : Hash → Bool) : Effect env .gc false s { s.connect with src := gcSome left s.connect.src }

/-- What else may happen between two actions: the guest writes, snapshots come and go, somebody distrusts or verifies revisions or
collects garbage. -/
inductive Meanwhile (env : Env) : Sys → Sys → Prop
  | guest (s : Sys) (image : Bytes) : Meanwhile env s { s with ceph := { s.ceph with image } }
  | snapsGone (s : Sys) (keep : String → Bool) :
      Meanwhile env s { s with ceph := { s.ceph with snaps := s.ceph.snaps.filter (fun x => keep x.1) } }
  | snapForeign (s : Sys) (name : String) (content : Bytes) (h : startsWith name "backy-" = false) :
      Meanwhile env s { s with ceph := { s.ceph with snaps := s.ceph.snaps ++ [(name, content)] } }
  | distrust (s : Sys) (revs : List Rev) (h : ∀ r ∈ revs, r ∈ s.connect.src.repo.history) :
      Meanwhile env s { s.connect with src := { s.connect.src with repo := (s.connect.src.repo.distrust revs).2 } }
  | verify (s : Sys) (order : List Hash → List Hash) (ho : ∀ l, (order l).Perm l) (r : Rev) (h : r ∈ s.connect.src.repo.history) :
      Meanwhile env s { s.connect with src := (Src.verify env order s.connect.src r).2 }
  | gc (s : Sys) : Meanwhile env s { s.connect with src := s.connect.src.gc.2 }

/-- A pass that does the actions `acts`. -/
inductive Does (env : Env) (failing : Act → Bool) : List Act → Sys → Sys → Prop
  | nil (s : Sys) : Does env failing [] s s
  | act {acts : List Act} {a b c : Sys} (x : Act) (h : Does env failing acts a b) (he : Effect env x (!failing x) b c) :
      Does env failing (acts ++ [x]) a c
  | meanwhile {acts : List Act} {a b c : Sys} (h : Does env failing acts a b) (hm : Meanwhile env b c) : Does env failing acts a c

/-- Passes with what they do, one after the other. -/
inductive Runs (env : Env) : List (Pass × List Act) → Sys → Sys → Prop
  | nil (s : Sys) : Runs env [] s s
  | cons {l : List (Pass × List Act)} {a b c : Sys} (p : Pass) (acts : List Act) (h : Does env p.failing acts a b) (hr : Runs env l b c) :
      Runs env ((p, acts) :: l) a c

end Verif.Failing
