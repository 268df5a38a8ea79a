import Verif.Model.Files
import Verif.Model.Diff
import Verif.Model.Rbd
/-!
# Backup and verification: `rbd/__init__.py:106-253`, `356-579`

One `RBDSource` process with the Ceph cluster it talks to.  `rbd` commands that may fail or have output
which is not determined by the state are parameters (`Rbd`).  An exception raised by a failing
`rbd` process (`CalledProcessError`) is `unexpected`.

Not modelled here: locks (`Model/Locks.lean`), Consul (`Model/Consul.lean`; the snapshot is created by
`rbd snap create`, `rbd/__init__.py:424-426`), mismatch reports (`Model/Report.lean`), the legacy files
`last` and `last.rev`, permissions, log output.
-/
namespace Verif.Backup
open Verif Verif.Chunked Verif.Spec Verif.Rbd Verif.Repo Verif.Files Verif.Diff

/-- The RBD image and its snapshots in the order of `rbd snap ls`.  `taken` is a ghost: the image
content at the time each snapshot of backy was created, by revision. -/
structure Ceph where
  image : Bytes
  snaps : Dict String Bytes
  taken : Dict String Bytes

/-- One process working on a repository. -/
structure Sys where
  src : Src
  ceph : Ceph

/-- What the environment does during one run: which `rbd` commands fail, the bytes `rbd export` and (for each base)
`rbd export-diff` write, the random sample, the clock, the iteration order of a set. -/
structure Rbd where
  ready : Bool
  snapCreateFails : Bool
  infoFails : Bool
  exportOut : Bytes
  diffOut : String → Bytes
  mapFails : Bool
  unmapFails : Bool
  sample : List Nat
  expired : Nat → Bool
  snapLsFails : Bool
  snapRmFails : String → Bool
  duration : Nat
  order : List Hash → List Hash

/-- `"backy-" + uuid` (`rbd/__init__.py:419`, `502`, `515-516`). -/
def snapName (uuid : String) : String := "backy-" ++ uuid

/-- The ASCII bytes of a snapshot name, as they occur in a diff stream (`rbd/rbd.py:241-249`). -/
def ascii (s : String) : Bytes := s.toList.map (fun c => UInt8.ofNat c.toNat)

/-- `Revision == Trust` (`repository.py:257`): the classes are unrelated and `Revision` does not define
`__eq__`, so Python compares identities, which differ. -/
def revEqTrust (_ : Rev) (_ : Trust) : Bool := false

/-- `Repository.contains_distrusted` (`repository.py:253-260`). -/
def containsDistrusted (s : Repo) : Bool :=
  (s.getHistory true true).any (fun r => revEqTrust r .distrusted)

/-- The copy of the parent's mapping file in `RBDSource.open` (`rbd/__init__.py:112-118`). -/
def copyParent (w : World) (uuid : String) (parent : Option Rev) : Except PyErr World :=
  match parent with
  | none => .ok w
  | some p =>
    if w.metas.has uuid then .ok w
    else
      match w.metas.get? p.uuid with
      | none => .error .fileNotFound
      | some m => .ok { w with metas := w.metas.set uuid m }

/-- `RBDSource.open(revision, "wb", parent)` (`rbd/__init__.py:106-126`).  If the parent's file is missing,
an empty (not parsable) file has been created already. -/
def openWrite (s : Src) (uuid : String) (parent : Option Rev) : Except PyErr S × World :=
  match copyParent s.w uuid parent with
  | .error e => (.error e, { s.w with metas := s.w.metas.set uuid none })
  | .ok w =>
    match File.open w uuid wb with
    | .error e => (.error e, w)
    | .ok f =>
      if containsDistrusted s.repo then (.ok { f with w := { f.w with force := true } }, w)
      else (.ok f, w)

/-- The loop of `CephRBD.get_parent` (`rbd/__init__.py:498-511`).  The fuel bounds the iterations. -/
def parentLoop (snaps : Dict String Bytes) (infoFails : Bool) (repo : Repo) : Nat → Rev → Except PyErr (Option Rev)
  | 0, _ => .error .diverge
  | fuel + 1, r =>
    match repo.getParent r with
    | none => .ok none
    | some p =>
      if infoFails then .error .unexpected
      else if snaps.has (snapName p.uuid) then .ok (some p)
      else parentLoop snaps infoFails repo fuel p

/-- `CephRBD.get_parent` (`rbd/__init__.py:493-511`). -/
def cephGetParent (alwaysFull : Bool) (snaps : Dict String Bytes) (infoFails : Bool) (repo : Repo) (r : Rev) :
    Except PyErr (Option Rev) :=
  if alwaysFull then .ok none else parentLoop snaps infoFails repo (repo.history.length + 1) r

/-- `CephRBD.full` (`rbd/__init__.py:522-530`): the end of the pipe ends the loop. -/
def full (env : Env) (out : Bytes) (s : S) : Except PyErr Unit × S :=
  exec env ((streamChunks env.blk env.blk_pos out.length out).1.map .write) s

/-- `CephRBD.diff` (`rbd/__init__.py:513-520`) or `full`. -/
def transfer (env : Env) (o : Rbd) (uuid : String) (parent : Option Rev) (s : S) : Except PyErr Unit × S :=
  match parent with
  | some p => integrate env (o.diffOut p.uuid) (ascii (snapName p.uuid)) (ascii (snapName uuid)) s
  | none => full env o.exportOut s

/-- A body in a `with file:` block followed by `File.__exit__` (`rbd/chunked/file.py:256-257`): the file
is closed in any case, an exception while closing replaces an earlier one. -/
def closing (env : Env) (r : Except PyErr Unit × S) : Except PyErr Unit × World :=
  match r.2.close env with
  | (.error e, s) => (.error e, s.w)
  | (.ok (), s) => (r.1, s.w)

/-- `with self.open(revision, "wb", parent_rev) as file: diff or full` (`rbd/__init__.py:148-152`). -/
def writePhase (env : Env) (o : Rbd) (uuid : String) (parent : Option Rev) (s : Src) : Except PyErr Unit × World :=
  match openWrite s uuid parent with
  | (.error e, w) => (.error e, w)
  | (.ok f, _) => closing env (transfer env o uuid parent f)

/-- `with self.open(revision) as file: source.verify(file)` (`rbd/__init__.py:153-156`, `532-547`): a failing
`rbd unmap` in the `finally` of `image_reader` (`rbd/rbd.py:153-161`) replaces an exception of the comparison. -/
def verifyPhase (env : Env) (o : Rbd) (uuid : String) (snap : Bytes) (w : World) : Except PyErr Bool × World :=
  match File.open w uuid rb with
  | .error e => (.error e, w)
  | .ok s =>
    if o.mapFails then (.error .unexpected, s.w)
    else
      match filesAreRoughlyEqual env env.cs o.expired o.sample snap s with
      | (.error e, s) => (.error (if o.unmapFails then .unexpected else e), s.w)
      | (.ok (res, _), s) => if o.unmapFails then (.error .unexpected, s.w) else (.ok res, s.w)

/-- The body of `with self.ceph_rbd(revision) as source:` (`rbd/__init__.py:147-156`). -/
def backupBody (env : Env) (alwaysFull : Bool) (o : Rbd) (r : Rev) (snap : Bytes) (s : Sys) :
    Except PyErr Bool × World :=
  match cephGetParent alwaysFull s.ceph.snaps o.infoFails s.src.repo r with
  | .error e => (.error e, s.src.w)
  | .ok parent =>
    match writePhase env o r.uuid parent s.src with
    | (.error e, w) => (.error e, w)
    | (.ok (), w) => verifyPhase env o r.uuid snap w

/-- `keep_snapshot_revision` (`rbd/__init__.py:558-563`). -/
def keepSnapshot (alwaysFull : Bool) (repo : Repo) : Option String :=
  if alwaysFull then none else (repo.localHistory.getLast?).map (·.uuid)

/-- `str.replace("backy-", "")` (builtin): removes every occurrence, from the left. -/
def stripBacky (fuel : Nat) (l : List Char) : List Char :=
  match fuel, l with
  | 0, l => l
  | _ + 1, [] => []
  | fuel + 1, c :: t =>
    if "backy-".toList.isPrefixOf (c :: t) then stripBacky fuel ((c :: t).drop 6)
    else c :: stripBacky fuel t

/-- The uuid of a snapshot name (`rbd/__init__.py:568`). -/
def snapUuid (name : String) : String := String.ofList (stripBacky name.toList.length name.toList)

/-- Whether the loop of `_delete_old_snapshots` (`rbd/__init__.py:564-579`) deletes a snapshot. -/
def isOld (keep : Option String) (name : String) : Bool :=
  startsWith name "backy-" && decide (some (snapUuid name) ≠ keep)

/-- `CephRBD._delete_old_snapshots` (`rbd/__init__.py:549-579`): failures of `rbd snap rm` are only
logged. -/
def deleteOldSnapshots (o : Rbd) (alwaysFull : Bool) (repo : Repo) (snaps : Dict String Bytes) :
    Except PyErr Unit × Dict String Bytes :=
  if o.snapLsFails then (.error .unexpected, snaps)
  else (.ok (), snaps.filter (fun x => !(isOld (keepSnapshot alwaysFull repo) x.1 && !o.snapRmFails x.1)))

/-- The first unreadable chunk among the candidates (`rbd/__init__.py:219-238`). -/
def firstBad (env : Env) (w : World) : List Hash → Option Hash
  | [] => none
  | h :: rest =>
    match (Chunk.new (some h)).readExisting env w with
    | .error _ => some h
    | .ok _ => firstBad env w rest

/-- The chunks `verify` checks (`rbd/__init__.py:194-218`): those of the revision that are not in a complete
local revision marked as verified. -/
def verifyCandidates (order : List Hash → List Hash) (s : Src) (r : Rev) : Except PyErr (List Hash) :=
  match usedChunks s.w ((s.repo.getHistory true true).filter (fun x => decide (x.trust = .verified))) [] with
  | .error e => .error e
  | .ok verified =>
    match mappedHashes s.w r.uuid with
    | .error e => .error e
    | .ok hs => .ok (order (hs.dedup.filter (fun h => decide (h ∉ verified))))

/-- `RBDSource.verify` (`rbd/__init__.py:194-251`) up to the garbage collection.  Deleting a chunk file succeeds. -/
def Src.verifyMark (env : Env) (order : List Hash → List Hash) (s : Src) (r : Rev) : Except PyErr Unit × Src :=
  match verifyCandidates order s r with
  | .error e => (.error e, s)
  | .ok cand =>
    match firstBad env s.w cand with
    | some h => (.ok (), { repo := s.repo.remove r, w := { s.w with chunks := s.w.chunks.erase h } })
    | none =>
      if r.server ≠ "" then (.error .assertion, s)
      else (.ok (), { s with repo := s.repo.store { r with trust := .verified } })

/-- `RBDSource.verify` (`rbd/__init__.py:191-253`) without the lock. -/
def Src.verify (env : Env) (order : List Hash → List Hash) (s : Src) (r : Rev) : Except PyErr Unit × Src :=
  match Src.verifyMark env order s r with
  | (.error e, s) => (.error e, s)
  | (.ok (), s) => s.gc

/-- The verification after a backup (`rbd/__init__.py:175-188`). -/
def verifyDistrusted (env : Env) (o : Rbd) (s : Src) : Except PyErr Unit × Src :=
  match ((s.repo.scan.getHistory true true).reverse.find? (fun r => decide (r.trust = .distrusted))) with
  | none => (.ok (), { s with repo := s.repo.scan })
  | some r => Src.verify env o.order { s with repo := s.repo.scan } r

/-- The revision with the statistics of a finished backup (`rbd/__init__.py:167`, `540`). -/
def finished (o : Rbd) (r : Rev) : Rev :=
  { r with stats := (r.stats.set "ceph-verification" 0).set "duration" o.duration }

/-- The end of `backup` after the outcome is known (`rbd/__init__.py:163-189`). -/
def conclude (env : Env) (o : Rbd) (r : Rev) (verified : Bool) (s : Src) : Except PyErr Bool × Src :=
  match verifyDistrusted env o (if verified then { s with repo := s.repo.store (finished o r) } else { s with repo := s.repo.remove r }) with
  | (.error e, s) => (.error e, s)
  | (.ok (), s) => (.ok verified, s)

/-- `except BackendException` (`rbd/__init__.py:157-162`) and the rest of `backup`. `find_revisions("local")` is the
local history (`repository.py:445`). -/
def afterSnapshot (env : Env) (o : Rbd) (r : Rev) (res : Except PyErr Bool) (s : Src) : Except PyErr Bool × Src :=
  match res with
  | .ok verified => conclude env o r verified s
  | .error .backend =>
    match s.repo.distrust s.repo.localHistory with
    | (.error e, repo) => (.error e, { s with repo })
    | (.ok (), repo) => conclude env o r false { s with repo }
  | .error e => (.error e, s)

/-- The outcome of a `with` block: an exception in `__exit__` replaces the result of the body (Python). -/
def exitWith {α : Type} (body : Except PyErr α) (exit : Except PyErr Unit) : Except PyErr α :=
  match exit with
  | .error e => .error e
  | .ok () => body

/-- The state when the snapshot has been created (`rbd/__init__.py:418-426`). -/
def Sys.snapshot (s : Sys) (r : Rev) : Sys :=
  { s with ceph := { s.ceph with snaps := s.ceph.snaps ++ [(snapName r.uuid, s.ceph.image)],
                                 taken := s.ceph.taken.set r.uuid s.ceph.image } }

/-- `RBDSource.backup` (`rbd/__init__.py:130-189`) without the locks. -/
def backup (env : Env) (alwaysFull : Bool) (o : Rbd) (r : Rev) (s : Sys) : Except PyErr Bool × Sys :=
  if o.ready = false then (.error .runtime, s)
  else if o.snapCreateFails = true ∨ s.ceph.snaps.has (snapName r.uuid) = true then (.error .unexpected, s)
  else
    let s1 := s.snapshot r
    let body := backupBody env alwaysFull o r s.ceph.image s1
    let del := deleteOldSnapshots o alwaysFull s.src.repo s1.ceph.snaps
    let fin := afterSnapshot env o r (exitWith body.1 del.1) { s.src with w := body.2 }
    (fin.1, { src := fin.2, ceph := { s1.ceph with snaps := del.2 } })

/-- A fresh process (`source.py:219-220`): a new `Repository` object is connected and scanned, a new `Store`
object created. -/
def Sys.connect (s : Sys) : Sys :=
  { s with src := { repo := s.src.repo.scan, w := s.src.w.fresh } }

/-- `Repository.find_by_uuid` (`repository.py:516-524`). -/
def findByUuid (repo : Repo) (uuid : String) : Except PyErr Rev :=
  match repo.history.find? (fun r => decide (r.uuid = uuid)) with
  | none => .error .index
  | some r => .ok r

/-- `backy-rbd backup <uuid>` (`source.py:194-244`): the exit code. -/
def mainBackup (env : Env) (alwaysFull : Bool) (o : Rbd) (uuid : String) (s : Sys) : Nat × Sys :=
  match findByUuid s.connect.src.repo uuid with
  | .error _ => (1, s.connect)
  | .ok r =>
    match backup env alwaysFull o r s.connect with
    | (.error _, s) => (1, s)
    | (.ok true, s) => (0, s)
    | (.ok false, s) => (1, s)

/-- `Revision.create` (`revision.py:34-72`): a new local revision. -/
def newRev (uuid : String) (ts : Int) (tags : Finset String) : Rev :=
  { uuid, ts, stats := [("bytes_written", 0)], trust := .trusted, tags, origTags := ∅, server := "" }

/-- `backy backup` in the foreground (`cli/__init__.py:255-264`) and the backup part of the daemon's loop
(`daemon/scheduler.py:258-261`, `288-295`): remove incomplete revisions *according to the history in
memory*, write the metadata of a new revision and run `backy-rbd backup`. -/
def runBackup (env : Env) (alwaysFull : Bool) (o : Rbd) (uuid : String) (ts : Int) (tags : Finset String) (s : Sys) :
    Nat × Sys :=
  mainBackup env alwaysFull o uuid
    { s with src := { s.src with repo := s.src.repo.clean.writeInfo (newRev uuid ts tags) } }

end Verif.Backup
