import Verif.Model.Backup
/-!
# A backup on a disk that may be full

`Model/Chunked.lean` and `Model/Backup.lean` assume that writing succeeds.  The functions below are the same functions of the code
(`rbd/chunked/chunk.py`, `rbd/chunked/file.py`, `rbd/rbd.py`, `rbd/__init__.py:106-253`), except that every write to the disk may
fail with `OSError` (no space left on the device, an input/output error).  `d n` says what happens to the `n`-th write.  After a
failure the code goes on as Python does: the exception leaves the `with` block, `File.__exit__` closes the file and thereby
*writes again* everything that is still in its buffers, the snapshots are removed, the process ends with the exit code 1.

Simplifications: reading, unlinking and the calls of `rbd` do not fail here in other ways than in `Model/Backup.lean`; the temporary
files that a failed write leaves behind (`chunk.py:126`, `utils.py:124-126`) do not count as chunk or revision files
(`rbd/chunked/store.py:56`, `repository.py:214`) and are not modelled.
-/
namespace Verif.FullDisk
open Verif Verif.Chunked Verif.Spec Verif.Rbd Verif.Repo Verif.Files Verif.Diff Verif.Backup

/-- What happens to a write: it succeeds, it fails, or everything is written and the error is reported at the end (by
`os.fsync`, for example; no line of its own). -/
inductive Write
  | done
  | failed
  | late
deriving DecidableEq, Repr

/-- What happens to the `n`-th write of a process (no line of its own). -/
abbrev Drive := Nat → Write

/-- A `File` object and the directory, the number of writes so far, whether one of them has failed (no line of its own). -/
structure T where
  s : S
  n : Nat
  failed : Bool

/-- The directory after a process has written to it (no line of its own). -/
structure Written where
  w : World
  n : Nat
  failed : Bool

/-- The content of the buffer has been hashed (`rbd/chunked/chunk.py:119`). -/
def T.hashed (t : T) (b : Bytes) : T := { t with s := { t.s with w := { t.s.w with log := b :: t.s.w.log } } }

/-- `self.store.seen.add(self.hash)` (`rbd/chunked/chunk.py:135`). -/
def T.see (t : T) (h : Hash) : T := { t with s := { t.s with w := { t.s.w with seen := h :: t.s.w.seen } } }

/-- A chunk file has been written and renamed (`rbd/chunked/chunk.py:126-134`). -/
def T.putChunk (t : T) (h : Hash) (b : Bytes) : T :=
  { t with s := { t.s with w := { t.s.w with chunks := t.s.w.chunks.set h (some b) } }, n := t.n + 1 }

/-- A write has failed (no line of its own). -/
def T.fail (t : T) : T := { t with n := t.n + 1, failed := true }

/-- The attributes of a chunk change (`rbd/chunked/chunk.py:119`, `136`). -/
def T.setChunk (t : T) (id : Nat) (c : Chunk) : T :=
  { t with s := { t.s with f := { t.s.f with chunks := t.s.f.chunks.set id c } } }

/-- `self._mapping[id] = hash` (`rbd/chunked/file.py:118`). -/
def T.setMapping (t : T) (id : Nat) (h : Hash) : T :=
  { t with s := { t.s with f := { t.s.f with mapping := t.s.f.mapping.set id h } } }

/-- Writing the chunk file if necessary (`rbd/chunked/chunk.py:121-135`).  The rename is the last step: if anything fails there is
no new chunk file. -/
def storeChunk (d : Drive) (h : Hash) (b : Bytes) (t : T) : Except PyErr Unit × T :=
  if h ∈ t.s.w.seen then (.ok (), t)
  else if t.s.w.force = true ∨ t.s.w.chunks.has h = false then
    if d t.n = .done then (.ok (), (t.putChunk h b).see h) else (.error .os, t.fail)
  else (.ok (), t.see h)

/-- `Chunk.flush` (`rbd/chunked/chunk.py:110-137`) of the chunk `c = self._chunks[id]`: if writing fails the chunk has the new hash
already but is still not clean. -/
def flushChunk (env : Env) (d : Drive) (id : Nat) (c : Chunk) (t : T) : Except PyErr (Option Hash) × T :=
  if c.clean then (.ok none, t)
  else
    match c.data with
    | none => (.error .assertion, t)
    | some b =>
      match storeChunk d (env.H b) b (t.hashed b) with
      | (.error e, t) => (.error e, t.setChunk id { c with hash := some (env.H b) })
      | (.ok (), t) => (.ok (some (env.H b)), t.setChunk id { c with hash := some (env.H b), clean := true })

/-- The loop of `_flush_chunks` (`rbd/chunked/file.py:115-118`). -/
def flushList (env : Env) (d : Drive) : List (Nat × Chunk) → T → Except PyErr Unit × T
  | [], t => (.ok (), t)
  | (id, c) :: rest, t =>
    match flushChunk env d id c t with
    | (.error e, t) => (.error e, t)
    | (.ok none, t) => flushList env d rest t
    | (.ok (some h), t) => flushList env d rest (t.setMapping id h)

/-- `self._chunks = dict(keep_chunks)` (`rbd/chunked/file.py:120`). -/
def T.keep (t : T) (chunks : Dict Nat Chunk) : T := { t with s := { t.s with f := { t.s.f with chunks } } }

/-- `File._flush_chunks` (`rbd/chunked/file.py:104-120`): after an exception all chunks are still there. -/
def flushChunks (env : Env) (d : Drive) (target : Nat) (t : T) : Except PyErr Unit × T :=
  if t.s.f.chunks.length < 2 * target then (.ok (), t)
  else
    match flushList env d (t.s.f.sortedChunks.drop target) t with
    | (.error e, t') => (.error e, t')
    | (.ok (), t') => (.ok (), t'.keep (t.s.f.sortedChunks.take target))

/-- The mapping file has some content (`rbd/chunked/file.py:127-130`). -/
def T.putMapping (t : T) (m : Option Meta) : T :=
  { t with s := { t.s with w := { t.s.w with metas := t.s.w.metas.set t.s.f.name m } } }

/-- Writing the mapping file (`rbd/chunked/file.py:127-130`) in place: if this fails, the file is empty or cut, which is not JSON. -/
def writeMapping (d : Drive) (t : T) : Except PyErr Unit × T :=
  match d t.n with
  | .done => (.ok (), { t.putMapping (some ⟨t.s.f.mapping, t.s.f.size⟩) with n := t.n + 1 })
  | .failed => (.error .os, (t.putMapping none).fail)
  | .late => (.error .os, (t.putMapping (some ⟨t.s.f.mapping, t.s.f.size⟩)).fail)

/-- `File.flush` (`rbd/chunked/file.py:122-130`). -/
def flush (env : Env) (d : Drive) (t : T) : Except PyErr Unit × T :=
  if t.s.f.mode.w = false ∨ t.s.f.closed = true then (.error .assertion, t)
  else
    match flushChunks env d 0 t with
    | (.error e, t) => (.error e, t)
    | (.ok (), t) => writeMapping d t

/-- `self.closed = True` (`rbd/chunked/file.py:136`). -/
def T.close (t : T) : T := { t with s := { t.s with f := { t.s.f with closed := true } } }

/-- `File.close` (`rbd/chunked/file.py:132-136`). -/
def close (env : Env) (d : Drive) (t : T) : Except PyErr Unit × T :=
  if t.s.f.closed = true then (.error .assertion, t)
  else if t.s.f.mode.w = true then
    match flush env d t with
    | (.error e, t) => (.error e, t)
    | (.ok (), t) => (.ok (), t.close)
  else (.ok (), t.close)

/-- Make sure that there is a `Chunk` object (`rbd/chunked/file.py:241-247`). -/
def ensureChunk (env : Env) (d : Drive) (id : Nat) (t : T) : Except PyErr Unit × T :=
  if t.s.f.chunks.has id = true then (.ok (), t)
  else
    match flushChunks env d flushTarget t with
    | (.error e, t) => (.error e, t)
    | (.ok (), t) => (.ok (), t.setChunk id (Chunk.new (t.s.f.mapping.get? id)))

/-- The access statistics (`rbd/chunked/file.py:248-249`). -/
def T.touch (env : Env) (t : T) (id : Nat) : T :=
  { t with s := { f := { t.s.f with stats := t.s.f.stats.set id ((t.s.f.stat id).1 + 1, env.now t.s.w.tick) },
                  w := { t.s.w with tick := t.s.w.tick + 1 } } }

/-- `File._current_chunk` (`rbd/chunked/file.py:238-250`). -/
def currentChunk (env : Env) (d : Drive) (t : T) : Except PyErr (Nat × Nat) × T :=
  match ensureChunk env d (t.s.f.pos / env.cs) t with
  | (.error e, t') => (.error e, t')
  | (.ok (), t') => (.ok (t.s.f.pos / env.cs, t.s.f.pos % env.cs), t'.touch env (t.s.f.pos / env.cs))

/-- After writing to a chunk (`rbd/chunked/file.py:234-236`). -/
def T.afterWrite (t : T) (id : Nat) (c : Chunk) (written : Nat) : T :=
  { t with s := { t.s with f := { t.s.f with chunks := t.s.f.chunks.set id c, pos := t.s.f.pos + written,
                                             size := max t.s.f.size (t.s.f.pos + written) } } }

/-- The loop of `File.write` (`rbd/chunked/file.py:231-236`). -/
def writeLoop (env : Env) (d : Drive) (t : T) (data : Bytes) : Except PyErr Unit × T :=
  if data = [] then (.ok (), t)
  else
    match currentChunk env d t with
    | (.error e, t) => (.error e, t)
    | (.ok (id, offset), t) =>
      match t.s.f.chunks.get? id with
      | none => (.error .key, t)
      | some c =>
        match c.write env t.s.w offset data with
        | .error e => (.error e, t)
        | .ok (written, rest, c) =>
          if _hr : rest.length < data.length then writeLoop env d (t.afterWrite id c written) rest
          else (.error .diverge, t)
termination_by data.length

/-- `File.write` (`rbd/chunked/file.py:227-236`). -/
def write (env : Env) (d : Drive) (data : Bytes) (t : T) : Except PyErr Unit × T :=
  if t.s.f.mode.w = false ∨ t.s.f.closed = true then (.error .assertion, t)
  else writeLoop env d t data

/-- The fill loop of `File.seek` (`rbd/chunked/file.py:177-181`). -/
def fill (env : Env) (d : Drive) (t : T) (filler : Nat) : Except PyErr Unit × T :=
  if _hf : filler = 0 then (.ok (), t)
  else
    match write env d (zeros (min filler env.blk)) t with
    | (.error e, t) => (.error e, t)
    | (.ok (), t) => fill env d t (filler - min filler env.blk)
termination_by filler
decreasing_by have := env.blk_pos; omega

/-- `self._position = …` (`rbd/chunked/file.py:173`, `188`). -/
def T.at_ (t : T) (pos : Nat) : T := { t with s := { t.s with f := { t.s.f with pos } } }

/-- `File.seek` (`rbd/chunked/file.py:154-189`). -/
def seek (env : Env) (d : Drive) (offset : Int) (whence : Whence) (t : T) : Except PyErr Nat × T :=
  if t.s.f.closed = true then (.error .assertion, t)
  else
    match t.s.f.seekTarget offset whence with
    | .error e => (.error e, t)
    | .ok position =>
      if position < 0 then (.error .value, t)
      else if position.toNat > t.s.f.size then
        match fill env d (t.at_ t.s.f.size) (position.toNat - t.s.f.size) with
        | (.error e, t) => (.error e, t)
        | (.ok (), t) =>
          if t.s.f.pos = position.toNat ∧ t.s.f.size = position.toNat then (.ok position.toNat, t)
          else (.error .assertion, t)
      else (.ok position.toNat, t.at_ position.toNat)

/-- The size and the mapping after `truncate` (`rbd/chunked/file.py:196-202`). -/
def T.cut (env : Env) (t : T) (n : Nat) : T :=
  { t with s := { t.s with f := { t.s.f with
      size := n, mapping := t.s.f.mapping.filter (fun e => decide (¬ e.1 * env.cs > n)) } } }

/-- `File.truncate` (`rbd/chunked/file.py:191-203`). -/
def truncate (env : Env) (d : Drive) (size : Option Nat) (t : T) : Except PyErr Unit × T :=
  if t.s.f.mode.w = false ∨ t.s.f.closed = true then (.error .assertion, t)
  else flush env d (t.cut env (size.getD t.s.f.pos))

/-- The calls that store an image (no line of its own). -/
inductive Call
  | seek (offset : Nat)
  | write (data : Bytes)
  | truncate

/-- A call of `File` (`rbd/chunked/file.py:154`, `191`, `227`). -/
def call (env : Env) (d : Drive) (t : T) : Call → Except PyErr Unit × T
  | .seek o =>
    match seek env d o .set t with
    | (.error e, t) => (.error e, t)
    | (.ok _, t) => (.ok (), t)
  | .write b => write env d b t
  | .truncate => truncate env d none t

/-- A sequence of method calls that stops at the first exception (no line of its own). -/
def exec (env : Env) (d : Drive) : List Call → T → Except PyErr Unit × T
  | [], t => (.ok (), t)
  | c :: cs, t =>
    match call env d t c with
    | (.error e, t) => (.error e, t)
    | (.ok (), t) => exec env d cs t

/-- `punch_hole` (`utils.py:639-649`, `599-611`). -/
def punchHole (env : Env) (d : Drive) (offset length : Nat) (t : T) : Except PyErr Unit × T :=
  if length = 0 then (.error .os, t)
  else exec env d [.seek offset, .write (zeros length), .seek t.s.f.pos] t

/-- The body of the loops of `integrate` (`rbd/rbd.py:307-314`, `316-323`). -/
def applyRec (env : Env) (d : Drive) (snapFrom snapTo : Bytes) (t : T) : Rec → Except PyErr Unit × T
  | .size n => exec env d [.seek n, .truncate] t
  | .fromSnap b => if b = snapFrom then (.ok (), t) else (.error .assertion, t)
  | .toSnap b => if b = snapTo then (.ok (), t) else (.error .assertion, t)
  | .zero start length =>
    match exec env d [.seek start] t with
    | (.error e, t) => (.error e, t)
    | (.ok (), t) => punchHole env d t.s.f.pos length t
  | .data start _ chunks => exec env d (.seek start :: chunks.map .write) t

/-- Apply records until the first exception (`rbd/rbd.py:307-323`). -/
def applyRecs (env : Env) (d : Drive) (snapFrom snapTo : Bytes) : List Rec → T → Except PyErr Unit × T
  | [], t => (.ok (), t)
  | r :: rest, t =>
    match applyRec env d snapFrom snapTo t r with
    | (.error e, t) => (.error e, t)
    | (.ok (), t) => applyRecs env d snapFrom snapTo rest t

/-- `RBDDiffV1(stream).integrate(…)` (`rbd/rbd.py:203-210`, `303-326`). -/
def integrate (env : Env) (d : Drive) (stream : Bytes) (snapFrom snapTo : Bytes) (t : T) : Except PyErr Unit × T :=
  match applyRecs env d snapFrom snapTo (decode env stream).1 t with
  | (.error e, t) => (.error e, t)
  | (.ok (), t) =>
    match (decode env stream).2 with
    | some e => (.error e, t)
    | none => (.ok (), t)

/-- `CephRBD.full` (`rbd/__init__.py:522-530`). -/
def full (env : Env) (d : Drive) (out : Bytes) (t : T) : Except PyErr Unit × T :=
  exec env d ((streamChunks env.blk env.blk_pos out.length out).1.map .write) t

/-- `CephRBD.diff` (`rbd/__init__.py:513-520`) or `full`. -/
def transfer (env : Env) (d : Drive) (o : Rbd) (uuid : String) (parent : Option Rev) (t : T) : Except PyErr Unit × T :=
  match parent with
  | some p => integrate env d (o.diffOut p.uuid) (ascii (snapName p.uuid)) (ascii (snapName uuid)) t
  | none => full env d o.exportOut t

/-- What is left when the `File` object is gone (no line of its own). -/
def T.left (t : T) : Written := ⟨t.s.w, t.n, t.failed⟩

/-- The end of the `with file:` block (`rbd/chunked/file.py:256-257`): the file is closed, which writes the remaining chunks and the
mapping, also after an exception. -/
def closing (env : Env) (d : Drive) (r : Except PyErr Unit × T) : Except PyErr Unit × Written :=
  match close env d r.2 with
  | (.error e, t) => (.error e, t.left)
  | (.ok (), t) => (r.1, t.left)

/-- `Path.open("wb")` and copying the parent's mapping file (`rbd/__init__.py:112-118`) where this may fail: the new file is cut. -/
def copyFails (d : Drive) (w : World) (uuid : String) (parent : Option Rev) : Option World :=
  match parent with
  | none => none
  | some p =>
    if w.metas.has uuid then none
    else
      match w.metas.get? p.uuid with
      | none => none
      | some m =>
        match d 0 with
        | .done => none
        | .failed => some { w with metas := w.metas.set uuid none }
        | .late => some { w with metas := w.metas.set uuid m }

/-- `with self.open(revision, "wb", parent_rev) as file: diff or full` (`rbd/__init__.py:148-152`). The first write of the process is
the copy of the parent's mapping file. -/
def writePhase (env : Env) (d : Drive) (o : Rbd) (uuid : String) (parent : Option Rev) (s : Src) : Except PyErr Unit × Written :=
  match copyFails d s.w uuid parent with
  | some w => (.error .os, ⟨w, 1, true⟩)
  | none =>
    match openWrite s uuid parent with
    | (.error e, w) => (.error e, ⟨w, 1, false⟩)
    | (.ok f, _) => closing env d (transfer env d o uuid parent ⟨f, 1, false⟩)

/-- The body of `with self.ceph_rbd(revision) as source:` (`rbd/__init__.py:147-156`).  The comparison writes nothing. -/
def backupBody (env : Env) (d : Drive) (alwaysFull : Bool) (o : Rbd) (r : Rev) (snap : Bytes) (s : Sys) :
    Except PyErr Bool × Written :=
  match cephGetParent alwaysFull s.ceph.snaps o.infoFails s.src.repo r with
  | .error e => (.error e, ⟨s.src.w, 0, false⟩)
  | .ok parent =>
    match writePhase env d o r.uuid parent s.src with
    | (.error e, x) => (.error e, x)
    | (.ok (), x) => ((verifyPhase env o r.uuid snap x.w).1, { x with w := (verifyPhase env o r.uuid snap x.w).2 })

/-- `revision.verify(); revision.write_info()` at the end of `RBDSource.verify` (`rbd/__init__.py:241-243`), or the removal of the
revision, which is not a write. `SafeFile` (`utils.py:115-138`) renames last: if anything fails, the file on disk is the old one. -/
def verifyMark (env : Env) (d : Drive) (n : Nat) (order : List Hash → List Hash) (s : Src) (r : Rev) : Except PyErr Unit × Src :=
  match verifyCandidates order s r with
  | .error e => (.error e, s)
  | .ok cand =>
    match firstBad env s.w cand with
    | some h => (.ok (), { repo := s.repo.remove r, w := { s.w with chunks := s.w.chunks.erase h } })
    | none =>
      if r.server ≠ "" then (.error .assertion, s)
      else if d n = .done then (.ok (), { s with repo := s.repo.store { r with trust := .verified } })
      else (.error .os, s)

/-- `RBDSource.verify` (`rbd/__init__.py:191-253`) without the lock. -/
def verify (env : Env) (d : Drive) (n : Nat) (order : List Hash → List Hash) (s : Src) (r : Rev) : Except PyErr Unit × Src :=
  match verifyMark env d n order s r with
  | (.error e, s) => (.error e, s)
  | (.ok (), s) => s.gc

/-- The verification after a backup (`rbd/__init__.py:175-188`). -/
def verifyDistrusted (env : Env) (d : Drive) (n : Nat) (o : Rbd) (s : Src) : Except PyErr Unit × Src :=
  match ((s.repo.scan.getHistory true true).reverse.find? (fun r => decide (r.trust = .distrusted))) with
  | none => (.ok (), { s with repo := s.repo.scan })
  | some r => verify env d n o.order { s with repo := s.repo.scan } r

/-- The end of `backup` after the outcome is known (`rbd/__init__.py:163-189`): the completed revision is written, or the revision is
removed. -/
def conclude (env : Env) (d : Drive) (n : Nat) (o : Rbd) (r : Rev) (verified : Bool) (s : Src) : Except PyErr Bool × Src :=
  if verified = true ∧ d n ≠ .done then (.error .os, s)
  else
    match verifyDistrusted env d (if verified then n + 1 else n) o
        (if verified then { s with repo := s.repo.store (finished o r) } else { s with repo := s.repo.remove r }) with
    | (.error e, s) => (.error e, s)
    | (.ok (), s) => (.ok verified, s)

/-- `Repository.distrust` (`repository.py:348-353`): it stops at the first file that cannot be written. -/
def distrust (d : Drive) : Nat → Repo → List Rev → Except PyErr Unit × Repo
  | _, s, [] => (.ok (), s)
  | n, s, r :: rest =>
    if r.server ≠ "" then (.error .assertion, s)
    else if d n = .done then distrust d (n + 1) (s.store { r with trust := .distrusted }) rest
    else (.error .os, s)

/-- `except BackendException` (`rbd/__init__.py:157-162`) and the rest of `backup`. -/
def afterSnapshot (env : Env) (d : Drive) (n : Nat) (o : Rbd) (r : Rev) (res : Except PyErr Bool) (s : Src) :
    Except PyErr Bool × Src :=
  match res with
  | .ok verified => conclude env d n o r verified s
  | .error .backend =>
    match distrust d n s.repo s.repo.localHistory with
    | (.error e, repo) => (.error e, { s with repo })
    | (.ok (), repo) => conclude env d (n + s.repo.localHistory.length) o r false { s with repo }
  | .error e => (.error e, s)

/-- `RBDSource.backup` (`rbd/__init__.py:130-189`) without the locks. -/
def backup (env : Env) (d : Drive) (alwaysFull : Bool) (o : Rbd) (r : Rev) (s : Sys) : Except PyErr Bool × Sys :=
  if o.ready = false then (.error .runtime, s)
  else if o.snapCreateFails = true ∨ s.ceph.snaps.has (snapName r.uuid) = true then (.error .unexpected, s)
  else
    let body := backupBody env d alwaysFull o r s.ceph.image (s.snapshot r)
    let del := deleteOldSnapshots o alwaysFull s.src.repo (s.snapshot r).ceph.snaps
    let fin := afterSnapshot env d body.2.n o r (exitWith body.1 del.1) { s.src with w := body.2.w }
    (fin.1, { src := fin.2, ceph := { (s.snapshot r).ceph with snaps := del.2 } })

/-- `backy-rbd backup <uuid>` (`source.py:194-244`): the exit code. -/
def mainBackup (env : Env) (d : Drive) (alwaysFull : Bool) (o : Rbd) (uuid : String) (s : Sys) : Nat × Sys :=
  match findByUuid s.connect.src.repo uuid with
  | .error _ => (1, s.connect)
  | .ok r =>
    match backup env d alwaysFull o r s.connect with
    | (.error _, s) => (1, s)
    | (.ok true, s) => (0, s)
    | (.ok false, s) => (1, s)

/-- `backy backup` (`cli/__init__.py:255-264`) and the backup part of the daemon's loop (`daemon/scheduler.py:258-261`, `288-295`):
the metadata of the new revision is the first thing that is written (`first` says what happens to this write), then the other process
starts.  If it cannot be written, the command ends with an exception, the daemon with exit code 1 of the attempt. -/
def runBackup (env : Env) (first : Write) (d : Drive) (alwaysFull : Bool) (o : Rbd) (uuid : String) (ts : Int)
    (tags : Finset String) (s : Sys) : Nat × Sys :=
  if first = .done then
    mainBackup env d alwaysFull o uuid { s with src := { s.src with repo := s.src.repo.clean.writeInfo (newRev uuid ts tags) } }
  else (1, { s with src := { s.src with repo := s.src.repo.clean } })

end Verif.FullDisk
