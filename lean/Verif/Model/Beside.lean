import Verif.Model.Backup
/-!
# Writing while others work on the same directory: the transfer of a backup

A backup holds the `.purge` lock in shared mode (`rbd/__init__.py:130-131`), so restores and verifications
(`rbd/__init__.py:191`, `327`, `339`) work on the same directory at the same time, and so do the exchanges with other servers,
whose decorator does not protect them (`Model/Locks.lean`).  The functions below are those of `Model/Chunked.lean`, `Model/ChunkedOps.lean`, `Model/Diff.lean`,
`Model/Files.lean` and `Model/Backup.lean`, except that the others get a turn before every access to a chunk file or a mapping
file: `i n` is what they do before the `n`-th access.

Simplifications: the test whether a chunk file exists and writing it are one access (`Model/FsConc.lean` splits them), and so is
writing the mapping file.  The body of `backup` does not look at the revision files (it works with the list in its memory), so
what others do to these needs no turns.
-/
namespace Verif.Beside
open Verif Verif.Chunked Verif.Spec Verif.Rbd Verif.Repo Verif.Files Verif.Diff Verif.Backup

/-- What the others do to the directory before the `n`-th access (no line of its own). -/
abbrev Others := Nat → World → World

/-- A `File` object, the directory, and the number of accesses so far (no line of its own). -/
structure T where
  s : S
  n : Nat

/-- The others get a turn (no line of its own). -/
def T.turn (i : Others) (t : T) : T := ⟨{ t.s with w := i t.n t.s.w }, t.n + 1⟩

/-- The loop of `_flush_chunks` (`rbd/chunked/file.py:115-118`). -/
def flushList (env : Env) (i : Others) : List (Nat × Chunk) → T → Except PyErr Unit × T
  | [], t => (.ok (), t)
  | (id, c) :: rest, t =>
    match c.flush env (t.turn i).s.w with
    | .error e => (.error e, t.turn i)
    | .ok (none, _, w) => flushList env i rest ⟨⟨t.s.f, w⟩, t.n + 1⟩
    | .ok (some h, _, w) => flushList env i rest ⟨⟨{ t.s.f with mapping := t.s.f.mapping.set id h }, w⟩, t.n + 1⟩

/-- `File._flush_chunks` (`rbd/chunked/file.py:104-120`). -/
def flushChunks (env : Env) (i : Others) (target : Nat) (t : T) : Except PyErr Unit × T :=
  if t.s.f.chunks.length < 2 * target then (.ok (), t)
  else
    match flushList env i (t.s.f.sortedChunks.drop target) t with
    | (.error e, t') => (.error e, t')
    | (.ok (), t') => (.ok (), ⟨{ t'.s with f := { t'.s.f with chunks := t.s.f.sortedChunks.take target } }, t'.n⟩)

/-- Writing the mapping file (`rbd/chunked/file.py:127-130`). -/
def T.writeMapping (t : T) : T :=
  ⟨{ t.s with w := { t.s.w with metas := t.s.w.metas.set t.s.f.name (some ⟨t.s.f.mapping, t.s.f.size⟩) } }, t.n⟩

/-- `File.flush` (`rbd/chunked/file.py:122-130`). -/
def flush (env : Env) (i : Others) (t : T) : Except PyErr Unit × T :=
  if t.s.f.mode.w = false ∨ t.s.f.closed = true then (.error .assertion, t)
  else
    match flushChunks env i 0 t with
    | (.error e, t) => (.error e, t)
    | (.ok (), t) => (.ok (), (t.turn i).writeMapping)

/-- `self.closed = True` (`rbd/chunked/file.py:136`). -/
def T.closed (t : T) : T := ⟨{ t.s with f := { t.s.f with closed := true } }, t.n⟩

/-- `File.close` (`rbd/chunked/file.py:132-136`). -/
def close (env : Env) (i : Others) (t : T) : Except PyErr Unit × T :=
  if t.s.f.closed = true then (.error .assertion, t)
  else if t.s.f.mode.w = true then
    match flush env i t with
    | (.error e, t) => (.error e, t)
    | (.ok (), t) => (.ok (), t.closed)
  else (.ok (), t.closed)

/-- A new `Chunk` object (`rbd/chunked/file.py:242-247`). -/
def T.loadChunk (t : T) (id : Nat) : T :=
  ⟨{ t.s with f := { t.s.f with chunks := t.s.f.chunks.set id (Chunk.new (t.s.f.mapping.get? id)) } }, t.n⟩

/-- Make sure that there is a `Chunk` object (`rbd/chunked/file.py:241-247`). -/
def ensureChunk (env : Env) (i : Others) (id : Nat) (t : T) : Except PyErr Unit × T :=
  if t.s.f.chunks.has id = true then (.ok (), t)
  else
    match flushChunks env i flushTarget t with
    | (.error e, t) => (.error e, t)
    | (.ok (), t) => (.ok (), t.loadChunk id)

/-- The access statistics (`rbd/chunked/file.py:248-249`). -/
def T.touch (env : Env) (t : T) (id : Nat) : T :=
  ⟨{ f := { t.s.f with stats := t.s.f.stats.set id ((t.s.f.stat id).1 + 1, env.now t.s.w.tick) },
     w := { t.s.w with tick := t.s.w.tick + 1 } }, t.n⟩

/-- `File._current_chunk` (`rbd/chunked/file.py:238-250`). -/
def currentChunk (env : Env) (i : Others) (t : T) : Except PyErr (Nat × Nat) × T :=
  match ensureChunk env i (t.s.f.pos / env.cs) t with
  | (.error e, t') => (.error e, t')
  | (.ok (), t') => (.ok (t.s.f.pos / env.cs, t.s.f.pos % env.cs), t'.touch env (t.s.f.pos / env.cs))

/-- After reading from a chunk (`rbd/chunked/file.py:221`). -/
def T.afterRead (t : T) (id : Nat) (c : Chunk) (k : Nat) : T :=
  ⟨{ t.s with f := { t.s.f with chunks := t.s.f.chunks.set id c, pos := t.s.f.pos + k } }, t.n⟩

/-- The loop of `File.read` (`rbd/chunked/file.py:213-222`). -/
def readLoop (env : Env) (i : Others) : Nat → T → Int → Bytes → Except PyErr Bytes × T
  | 0, t, size, acc => if size = 0 then (.ok acc, t) else (.error .diverge, t)
  | fuel + 1, t, size, acc =>
    if size = 0 then (.ok acc, t)
    else
      match currentChunk env i t with
      | (.error e, t) => (.error e, t)
      | (.ok (id, offset), t) =>
        match t.s.f.chunks.get? id with
        | none => (.error .key, t)
        | some c =>
          match c.read env (t.turn i).s.w offset size with
          | .error e => (.error e, t.turn i)
          | .ok (data, size, c) =>
            if data = [] then (.error .value, (t.turn i).afterRead id c 0)
            else readLoop env i fuel ((t.turn i).afterRead id c data.length) size (acc ++ data)

/-- `File.read` (`rbd/chunked/file.py:205-222`). -/
def read (env : Env) (i : Others) (size : Int) (t : T) : Except PyErr Bytes × T :=
  if t.s.f.mode.r = false ∨ t.s.f.closed = true then (.error .assertion, t)
  else
    let maxSize : Int := (t.s.f.size : Int) - t.s.f.pos
    let size := if size = -1 then maxSize else min size maxSize
    readLoop env i (size.toNat + t.s.f.mapping.length + t.s.f.chunks.length + 2) t size []

/-- After writing to a chunk (`rbd/chunked/file.py:234-236`). -/
def T.afterWrite (t : T) (id : Nat) (c : Chunk) (written : Nat) : T :=
  ⟨{ t.s with f := { t.s.f with chunks := t.s.f.chunks.set id c, pos := t.s.f.pos + written,
                                size := max t.s.f.size (t.s.f.pos + written) } }, t.n⟩

/-- The loop of `File.write` (`rbd/chunked/file.py:231-236`). -/
def writeLoop (env : Env) (i : Others) (t : T) (data : Bytes) : Except PyErr Unit × T :=
  if data = [] then (.ok (), t)
  else
    match currentChunk env i t with
    | (.error e, t) => (.error e, t)
    | (.ok (id, offset), t) =>
      match t.s.f.chunks.get? id with
      | none => (.error .key, t)
      | some c =>
        match c.write env (t.turn i).s.w offset data with
        | .error e => (.error e, t.turn i)
        | .ok (written, rest, c) =>
          if _hr : rest.length < data.length then writeLoop env i ((t.turn i).afterWrite id c written) rest
          else (.error .diverge, t.turn i)
termination_by data.length

/-- `File.write` (`rbd/chunked/file.py:227-236`). -/
def write (env : Env) (i : Others) (data : Bytes) (t : T) : Except PyErr Unit × T :=
  if t.s.f.mode.w = false ∨ t.s.f.closed = true then (.error .assertion, t)
  else writeLoop env i t data

/-- The fill loop of `File.seek` (`rbd/chunked/file.py:177-181`). -/
def fill (env : Env) (i : Others) (t : T) (filler : Nat) : Except PyErr Unit × T :=
  if _hf : filler = 0 then (.ok (), t)
  else
    match write env i (zeros (min filler env.blk)) t with
    | (.error e, t) => (.error e, t)
    | (.ok (), t) => fill env i t (filler - min filler env.blk)
termination_by filler
decreasing_by have := env.blk_pos; omega

/-- `self._position = …` (`rbd/chunked/file.py:173`, `188`). -/
def T.at_ (t : T) (pos : Nat) : T := ⟨{ t.s with f := { t.s.f with pos } }, t.n⟩

/-- `File.seek` (`rbd/chunked/file.py:154-189`). -/
def seek (env : Env) (i : Others) (offset : Int) (whence : Whence) (t : T) : Except PyErr Nat × T :=
  if t.s.f.closed = true then (.error .assertion, t)
  else
    match t.s.f.seekTarget offset whence with
    | .error e => (.error e, t)
    | .ok position =>
      if position < 0 then (.error .value, t)
      else if position.toNat > t.s.f.size then
        match fill env i (t.at_ t.s.f.size) (position.toNat - t.s.f.size) with
        | (.error e, t) => (.error e, t)
        | (.ok (), t) =>
          if t.s.f.pos = position.toNat ∧ t.s.f.size = position.toNat then (.ok position.toNat, t)
          else (.error .assertion, t)
      else (.ok position.toNat, t.at_ position.toNat)

/-- The size and the mapping after `truncate` (`rbd/chunked/file.py:196-202`). -/
def T.cut (env : Env) (t : T) (n : Nat) : T :=
  ⟨{ t.s with f := { t.s.f with size := n, mapping := t.s.f.mapping.filter (fun e => decide (¬ e.1 * env.cs > n)) } }, t.n⟩

/-- `File.truncate` (`rbd/chunked/file.py:191-203`). -/
def truncate (env : Env) (i : Others) (size : Option Nat) (t : T) : Except PyErr Unit × T :=
  if t.s.f.mode.w = false ∨ t.s.f.closed = true then (.error .assertion, t)
  else flush env i (t.cut env (size.getD t.s.f.pos))

/-- `File.tell` (`rbd/chunked/file.py:147-149`). -/
def tell (t : T) : Except PyErr Nat × T :=
  if t.s.f.closed = true then (.error .assertion, t) else (.ok t.s.f.pos, t)

/-- Wrap a result value (no line of its own). -/
def outOf {α : Type} (g : α → Out) (r : Except PyErr α × T) : T × Except PyErr Out :=
  (r.2, match r.1 with
    | .ok a => .ok (g a)
    | .error e => .error e)

/-- A method call on a `File` object (`rbd/chunked/file.py:122-236`). -/
def step (env : Env) (i : Others) (t : T) : Op → T × Except PyErr Out
  | .seek o wh => outOf .nat (seek env i o wh t)
  | .write d => outOf (fun _ => .unit) (write env i d t)
  | .read n => outOf .bytes (read env i (readArg n) t)
  | .truncate => outOf (fun _ => .unit) (truncate env i none t)
  | .flush => outOf (fun _ => .unit) (flush env i t)
  | .tell => outOf .nat (tell t)
  | .close => outOf (fun _ => .unit) (close env i t)

/-- A sequence of method calls that stops at the first exception (no line of its own). -/
def exec (env : Env) (i : Others) : List Op → T → Except PyErr Unit × T
  | [], t => (.ok (), t)
  | op :: ops, t =>
    match step env i t op with
    | (t', .error e) => (.error e, t')
    | (t', .ok _) => exec env i ops t'

/-- `punch_hole` (`utils.py:639-649`, `599-611`). -/
def punchHole (env : Env) (i : Others) (offset length : Nat) (t : T) : Except PyErr Unit × T :=
  if length = 0 then (.error .os, t)
  else exec env i [.seek offset .set, .write (zeros length), .seek t.s.f.pos .set] t

/-- The body of the loops of `integrate` (`rbd/rbd.py:307-314`, `316-323`). -/
def applyRec (env : Env) (i : Others) (snapFrom snapTo : Bytes) (t : T) : Rec → Except PyErr Unit × T
  | .size n => exec env i [.seek n .set, .truncate] t
  | .fromSnap b => if b = snapFrom then (.ok (), t) else (.error .assertion, t)
  | .toSnap b => if b = snapTo then (.ok (), t) else (.error .assertion, t)
  | .zero start length =>
    match exec env i [.seek start .set] t with
    | (.error e, t) => (.error e, t)
    | (.ok (), t) => punchHole env i t.s.f.pos length t
  | .data start _ chunks => exec env i (.seek start .set :: chunks.map .write) t

/-- Apply records until the first exception (`rbd/rbd.py:307-323`). -/
def applyRecs (env : Env) (i : Others) (snapFrom snapTo : Bytes) : List Rec → T → Except PyErr Unit × T
  | [], t => (.ok (), t)
  | r :: rest, t =>
    match applyRec env i snapFrom snapTo t r with
    | (.error e, t) => (.error e, t)
    | (.ok (), t) => applyRecs env i snapFrom snapTo rest t

/-- `RBDDiffV1(stream).integrate(…)` (`rbd/rbd.py:203-210`, `303-326`). -/
def integrate (env : Env) (i : Others) (stream : Bytes) (snapFrom snapTo : Bytes) (t : T) : Except PyErr Unit × T :=
  match applyRecs env i snapFrom snapTo (decode env stream).1 t with
  | (.error e, t) => (.error e, t)
  | (.ok (), t) =>
    match (decode env stream).2 with
    | some e => (.error e, t)
    | none => (.ok (), t)

/-- `CephRBD.full` (`rbd/__init__.py:522-530`). -/
def full (env : Env) (i : Others) (out : Bytes) (t : T) : Except PyErr Unit × T :=
  exec env i ((streamChunks env.blk env.blk_pos out.length out).1.map .write) t

/-- `CephRBD.diff` (`rbd/__init__.py:513-520`) or `full`. -/
def transfer (env : Env) (i : Others) (o : Rbd) (uuid : String) (parent : Option Rev) (t : T) : Except PyErr Unit × T :=
  match parent with
  | some p => integrate env i (o.diffOut p.uuid) (ascii (snapName p.uuid)) (ascii (snapName uuid)) t
  | none => full env i o.exportOut t

/-- The end of the `with file:` block (`rbd/chunked/file.py:256-257`). -/
def closing (env : Env) (i : Others) (r : Except PyErr Unit × T) : Except PyErr Unit × World × Nat :=
  match close env i r.2 with
  | (.error e, t) => (.error e, t.s.w, t.n)
  | (.ok (), t) => (r.1, t.s.w, t.n)

/-- `with self.open(revision, "wb", parent_rev) as file: diff or full` (`rbd/__init__.py:148-152`); the others get their
first turn before the file is opened. -/
def writePhase (env : Env) (i : Others) (o : Rbd) (uuid : String) (parent : Option Rev) (s : Src) :
    Except PyErr Unit × World × Nat :=
  match openWrite { s with w := i 0 s.w } uuid parent with
  | (.error e, w) => (.error e, w, 1)
  | (.ok f, _) => closing env i (transfer env i o uuid parent ⟨f, 1⟩)

/-- The loop of `files_are_roughly_equal` (`utils.py:411-429`). -/
def roughLoop (env : Env) (i : Others) (bs : Nat) (expired : Nat → Bool) :
    List Nat → Nat → PFile → T → Except PyErr (Bool × List Mismatch) × T
  | [], _, _, t => (.ok (true, []), t)
  | block :: rest, k, a, t =>
    if expired k then (.ok (true, []), t)
    else
      match seek env i (block * bs : Nat) .set t with
      | (.error e, t) => (.error e, t)
      | (.ok _, t) =>
        match read env i bs t with
        | (.error e, t) => (.error e, t)
        | (.ok cb, t) =>
          if ((a.seek (block * bs)).read bs).1 = cb then
            roughLoop env i bs expired rest (k + 1) ((a.seek (block * bs)).read bs).2 t
          else (.ok (false, [(((a.seek (block * bs)).read bs).1, cb, block * bs)]), t)

/-- `with self.open(revision) as file: source.verify(file)` (`rbd/__init__.py:153-156`, `532-547`). -/
def verifyPhase (env : Env) (i : Others) (o : Rbd) (uuid : String) (snap : Bytes) (w : World) (n : Nat) :
    Except PyErr Bool × World :=
  match File.open (i n w) uuid rb with
  | .error e => (.error e, i n w)
  | .ok s =>
    if o.mapFails then (.error .unexpected, s.w)
    else
      match roughLoop env i env.cs o.expired o.sample 0 ⟨snap, snap.length⟩ ⟨s, n + 1⟩ with
      | (.error e, t) => (.error (if o.unmapFails then .unexpected else e), t.s.w)
      | (.ok (res, _), t) => if o.unmapFails then (.error .unexpected, t.s.w) else (.ok res, t.s.w)

/-- The body of `with self.ceph_rbd(revision) as source:` (`rbd/__init__.py:147-156`). -/
def backupBody (env : Env) (i : Others) (alwaysFull : Bool) (o : Rbd) (r : Rev) (snap : Bytes) (s : Sys) :
    Except PyErr Bool × World :=
  match cephGetParent alwaysFull s.ceph.snaps o.infoFails s.src.repo r with
  | .error e => (.error e, s.src.w)
  | .ok parent =>
    match writePhase env i o r.uuid parent s.src with
    | (.error e, w, _) => (.error e, w)
    | (.ok (), w, n) => verifyPhase env i o r.uuid snap w n

end Verif.Beside
