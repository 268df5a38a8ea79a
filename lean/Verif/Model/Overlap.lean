import Verif.Model.Backup
/-!
# Reading while other processes write: `restore` and `verify`

`restore` and `verify` hold the `.purge` lock in shared mode only (`rbd/__init__.py:190`, `270`), so backups and others work on
the same directory at the same time.  The functions below are those of `Model/Chunked.lean`, `Model/Files.lean` and
`Model/Backup.lean`, except that every access to a chunk file sees the directory as it is at that moment: `at_ n` is the
directory at the `n`-th access.  (The mapping file is read once, when the image is opened, `rbd/chunked/file.py:82-91`; a
chunk file is opened and read as a whole, `rbd/chunked/chunk.py:47-57`, and replaced atomically, `Model/Fs.lean`.)
-/
namespace Verif.Overlap
open Verif Verif.Chunked Verif.Rbd Verif.Repo Verif.Files Verif.Backup

/-- The loop of `File.read` (`rbd/chunked/file.py:213-222`); accesses are counted by the calls of `time.time()`. -/
def readLoop (env : Env) (at_ : Nat → World) : Nat → S → Int → Bytes → Except PyErr Bytes × S
  | fuel, s, size, acc =>
    if size = 0 then (.ok acc, s)
    else
      match fuel with
      | 0 => (.error .diverge, s)
      | fuel + 1 =>
        match s.currentChunk env with
        | (.error e, s) => (.error e, s)
        | (.ok (id, offset), s) =>
          match s.f.chunks.get? id with
          | none => (.error .key, s)
          | some c =>
            match c.read env (at_ s.w.tick) offset size with
            | .error e => (.error e, s)
            | .ok (data, size, c) =>
              let s := { s with f := { s.f with chunks := s.f.chunks.set id c } }
              if data = [] then (.error .value, s)
              else
                readLoop env at_ fuel { s with f := { s.f with pos := s.f.pos + data.length } } size
                  (acc ++ data)

/-- `File.read` (`rbd/chunked/file.py:205-222`). -/
def read (env : Env) (at_ : Nat → World) (size : Int) (s : S) : Except PyErr Bytes × S :=
  if s.f.mode.r = false ∨ s.f.closed = true then (.error .assertion, s)
  else
    let maxSize : Int := (s.f.size : Int) - s.f.pos
    let size := if size = -1 then maxSize else min size maxSize
    readLoop env at_ (size.toNat + s.f.mapping.length + s.f.chunks.length + 2) s size []

/-- The loop of `copy` (`utils.py:317-322`). -/
def copyLoop (env : Env) (at_ : Nat → World) : Nat → S → PFile → Except PyErr Unit × S × PFile
  | 0, s, t => (.error .diverge, s, t)
  | fuel + 1, s, t =>
    match read env at_ env.blk s with
    | (.error e, s) => (.error e, s, t)
    | (.ok chunk, s) =>
      if chunk = [] then (.ok (), s, t)
      else copyLoop env at_ fuel s (t.write chunk)

/-- `copy` (`utils.py:298-335`). -/
def copy (env : Env) (at_ : Nat → World) (s : S) (t : PFile) : Except PyErr Unit × S × PFile :=
  match s.seek env 0 .end_ with
  | (.error e, s) => (.error e, s, t)
  | (.ok _, s) =>
    match s.seek env 0 .set with
    | (.error e, s) => (.error e, s, t)
    | (.ok _, s) =>
      match copyLoop env at_ (s.f.size + 1) s t with
      | (.error e, s, t) => (.error e, s, t)
      | (.ok (), s, t) => (.ok (), s, t.truncate s.f.pos)

/-- `restore_file` (`rbd/__init__.py:326-337`). -/
def restoreFile (env : Env) (at_ : Nat → World) (s : S) (target : Option Bytes) : Except PyErr Unit × S × Bytes :=
  match copy env at_ s ⟨target.getD [], 0⟩ with
  | (r, s, t) => (r, s, t.content)

/-- The loop of `restore_stdout` (`rbd/__init__.py:347-352`). -/
def stdoutLoop (env : Env) (at_ : Nat → World) : Nat → S → Bytes → Except PyErr Unit × S × Bytes
  | 0, s, out => (.error .diverge, s, out)
  | fuel + 1, s, out =>
    match read env at_ env.blk s with
    | (.error e, s) => (.error e, s, out)
    | (.ok chunk, s) =>
      if chunk = [] then (.ok (), s, out)
      else stdoutLoop env at_ fuel s (out ++ chunk)

/-- `RBDSource.restore` to a file with the Python backend (`rbd/__init__.py:272-287`), started in `w`. -/
def restore (env : Env) (at_ : Nat → World) (w : World) (r : Rev) (target : Option Bytes) : Except PyErr Unit × Option Bytes :=
  match File.open w r.uuid rb with
  | .error e => (.error e, target)
  | .ok s =>
    match restoreFile env at_ s target with
    | (res, _, t) => (res, some t)

/-- `RBDSource.restore` to standard output (`rbd/__init__.py:272-287`), started in `w`. -/
def restoreOut (env : Env) (at_ : Nat → World) (w : World) (r : Rev) : Except PyErr Unit × Bytes :=
  match File.open w r.uuid rb with
  | .error e => (.error e, [])
  | .ok s =>
    match stdoutLoop env at_ (s.f.size + 1) s [] with
    | (res, _, out) => (res, out)

/-- The first unreadable chunk among the candidates of `verify` (`rbd/__init__.py:219-238`). -/
def firstBad (env : Env) (at_ : Nat → World) : List Hash → Nat → Option Hash
  | [], _ => none
  | h :: rest, n =>
    match (Chunk.new (some h)).readExisting env (at_ n) with
    | .error _ => some h
    | .ok _ => firstBad env at_ rest (n + 1)

/-- The outcome of `verify` for the revision (`rbd/__init__.py:194-251`), started with `s`: `true` if it is marked as verified,
`false` if it is removed. -/
def verdict (env : Env) (order : List Hash → List Hash) (at_ : Nat → World) (s : Src) (r : Rev) : Except PyErr Bool :=
  match verifyCandidates order s r with
  | .error e => .error e
  | .ok cand =>
    match firstBad env at_ cand 0 with
    | some _ => .ok false
    | none => if r.server ≠ "" then .error .assertion else .ok true

end Verif.Overlap
