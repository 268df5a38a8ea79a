import Verif.Model.Base
import Verif.Model.Sort
/-!
# Chunked image files: `rbd/chunked/chunk.py`, `rbd/chunked/file.py`, `rbd/chunked/store.py`

The state is explicit: `World` is what is on disk plus the in-memory `Store` object, `File` is
the in-memory `File` object.  A Python method that may raise returns `Except PyErr α` *and* the
state reached, because callers continue to use the objects after an exception
(`File.__exit__` closes the file).

Simplifications: lzo compression is the identity (a chunk file holds either decompressible
content or not); statistics counters (`bytes_written`, `chunk_stats`) are not modelled;
`posix_fadvise`/`chmod` have no effect; disk-full and permission errors do not occur (crashes are
modelled separately in `Model/Fs.lean`).
-/
namespace Verif.Chunked
open Verif

/-- Content of the mapping file as JSON (`rbd/chunked/file.py:89-91`, `128`). -/
structure Meta where
  mapping : Dict Nat Hash
  size : Nat
deriving DecidableEq, Repr

/-- Everything on disk below the repository that concerns images, together with the attributes of
the `Store` object (`rbd/chunked/store.py:18-37`).
* `chunks`: the chunk files; `some d` decompresses to `d`, `none` makes `lzo.decompress` raise;
* `metas`: the mapping files by name; `none` is a file which is not chunked JSON;
* `seen`, `force`: `Store.seen`, `Store.force_writes`;
* `tick`: number of `time.time()` calls so far;
* `log`: ghost, every content `Chunk.flush` ever hashed.  Used only to state collision freeness. -/
structure World where
  chunks : Dict Hash (Option Bytes)
  metas : Dict String (Option Meta)
  seen : List Hash
  force : Bool
  tick : Nat
  log : List Bytes

/-- `Chunk` object (`rbd/chunked/chunk.py:25-41`); `data` is the BytesIO buffer. -/
structure Chunk where
  hash : Option Hash
  clean : Bool
  data : Option Bytes
deriving DecidableEq, Repr

/-- `Chunk.__init__` (`rbd/chunked/chunk.py:34-41`). -/
def Chunk.new (hash : Option Hash) : Chunk := { hash, clean := true, data := none }

/-- `Chunk._read_existing` (`rbd/chunked/chunk.py:43-64`).  A BytesIO object is always true, so
line 44 tests for `None` only. -/
def Chunk.readExisting (env : Env) (w : World) (c : Chunk) : Except PyErr Chunk :=
  match c.data with
  | some _ => .ok c
  | none =>
    match c.hash with
    | none => .ok { c with data := some [] }
    | some h =>
      match w.chunks.get? h with
      | none => .error .backend
      | some none => .error .backend
      | some (some d) =>
        if env.H d = h then .ok { c with data := some d } else .error .backend

/-- `BytesIO.seek(offset); BytesIO.read(size)` (builtin): a negative size reads everything. -/
def bufRead (buf : Bytes) (offset : Nat) (size : Int) : Bytes :=
  if size < 0 then buf.drop offset else (buf.drop offset).take size.toNat

/-- `Chunk.read` (`rbd/chunked/chunk.py:69-82`): data, remaining size, chunk. -/
def Chunk.read (env : Env) (w : World) (c : Chunk) (offset : Nat) (size : Int) :
    Except PyErr (Bytes × Int × Chunk) :=
  match c.readExisting env w with
  | .error e => .error e
  | .ok c =>
    match c.data with
    | none => .error .assertion
    | some buf =>
      let data := bufRead buf offset size
      let remaining : Int := if size ≠ -1 then max 0 (size - data.length) else -1
      .ok (data, remaining, c)

/-- `Chunk.write` (`rbd/chunked/chunk.py:84-108`): amount used, remaining data, chunk. -/
def Chunk.write (env : Env) (w : World) (c : Chunk) (offset : Nat) (data : Bytes) :
    Except PyErr (Nat × Bytes × Chunk) :=
  let remaining := data.drop (env.cs - offset)
  let data := data.take (env.cs - offset)
  if offset = 0 ∧ data.length = env.cs then
    .ok (data.length, remaining, { c with data := some data, clean := false })
  else
    match c.readExisting env w with
    | .error e => .error e
    | .ok c =>
      match c.data with
      | none => .error .assertion
      | some buf =>
        .ok (data.length, remaining, { c with data := some (writeAt buf offset data), clean := false })

/-- `Chunk.flush` (`rbd/chunked/chunk.py:110-137`).  The temporary file and the rename are one step
here; `Model/Fs.lean` splits them. -/
def Chunk.flush (env : Env) (w : World) (c : Chunk) : Except PyErr (Option Hash × Chunk × World) :=
  if c.clean then .ok (none, c, w)
  else
    match c.data with
    | none => .error .assertion
    | some d =>
      let h := env.H d
      let w := { w with log := d :: w.log }
      let w :=
        if h ∈ w.seen then w
        else
          let w :=
            if w.force = true ∨ w.chunks.has h = false then
              { w with chunks := w.chunks.set h (some d) }
            else w
          { w with seen := h :: w.seen }
      .ok (some h, { c with hash := some h, clean := true }, w)

/-- Open mode flags after `rbd/chunked/file.py:64-70`. -/
structure Mode where
  r : Bool
  w : Bool
  a : Bool
deriving DecidableEq, Repr

/-- `rbd/chunked/file.py:64-70`: "+" and "a" imply "w". -/
def Mode.parse (m : String) : Mode :=
  { r := 'r' ∈ m.toList, a := 'a' ∈ m.toList,
    w := 'w' ∈ m.toList ∨ '+' ∈ m.toList ∨ 'a' ∈ m.toList }

/-- `File` object (`rbd/chunked/file.py:33-45`). -/
structure File where
  name : String
  mode : Mode
  closed : Bool
  pos : Nat
  size : Nat
  mapping : Dict Nat Hash
  chunks : Dict Nat Chunk
  stats : Dict Nat (Nat × Nat)

/-- A `File` object together with the world it works on (no line of its own). -/
structure S where
  f : File
  w : World

/-- `File.__init__` (`rbd/chunked/file.py:47-97`). -/
def File.open (w : World) (name : String) (mode : Mode) : Except PyErr S :=
  match w.metas.get? name with
  | none =>
    if mode.w = false then .error .fileNotFound
    else .ok ⟨{ name, mode, closed := false, pos := 0, size := 0, mapping := [], chunks := [],
                stats := [] }, w⟩
  | some none => .error .value
  | some (some m) =>
    .ok ⟨{ name, mode, closed := false, pos := if mode.a then m.size else 0, size := m.size,
           mapping := m.mapping, chunks := [], stats := [] }, w⟩

/-- `File.flush_target` (`rbd/chunked/file.py:33`). -/
def flushTarget : Nat := 10

/-- Key for sorting chunks (`rbd/chunked/file.py:110`): `(count, last)`, default `(0, 0)`. -/
def File.stat (f : File) (id : Nat) : Nat × Nat := (f.stats.get? id).getD (0, 0)

/-- Python tuple comparison `a <= b` on pairs (builtin). -/
def tupLe (a b : Nat × Nat) : Bool := a.1 < b.1 ∨ (a.1 = b.1 ∧ a.2 ≤ b.2)

/-- The loop `rbd/chunked/file.py:115-118` over the chunks to be removed. -/
def flushList (env : Env) : List (Nat × Chunk) → S → Except PyErr Unit × S
  | [], s => (.ok (), s)
  | (id, c) :: rest, s =>
    match c.flush env s.w with
    | .error e => (.error e, s)
    | .ok (h?, _, w) =>
      match h? with
      | none => flushList env rest ⟨s.f, w⟩
      | some h => flushList env rest ⟨{ s.f with mapping := s.f.mapping.set id h }, w⟩

/-- `sorted(self._chunks.items(), key=..., reverse=True)` (`rbd/chunked/file.py:109-110`). -/
def File.sortedChunks (f : File) : List (Nat × Chunk) :=
  sortBy (fun a b => tupLe (f.stat b.1) (f.stat a.1)) f.chunks

/-- `File._flush_chunks` (`rbd/chunked/file.py:104-120`). -/
def S.flushChunks (env : Env) (target : Nat) (s : S) : Except PyErr Unit × S :=
  if s.f.chunks.length < 2 * target then (.ok (), s)
  else
    let sorted := s.f.sortedChunks
    match flushList env (sorted.drop target) s with
    | (.error e, s) => (.error e, s)
    | (.ok (), s) => (.ok (), { s with f := { s.f with chunks := sorted.take target } })

/-- `File.flush` (`rbd/chunked/file.py:122-130`).  The mapping file is replaced in one step here. -/
def S.flush (env : Env) (s : S) : Except PyErr Unit × S :=
  if s.f.mode.w = false ∨ s.f.closed = true then (.error .assertion, s)
  else
    match s.flushChunks env 0 with
    | (.error e, s) => (.error e, s)
    | (.ok (), s) =>
      (.ok (), { s with w := { s.w with
        metas := s.w.metas.set s.f.name (some ⟨s.f.mapping, s.f.size⟩) } })

/-- `File.close` (`rbd/chunked/file.py:132-136`). -/
def S.close (env : Env) (s : S) : Except PyErr Unit × S :=
  if s.f.closed = true then (.error .assertion, s)
  else if s.f.mode.w = true then
    match s.flush env with
    | (.error e, s) => (.error e, s)
    | (.ok (), s) => (.ok (), { s with f := { s.f with closed := true } })
  else (.ok (), { s with f := { s.f with closed := true } })

/-- `File._current_chunk` (`rbd/chunked/file.py:238-250`): the id, the offset and the state, in
which `chunks` contains the id. -/
def S.currentChunk (env : Env) (s : S) : Except PyErr (Nat × Nat) × S :=
  let id := s.f.pos / env.cs
  let offset := s.f.pos % env.cs
  let r : Except PyErr Unit × S :=
    if s.f.chunks.has id = true then (.ok (), s)
    else
      match s.flushChunks env flushTarget with
      | (.error e, s) => (.error e, s)
      | (.ok (), s) =>
        (.ok (), { s with f := { s.f with
          chunks := s.f.chunks.set id (Chunk.new (s.f.mapping.get? id)) } })
  match r with
  | (.error e, s) => (.error e, s)
  | (.ok (), s) =>
    (.ok (id, offset),
      { f := { s.f with stats := s.f.stats.set id ((s.f.stat id).1 + 1, env.now s.w.tick) },
        w := { s.w with tick := s.w.tick + 1 } })

/-- The loop of `File.read` (`rbd/chunked/file.py:213-222`).  `fuel` bounds the iterations;
running out of it is the error `diverge`. -/
def S.readLoop (env : Env) : Nat → S → Int → Bytes → Except PyErr Bytes × S
  | fuel, s, size, acc =>
    if size = 0 then (.ok acc, s)
    else
      match fuel with
      | 0 => (.error .diverge, s)
      | fuel + 1 =>
        match s.currentChunk env with
        | (.error e, s) => (.error e, s)
        | (.ok (id, offset), s) =>
          match s.f.chunks.get? id with
          | none => (.error .key, s)
          | some c =>
            match c.read env s.w offset size with
            | .error e => (.error e, s)
            | .ok (data, size, c) =>
              let s := { s with f := { s.f with chunks := s.f.chunks.set id c } }
              if data = [] then (.error .value, s)
              else
                S.readLoop env fuel { s with f := { s.f with pos := s.f.pos + data.length } } size
                  (acc ++ data)

/-- `File.read` (`rbd/chunked/file.py:205-222`).  With a position beyond the size the loop runs
with a negative size; at most one iteration per existing chunk can succeed then, hence the fuel. -/
def S.read (env : Env) (size : Int) (s : S) : Except PyErr Bytes × S :=
  if s.f.mode.r = false ∨ s.f.closed = true then (.error .assertion, s)
  else
    let maxSize : Int := (s.f.size : Int) - s.f.pos
    let size := if size = -1 then maxSize else min size maxSize
    s.readLoop env (size.toNat + s.f.mapping.length + s.f.chunks.length + 2) size []

/-- The loop of `File.write` (`rbd/chunked/file.py:231-236`). -/
def S.writeLoop (env : Env) (s : S) (data : Bytes) : Except PyErr Unit × S :=
  if data = [] then (.ok (), s)
  else
    match s.currentChunk env with
    | (.error e, s) => (.error e, s)
    | (.ok (id, offset), s) =>
      match s.f.chunks.get? id with
      | none => (.error .key, s)
      | some c =>
        match c.write env s.w offset data with
        | .error e => (.error e, s)
        | .ok (written, rest, c) =>
          if _hr : rest.length < data.length then
            let pos := s.f.pos + written
            S.writeLoop env { s with f := { s.f with
              chunks := s.f.chunks.set id c, pos := pos, size := max s.f.size pos } } rest
          else (.error .diverge, s)
termination_by data.length

/-- `File.write` (`rbd/chunked/file.py:227-236`). -/
def S.write (env : Env) (data : Bytes) (s : S) : Except PyErr Unit × S :=
  if s.f.mode.w = false ∨ s.f.closed = true then (.error .assertion, s)
  else s.writeLoop env data

/-- The fill loop of `File.seek` (`rbd/chunked/file.py:177-181`). -/
def S.fill (env : Env) (s : S) (filler : Nat) : Except PyErr Unit × S :=
  if _hf : filler = 0 then (.ok (), s)
  else
    let n := min filler env.blk
    match s.write env (zeros n) with
    | (.error e, s) => (.error e, s)
    | (.ok (), s) => S.fill env s (filler - n)
termination_by filler
decreasing_by have := env.blk_pos; omega

/-- The position computed by `File.seek` (`rbd/chunked/file.py:157-165`).  Note line 161:
`SEEK_END` subtracts. -/
def File.seekTarget (f : File) (offset : Int) : Whence → Except PyErr Int
  | .set => .ok offset
  | .end_ => .ok ((f.size : Int) - offset)
  | .cur => .ok ((f.pos : Int) + offset)
  | .other => .error .value

/-- `File.seek` (`rbd/chunked/file.py:154-189`). -/
def S.seek (env : Env) (offset : Int) (whence : Whence) (s : S) : Except PyErr Nat × S :=
  if s.f.closed = true then (.error .assertion, s)
  else
    match s.f.seekTarget offset whence with
    | .error e => (.error e, s)
    | .ok position =>
      if position < 0 then (.error .value, s)
      else
        let target := position.toNat
        if target > s.f.size then
          let s := { s with f := { s.f with pos := s.f.size } }
          match s.fill env (target - s.f.size) with
          | (.error e, s) => (.error e, s)
          | (.ok (), s) =>
            if s.f.pos = target ∧ s.f.size = target then (.ok target, s)
            else (.error .assertion, s)
        else (.ok target, { s with f := { s.f with pos := target } })

/-- `File.truncate` (`rbd/chunked/file.py:191-203`), for non-negative sizes. -/
def S.truncate (env : Env) (size : Option Nat) (s : S) : Except PyErr Unit × S :=
  if s.f.mode.w = false ∨ s.f.closed = true then (.error .assertion, s)
  else
    let n := size.getD s.f.pos
    let s := { s with f := { s.f with
      size := n,
      mapping := s.f.mapping.filter (fun e => decide (¬ e.1 * env.cs > n)) } }
    s.flush env

/-- `File.tell` (`rbd/chunked/file.py:147-149`). -/
def S.tell (s : S) : Except PyErr Nat × S :=
  if s.f.closed = true then (.error .assertion, s) else (.ok s.f.pos, s)

/-- `Store.ls` (`rbd/chunked/store.py:54-57`). -/
def World.ls (w : World) : List Hash := w.chunks.keys

/-- `Store.purge` (`rbd/chunked/store.py:59-67`). -/
def World.purge (w : World) (used : List Hash) : World :=
  w.ls.foldl (fun w h =>
    if h ∈ used then w
    else { w with chunks := w.chunks.erase h, seen := w.seen.filter (· ≠ h) }) w

/-- The store seen by a new process: nothing in the `seen` cache, no forced writes
(`rbd/chunked/store.py:22`, `37`). -/
def World.fresh (w : World) : World := { w with seen := [], force := false }

end Verif.Chunked
