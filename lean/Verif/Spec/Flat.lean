import Verif.Model.Base
/-!
# Specification: a plain in-memory file

Independent of the chunked model.  A flat file is a byte list with a position and access flags.
-/
namespace Verif.Spec
open Verif

/-- The operations of a file-like object. `read none` is `read()`/`read(-1)`; `truncate` is
`truncate()` at the current position. -/
inductive Op
  | seek (offset : Int) (whence : Whence)
  | write (data : Bytes)
  | read (n : Option Nat)
  | truncate
  | flush
  | tell
  | close

/-- The value an operation returns. -/
inductive Out
  | unit
  | nat (n : Nat)
  | bytes (b : Bytes)
deriving DecidableEq, Repr

/-- A plain file. -/
structure Flat where
  content : Bytes
  pos : Nat
  readable : Bool
  writable : Bool
  closed : Bool

/-- At most `n` bytes, or all. -/
def upTo : Option Nat → Bytes → Bytes
  | none, b => b
  | some n, b => b.take n

/-- Where a seek leads to; `SEEK_END n` means `n` bytes before the end. -/
def Flat.target (s : Flat) (offset : Int) : Whence → Option Int
  | .set => some offset
  | .end_ => some (s.content.length - offset)
  | .cur => some (s.pos + offset)
  | .other => none

/-- One operation on a plain file.  Operations on a closed file or in the wrong mode fail and
change nothing; a seek beyond the end of a read-only file fails and leaves the position at the
end; a seek beyond the end of a writable file zero-fills. -/
def Flat.step (s : Flat) : Op → Flat × Except PyErr Out
  | .seek offset whence =>
    if s.closed then (s, .error .assertion) else
    match s.target offset whence with
    | none => (s, .error .value)
    | some t =>
      if t < 0 then (s, .error .value)
      else if t.toNat ≤ s.content.length then ({ s with pos := t.toNat }, .ok (.nat t.toNat))
      else if s.writable then
        ({ s with pos := t.toNat, content := s.content ++ zeros (t.toNat - s.content.length) },
          .ok (.nat t.toNat))
      else ({ s with pos := s.content.length }, .error .assertion)
  | .write d =>
    if s.closed ∨ ¬ s.writable then (s, .error .assertion) else
    ({ s with pos := s.pos + d.length,
              content := s.content.take s.pos ++ d ++ s.content.drop (s.pos + d.length) },
      .ok .unit)
  | .read n =>
    if s.closed ∨ ¬ s.readable then (s, .error .assertion) else
    let d := upTo n (s.content.drop s.pos)
    ({ s with pos := s.pos + d.length }, .ok (.bytes d))
  | .truncate =>
    if s.closed ∨ ¬ s.writable then (s, .error .assertion) else
    ({ s with content := s.content.take s.pos }, .ok .unit)
  | .flush =>
    if s.closed ∨ ¬ s.writable then (s, .error .assertion) else (s, .ok .unit)
  | .tell => if s.closed then (s, .error .assertion) else (s, .ok (.nat s.pos))
  | .close => if s.closed then (s, .error .assertion) else ({ s with closed := true }, .ok .unit)

/-- What can be observed after each operation: its result, the position and the size. -/
def Flat.trace (s : Flat) : List Op → List (Except PyErr Out × Nat × Nat)
  | [] => []
  | op :: ops =>
    let r := s.step op
    (r.2, r.1.pos, r.1.content.length) :: Flat.trace r.1 ops

/-- State after a sequence of operations. -/
def Flat.run (s : Flat) (ops : List Op) : Flat := ops.foldl (fun s op => (s.step op).1) s

end Verif.Spec
