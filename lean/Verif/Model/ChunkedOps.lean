import Verif.Model.Chunked
import Verif.Spec.Flat
/-!
# Operation sequences on a chunked file

Dispatch of the file-like interface (`Spec.Op`) to the model of `rbd/chunked/file.py`.
-/
namespace Verif.Chunked
open Verif Verif.Spec

/-- Wrap a result value (no line of its own). -/
def outOf {α : Type} (g : α → Out) (r : Except PyErr α × S) : S × Except PyErr Out :=
  (r.2, match r.1 with
    | .ok a => .ok (g a)
    | .error e => .error e)

/-- The argument of `read` (`rbd/chunked/file.py:205`, default -1). -/
def readArg : Option Nat → Int
  | none => -1
  | some n => n

/-- A method call on a `File` object: `seek` `rbd/chunked/file.py:154`, `write` `:227`,
`read` `:205`, `truncate()` `:191`, `flush` `:122`, `tell` `:147`, `close` `:132`. -/
def S.step (env : Env) (s : S) : Op → S × Except PyErr Out
  | .seek o wh => outOf .nat (s.seek env o wh)
  | .write d => outOf (fun _ => .unit) (s.write env d)
  | .read n => outOf .bytes (s.read env (readArg n))
  | .truncate => outOf (fun _ => .unit) (s.truncate env none)
  | .flush => outOf (fun _ => .unit) (s.flush env)
  | .tell => outOf .nat s.tell
  | .close => outOf (fun _ => .unit) (s.close env)

/-- State after a sequence of method calls (no line of its own). -/
def S.run (env : Env) (s : S) (ops : List Op) : S := ops.foldl (fun s op => (s.step env op).1) s

/-- Observations after each call of a sequence (no line of its own). -/
def S.trace (env : Env) (s : S) : List Op → List (Except PyErr Out × Nat × Nat)
  | [] => []
  | op :: ops =>
    let r := s.step env op
    (r.2, r.1.f.pos, r.1.f.size) :: S.trace env r.1 ops

end Verif.Chunked
