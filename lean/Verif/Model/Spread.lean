import Verif.Model.Schedule
/-!
# The spread of a job: `daemon/scheduler.py:69-76`

The hash function and the generator of random numbers are parameters.
-/
namespace Verif.Spread
open Verif Verif.Repo

/-- `int(hashlib.md5(…).hexdigest(), 16)` and `random.Random().randint` after `seed` (builtin). -/
structure Env where
  md5 : String → Nat
  randint : Nat → Int → Int → Int

/-- What `randint(a, b)` promises (builtin). -/
def Env.Ok (env : Env) : Prop := ∀ seed a b, a ≤ b → a ≤ env.randint seed a b ∧ env.randint seed a b ≤ b

/-- `Job.spread` (`daemon/scheduler.py:69-76`), in seconds: `max` of nothing raises, and so does `randint` for an empty range
(intervals are whole seconds). -/
def spread (env : Env) (name : String) (sch : Schedule) : Except PyErr Int :=
  match (sch.map (fun e => e.2.interval)).max? with
  | none => .error .value
  | some m => if m < 0 then .error .value else .ok (env.randint (env.md5 name) 0 (m / 1000000))

/-- The regular time a job plans for (`daemon/scheduler.py:210-212`, `schedule.py:81`). -/
def regular (env : Env) (name : String) (sch : Schedule) (relative : Int) : Except PyErr (Int × Finset String) :=
  match spread env name sch with
  | .error e => .error e
  | .ok s => sch.nextIdeal relative s

end Verif.Spread
