import Verif.Spec.Daemon
/-!
# Specification: the runs of a job with their times
-/
namespace Verif.Daemon.Spec
open Verif Verif.Repo Verif.Daemon

/-- A pass of the loop, what it did, and the time at which its waiting was over. -/
structure Run where
  pass : Pass
  acts : List Act
  begins : Int

/-- The runs of a job since the daemon was started, newest first: each one does what `run_forever` does next; it plans (reads the clock) after
the run before has begun; and unless it is triggered, its waiting is not over before the time it waits for. -/
inductive Runs : List Run → Prop
  | nil : Runs []
  | cons (x : Run) (l : List Run) (h : Runs l) (plans : Plans x.pass)
      (does : runForever (some .init) (l.reverse.map Run.pass ++ [x.pass]) = runForever (some .init) (l.reverse.map Run.pass) ++ [x.acts])
      (order : ∀ y ∈ l.head?, y.begins ≤ x.pass.now)
      (waits : x.pass.triggered = false → ∀ d, deadlineOf x.acts = some d → d ≤ x.begins) : Runs (x :: l)

/-- A run failed: one of its steps raised. -/
def Run.Failed (x : Run) : Prop := failed x.pass x.acts = true

/-- `2 + 4 + 8 + … + 256 + 360 + 360 + …` minutes, `n` numbers. -/
def pauses : Nat → Int
  | 0 => 0
  | n + 1 => pauses n + (min (2 ^ (n + 1)) 360 : Nat) * minute

end Verif.Daemon.Spec
