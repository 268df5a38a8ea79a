import Verif.Model.Timeline
import Verif.Proofs.RepoScan
/-!
# Specification: what the successful passes of a job look like

`late` bounds the time from the planned time of a run to the creation of its revision (waiting for peers, for a worker slot),
`long` the time from there to the end of the backup and to the planning of the next run.
-/
namespace Verif.Timeline
open Verif Verif.Repo

/-- What a successful backup leaves: the new complete revision, all complete revisions that were there (at most their trust has
changed), and nothing else. -/
structure Backs (before after : Dict String RevFile) (uuid : String) (start : Int) (tags : Finset String) : Prop where
  named : Named after
  new : ∃ x, onDisk after uuid = some x ∧ x.ts = start ∧ x.tags = tags ∧ x.clean = true ∧ x.server = ""
  kept : ∀ r, onDisk before r.uuid = some r → r.clean = true → r.uuid ≠ uuid →
    ∃ r', onDisk after r.uuid = some r' ∧ r'.ts = r.ts ∧ r'.tags = r.tags ∧ r'.server = r.server
  complete : ∀ u r, onDisk after u = some r → r.clean = true
  only : ∀ u r, onDisk after u = some r → u ≠ uuid → ∃ r0, onDisk before u = some r0 ∧ r0.clean = true

/-- A pass that was planned for `t` made its backup in time. -/
structure Pass.InTime (p : Pass) (late long t : Int) : Prop where
  begins : t ≤ p.start ∧ p.start ≤ t + late
  ends : p.start ≤ p.done ∧ p.done ≤ p.start + long ∧ ∀ tag, p.done ≤ p.expiry tag
  clock : p.plan ≤ p.nowM ∧ p.nowM ≤ p.now1 ∧ p.now1 ≤ p.now2 ∧ p.now2 ≤ p.now1 + seconds (5 * 60) ∧ p.now2 ≤ p.start
  real : p.plan < seconds (2 ^ 50)

/-- A successful pass: planned for `t` with `tags`; from `before`, by a backup, to `mid`, and by expiry to `after`. -/
structure Pass.Makes (p : Pass) (sch : Schedule) (spread late long t : Int) (tags : Finset String)
    (before mid after : Dict String RevFile) : Prop where
  era : ∀ e ∈ sch, e.2.interval ≤ p.plan
  fresh : onDisk before p.uuid = none
  planned : p.planned sch spread before = .ok (t, tags)
  inTime : p.InTime late long t
  backs : Backs before mid p.uuid p.start tags
  expires : after = p.expired sch mid

/-- A pass that has been made. -/
structure Made where
  pass : Pass
  time : Int
  tags : Finset String

/-- The passes of a job that started with the directory `start` and has made all its backups in time, newest first, and the directory
now. -/
inductive Passes (sch : Schedule) (spread late long : Int) (start : Dict String RevFile) : List Made → Dict String RevFile → Prop
  | nil (hn : Named start) : Passes sch spread late long start [] start
  | cons (x : Made) (l : List Made) (before mid after : Dict String RevFile) (h0 : Passes sch spread late long start l before)
      (fresh : x.pass.uuid ∉ l.map (fun y => y.pass.uuid))
      (soon : ∀ q ∈ l.head?, q.pass.done ≤ x.pass.plan ∧ x.pass.plan ≤ q.pass.start + long)
      (h : x.pass.Makes sch spread late long x.time x.tags before mid after) : Passes sch spread late long start (x :: l) after

/-- What can be seen in the directory after the backup of the pass: the result of the backup, or any state expiry goes through. -/
def Pass.Visible (p : Pass) (sch : Schedule) (mid view : Dict String RevFile) : Prop :=
  view = mid ∨ view ∈ (sch.expire p.pd p.expiry (connected mid)).2.log

/-- A schedule that can be configured: some tags, intervals of whole seconds; `m` is the shortest interval. -/
structure Proper (sch : Schedule) (m : Int) : Prop where
  whole : ∀ e ∈ sch, ∃ i, 0 < i ∧ e.2.interval = seconds i
  min : m ∈ sch.map (fun e => e.2.interval)
  least : ∀ e ∈ sch, m ≤ e.2.interval

end Verif.Timeline
