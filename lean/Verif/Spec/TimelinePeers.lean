import Verif.Spec.Timeline
/-!
# Specification: the passes of a job that exchanges metadata with other servers

As `Spec/Timeline.lean`, but what is known of the revisions of other servers may change in any way whenever metadata is pulled or pushed:
between the backup and the expiry (`daemon/scheduler.py:262`), after the expiry (`264`), and in passes in which another server makes the
backup (`242`).
-/
namespace Verif.Timeline
open Verif Verif.Repo

/-- The local revisions are the same. -/
structure SameLocal (a b : Dict String RevFile) : Prop where
  named : Named b
  same : ∀ u r, r.server = "" → (onDisk a u = some r ↔ onDisk b u = some r)

/-- What a successful backup leaves of the local revisions: the new complete one, all complete ones that were there (at most their trust has
changed), and nothing else. -/
structure BacksLocal (before after : Dict String RevFile) (uuid : String) (start : Int) (tags : Finset String) : Prop where
  named : Named after
  new : ∃ x, onDisk after uuid = some x ∧ x.ts = start ∧ x.tags = tags ∧ x.clean = true ∧ x.server = ""
  kept : ∀ r, onDisk before r.uuid = some r → r.clean = true → r.server = "" → r.uuid ≠ uuid →
    ∃ r', onDisk after r.uuid = some r' ∧ r'.ts = r.ts ∧ r'.tags = r.tags ∧ r'.server = "" ∧ r'.clean = true
  only : ∀ u r, onDisk after u = some r → r.server = "" → u ≠ uuid → ∃ r0, onDisk before u = some r0 ∧ r0.clean = true ∧ r0.server = ""

/-- A successful pass: planned for `t` with `tags`; from `before`, by a backup, to `mid`, by a pull to `pulled` and by expiry to `after`. -/
structure Pass.MakesWith (p : Pass) (sch : Schedule) (spread late long t : Int) (tags : Finset String)
    (before mid pulled after : Dict String RevFile) : Prop where
  era : ∀ e ∈ sch, e.2.interval ≤ p.plan
  fresh : onDisk before p.uuid = none
  planned : p.planned sch spread before = .ok (t, tags)
  inTime : p.InTime late long t
  backs : BacksLocal before mid p.uuid p.start tags
  pulls : SameLocal mid pulled
  expires : after = p.expired sch pulled

/-- The passes of a job that has made all its backups in time, newest first, and the directory now; each pass is planned after the one
before has ended. -/
inductive PassesWith (sch : Schedule) (spread late long : Int) (start : Dict String RevFile) : List Made → Dict String RevFile → Prop
  | nil (hn : Named start) : PassesWith sch spread late long start [] start
  | cons (x : Made) (l : List Made) (before mid pulled after : Dict String RevFile) (h0 : PassesWith sch spread late long start l before)
      (fresh : x.pass.uuid ∉ l.map (fun y => y.pass.uuid))
      (soon : ∀ q ∈ l.head?, q.pass.done ≤ x.pass.plan ∧ ∀ tag, q.pass.expiry tag ≤ x.pass.plan)
      (h : x.pass.MakesWith sch spread late long x.time x.tags before mid pulled after) : PassesWith sch spread late long start (x :: l) after
  | exchange (l : List Made) (files files' : Dict String RevFile) (h0 : PassesWith sch spread late long start l files)
      (h : SameLocal files files') : PassesWith sch spread late long start l files'

/-- What can be seen in the directory after the backup of the pass: the result of the backup, or any state expiry goes through, with any
metadata of other servers. -/
def Pass.VisibleWith (p : Pass) (sch : Schedule) (mid pulled view : Dict String RevFile) : Prop :=
  ∃ v, (v = mid ∨ p.Visible sch pulled v) ∧ SameLocal v view

end Verif.Timeline
