import Verif.Model.Status
import Verif.Proofs.RepoScan
import Mathlib.Data.List.Forall2
/-!
# Specification: what a status report says

In terms of the metadata files of the repository at the time of the request.
-/
namespace Verif.Daemon.Spec
open Verif Verif.Repo Verif.Daemon

/-- There is a metadata file for this revision and it says that the backup was completed. -/
def Complete (files : Dict String RevFile) (r : Rev) : Prop :=
  onDisk files r.uuid = some r ∧ r.stats.has "duration" = true

/-- Exactly `n` revisions have this property. -/
def Counts (P : Rev → Prop) (n : Nat) : Prop := ∃ l : List Rev, l.Nodup ∧ (∀ r, r ∈ l ↔ P r) ∧ l.length = n

/-- A newest complete revision (of any server). -/
def Newest (files : Dict String RevFile) (r : Rev) : Prop :=
  Complete files r ∧ ∀ r', Complete files r' → r'.ts ≤ r.ts

/-- `iter` lists the elements of a set, each once. -/
def Lists (iter : Finset String → List String) : Prop := ∀ s, (iter s).Nodup ∧ ∀ t, t ∈ iter s ↔ t ∈ s

/-- The interval of a tag; none for a tag that is not in the schedule. -/
def intervalOf (sch : Schedule) (t : String) : Int :=
  match sch.get? t with
  | some a => a.interval
  | none => 0

/-- `l` shows the set `s`, tags with shorter intervals first. -/
def Shows (sch : Schedule) (l : List String) (s : Finset String) : Prop :=
  l.Nodup ∧ (∀ t, t ∈ l ↔ t ∈ s) ∧ l.Pairwise (fun a b => intervalOf sch a ≤ intervalOf sch b)

/-- The newest complete backup is older than one and a half times the shortest interval. -/
def TooOld (files : Dict String RevFile) (sch : Schedule) (now : Int) : Prop :=
  (∃ r, Complete files r) ∧ ∃ a ∈ sch.values, (∀ b ∈ sch.values, a.interval ≤ b.interval) ∧
    ∀ r, Complete files r → 2 * (now - r.ts) > 3 * a.interval

/-- The entry `x` is right for the job `name`. -/
structure Describes (now1 now2 : Int) (name : String) (v : JobView) (x : Entry) : Prop where
  job : x.job = name
  sla : x.slaOk = false ↔ TooOld v.repo.files v.sch now1
  overdue : x.slaOverdue ≠ 0 → ∃ r, Newest v.repo.files r ∧ x.slaOverdue = now2 - r.ts
  overdue_iff : x.slaOverdue ≠ 0 ↔ TooOld v.repo.files v.sch now2
  status : x.status = v.status
  last_none : x.lastTime = none ↔ ¬ ∃ r, Complete v.repo.files r
  last : ∀ t, x.lastTime = some t → ∃ r tags, Newest v.repo.files r ∧ r.ts = t ∧ x.lastDuration = r.stats.get? "duration" ∧
    x.lastTags = some tags ∧ Shows v.sch tags r.tags
  next : x.nextTime = v.nextTime
  next_none : x.nextTags = none ↔ v.nextTags = none ∨ v.nextTags = some ∅
  next_tags : ∀ l, x.nextTags = some l → ∃ s, v.nextTags = some s ∧ Shows v.sch l s
  manual : ∀ t, t ∈ x.manualTags ↔ isManual t = true ∧ ∃ r, Complete v.repo.files r ∧ t ∈ r.tags
  reports : x.problemReports = v.reports.length
  unsynced : Counts (fun r => Complete v.repo.files r ∧ r.server ≠ "" ∧ r.tags ≠ r.origTags) x.unsyncedRevs
  localRevs : Counts (fun r => Complete v.repo.files r ∧ r.server = "") x.localRevs

/-- A state of a peer's jobs as it may be: metadata files are named after their revision, intervals are positive. -/
def Sane (jobs : List (String × JobView)) : Prop :=
  ∀ e ∈ jobs, Named e.2.repo.files ∧ ∀ a ∈ e.2.sch.values, 0 < a.interval

/-- An answer to the question for job `name`: an error, or the status report of a peer whose jobs were in one of the
states `seen`. -/
def Honest (seen : List (String × JobView) → Prop) (iter : Finset String → List String) (name : String) (a : Answer) : Prop :=
  (∃ e, a = .error e) ∨ ∃ jobs now1 now2, seen jobs ∧ a = answerOf iter now1 now2 name jobs

end Verif.Daemon.Spec
