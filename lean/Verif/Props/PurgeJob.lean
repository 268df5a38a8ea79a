import Verif.Props.Purge
import Verif.Props.Timeline
/-!
# C110: the age-based purge and the repositories of configured jobs

`Model/Purge.lean` (the purge, times in seconds) and `Model/Timeline.lean` (the runs of a job, times in microseconds) together.
-/
namespace Verif.PurgeJob
open Verif Verif.Repo Verif.Timeline Verif.Purge Verif.Backup

/-- The tree of a repository: a directory with a file for every revision, which was not written before the revision was begun. -/
structure Shows (n : Node) (view : Dict String RevFile) : Prop where
  dir : n.RealDir
  files : ∀ u r, onDisk view u = some r → ∃ name t, (name, Node.file t) ∈ n.scandir ∧ r.ts < seconds (t + 1)

theorem Below.scandir {n c : Node} {name : String} (h : n.RealDir) (hc : (name, c) ∈ n.scandir) : Below n c := by
  cases n with
  | dir t es => exact .entry hc (.self c)
  | file t => cases h
  | link t x => cases h

/-- **C110 (partial)** The repository of a job that makes its backups in time is not touched by the purge, if the shortest interval
and the delays together are shorter than 93 days: at every time until the end of the next backup, whatever state the expiry
is in.  Without the condition on the interval this is false of the code: `C110_false_slow_schedule`. -/
theorem C110_kept_partial (sch : Schedule) (m spread late long : Int) (hs : GoodSchedule sch) (hp : Proper sch m)
    (hfit : m + late + 2 * long + seconds 2 ≤ seconds (93 * 24 * 60 * 60)) (before before' mid' mid after : Dict String RevFile) (q p : Made)
    (hq : q.pass.Makes sch spread late long q.time q.tags before' mid' before)
    (hm : p.pass.Makes sch spread late long p.time p.tags before mid after) (soon : p.pass.plan ≤ q.pass.start + long)
    (view : Dict String RevFile) (hv : q.pass.Visible sch mid' view)
    (rm : RmTree) (clock : Nat → Int) (base : Dict String Node) (hn : base.keys.Nodup) (k : Nat) (name : String) (n : Node)
    (hk : base[k]? = some (name, n)) (hshow : Shows n view) (hnow : seconds (clock k) ≤ p.pass.done) :
    (purgeOld rm clock 0 base base).1.get? name = some n := by
  by_contra hne
  obtain ⟨_, h2⟩ := (C55_purge_by_age rm clock base hn).1 k name n hk hne
  have p4 := planned_soon hp hm
  obtain ⟨tag, a, ha, htag⟩ := planned_tag hq.planned
  obtain ⟨x, x1, x2, x3, x4, _⟩ := hq.backs.new
  have hxu : x.uuid = q.pass.uuid := onDisk_uuid hq.backs.named x1
  obtain ⟨r', r1, r2, r3, r4, _⟩ := survives hs q.pass hq.backs.named hv ha (x := x) (by rw [hxu]; exact x1)
    (by rw [x3]; exact htag)
  obtain ⟨f, t, hf, ht⟩ := hshow.files _ _ r1
  have hold := h2 _ (Below.scandir hshow.dir hf)
  have hold : t < clock k - 93 * 24 * 60 * 60 := hold
  have := hm.inTime.begins
  have := hm.inTime.ends.1
  have := hm.inTime.ends.2.1
  unfold seconds at *
  omega

/-! ## A job with a slow schedule -/

/-- Every hundred days, four to keep. -/
def slow : Schedule := [("rare", ⟨seconds (100 * DAY), 4⟩)]

/-- A run ... -/
def slowQ : Pass := exPass "a" (200 * DAY - HOUR) (200 * DAY + 60)

/-- ... and the next one. -/
def slowP : Pass := exPass "b" (200 * DAY + 960) (300 * DAY + 60)

def slowMid1 : Dict String RevFile := [("a", ⟨false, mkRev "a" (seconds (200 * DAY + 60)) {"rare"}⟩)]

/-- The tree after the first run: everything was written during the run. -/
def slowTree : Node := .dir (200 * DAY + 660) [("a.rev", .file (200 * DAY + 660)), ("chunks", .dir (200 * DAY + 600) []), ("config", .file (200 * DAY))]

theorem slowQ_makes : slowQ.Makes slow 0 (seconds 60) (seconds 1000) (seconds (200 * DAY)) {"rare"} [] slowMid1 slowMid1 := by
  refine ⟨by decide +kernel, rfl, by decide +kernel, ?_, ?_, by decide +kernel⟩
  · exact ⟨by decide, ⟨by decide, by decide, fun _ => (by show seconds _ ≤ seconds _; decide)⟩, by decide, by decide⟩
  · refine ⟨⟨by decide, ?_⟩, ⟨_, rfl, rfl, rfl, rfl, rfl⟩, ?_, exComplete (by decide +kernel), ?_⟩
    · intro n f hm _
      simp only [slowMid1, List.mem_cons, Prod.mk.injEq, List.not_mem_nil, or_false] at hm
      rcases hm with ⟨rfl, rfl⟩; rfl
    · intro r hr
      cases hr
    · intro u r hr hne
      have hm := Dict.mem_of_get? (onDisk_eq_some.1 hr)
      simp only [slowMid1, List.mem_cons, Prod.mk.injEq, List.not_mem_nil, or_false] at hm
      exact absurd hm.1 hne

theorem slowTree_shows : Shows slowTree slowMid1 := by
  refine ⟨trivial, fun u r hr => ⟨"a.rev", 200 * DAY + 660, .head _, ?_⟩⟩
  have hm := Dict.mem_of_get? (onDisk_eq_some.1 hr)
  simp only [slowMid1, List.mem_cons, Prod.mk.injEq, List.not_mem_nil, or_false] at hm
  obtain ⟨_, h2⟩ := hm
  simp only [RevFile.mk.injEq, true_and] at h2
  rw [h2]
  decide

/-- **C110 is false of the code**: a job that is configured to make a backup every hundred days and does so loses all its backups:
the tree that the run at day 200 left is removed by the purge at day 294, six days before the next run is due, although the
revision is to be kept. -/
theorem C110_false_slow_schedule :
    -- a good schedule and a run that was made in time
    GoodSchedule slow ∧ Proper slow (seconds (100 * DAY)) ∧
    slowQ.Makes slow 0 (seconds 60) (seconds 1000) (seconds (200 * DAY)) {"rare"} [] slowMid1 slowMid1 ∧
    -- expiry keeps its revision until the next run and beyond, and the tree shows it
    slowP.expired slow slowMid1 = slowMid1 ∧ Shows slowTree slowMid1 ∧
    -- the next run is planned for day 300
    slowP.planned slow 0 slowMid1 = .ok (seconds (300 * DAY), {"rare"}) ∧
    -- and the purge at day 294 removes the tree
    (purgeOld (fun _ _ => none) (fun _ => 294 * DAY) 0 [("job", slowTree)] [("job", slowTree)]).1 = [] := by
  refine ⟨⟨by decide +kernel, by decide +kernel, ?_⟩, ⟨?_, by decide, by decide⟩, slowQ_makes, by decide +kernel, slowTree_shows, by decide +kernel, ?_⟩
  · intro e he
    simp only [slow, List.mem_cons, List.not_mem_nil, or_false] at he
    subst he
    refine ⟨?_, ?_, ?_⟩
    · repeat' (first | exact trivial | refine noSep_cons (by decide) ?_)
    · intro c hc; revert hc; revert c; decide +kernel
    · intro c hc; revert hc; revert c; decide +kernel
  · intro e he
    simp only [slow, List.mem_cons, List.not_mem_nil, or_false] at he
    subst he
    exact ⟨100 * DAY, by decide, rfl⟩
  · have hr : hasRecentChanges slowTree (294 * DAY - age) = false := by
      rw [not_recent_iff]
      intro x hx
      cases hx with
      | self => decide
      | entry hc h =>
        simp only [List.mem_cons, Prod.mk.injEq, List.not_mem_nil, or_false] at hc
        rcases hc with ⟨_, rfl⟩ | ⟨_, rfl⟩ | ⟨_, rfl⟩
        · cases h; decide
        · cases h with
          | self => decide
          | entry hc _ => cases hc
        · cases h; decide
    have hd : slowTree.isDirNoSymlink = true := by rfl
    simp only [purgeOld, hr, hd]
    decide

/-- Test (C110): a daily job. -/
example (t : Int) (ht : t ≤ 101 * DAY + 660) : (purgeOld (fun _ _ => none) (fun _ => t) 0
    [("job", .dir (100 * DAY + 660) [("a.rev", .file (100 * DAY + 660))])]
    [("job", .dir (100 * DAY + 660) [("a.rev", .file (100 * DAY + 660))])]).1.get? "job" =
      some (.dir (100 * DAY + 660) [("a.rev", .file (100 * DAY + 660))]) := by
  refine C110_kept_partial exSchedule (seconds DAY) 0 (seconds 60) (seconds 1000) exSchedule_good exSchedule_proper (by decide) exMid1 [] exMid1
    exMid2 exMid2 ⟨exQ, _, _⟩ ⟨exP, _, _⟩ exQ_makes exP_makes (by decide) exMid1 (.inl rfl) _ _ _ (by decide) 0 "job" _ rfl ?_ ?_
  · refine ⟨trivial, fun u r hr => ⟨"a.rev", 100 * DAY + 660, .head _, ?_⟩⟩
    have hm := Dict.mem_of_get? (onDisk_eq_some.1 hr)
    simp only [exMid1, List.mem_cons, Prod.mk.injEq, List.not_mem_nil, or_false] at hm
    obtain ⟨_, h2⟩ := hm
    simp only [RevFile.mk.injEq, true_and] at h2
    rw [h2]
    decide
  · show seconds t ≤ seconds (101 * DAY + 60 + 600)
    unfold seconds DAY at *
    omega

end Verif.PurgeJob
