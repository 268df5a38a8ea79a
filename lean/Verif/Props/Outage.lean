import Verif.Spec.Outage
import Verif.Props.Timeline
import Verif.Props.Daemon
/-!
# C99: recovery after an outage
-/
namespace Verif.Outage
open Verif Verif.Repo Verif.Repo.Spec Verif.Daemon Verif.Daemon.Spec Verif.Timeline Verif.Backup

/-- What a run may wait for: six hours, or the shortest interval (and the rounding of C24) if this is longer. -/
def longest (m : Int) : Int := max (6 * 60 * minute) (m + seconds 1)

theorem getLast_chain {α : Type _} {R : α → α → Prop} {l : List α} {x q : α} (h : (l ++ [x] ++ [q]).IsChain R) : R x q := by
  rw [List.append_assoc, List.isChain_append] at h
  simpa using h.2.1

/-- **C99** However often and in whatever way the runs of a job have failed (or not) before the time `T`: the first run that starts
after `T` does so within six hours (or the shortest interval), `long` and `late` of `T`. -/
theorem C99_recovers_soon (sch : Schedule) (m spread late long T : Int) (hp : Proper sch m) (rs : List Run) (q : Run)
    (h : Timely late long (rs ++ [q])) (hfirst : ∀ r ∈ (rs ++ [q]).head?, r.pass.now ≤ T + long)
    (hbefore : ∀ r ∈ rs, r.start ≤ T) (t : Timeline.Pass) (tags : Finset String) (before mid : Dict String RevFile)
    (hq : Succeeds q t sch spread tags before mid) : q.start ≤ T + long + longest m + late := by
  obtain ⟨acts, time, tags', h1, h2, h3⟩ := C32_backoff (rs.map Run.pass) q.pass (by
    intro p hp'
    have : p ∈ (rs ++ [q]).map Run.pass := by simpa using hp'
    obtain ⟨r, hr, rfl⟩ := List.mem_map.1 this
    exact h.plans r hr)
  have hnow : q.pass.now ≤ T + long := by
    rcases List.eq_nil_or_concat rs with rfl | ⟨l, x, rfl⟩
    · exact hfirst q (by simp)
    · have h4 := getLast_chain (by simpa using h.long : (l ++ [x] ++ [q]).IsChain _)
      have := hbefore x (by simp)
      omega
  have hlate : ∀ d ∈ deadlineOf acts, q.start ≤ d + late := by
    have hl := h.late
    rw [List.map_append, List.map_singleton, h1] at hl
    have hlen := hl.length_eq
    have h5 := (List.forall₂_iff_get.1 hl).2 rs.length (by simp) (by rw [← hlen]; simp)
    have hlen' : (runForever (some .init) (rs.map Run.pass)).length = rs.length := by simpa using hlen.symm
    simpa [List.getElem_append_right, hlen'] using h5
  have h6 := hlate _ h3
  have h7 : time ≤ t.plan + m + seconds 1 := by
    have hpl := hq.planned.1
    rw [h2] at hpl
    obtain ⟨_, _, h4, _⟩ := C25_missed_tags_are_caught_up sch t.plan spread (connected before) t.nowM t.now1 t.now2 time tags'
      (fun e he => (hq.era e he).trans hq.clock.1) ⟨hq.clock.2.2.1, hq.clock.2.2.2.1⟩ hpl.symm
    have hm := hp.min
    simp only [List.mem_map] at hm
    obtain ⟨e, he, rfl⟩ := hm
    obtain ⟨i, hi, hei⟩ := hp.whole e he
    have h5 := h4 e.1 e.2 he
    have h6 := C24_within_interval t.plan i spread hi (by rw [← hei]; exact hq.era e he) hq.real
    rw [hei] at h5 ⊢
    have := hq.real
    unfold seconds at *
    omega
  have hc := hq.clock
  unfold longest
  split at h6
  · have := le_max_right (6 * 60 * minute) (m + seconds 1)
    omega
  · have h8 := le_max_left (6 * 60 * minute) (m + seconds 1)
    have h9 : min (2 ^ streak (List.zipWith failed (rs.map Run.pass) (runForever (some .init) (rs.map Run.pass)))) 360 ≤ 360 :=
      Nat.min_le_right _ _
    generalize min (2 ^ streak (List.zipWith failed (rs.map Run.pass) (runForever (some .init) (rs.map Run.pass)))) 360 = k at *
    unfold minute at *
    omega

/-- **C99** Its revision carries every tag that was missed when it was planned, whatever was missed, and from then on, whatever state
the expiry is in, every tag of the schedule has a complete revision that was younger than the interval of the tag when the run was
planned, or is the one just made. -/
theorem C99_catches_up (sch : Schedule) (spread : Int) (hs : GoodSchedule sch) (q : Run) (t : Timeline.Pass)
    (tags : Finset String) (before mid : Dict String RevFile) (hq : Succeeds q t sch spread tags before mid)
    (view : Dict String RevFile) (hv : t.Visible sch mid view) :
    (∀ tag, Missed sch (connected before) t.nowM tag → tag ∈ tags) ∧
    ∀ tag a, (tag, a) ∈ sch → ∃ r ∈ (connected view).history, r.clean = true ∧ tag ∈ r.tags ∧
      (t.nowM - a.interval < r.ts ∨ q.start ≤ r.ts) := by
  obtain ⟨time, hpl⟩ := hq.planned.2
  have hpl' := hq.planned.1
  rw [hpl] at hpl'
  obtain ⟨c1, _, _, _⟩ := C25_missed_tags_are_caught_up sch t.plan spread (connected before) t.nowM t.now1 t.now2 time tags
    (fun e he => (hq.era e he).trans hq.clock.1) ⟨hq.clock.2.2.1, hq.clock.2.2.2.1⟩ hpl'.symm
  refine ⟨c1, fun tag a ha => ?_⟩
  have hstart := hq.clock.2.2.2.2.2.2
  have hfin : ∀ x, onDisk mid x.uuid = some x → tag ∈ x.tags → t.nowM - a.interval < x.ts ∨ q.start ≤ x.ts →
      ∃ r ∈ (connected view).history, r.clean = true ∧ tag ∈ r.tags ∧ (t.nowM - a.interval < r.ts ∨ q.start ≤ r.ts) := by
    intro x hx htag hage
    obtain ⟨r', r1, r2, r3, r4, r, s1, s2, s3⟩ := survives hs t hq.backs.named hv ha hx htag
    refine ⟨r', (mem_connected r4 r').2 r1, ?_, r2, ?_⟩
    · show r'.stats.has "duration" = true
      rw [s2]; exact hq.backs.complete _ _ s1
    · omega
  by_cases hmiss : Missed sch (connected before) t.nowM tag
  · obtain ⟨x, x1, x2, x3, _⟩ := hq.backs.new
    exact hfin x (by rw [onDisk_uuid hq.backs.named x1]; exact x1) (by rw [x3]; exact c1 tag hmiss) (.inr (by omega))
  · unfold Missed at hmiss
    push Not at hmiss
    obtain ⟨r, h1, h2, h3, h4⟩ := hmiss a ha
    have hr := (mem_connected hq.named r).1 h1
    have hne : r.uuid ≠ t.uuid := by
      intro h
      rw [h, hq.fresh] at hr
      cases hr
    obtain ⟨r', k1, k2, k3, _⟩ := hq.backs.kept r hr h2 hne
    exact hfin r' (by rw [onDisk_uuid hq.backs.named k1]; exact k1) (by rw [k3]; exact h3) (.inl (by omega))

/-- **C99** The SLA is held again, for one and a half shortest intervals from the start of the backup. -/
theorem C99_sla_held_again (sch : Schedule) (m spread : Int) (hs : GoodSchedule sch) (hp : Proper sch m) (q : Run) (t : Timeline.Pass)
    (tags : Finset String) (before mid : Dict String RevFile) (hq : Succeeds q t sch spread tags before mid)
    (view : Dict String RevFile) (hv : t.Visible sch mid view) (now : Int) (hnow : 2 * (now - q.start) ≤ 3 * m) :
    (connected view).slaOverdue sch now = .ok 0 := by
  obtain ⟨time, hpl⟩ := hq.planned.2
  have hpl' := hq.planned.1
  rw [hpl] at hpl'
  obtain ⟨tag, a, ha, htag⟩ := planned_tag hpl'.symm
  obtain ⟨x, x1, x2, x3, x4, _⟩ := hq.backs.new
  obtain ⟨r', r1, r2, r3, r4, r, s1, s2, s3⟩ := survives hs t hq.backs.named hv ha (x := x)
    (by rw [onDisk_uuid hq.backs.named x1]; exact x1) (by rw [x3]; exact htag)
  have hpos : 0 ≤ m := by
    obtain ⟨e, he, hee⟩ := List.mem_map.1 hp.min
    obtain ⟨i, hi, hei⟩ := hp.whole e he
    have : e.2.interval = m := hee
    unfold seconds at hei
    omega
  obtain ⟨v, e1, e2, _⟩ := C30_sla_exact (connected view) sch now m (Repo.scan_sorted ⟨view, [], []⟩) hp.min hp.least hpos
  rw [e1]
  by_cases hv0 : v = 0
  · rw [hv0]
  · have h1 := (e2.1 hv0).2 r' ((mem_connected r4 r').2 r1) (by rw [s2]; exact hq.backs.complete _ _ s1)
    have := hq.clock.2.2.2.2.2.2
    omega

/-- **C99** If no step of the run failed, the next run follows the schedule again, however many runs had failed before. -/
theorem C99_back_to_schedule (rs : List Daemon.Pass) (q next : Daemon.Pass) (h : ∀ p ∈ rs ++ [q, next], Plans p)
    (acts acts' : List Act) (hrun : runForever (some .init) (rs ++ [q, next]) = runForever (some .init) rs ++ [acts, acts'])
    (hok : failed q acts = false) : ∃ time tags, next.planned = .ok (time, tags) ∧ deadlineOf acts' = some time := by
  have hl : rs ++ [q, next] = rs ++ [q] ++ [next] := by simp
  obtain ⟨a1, t1, g1, e1, _, _⟩ := C32_backoff rs q (fun p hp => h p (by simp at hp ⊢; tauto))
  obtain ⟨a2, t2, g2, e2, p2, k2⟩ := C32_backoff (rs ++ [q]) next (by simpa using h)
  rw [hl, e2, e1, List.append_assoc] at hrun
  have hrun := List.append_cancel_left hrun
  simp only [List.cons_append, List.nil_append, List.cons.injEq, and_true] at hrun
  obtain ⟨rfl, rfl⟩ := hrun
  refine ⟨t2, g2, p2, ?_⟩
  have hlen : (runForever (some .init) rs).length = rs.length := runForever_length rs .init (fun p hp => h p (by simp [hp]))
  have hs : streak (List.zipWith failed (rs ++ [q]) (runForever (some .init) (rs ++ [q]))) = 0 := by
    rw [e1, List.zipWith_append hlen.symm]
    simp only [List.zipWith_cons_cons, List.zipWith_nil_right, streak_append, hok]
    rfl
  rw [k2, if_pos hs]

/-! ## A concrete case: two failed runs, then a successful one -/

/-- A run that fails. -/
def exFailed (now planned start : Int) : Run :=
  ⟨{ exFail now with planned := .ok (planned, {"daily"}) }, start⟩

/-- The clock readings of the successful run. -/
def exClock : Timeline.Pass :=
  { plan := seconds (101 * DAY + 160), nowM := seconds (101 * DAY + 160), now1 := seconds (101 * DAY + 160),
    now2 := seconds (101 * DAY + 160), start := seconds (101 * DAY + 410), done := seconds (101 * DAY + 700),
    expiry := fun _ => seconds (101 * DAY + 710), uuid := "b", pd := fun _ => none }

/-- The successful run. -/
def exGood : Run :=
  ⟨{ exFail (seconds (101 * DAY + 160)) with planned := exClock.planned exSchedule 0 exMid1, failing := fun _ => false },
    seconds (101 * DAY + 410)⟩

/-- What it leaves. -/
def exMid3 : Dict String RevFile :=
  [("a", ⟨false, mkRev "a" (seconds (100 * DAY + 60)) {"daily", "weekly"}⟩), ("b", ⟨false, mkRev "b" (seconds (101 * DAY + 410)) {"daily"}⟩)]

def exRuns : List Run :=
  [exFailed (seconds (100 * DAY + 100)) (seconds (101 * DAY)) (seconds (101 * DAY + 10)),
   exFailed (seconds (101 * DAY + 20)) (seconds (102 * DAY)) (seconds (101 * DAY + 150))]

theorem exGood_planned : exClock.planned exSchedule 0 exMid1 = .ok (seconds (101 * DAY + 160), {"daily"}) := by decide +kernel

theorem exRuns_timely : Timely (seconds 60) (seconds 1000) (exRuns ++ [exGood]) := by
  refine ⟨?_, ?_, ?_⟩
  · intro r hr
    simp only [exRuns, List.cons_append, List.nil_append, List.mem_cons, List.not_mem_nil, or_false] at hr
    rcases hr with rfl | rfl | rfl
    · exact ⟨rfl, _, rfl⟩
    · exact ⟨rfl, _, rfl⟩
    · exact ⟨rfl, _, exGood_planned⟩
  · refine .cons ?_ (.cons ?_ (.cons ?_ .nil)) <;> decide +kernel
  · simp only [exRuns, List.cons_append, List.nil_append]
    decide +kernel

theorem exGood_succeeds : Succeeds exGood exClock exSchedule 0 {"daily"} exMid1 exMid3 := by
  refine ⟨exMid1_named, by decide +kernel, by decide, by decide, ⟨rfl, _, exGood_planned⟩, rfl, ?_⟩
  have hn : Named exMid3 := by
    refine ⟨by decide, ?_⟩
    intro n f hm _
    simp only [exMid3, List.mem_cons, Prod.mk.injEq, List.not_mem_nil, or_false] at hm
    rcases hm with ⟨rfl, rfl⟩ | ⟨rfl, rfl⟩ <;> rfl
  refine ⟨hn, ⟨_, rfl, rfl, rfl, rfl, rfl⟩, ?_, exComplete (by decide +kernel), ?_⟩
  · intro r hr _ hne
    have hm := Dict.mem_of_get? (onDisk_eq_some.1 hr)
    simp only [exMid1, List.mem_cons, Prod.mk.injEq, List.not_mem_nil, or_false] at hm
    obtain ⟨h1, h2⟩ := hm
    refine ⟨r, ?_, rfl, rfl, rfl⟩
    rw [h1]
    simp only [RevFile.mk.injEq, true_and] at h2
    rw [h2]
    decide +kernel
  · intro u r hr hne
    have hm := Dict.mem_of_get? (onDisk_eq_some.1 hr)
    simp only [exMid3, List.mem_cons, Prod.mk.injEq, List.not_mem_nil, or_false] at hm
    rcases hm with ⟨h1, _⟩ | ⟨h1, _⟩
    · exact ⟨_, by rw [h1]; rfl, by decide⟩
    · exact absurd h1 hne

/-- Test (C99): the outage ends five minutes after midnight; both runs before failed, the missed tag is caught up by the next one. -/
example : exGood.start ≤ seconds (101 * DAY + 300) + seconds 1000 + longest (seconds DAY) + seconds 60 ∧
    (connected exMid3).slaOverdue exSchedule (seconds (102 * DAY)) = .ok 0 ∧
    Missed exSchedule (connected exMid1) exClock.nowM "daily" ∧
    streak (List.zipWith failed (exRuns.map Run.pass) (runForever (some .init) (exRuns.map Run.pass))) = 2 := by
  refine ⟨C99_recovers_soon exSchedule (seconds DAY) 0 (seconds 60) (seconds 1000) _ exSchedule_proper exRuns exGood exRuns_timely
    (by intro r hr; cases hr; decide +kernel) (by decide +kernel) exClock _ exMid1 exMid3 exGood_succeeds,
    C99_sla_held_again exSchedule (seconds DAY) 0 exSchedule_good exSchedule_proper exGood exClock _ exMid1 exMid3 exGood_succeeds
      exMid3 (.inl rfl) _ (by decide +kernel), ?_, by decide +kernel⟩
  refine ⟨⟨seconds DAY, 2⟩, by decide, ?_⟩
  intro r hr _ _
  have := (mem_connected exMid1_named r).1 hr
  have hm := Dict.mem_of_get? (onDisk_eq_some.1 this)
  simp only [exMid1, List.mem_cons, Prod.mk.injEq, List.not_mem_nil, or_false] at hm
  simp only [RevFile.mk.injEq, true_and] at hm
  rw [hm.2]
  decide

/-- C99_back_to_schedule: a failed pass, one that works, and the next one waits for the scheduled time. -/
example := C99_back_to_schedule [exFail 0] { exFail 10 with failing := fun _ => false } (exFail 100)
  (by intro p hp
      simp only [List.cons_append, List.nil_append, List.mem_cons, List.not_mem_nil, or_false] at hp
      rcases hp with rfl | rfl | rfl <;> exact ⟨rfl, _, rfl⟩)
  _ _ rfl (by decide +kernel)

end Verif.Outage
