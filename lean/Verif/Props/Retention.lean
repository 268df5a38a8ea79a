import Verif.Props.Growth
import Verif.Props.Recovery
/-!
# Property C134: how far one can go back
-/
set_option linter.dupNamespace false
namespace Verif.Timeline
open Verif Verif.Repo Verif.Repo.Spec Verif.Backup Verif.Spec

/-- A revision of a job that started with an empty directory was made by one of its passes. -/
theorem Passes.made_by {sch : Schedule} (hs : GoodSchedule sch) {spread late long : Int} {start files : Dict String RevFile} {l : List Made}
    (h : Passes sch spread late long start l files) (hempty : ∀ u, onDisk start u = none) (u : String) (r : Rev)
    (hr : onDisk files u = some r) : ∃ q ∈ l, u = q.pass.uuid ∧ r.ts = q.pass.start ∧ r.server = "" ∧ r.clean = true := by
  induction h generalizing u r with
  | nil _ => rw [hempty] at hr; cases hr
  | cons x l before mid after h0 fresh soon hm ih =>
    have hbn := hm.backs.named
    rw [hm.expires, expired_spec hs x.pass hbn] at hr
    obtain ⟨r0, h1, rfl, _⟩ := hr
    by_cases hux : u = x.pass.uuid
    · obtain ⟨n, n1, n2, n3, n4, n5⟩ := hm.backs.new
      rw [hux, n1] at h1
      cases h1
      exact ⟨x, by simp, hux, n2, n5, n4⟩
    · obtain ⟨b, b1, b2⟩ := hm.backs.only u r0 h1 hux
      have hbu : b.uuid = u := onDisk_uuid (h0.named hs) b1
      obtain ⟨r', k1, k2, k3, k4⟩ := hm.backs.kept b (by rw [hbu]; exact b1) b2 (by rw [hbu]; exact hux)
      rw [hbu, h1] at k1
      cases k1
      obtain ⟨q, q1, q2, q3, q4, q5⟩ := ih u b b1
      exact ⟨q, by simp [q1], q2, k2.trans q3, k4.trans q4, (show r0.clean = true from hm.backs.complete _ _ h1)⟩

/-- The passes follow each other. -/
theorem Passes.before_head {sch : Schedule} {spread late long : Int} {start files : Dict String RevFile} {l : List Made}
    (h : Passes sch spread late long start l files) : ∀ x ∈ l.head?, ∀ q ∈ l, q.pass.start ≤ x.pass.start := by
  induction h with
  | nil _ => simp
  | cons z l before mid after h0 fresh soon hm ih =>
    intro x hx q hq
    cases hx
    rcases List.mem_cons.1 hq with rfl | hq
    · exact le_rfl
    · cases l with
      | nil => cases hq
      | cons y l =>
        have h1 := ih y rfl q hq
        have h2 := (soon y rfl).1
        have h3 : y.pass.start ≤ y.pass.done := by cases h0; rename_i hy; exact hy.inTime.ends.1
        have h4 := hm.inTime.clock
        omega

/-- **C134** A job that started with an empty directory and has made all its backups in time.  Let `t` be any time after its first backup was done, up
to the end of its last one, such that the interval of a tag, two shortest intervals and twice the delays before `t` are no further back than
`keep` intervals of the tag (counted from a time `now` not before any of its expiries).  Then there is a complete revision with the tag that was made
at most so long before `t`. -/
theorem C134_go_back (sch : Schedule) (m spread late long : Int) (hs : GoodSchedule sch) (hp : Proper sch m)
    (start files : Dict String RevFile) (l : List Made) (h : Passes sch spread late long start l files)
    (hempty : ∀ u, onDisk start u = none) (tag : String) (a : TagSpec) (ha : (tag, a) ∈ sch) (t now : Int)
    (hfirst : ∃ q ∈ l, q.pass.done < t) (hlast : ∀ x ∈ l.head?, t ≤ x.pass.done)
    (hexp : ∀ x ∈ l, x.pass.expiry tag ≤ now)
    (hage : now - a.keep * a.interval ≤ t - (a.interval + 2 * m + 2 * late + 2 * long + 2 * seconds 1)) :
    ∃ r ∈ (connected files).history, r.clean = true ∧ r.server = "" ∧ tag ∈ r.tags ∧
      t - (a.interval + 2 * m + 2 * late + 2 * long + 2 * seconds 1) ≤ r.ts ∧ r.ts ≤ t := by
  suffices key : ∃ r, onDisk files r.uuid = some r ∧ tag ∈ r.tags ∧
      t - (a.interval + 2 * m + 2 * late + 2 * long + 2 * seconds 1) ≤ r.ts ∧ r.ts ≤ t by
    obtain ⟨r, h1, h2, h3, h4⟩ := key
    obtain ⟨_, _, _, _, h5, h6⟩ := h.made_by hs hempty _ r h1
    exact ⟨r, (mem_connected (h.named hs) r).2 h1, h6, h5, h2, h3, h4⟩
  induction h with
  | nil _ =>
    obtain ⟨q, hq, _⟩ := hfirst
    cases hq
  | cons x l before mid after h0 fresh soon hm ih =>
    have hx : t ≤ x.pass.done := hlast x rfl
    -- what is there before this pass survives it
    have hstep : ∀ r, onDisk before r.uuid = some r → tag ∈ r.tags →
        t - (a.interval + 2 * m + 2 * late + 2 * long + 2 * seconds 1) ≤ r.ts → r.ts ≤ t →
        ∃ r, onDisk after r.uuid = some r ∧ tag ∈ r.tags ∧
          t - (a.interval + 2 * m + 2 * late + 2 * long + 2 * seconds 1) ≤ r.ts ∧ r.ts ≤ t := by
      intro r r1 r2 r3 r4
      obtain ⟨q, q1, q2, q3, q4, q5⟩ := h0.made_by hs hempty _ r r1
      have hne : r.uuid ≠ x.pass.uuid := fun he => by rw [he, hm.fresh] at r1; cases r1
      obtain ⟨r', k1, k2, k3, k4⟩ := hm.backs.kept r r1 q5 hne
      have hu : r'.uuid = r.uuid := onDisk_uuid hm.backs.named k1
      have hv : x.pass.Visible sch mid after := by rw [hm.expires]; exact visible_expired sch x.pass mid
      have hexp' := hexp x (by simp)
      obtain ⟨T, t1, t2, _, _⟩ := survives_young hs x.pass hm.backs.named hv ha (x := r') (by rw [hu]; exact k1) (by rw [k3]; exact r2)
        (by rw [k2]; omega)
      refine ⟨r'.withTags T, t1, t2, ?_, ?_⟩
      · show _ ≤ r'.ts
        rw [k2]; exact r3
      · show r'.ts ≤ _
        rw [k2]; exact r4
    cases l with
    | nil =>
      obtain ⟨q, hq, hq'⟩ := hfirst
      simp only [List.mem_singleton] at hq
      subst hq
      omega
    | cons y l =>
      by_cases hyt : t ≤ y.pass.done
      · have hfirst' : ∃ q ∈ y :: l, q.pass.done < t := by
          obtain ⟨q, hq, hq'⟩ := hfirst
          rcases List.mem_cons.1 hq with rfl | hq
          · omega
          · exact ⟨q, hq, hq'⟩
        obtain ⟨r, r1, r2, r3, r4⟩ := ih hfirst' (by intro z hz; cases hz; exact hyt) (fun z hz => hexp z (by simp [hz]))
        exact hstep r r1 r2 r3 r4
      · have hb := h0
        cases h0 with
        | cons _ _ before' mid' _ h00 fresh' soon' hy =>
          obtain ⟨r, r1, r2, r3, r4⟩ := C86_tags_recur sch m spread late long hs hp start before before' mid' mid after y x l h00 hy hm
            (soon y rfl).2 t hx before (by rw [hy.expires]; exact visible_expired sch y.pass mid') tag a ha
          have r1' := (mem_connected (hb.named hs) r).1 r1
          refine hstep r r1' r3 (by omega) ?_
          obtain ⟨q, q1, q2, q3, _⟩ := hb.made_by hs hempty _ r r1'
          have h1 := hb.before_head y rfl q q1
          have h2 := hy.inTime.ends.1
          omega

/-- **C134** So one can go back to any such time: some revision restores to the image as it was at one moment, which is at most so long before `t`, and
not after `t` but for the time from the creation of a revision to its snapshot (`lag`). -/
theorem C134_restore (sch : Schedule) (m spread late long : Int) (hs : GoodSchedule sch) (hp : Proper sch m)
    (start : Dict String RevFile) (l : List Made) (env : Env) (img : Int → Bytes) (lag : Int) (s0 s : Sys) (now : Int)
    (h0 : Initial s0) (hd : Recovery.Timed env img lag s0 s now) (hcoll : CollFree env.H s.src.w.log)
    (h : Passes sch spread late long start l s.src.repo.files)
    (hempty : ∀ u, onDisk start u = none) (tag : String) (a : TagSpec) (ha : (tag, a) ∈ sch) (t : Int)
    (hfirst : ∃ q ∈ l, q.pass.done < t) (hlast : ∀ x ∈ l.head?, t ≤ x.pass.done)
    (hexp : ∀ x ∈ l, x.pass.expiry tag ≤ now)
    (hage : now - a.keep * a.interval ≤ t - (a.interval + 2 * m + 2 * late + 2 * long + 2 * seconds 1)) :
    ∃ r ∈ (connected s.src.repo.files).history, tag ∈ r.tags ∧
      ∃ τ, t - (a.interval + 2 * m + 2 * late + 2 * long + 2 * seconds 1) ≤ τ ∧ τ ≤ t + lag ∧
        ∀ (x : Commands.Outside) (dry : Bool) (spec : String), x.sch = some sch → find ⟨s.src.repo.scan.history, x.pd⟩ spec = .ok r →
          (Commands.main env x dry (.restore spec) s).1 = 0 ∧ (Commands.restoreCmd env x spec s.connect).2 = some (img τ) := by
  obtain ⟨r, r1, r2, r3, r4, r5, r6⟩ := C134_go_back sch m spread late long hs hp start _ l h hempty tag a ha t now hfirst hlast hexp hage
  have hn := h.named hs
  obtain ⟨τ, a1, a2, _, a4⟩ := Recovery.timed_dated h0 hd hcoll r.uuid r ((mem_connected hn r).1 r1) r3 r2
  refine ⟨r, r1, r4, τ, by omega, by omega, ?_⟩
  intro x dry spec hx hf
  obtain ⟨c, c1, c2, c3⟩ := Commands.restores_complete env s0 s h0 hd.steps hcoll x sch hx dry spec r hf r3 r2
  rw [a4] at c1
  cases c1
  exact ⟨c2, c3⟩

/-! ## A concrete case -/

/-- Five days are kept. -/
def exKeep : Schedule := [("daily", ⟨seconds DAY, 5⟩), ("weekly", ⟨seconds WEEK, 1⟩)]

theorem exKeep_good : GoodSchedule exKeep := by
  refine ⟨by decide +kernel, by decide +kernel, ?_⟩
  intro e he
  have h := exSchedule_good.plain
  simp only [exKeep, List.mem_cons, List.not_mem_nil, or_false] at he
  rcases he with rfl | rfl
  · exact h ("daily", ⟨seconds DAY, 2⟩) (by simp [exSchedule])
  · exact h ("weekly", ⟨seconds WEEK, 1⟩) (by simp [exSchedule])

theorem exKeep_proper : Proper exKeep (seconds DAY) := by
  refine ⟨?_, by decide, by decide⟩
  intro e he
  simp only [exKeep, List.mem_cons, List.not_mem_nil, or_false] at he
  rcases he with rfl | rfl
  · exact ⟨DAY, by decide, rfl⟩
  · exact ⟨WEEK, by decide, rfl⟩

open Recovery

theorem exKeep1 : exQ.Makes exKeep 0 (seconds 60) (seconds 1000) (seconds (100 * DAY)) {"daily", "weekly"} [] exMidA exMidA := by
  refine ⟨by decide +kernel, rfl, by decide +kernel, exQ_makes.inTime, ⟨exMidA_named, ⟨_, rfl, rfl, rfl, rfl, rfl⟩, ?_, exComplete (by decide +kernel), ?_⟩,
    by decide +kernel⟩
  · intro r hr
    cases hr
  · intro u r hr hne
    have hm := Dict.mem_of_get? (onDisk_eq_some.1 hr)
    simp only [exMidA, List.mem_cons, Prod.mk.injEq, List.not_mem_nil, or_false] at hm
    exact absurd hm.1 hne

theorem exKeep2 : exP.Makes exKeep 0 (seconds 60) (seconds 1000) (seconds (101 * DAY)) {"daily"} exMidA exMidB exMidB := by
  refine ⟨by decide +kernel, rfl, by decide +kernel, exP_makes.inTime, ⟨exMidB_named, ⟨_, rfl, rfl, rfl, rfl, rfl⟩, ?_, exComplete (by decide +kernel), ?_⟩,
    by decide +kernel⟩
  · intro r hr _ hne
    have hm := Dict.mem_of_get? (onDisk_eq_some.1 hr)
    simp only [exMidA, List.mem_cons, Prod.mk.injEq, List.not_mem_nil, or_false] at hm
    obtain ⟨h1, h2⟩ := hm
    refine ⟨r, ?_, rfl, rfl, rfl⟩
    rw [h1]
    simp only [RevFile.mk.injEq, true_and] at h2
    rw [h2]
    decide +kernel
  · intro u r hr hne
    have hm := Dict.mem_of_get? (onDisk_eq_some.1 hr)
    simp only [exMidB, exMidA, List.cons_append, List.nil_append, List.mem_cons, Prod.mk.injEq, List.not_mem_nil, or_false] at hm
    rcases hm with ⟨h1, _⟩ | ⟨h1, _⟩
    · exact ⟨_, by rw [h1]; rfl, by decide⟩
    · exact absurd h1 hne

theorem exKeepPasses : Passes exKeep 0 (seconds 60) (seconds 1000) []
    [⟨exP, seconds (101 * DAY), {"daily"}⟩, ⟨exQ, seconds (100 * DAY), {"daily", "weekly"}⟩] exMidB :=
  .cons _ _ exMidA exMidB exMidB (.cons _ _ [] exMidA exMidA (.nil ⟨by decide, by simp⟩) (by simp) (by simp) exKeep1) (by decide)
    (by intro q hq; cases hq; decide) exKeep2

/-- After the second night. -/
def exSecondNight : Sys :=
  (runBackup Test.env false (idealRbd [0, 0, 0, 0, 2, 2, 2, 2] [1]) "b" (seconds (101 * DAY + 60)) {"daily"} exEvening.connect).2

theorem exSecondNight_timed : Timed Test.env exImg (seconds 60) exNew exSecondNight (seconds (101 * DAY + 760)) :=
  .later _ (seconds (101 * DAY + 660)) _ (.backup exEvening (seconds (100 * DAY + 20 * HOUR)) (seconds (101 * DAY + 100)) _ false
    (idealRbd [0, 0, 0, 0, 2, 2, 2, 2] [1]) "b" (seconds (101 * DAY + 60)) {"daily"} exEvening_timed
    ⟨by decide +kernel, by decide +kernel, by decide +kernel⟩
    (idealRbd_works [0, 0, 0, 0, 2, 2, 2, 2] (by decide) [1] 1 4 (validSample (by decide)) _ _).faithful
    ⟨by decide, by decide, by decide, by decide⟩ (by decide)) (by decide)

theorem exSecondNight_files : exSecondNight.src.repo.files = exMidB := by decide +kernel

/-- Test (C134): the image of the evening of day 100 - or one not too long before. -/
example : ∃ r ∈ (connected exSecondNight.src.repo.files).history, "daily" ∈ r.tags ∧
      ∃ τ, seconds (100 * DAY + 20 * HOUR) - (seconds DAY + 2 * seconds DAY + 2 * seconds 60 + 2 * seconds 1000 + 2 * seconds 1) ≤ τ ∧
        τ ≤ seconds (100 * DAY + 20 * HOUR) + seconds 60 ∧
        ∀ (x : Commands.Outside) (dry : Bool) (spec : String), x.sch = some exKeep → find ⟨exSecondNight.src.repo.scan.history, x.pd⟩ spec = .ok r →
          (Commands.main Test.env x dry (.restore spec) exSecondNight).1 = 0 ∧
          (Commands.restoreCmd Test.env x spec exSecondNight.connect).2 = some (exImg τ) :=
  C134_restore exKeep (seconds DAY) 0 (seconds 60) (seconds 1000) exKeep_good exKeep_proper [] _ Test.env exImg (seconds 60) exNew exSecondNight
    (seconds (101 * DAY + 760)) exNew_initial exSecondNight_timed (Test.collFree _) (by rw [exSecondNight_files]; exact exKeepPasses)
    (fun _ => rfl) "daily" ⟨seconds DAY, 5⟩ (by simp [exKeep]) (seconds (100 * DAY + 20 * HOUR))
    ⟨_, List.mem_cons_of_mem _ (List.mem_singleton.2 rfl), by decide⟩ (by intro x hx; cases hx; decide)
    (by intro x hx
        simp only [List.mem_cons, List.not_mem_nil, or_false] at hx
        rcases hx with rfl | rfl <;> (show seconds _ ≤ seconds _; decide))
    (by decide)

end Verif.Timeline
