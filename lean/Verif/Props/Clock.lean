import Verif.Props.Expiry
import Verif.Props.Schedule
import Verif.Props.Accepted
/-!
# C143: a wrong clock
-/
namespace Verif.Repo
open Verif Verif.Repo.Spec

theorem keptTags_mono {sch : Schedule} {now1 now2 : String → Int} (hle : ∀ t, now1 t ≤ now2 t) (H : List Rev) (r : Rev) :
    keptTags sch now2 H r ⊆ keptTags sch now1 H r := by
  intro t ht
  rw [mem_keptTags] at ht ⊢
  exact ⟨ht.1, ht.2.1, fun h => ht.2.2 (due_mono hle h)⟩

/-- **C143** A clock that is behind: whatever is left, with whatever tags, by an expiry with the right clock (`now2`), is also left by an
expiry with a clock that is behind (`now1`), with at least these tags; ... -/
theorem C143_behind (sch : Schedule) (hs : GoodSchedule sch) (now1 now2 : String → Int) (hle : ∀ t, now1 t ≤ now2 t)
    (pd : String → Option Int) (s : Repo) (hn : Named s.files) (hlog : s.log = []) (u : String) (r2 : Rev)
    (h2 : onDisk (sch.expire pd now2 s).2.files u = some r2) :
    ∃ t, onDisk (sch.expire pd now1 s).2.files u = some { r2 with tags := t } ∧ r2.tags ⊆ t := by
  obtain ⟨r, k1, k2, k3⟩ := ((C27_expiry_exact sch hs now2 pd s hn hlog).1 u r2).1 h2
  have hm := keptTags_mono (sch := sch) hle s.scan.history r
  refine ⟨keptTags sch now1 s.scan.history r, ((C27_expiry_exact sch hs now1 pd s hn hlog).1 u _).2 ⟨r, k1, by rw [k2], ?_⟩, by rw [k2]; exact hm⟩
  rintro ⟨e1, e2⟩
  refine k3 ⟨?_, e2⟩
  rw [e1] at hm
  exact Finset.subset_empty.1 hm

/-- **C143** ... and when the clock is right again, the next expiry leaves the same as if the clock had never been wrong. -/
theorem C143_corrected (sch : Schedule) (hs : GoodSchedule sch) (wrong right : String → Int) (hle : ∀ t, wrong t ≤ right t)
    (pd : String → Option Int) (s : Repo) (hn : Named s.files) (hlog : s.log = [])
    (hdist : ∀ a ∈ s.scan.history, ∀ b ∈ s.scan.history, a.ts = b.ts → a = b) (u : String) :
    onDisk (sch.expire pd right (⟨(sch.expire pd wrong s).2.files, (sch.expire pd wrong s).2.history, []⟩ : Repo)).2.files u =
      onDisk (sch.expire pd right s).2.files u := C29_idempotent sch hs wrong right hle pd s hn hlog hdist u

/-- **C143** A clock that is ahead, however far: the newest `keep` revisions with a tag of the schedule keep it, and tags beginning with
`manual:` stay. -/
theorem C143_ahead (sch : Schedule) (hs : GoodSchedule sch) (now : String → Int) (pd : String → Option Int) (s : Repo)
    (hn : Named s.files) (hlog : s.log = []) (r : Rev) (hr : onDisk s.files r.uuid = some r) (tag : String) (ht : tag ∈ r.tags)
    (hkeep : (∃ a, (tag, a) ∈ sch ∧ AmongNewest s.scan.history tag a.keep r) ∨ tag ∉ sch.keys ∧ startsWith tag "manual:" = true) :
    ∃ t, onDisk (sch.expire pd now s).2.files r.uuid = some { r with tags := t } ∧ tag ∈ t := by
  have hmem : tag ∈ keptTags sch now s.scan.history r := by
    rw [mem_keptTags]
    rcases hkeep with ⟨a, ha, hk⟩ | ⟨h1, h2⟩
    · refine ⟨ht, .inr (List.mem_map.2 ⟨_, ha, rfl⟩), ?_⟩
      rintro ⟨b, hb, h1, _⟩
      have : a = b := by
        have ea := Dict.get?_of_mem hs.nodup ha
        have eb := Dict.get?_of_mem hs.nodup hb
        rw [ea] at eb
        exact Option.some.inj eb
      subst this
      exact h1 hk
    · refine ⟨ht, .inl h2, ?_⟩
      rintro ⟨b, hb, _⟩
      exact h1 (List.mem_map.2 ⟨_, hb, rfl⟩)
  refine ⟨keptTags sch now s.scan.history r, ((C27_expiry_exact sch hs now pd s hn hlog).1 _ _).2 ⟨r, hr, rfl, ?_⟩, hmem⟩
  rintro ⟨e, _⟩
  rw [e] at hmem
  simp at hmem

/-- **C143** Whatever the times of the revisions in the directory are - also later than the clock -, the next run is planned at most one
interval of any tag after the time shown by the clock. -/
theorem C143_planned (sch : Schedule) (relative spread : Int) (s : Repo) (nowM now1 now2 : Int) (time : Int) (tags : Finset String)
    (hnow : ∀ e ∈ sch, e.2.interval ≤ nowM) (hclock : now1 ≤ now2 ∧ now2 ≤ now1 + seconds (5 * 60))
    (h : sch.next relative spread s nowM now1 now2 = .ok (time, tags)) (tag : String) (spec : TagSpec) (hm : (tag, spec) ∈ sch) (i : Int)
    (hi : 0 < i) (hspec : spec.interval = seconds i) (hr : seconds i ≤ relative) (hb : relative < seconds (2 ^ 50)) :
    time ≤ relative + spec.interval + relative / 2 ^ 51 + 1 := by
  have h1 := (C25_missed_tags_are_caught_up sch relative spread s nowM now1 now2 time tags hnow hclock h).2.2.1 tag spec hm
  have h2 := C24_within_interval relative i spread hi hr hb
  rw [← hspec] at h2
  omega

/-! ### Concrete cases -/

/-- Test (C143): at day 103 by the clock nothing is due but an unknown tag; at day 105 "a" is removed. -/
example : (onDisk (exSchedule.expire (fun _ => none) (fun _ => seconds (102 * DAY)) exExpire).2.files "a").isSome = true ∧
    onDisk (exSchedule.expire (fun _ => none) (fun _ => seconds (105 * DAY)) exExpire).2.files "a" = none := by decide +kernel

example := C143_behind exSchedule exSchedule_good (fun _ => seconds (102 * DAY)) (fun _ => seconds (105 * DAY)) (fun _ => by decide)
  (fun _ => none) exExpire exExpire_named rfl "b" { exExpire.files[1].2.rev with tags := {"manual:x"} } (by decide +kernel)

example := C143_corrected exSchedule exSchedule_good (fun _ => seconds (102 * DAY)) (fun _ => seconds (105 * DAY)) (fun _ => by decide)
  (fun _ => none) exExpire exExpire_named rfl (by decide +kernel) "a"

/-- Test (C143): a hundred years ahead the newest revision still has its tag. -/
example := C143_ahead exSchedule exSchedule_good (fun _ => seconds (36500 * DAY)) (fun _ => none) exExpire exExpire_named rfl
  exExpire.files[4].2.rev (by decide +kernel) "daily" (by decide +kernel) (.inl ⟨exSchedule[0].2, by decide +kernel, (by unfold AmongNewest; decide +kernel)⟩)

/-- Test (C143): the only revision is from the future. -/
example : ∃ time tags, exSchedule.next (seconds (400 * DAY)) 0 { files := [], history := [mkRev "a" (seconds (9999 * DAY)) {"daily", "weekly"}] }
    (seconds (400 * DAY)) (seconds (400 * DAY)) (seconds (400 * DAY)) = .ok (time, tags) ∧ time ≤ seconds (402 * DAY) := by
  obtain ⟨time, tags, h⟩ := Accepted.next_ok (sch := exSchedule) (by decide) (by decide) (seconds (400 * DAY)) 0
    { files := [], history := [mkRev "a" (seconds (9999 * DAY)) {"daily", "weekly"}] } (seconds (400 * DAY)) (seconds (400 * DAY))
    (seconds (400 * DAY))
  refine ⟨time, tags, h, ?_⟩
  have := C143_planned exSchedule _ _ _ _ _ _ time tags (by decide +kernel) (by decide) h "daily" ⟨seconds DAY, 2⟩ (by decide +kernel) DAY
    (by decide) rfl (by decide) (by decide)
  exact this.trans (by decide)

end Verif.Repo
