import Verif.Props.Clock
/-!
# C145: changing the schedule
-/
namespace Verif.Repo
open Verif Verif.Repo.Spec

/-- The new schedule keeps every tag of the old at least as long, in number and in time, and schedules no further `manual:` tags. -/
def Relaxed (old new : Schedule) : Prop :=
  (∀ tag a, (tag, a) ∈ old → ∃ b, (tag, b) ∈ new ∧ a.keep ≤ b.keep ∧ (a.keep : Int) * a.interval ≤ b.keep * b.interval) ∧
  ∀ tag b, (tag, b) ∈ new → isManual tag = true → ∃ a, (tag, a) ∈ old

/-- The schedules agree about a tag. -/
def SameEntry (old new : Schedule) (tag : String) : Prop := ∀ a, (tag, a) ∈ old ↔ (tag, a) ∈ new

/-- The tags of a revision after expiry in terms of what the expiry stores: if a tag is kept, the revision is there and has it. -/
theorem kept_of_mem {sch : Schedule} (hs : GoodSchedule sch) (now : String → Int) (pd : String → Option Int) {s : Repo}
    (hn : Named s.files) (hlog : s.log = []) {r : Rev} (hr : onDisk s.files r.uuid = some r) (tag : String) :
    tag ∈ keptTags sch now s.scan.history r ↔
      ∃ x, onDisk (sch.expire pd now s).2.files r.uuid = some x ∧ tag ∈ x.tags := by
  have hC := (C27_expiry_exact sch hs now pd s hn hlog).1 r.uuid
  constructor
  · intro h
    refine ⟨{ r with tags := keptTags sch now s.scan.history r }, (hC _).2 ⟨r, hr, rfl, ?_⟩, h⟩
    rintro ⟨e, _⟩
    rw [e] at h
    simp at h
  · rintro ⟨x, hx, h⟩
    obtain ⟨q, hq, rfl, _⟩ := (hC x).1 hx
    rw [hr] at hq
    cases hq
    exact h

/-- **C145** With a schedule that keeps everything at least as long, everything that the old schedule leaves is left, with at least the same
tags. -/
theorem C145_relaxed (old new : Schedule) (ho : GoodSchedule old) (hw : GoodSchedule new) (hrel : Relaxed old new) (now : String → Int)
    (pd : String → Option Int) (s : Repo) (hn : Named s.files) (hlog : s.log = []) (u : String) (x : Rev)
    (hx : onDisk (old.expire pd now s).2.files u = some x) :
    ∃ t, onDisk (new.expire pd now s).2.files u = some { x with tags := t } ∧ x.tags ⊆ t := by
  obtain ⟨r, k1, k2, k3⟩ := ((C27_expiry_exact old ho now pd s hn hlog).1 u x).1 hx
  have hm : keptTags old now s.scan.history r ⊆ keptTags new now s.scan.history r := by
    intro t ht
    rw [mem_keptTags] at ht ⊢
    obtain ⟨h1, h2, h3⟩ := ht
    refine ⟨h1, h2.imp id (fun h => ?_), ?_⟩
    · obtain ⟨⟨k, a⟩, ha, rfl⟩ := List.mem_map.1 h
      obtain ⟨b, hb, _⟩ := hrel.1 k a ha
      exact List.mem_map.2 ⟨_, hb, rfl⟩
    · rintro ⟨b, hb, hnew, hts⟩
      have hk : t ∈ old.keys ∨ t ∉ old.keys := em _
      rcases hk with hk | hk
      · obtain ⟨⟨k, a⟩, ha, rfl⟩ := List.mem_map.1 hk
        obtain ⟨b', hb', hkeep, hint⟩ := hrel.1 k a ha
        have hbb : b = b' := by
          have ea := Dict.get?_of_mem hw.nodup hb
          have eb := Dict.get?_of_mem hw.nodup hb'
          rw [ea] at eb
          exact Option.some.inj eb
        subst hbb
        refine h3 ⟨a, ha, fun hh => hnew ?_, by dsimp only at hts ⊢; omega⟩
        exact List.take_subset_take_left _ hkeep hh
      · rcases h2 with h2 | h2
        · obtain ⟨a, ha⟩ := hrel.2 t b hb h2
          exact hk (List.mem_map.2 ⟨_, ha, rfl⟩)
        · exact hk h2
  refine ⟨keptTags new now s.scan.history r, ((C27_expiry_exact new hw now pd s hn hlog).1 u _).2 ⟨r, k1, by rw [k2], ?_⟩, by rw [k2]; exact hm⟩
  rintro ⟨e1, e2⟩
  refine k3 ⟨?_, e2⟩
  rw [e1] at hm
  exact Finset.subset_empty.1 hm

/-- **C145** What happens to a tag depends on the entry of this tag only: if two schedules agree about a tag, however they differ otherwise,
they leave it on the same revisions. -/
theorem C145_independent (old new : Schedule) (ho : GoodSchedule old) (hw : GoodSchedule new) (now : String → Int)
    (pd : String → Option Int) (s : Repo) (hn : Named s.files) (hlog : s.log = []) (tag : String) (hsame : SameEntry old new tag)
    (u : String) :
    (∃ x, onDisk (old.expire pd now s).2.files u = some x ∧ tag ∈ x.tags) ↔
      ∃ x, onDisk (new.expire pd now s).2.files u = some x ∧ tag ∈ x.tags := by
  have key : ∀ r, tag ∈ keptTags old now s.scan.history r ↔ tag ∈ keptTags new now s.scan.history r := by
    intro r
    rw [mem_keptTags, mem_keptTags]
    have hk : tag ∈ old.keys ↔ tag ∈ new.keys := by
      constructor
      · intro h
        obtain ⟨⟨k, a⟩, ha, rfl⟩ := List.mem_map.1 h
        exact List.mem_map.2 ⟨_, (hsame a).1 ha, rfl⟩
      · intro h
        obtain ⟨⟨k, a⟩, ha, rfl⟩ := List.mem_map.1 h
        exact List.mem_map.2 ⟨_, (hsame a).2 ha, rfl⟩
    have hd : Due old now s.scan.history tag r ↔ Due new now s.scan.history tag r :=
      exists_congr (fun a => and_congr_left (fun _ => hsame a))
    rw [hk, hd]
  have hex : ∀ {sch : Schedule}, GoodSchedule sch → (∃ x, onDisk (sch.expire pd now s).2.files u = some x ∧ tag ∈ x.tags) →
      ∃ r, onDisk s.files u = some r ∧ r.uuid = u := by
    rintro sch hs ⟨x, hx, _⟩
    obtain ⟨r, hr, _⟩ := ((C27_expiry_exact sch hs now pd s hn hlog).1 u x).1 hx
    refine ⟨r, hr, ?_⟩
    have := hn.named u ⟨false, r⟩ (Dict.mem_of_get? (onDisk_eq_some.1 hr)) rfl
    exact this.symm
  constructor
  · intro h
    obtain ⟨r, hr, rfl⟩ := hex ho h
    exact (kept_of_mem hw now pd hn hlog hr tag).1 ((key r).1 ((kept_of_mem ho now pd hn hlog hr tag).2 h))
  · intro h
    obtain ⟨r, hr, rfl⟩ := hex hw h
    exact (kept_of_mem ho now pd hn hlog hr tag).1 ((key r).2 ((kept_of_mem hw now pd hn hlog hr tag).2 h))

/-- **C145** A tag that is taken out of the schedule is gone from every revision after the next expiry, unless it begins with `manual:`; a
revision of this server that had no other tag is gone itself. -/
theorem C145_dropped (new : Schedule) (hw : GoodSchedule new) (now : String → Int) (pd : String → Option Int) (s : Repo)
    (hn : Named s.files) (hlog : s.log = []) (tag : String) (hdrop : ∀ a, (tag, a) ∉ new) (hman : startsWith tag "manual:" = false) :
    (∀ u x, onDisk (new.expire pd now s).2.files u = some x → tag ∉ x.tags) ∧
    ∀ r, onDisk s.files r.uuid = some r → r.tags ⊆ {tag} → r.server = "" → onDisk (new.expire pd now s).2.files r.uuid = none := by
  have hno : ∀ r, tag ∉ keptTags new now s.scan.history r := by
    intro r h
    rw [mem_keptTags] at h
    rcases h.2.1 with h | h
    · exact absurd h (by simp [isManual, hman])
    · obtain ⟨⟨k, a⟩, ha, rfl⟩ := List.mem_map.1 h
      exact hdrop a ha
  have hC := (C27_expiry_exact new hw now pd s hn hlog).1
  constructor
  · intro u x hx h
    obtain ⟨r, _, rfl, _⟩ := (hC u x).1 hx
    exact hno r h
  · intro r hr ht hsv
    cases hx : onDisk (new.expire pd now s).2.files r.uuid with
    | none => rfl
    | some x =>
      obtain ⟨q, hq, _, hk⟩ := (hC r.uuid x).1 hx
      rw [hr] at hq
      cases hq
      refine absurd ⟨?_, hsv⟩ hk
      rw [Finset.eq_empty_iff_forall_notMem]
      intro t h
      have := ht (keptTags_sub r h)
      rw [Finset.mem_singleton] at this
      subst this
      exact hno r h

/-! ### Concrete cases -/

/-- More of everything, and a monthly tag. -/
def exRelaxed : Schedule := [("monthly", ⟨seconds (30 * DAY), 3⟩), ("daily", ⟨seconds DAY, 5⟩), ("weekly", ⟨seconds (8 * DAY), 4⟩)]

theorem exRelaxed_good : GoodSchedule exRelaxed := by
  refine ⟨by decide +kernel, by decide +kernel, ?_⟩
  intro e he
  simp only [exRelaxed, List.mem_cons, List.not_mem_nil, or_false] at he
  rcases he with rfl | rfl | rfl <;>
  · refine ⟨?_, ?_, ?_⟩
    · repeat' (first | exact trivial | refine noSep_cons (by decide) ?_)
    · intro c hc; revert hc; revert c; decide +kernel
    · intro c hc; revert hc; revert c; decide +kernel

/-- Test (C145): the relaxed schedule leaves at least as much. -/
example := C145_relaxed exSchedule exRelaxed exSchedule_good exRelaxed_good
  ⟨by
    intro tag a h
    simp only [exSchedule, List.mem_cons, Prod.mk.injEq, List.not_mem_nil, or_false] at h
    rcases h with ⟨rfl, rfl⟩ | ⟨rfl, rfl⟩
    · exact ⟨⟨seconds DAY, 5⟩, by decide, by decide, by decide⟩
    · exact ⟨⟨seconds (8 * DAY), 4⟩, by decide, by decide, by decide⟩,
   by
    intro tag b h hm
    simp only [exRelaxed, List.mem_cons, Prod.mk.injEq, List.not_mem_nil, or_false] at h
    rcases h with ⟨rfl, _⟩ | ⟨rfl, _⟩ | ⟨rfl, _⟩ <;> exact absurd hm (by decide +kernel)⟩
  (fun _ => seconds (105 * DAY)) (fun _ => none) exExpire exExpire_named rfl "d" exExpire.files[3].2.rev (by decide +kernel)

/-- Only the weekly tag is left in the schedule. -/
def exWeekly : Schedule := [("weekly", ⟨seconds WEEK, 1⟩)]

theorem exWeekly_good : GoodSchedule exWeekly :=
  ⟨by decide +kernel, by decide +kernel, fun e he => exSchedule_good.plain e (by
    simp only [exWeekly, List.mem_cons, List.not_mem_nil, or_false] at he
    subst he
    decide)⟩

/-- Test (C145): the weekly tag stays on the same revisions. -/
example := C145_independent exSchedule exWeekly exSchedule_good exWeekly_good (fun _ => seconds (105 * DAY)) (fun _ => none) exExpire
  exExpire_named rfl "weekly" (fun a => by simp [exSchedule, exWeekly]) "e"

/-- Test (C145): without the daily tag in the schedule "d" is gone, though it was among the newest. -/
example : onDisk (exWeekly.expire (fun _ => none) (fun _ => seconds (105 * DAY)) exExpire).2.files "d" = none :=
  (C145_dropped exWeekly exWeekly_good (fun _ => seconds (105 * DAY)) (fun _ => none) exExpire exExpire_named rfl "daily"
    (fun a => by simp [exWeekly]) (by decide +kernel)).2 exExpire.files[3].2.rev (by decide +kernel) (by decide +kernel) rfl

end Verif.Repo
