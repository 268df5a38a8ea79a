import Verif.Props.Schedule
/-!
# Property C115: tags share backups

All tags of a job use the same spread, so that the slots of an interval are slots of each interval that divides it.
-/
set_option linter.dupNamespace false
namespace Verif.Repo
open Verif

/-- Slots of an interval are slots of each interval that divides it. -/
theorem IsSlot.of_dvd {a b spread t : Int} (h : IsSlot (seconds b) (seconds spread) t) (hd : a ∣ b) : IsSlot (seconds a) (seconds spread) t := by
  unfold IsSlot at *
  have h1 : seconds a ∣ seconds b := by unfold seconds; exact Int.mul_dvd_mul_right _ hd
  exact Int.emod_eq_zero_of_dvd (Int.dvd_trans h1 (Int.dvd_of_emod_eq_zero h))

/-- The regular run in terms of the slots of the tags. -/
theorem nextIdeal_spec {sch : Schedule} {relative spread it : Int} {itags : Finset String} (hi : sch.nextIdeal relative spread = .ok (it, itags)) :
    (∀ tag spec, (tag, spec) ∈ sch → it ≤ nextInInterval relative spec.interval spread) ∧
    (∀ tag, tag ∈ itags ↔ ∃ spec, (tag, spec) ∈ sch ∧ nextInInterval relative spec.interval spread = it) ∧
    ∃ tag spec, (tag, spec) ∈ sch ∧ nextInInterval relative spec.interval spread = it := by
  unfold Schedule.nextIdeal at hi
  rw [show sch.any (fun e => decide (e.2.interval = 0)) = false by
      cases hz : sch.any (fun e => decide (e.2.interval = 0))
      · rfl
      · rw [hz] at hi; cases hi] at hi
  simp only [Bool.false_eq_true, if_false] at hi
  split at hi
  · cases hi
  · rename_i t ht
    cases hi
    rw [List.min?_eq_some_iff] at ht
    refine ⟨?_, ?_, ?_⟩
    · intro tag spec hm
      refine ht.2 _ ?_
      simp only [List.map_map, List.mem_map]
      exact ⟨_, hm, rfl⟩
    · intro tag
      simp only [List.mem_toFinset, List.mem_map, List.mem_filter, decide_eq_true_eq]
      constructor
      · rintro ⟨e, ⟨⟨e', hm', rfl⟩, he2⟩, rfl⟩
        exact ⟨e'.2, hm', he2⟩
      · rintro ⟨spec, hm, he⟩
        exact ⟨_, ⟨⟨(tag, spec), hm, rfl⟩, he⟩, rfl⟩
    · have hm := ht.1
      simp only [List.map_map, List.mem_map] at hm
      obtain ⟨e, he, hx⟩ := hm
      exact ⟨e.1, e.2, he, hx⟩

/-- The next run is either the regular one, with the missed tags added, or an immediate one for the missed tags only. -/
theorem next_cases {sch : Schedule} {relative spread : Int} {s : Repo} {nowM now1 now2 time : Int} {tags : Finset String}
    (h : sch.next relative spread s nowM now1 now2 = .ok (time, tags)) :
    ∃ it itags, sch.nextIdeal relative spread = .ok (it, itags) ∧
      (time = it ∧ tags = itags ∪ sch.missed s nowM ∨ sch.missed s nowM ≠ ∅ ∧ tags = sch.missed s nowM) := by
  unfold Schedule.next at h
  cases hi : sch.nextIdeal relative spread with
  | error e => rw [hi] at h; cases h
  | ok p =>
    obtain ⟨it, itags⟩ := p
    rw [hi] at h
    dsimp only at h
    refine ⟨it, itags, rfl, ?_⟩
    split at h
    · rename_i hc
      split at h
      · cases h; exact .inr ⟨hc.1, rfl⟩
      · cases h; exact .inl ⟨rfl, rfl⟩
    · cases h; exact .inl ⟨rfl, rfl⟩

/-- The reference time is not so close to `t` that the slot may be passed over (see `C24_next_slot`): it is a whole second, or `t` is further ahead
than the 2⁵¹-th part of the time since the year 1 (28 µs). -/
def Ahead (relative t : Int) : Prop := relative < 2 ^ 51 * (t - relative) ∨ ∃ X, relative = seconds X

/-- **C115** A backup for a tag that was not missed also gets all tags whose interval divides that of the tag: a weekly backup is the daily backup of its
day, too. -/
theorem C115_shared (sch : Schedule) (relative spread : Int) (s : Repo) (nowM now1 now2 time : Int) (tags : Finset String)
    (hnow : ∀ e ∈ sch, e.2.interval ≤ nowM) (h : sch.next relative spread s nowM now1 now2 = .ok (time, tags))
    {tagA tagB : String} {keepA keepB : Nat} {a b : Int} (ha : (tagA, ⟨seconds a, keepA⟩) ∈ sch) (hB : ∀ spec, (tagB, spec) ∈ sch → spec = ⟨seconds b, keepB⟩)
    (ha0 : 0 < a) (hb0 : 0 < b) (hd : a ∣ b) (hr : seconds b ≤ relative) (hmax : relative < seconds (2 ^ 50)) (hahead : Ahead relative time)
    (hin : tagB ∈ tags) (hnot : ¬ Missed sch s nowM tagB) : tagA ∈ tags := by
  have hmiss : tagB ∉ sch.missed s nowM := fun hm => hnot ((mem_missed_iff sch s nowM tagB hnow).1 hm)
  obtain ⟨it, itags, hi, hc⟩ := next_cases h
  obtain ⟨hle, hmem, _⟩ := nextIdeal_spec hi
  rcases hc with ⟨rfl, rfl⟩ | ⟨_, rfl⟩
  swap
  · exact absurd hin hmiss
  rcases Finset.mem_union.1 hin with hin | hin
  swap
  · exact absurd hin hmiss
  obtain ⟨spec, hm, he⟩ := (hmem tagB).1 hin
  rw [hB spec hm] at he
  dsimp only at he
  have hab : a ≤ b := Int.le_of_dvd hb0 hd
  have hra : seconds a ≤ relative := by unfold seconds at *; omega
  obtain ⟨hs, hlt, _, _⟩ := C24_next_slot relative b spread hb0 hr hmax
  rw [he] at hs hlt
  obtain ⟨_, _, h3, h4⟩ := C24_next_slot relative a spread ha0 hra hmax
  have hle2 : nextInInterval relative (seconds a) spread ≤ time := by
    rcases hahead with hx | ⟨X, hx⟩
    · exact h3 time (hs.of_dvd hd) hx
    · exact h4 X hx time (hs.of_dvd hd) hlt
  have := hle tagA _ ha
  dsimp only at this
  exact Finset.mem_union_left _ ((hmem tagA).2 ⟨_, ha, by dsimp only; omega⟩)

/-- **C115** Tags with longer intervals cause no additional backups: if all intervals are multiples of the shortest one and nothing was missed, every
planned time is a slot of the shortest interval, and no slot of it lies between. -/
theorem C115_no_extra_backups (sch : Schedule) (relative spread : Int) (s : Repo) (nowM now1 now2 time : Int) (tags : Finset String)
    (hnow : ∀ e ∈ sch, e.2.interval ≤ nowM) (h : sch.next relative spread s nowM now1 now2 = .ok (time, tags))
    {tag : String} {keep : Nat} {m : Int} (hm : (tag, ⟨seconds m, keep⟩) ∈ sch) (hm0 : 0 < m)
    (hall : ∀ e ∈ sch, ∃ i, 0 < i ∧ m ∣ i ∧ e.2.interval = seconds i ∧ seconds i ≤ relative) (hmax : relative < seconds (2 ^ 50))
    (hnot : ∀ t, ¬ Missed sch s nowM t) :
    IsSlot (seconds m) (seconds spread) time ∧ relative < time ∧
    ∀ t, IsSlot (seconds m) (seconds spread) t → relative < t → Ahead relative t → time ≤ t := by
  have hempty : sch.missed s nowM = ∅ := by
    rw [Finset.eq_empty_iff_forall_notMem]
    exact fun t ht => hnot t ((mem_missed_iff sch s nowM t hnow).1 ht)
  obtain ⟨it, itags, hi, hc⟩ := next_cases h
  obtain ⟨hle, hmem, tagB, specB, hB, he⟩ := nextIdeal_spec hi
  rcases hc with ⟨rfl, _⟩ | ⟨hne, _⟩
  swap
  · exact absurd hempty hne
  obtain ⟨i, hi0, hdv, hie, hir⟩ := hall _ hB
  dsimp only at hie
  rw [hie] at he
  obtain ⟨hs, hlt, _, _⟩ := C24_next_slot relative i spread hi0 hir hmax
  rw [he] at hs hlt
  refine ⟨hs.of_dvd hdv, hlt, ?_⟩
  intro t hst hgt hah
  obtain ⟨j, hj0, _, hje, hjr⟩ := hall _ hm
  dsimp only at hje
  rw [← hje] at hjr
  obtain ⟨_, _, h3, h4⟩ := C24_next_slot relative m spread hm0 hjr hmax
  have h1 := hle tag _ hm
  dsimp only at h1
  rcases hah with hx | ⟨X, hx⟩
  · exact Int.le_trans h1 (h3 t hst hx)
  · exact Int.le_trans h1 (h4 X hx t hst hgt)

/-- A repository in which no tag of `exSchedule` was missed on the thirteenth day. -/
def exShared : Repo := { files := [], history := [mkRev "a" (seconds (13 * DAY)) {"daily", "weekly"}] }

theorem exShared_missed (t : String) : ¬ Missed exSchedule exShared (seconds (13 * DAY + HOUR)) t := by
  intro h
  have hm := (mem_missed_iff exSchedule exShared (seconds (13 * DAY + HOUR)) t (by decide +kernel)).2 h
  have : exSchedule.missed exShared (seconds (13 * DAY + HOUR)) = ∅ := by decide +kernel
  rw [this] at hm
  cases hm

/-- The next run on the thirteenth day is the daily and weekly one on the fourteenth. -/
theorem exShared_next : exSchedule.next (seconds (13 * DAY + HOUR)) 0 exShared (seconds (13 * DAY + HOUR)) (seconds (13 * DAY + HOUR))
    (seconds (13 * DAY + HOUR)) = .ok (seconds (14 * DAY), {"daily", "weekly"}) := by decide +kernel

example : "daily" ∈ ({"daily", "weekly"} : Finset String) :=
  C115_shared exSchedule _ 0 exShared _ _ _ _ _ (by decide +kernel) exShared_next (tagA := "daily") (tagB := "weekly") (keepA := 2) (keepB := 1)
    (a := DAY) (b := WEEK) (by decide) (by
      intro spec hs
      simp only [exSchedule, List.mem_cons, Prod.mk.injEq, List.not_mem_nil, or_false] at hs
      rcases hs with ⟨h, _⟩ | ⟨_, rfl⟩
      · exact absurd h (by decide)
      · rfl) (by decide) (by decide) (by decide) (by decide) (by decide) (.inr ⟨_, rfl⟩) (by decide) (exShared_missed _)

example := C115_no_extra_backups exSchedule _ 0 exShared _ _ _ _ _ (by decide +kernel) exShared_next (tag := "daily") (keep := 2) (m := DAY)
  (by decide) (by decide) (by
    intro e he
    simp only [exSchedule, List.mem_cons, List.not_mem_nil, or_false] at he
    rcases he with rfl | rfl
    · exact ⟨DAY, by decide, by decide, rfl, by decide⟩
    · exact ⟨WEEK, by decide, by decide, rfl, by decide⟩) (by decide) exShared_missed

end Verif.Repo
