import Verif.Model.Spread
import Verif.Props.Shared
/-!
# Property C119: the slots of a job are fixed
-/
namespace Verif.Spread
open Verif Verif.Repo

/-- The same tags with the same intervals (in any order, with any numbers of revisions to keep). -/
def SameIntervals (a b : Schedule) : Prop :=
  ∀ tag i, (∃ k, (tag, (⟨i, k⟩ : TagSpec)) ∈ a) ↔ ∃ k, (tag, (⟨i, k⟩ : TagSpec)) ∈ b

/-- The same longest interval. -/
def SameLongest (a b : Schedule) : Prop :=
  (∀ e ∈ a, ∃ e' ∈ b, e.2.interval ≤ e'.2.interval) ∧ ∀ e ∈ b, ∃ e' ∈ a, e.2.interval ≤ e'.2.interval

theorem SameIntervals.longest {a b : Schedule} (h : SameIntervals a b) : SameLongest a b := by
  constructor
  · rintro ⟨tag, i, k⟩ hm
    obtain ⟨k', hk⟩ := (h tag i).1 ⟨k, hm⟩
    exact ⟨_, hk, Int.le_refl _⟩
  · rintro ⟨tag, i, k⟩ hm
    obtain ⟨k', hk⟩ := (h tag i).2 ⟨k, hm⟩
    exact ⟨_, hk, Int.le_refl _⟩

theorem max_same {a b : Schedule} (h : SameLongest a b) :
    (a.map (fun e => e.2.interval)).max? = (b.map (fun e => e.2.interval)).max? := by
  cases ha : (a.map (fun e => e.2.interval)).max? with
  | none =>
    rw [List.max?_eq_none_iff, List.map_eq_nil_iff] at ha
    subst ha
    cases b with
    | nil => rfl
    | cons e b => obtain ⟨_, h, _⟩ := h.2 e (.head _); cases h
  | some m =>
    symm
    rw [List.max?_eq_some_iff] at ha ⊢
    obtain ⟨hm, hmax⟩ := ha
    simp only [List.mem_map] at hm hmax ⊢
    obtain ⟨e, he, rfl⟩ := hm
    obtain ⟨e', he', hle⟩ := h.1 e he
    obtain ⟨e2, he2, hle2⟩ := h.2 e' he'
    have hle3 := hmax _ ⟨e2, he2, rfl⟩
    refine ⟨⟨e', he', by omega⟩, ?_⟩
    rintro x ⟨y, hy, rfl⟩
    obtain ⟨z, hz, hle4⟩ := h.2 y hy
    have := hmax _ ⟨z, hz, rfl⟩
    omega

/-- **C119** Changes of the schedule move the slots of a job only if they change the longest interval: the job's spread, and with it
the next slot of every interval, stays the same. -/
theorem C119_longest_decides (env : Env) (name : String) (a b : Schedule) (h : SameLongest a b) : spread env name a = spread env name b := by
  unfold spread
  rw [max_same h]

/-- **C119** Every job with a schedule has a spread, between 0 and its longest interval. -/
theorem C119_in_range (env : Env) (he : env.Ok) (name : String) (sch : Schedule) (hne : sch ≠ []) (hpos : ∀ e ∈ sch, 0 ≤ e.2.interval) :
    ∃ s, spread env name sch = .ok s ∧ 0 ≤ s ∧ ∃ e ∈ sch, seconds s ≤ e.2.interval ∧ ∀ e' ∈ sch, e'.2.interval ≤ e.2.interval := by
  unfold spread
  cases hm : (sch.map (fun e => e.2.interval)).max? with
  | none => rw [List.max?_eq_none_iff, List.map_eq_nil_iff] at hm; exact absurd hm hne
  | some m =>
    rw [List.max?_eq_some_iff] at hm
    obtain ⟨h1, h2⟩ := hm
    obtain ⟨e, hem, rfl⟩ := List.mem_map.1 h1
    have hp := hpos e hem
    obtain ⟨h3, h4⟩ := he (env.md5 name) 0 (e.2.interval / 1000000) (Int.ediv_nonneg hp (by decide))
    dsimp only
    rw [if_neg (by omega)]
    refine ⟨_, rfl, h3, e, hem, ?_, fun e' he' => h2 _ (List.mem_map.2 ⟨e', he', rfl⟩)⟩
    unfold seconds
    omega

/-- The next slots are the same if no slot lies between. -/
theorem next_same {i spread r1 r2 : Int} (hi : 0 < i) (hr1 : seconds i ≤ r1) (hle : r1 ≤ r2) (hb : r2 < seconds (2 ^ 50))
    (hno : ∀ t, IsSlot (seconds i) (seconds spread) t → r1 < t → r2 < t ∧ Ahead r1 t ∧ Ahead r2 t) :
    nextInInterval r1 (seconds i) spread = nextInInterval r2 (seconds i) spread := by
  obtain ⟨s1, l1, m1, w1⟩ := C24_next_slot r1 i spread hi hr1 (by omega)
  obtain ⟨s2, l2, m2, w2⟩ := C24_next_slot r2 i spread hi (by omega) hb
  obtain ⟨a1, a2, a3⟩ := hno _ s1 l1
  obtain ⟨b1, b2, b3⟩ := hno _ s2 (by omega)
  have h12 : nextInInterval r1 (seconds i) spread ≤ nextInInterval r2 (seconds i) spread := by
    rcases b2 with hx | ⟨X, hx⟩
    · exact m1 _ s2 hx
    · exact w1 X hx _ s2 (by omega)
  have h21 : nextInInterval r2 (seconds i) spread ≤ nextInInterval r1 (seconds i) spread := by
    rcases a3 with hx | ⟨X, hx⟩
    · exact m2 _ s1 hx
    · exact w2 X hx _ s1 a1
  omega

/-- **C119** The regular time of a job, and the tags due then, depend only on its name and on the tags and intervals of its schedule.
They are the same after a restart or a reload and on every server, as long as no slot has passed in between: slots are never moved by
restarting.  (`r1` and `r2` are the times at which the two plan; a slot must not be so close that the floating-point computation
passes over it, see C24.) -/
theorem C119_same_everywhere (env : Env) (name : String) (a b : Schedule) (hs : SameIntervals a b) (s r1 r2 : Int)
    (hsp : spread env name a = .ok s) (hle : r1 ≤ r2) (hb : r2 < seconds (2 ^ 50))
    (hint : ∀ e ∈ a, ∃ i, 0 < i ∧ e.2.interval = seconds i ∧ seconds i ≤ r1)
    (hno : ∀ e ∈ a, ∀ t, IsSlot e.2.interval (seconds s) t → r1 < t → r2 < t ∧ Ahead r1 t ∧ Ahead r2 t) :
    ∃ time tags, regular env name a r1 = .ok (time, tags) ∧ regular env name b r2 = .ok (time, tags) := by
  have hspb : spread env name b = .ok s := by rw [← C119_longest_decides env name a b hs.longest]; exact hsp
  have hnext : ∀ e ∈ a, nextInInterval r1 e.2.interval s = nextInInterval r2 e.2.interval s := by
    intro e he
    obtain ⟨i, h1, h2, h3⟩ := hint e he
    have h4 := hno e he
    rw [h2] at h4 ⊢
    exact next_same h1 h3 hle hb h4
  have hex : ∀ (sch : Schedule) (r : Int), sch ≠ [] → (∀ e ∈ sch, e.2.interval ≠ 0) → ∃ x, sch.nextIdeal r s = .ok x := by
    intro sch r hne hz
    unfold Schedule.nextIdeal
    rw [show sch.any (fun e => decide (e.2.interval = 0)) = false by
      rw [List.any_eq_false]; intro e he; simpa using hz e he]
    simp only [Bool.false_eq_true, if_false]
    split
    · rename_i h
      simp only [List.min?_eq_none_iff, List.map_eq_nil_iff] at h
      exact absurd h hne
    · exact ⟨_, rfl⟩
  have hane : a ≠ [] := by rintro rfl; cases hsp
  have hbne : b ≠ [] := by rintro rfl; cases hspb
  have hab : ∀ tag spec, (tag, spec) ∈ a → ∃ spec', (tag, spec') ∈ b ∧ spec'.interval = spec.interval := by
    rintro tag ⟨i, k⟩ hm
    obtain ⟨k', hk⟩ := (hs tag i).1 ⟨k, hm⟩
    exact ⟨_, hk, rfl⟩
  have hba : ∀ tag spec, (tag, spec) ∈ b → ∃ spec', (tag, spec') ∈ a ∧ spec'.interval = spec.interval := by
    rintro tag ⟨i, k⟩ hm
    obtain ⟨k', hk⟩ := (hs tag i).2 ⟨k, hm⟩
    exact ⟨_, hk, rfl⟩
  have hza : ∀ e ∈ a, e.2.interval ≠ 0 := by
    intro e he
    obtain ⟨n, h1, h2, _⟩ := hint e he
    rw [h2]
    unfold seconds
    omega
  have hzb : ∀ e ∈ b, e.2.interval ≠ 0 := by
    rintro ⟨tag, spec⟩ he
    obtain ⟨spec', h1, h2⟩ := hba tag spec he
    rw [← h2]
    exact hza _ h1
  obtain ⟨⟨t1, g1⟩, h1⟩ := hex a r1 hane hza
  obtain ⟨⟨t2, g2⟩, h2⟩ := hex b r2 hbne hzb
  obtain ⟨x1, x2, tg, sp, x3, x4⟩ := nextIdeal_spec h1
  obtain ⟨y1, y2, tg', sp', y3, y4⟩ := nextIdeal_spec h2
  have ht : t1 = t2 := by
    obtain ⟨s1, m1, e1⟩ := hab tg sp x3
    have q1 := y1 tg s1 m1
    rw [e1, ← hnext _ x3, x4] at q1
    obtain ⟨s2, m2, e2⟩ := hba tg' sp' y3
    have q2 := x1 tg' s2 m2
    have q3 := hnext _ m2
    dsimp only at q3
    rw [q3, e2, y4] at q2
    omega
  subst ht
  have hg : g1 = g2 := by
    ext tag
    rw [x2, y2]
    constructor
    · rintro ⟨spec, hm, he⟩
      obtain ⟨s1, m1, e1⟩ := hab tag spec hm
      exact ⟨s1, m1, by rw [e1, ← hnext _ hm]; exact he⟩
    · rintro ⟨spec, hm, he⟩
      obtain ⟨s1, m1, e1⟩ := hba tag spec hm
      refine ⟨s1, m1, ?_⟩
      have := hnext _ m1
      dsimp only at this
      rw [this, e1]; exact he
  subst hg
  exact ⟨t1, g1, by simp only [regular, hsp, h1], by simp only [regular, hspb, h2]⟩

/-! ### Examples -/

/-- A hash and a generator. -/
def exEnv : Env := ⟨fun n => n.length, fun seed a b => a + (seed * 1000 : Int) % (b - a + 1)⟩

theorem exEnv_ok : exEnv.Ok := by
  intro seed a b h
  have h1 := Int.emod_nonneg (seed * 1000 : Int) (show b - a + 1 ≠ 0 by omega)
  have h2 := Int.emod_lt_of_pos (seed * 1000 : Int) (show 0 < b - a + 1 by omega)
  show a ≤ a + (seed * 1000 : Int) % (b - a + 1) ∧ a + (seed * 1000 : Int) % (b - a + 1) ≤ b
  omega

/-- The same schedule in another order and with other numbers. -/
def exOther : Schedule := [("weekly", ⟨seconds WEEK, 5⟩), ("daily", ⟨seconds DAY, 9⟩)]

theorem exOther_same : SameIntervals exSchedule exOther := by
  intro tag i
  simp only [exSchedule, exOther, List.mem_cons, Prod.mk.injEq, TagSpec.mk.injEq, List.not_mem_nil, or_false]
  constructor
  · rintro ⟨k, ⟨rfl, rfl, _⟩ | ⟨rfl, rfl, _⟩⟩
    · exact ⟨9, .inr ⟨rfl, rfl, rfl⟩⟩
    · exact ⟨5, .inl ⟨rfl, rfl, rfl⟩⟩
  · rintro ⟨k, ⟨rfl, rfl, _⟩ | ⟨rfl, rfl, _⟩⟩
    · exact ⟨1, .inr ⟨rfl, rfl, rfl⟩⟩
    · exact ⟨2, .inl ⟨rfl, rfl, rfl⟩⟩

theorem exSpread : spread exEnv "vm1" exSchedule = .ok 3000 := by decide +kernel

/-- A slot of the example is at least 1000 s after the times at which is planned. -/
theorem exSlots (i : Int) (hi : i = DAY ∨ i = WEEK) (t : Int) (h : IsSlot (seconds i) (seconds 3000) t) (h1 : seconds (14 * DAY) < t) :
    seconds (14 * DAY + 3000) ≤ t := by
  unfold IsSlot at h
  rcases hi with rfl | rfl <;> simp only [seconds, DAY, WEEK, HOUR, MINUTE] at * <;> omega

example : ∃ time tags, regular exEnv "vm1" exSchedule (seconds (14 * DAY)) = .ok (time, tags) ∧
    regular exEnv "vm1" exOther (seconds (14 * DAY + 1000)) = .ok (time, tags) := by
  refine C119_same_everywhere exEnv "vm1" exSchedule exOther exOther_same 3000 _ _ exSpread (by decide) (by decide) ?_ ?_
  · intro e he
    simp only [exSchedule, List.mem_cons, List.not_mem_nil, or_false] at he
    rcases he with rfl | rfl
    · exact ⟨DAY, by decide, rfl, by decide⟩
    · exact ⟨WEEK, by decide, rfl, by decide⟩
  · intro e he t ht h1
    have : seconds (14 * DAY + 3000) ≤ t := by
      simp only [exSchedule, List.mem_cons, List.not_mem_nil, or_false] at he
      rcases he with rfl | rfl
      · exact exSlots DAY (.inl rfl) t ht h1
      · exact exSlots WEEK (.inr rfl) t ht h1
    refine ⟨?_, .inr ⟨_, rfl⟩, .inr ⟨_, rfl⟩⟩
    simp only [seconds] at *
    omega

example : regular exEnv "vm1" exSchedule (seconds (14 * DAY)) = .ok (seconds (14 * DAY + 3000), {"daily", "weekly"}) := by
  decide +kernel

example := C119_in_range exEnv exEnv_ok "vm1" exSchedule (by decide) (by decide)

example := C119_longest_decides exEnv "vm1" exSchedule exOther exOther_same.longest

end Verif.Spread
