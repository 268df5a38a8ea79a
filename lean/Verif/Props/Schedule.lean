import Verif.Model.Schedule
import Verif.Proofs.RepoScan
import Verif.Props.RepoScan
import Mathlib.Tactic.Ring
import Verif.Proofs.Float
/-!
# Properties C24, C25, C30, C31: schedules
-/
set_option linter.dupNamespace false
namespace Verif.Repo
open Verif

/-- The slots of a tag: all times congruent to the job's spread modulo the interval. -/
def IsSlot (interval spread t : Int) : Prop := (t - spread) % interval = 0

theorem roundEven_int (n : Int) : Flt.roundEven (n : ℚ) = n :=
  le_antisymm (Flt.roundEven_le le_rfl) (Flt.roundEven_ge le_rfl)

theorem fmod_int (a : Int) {i : Int} (hi : 0 < i) : Flt.fmod (a : ℚ) (i : ℚ) = ((a % i : Int) : ℚ) := by
  unfold Flt.fmod
  have h : ⌊(a : ℚ) / (i : ℚ)⌋ = a / i := by
    rw [Int.floor_eq_iff]
    have hq : (0 : ℚ) < i := by exact_mod_cast hi
    have h1 := Int.mul_ediv_add_emod a i
    have h2 := Int.emod_nonneg a hi.ne'
    have h3 := Int.emod_lt_of_pos a hi
    constructor
    · rw [le_div_iff₀ hq]
      have : a / i * i ≤ a := by rw [Int.mul_comm]; omega
      exact_mod_cast this
    · rw [div_lt_iff₀ hq]
      have : a < (a / i + 1) * i := by rw [Int.add_mul, Int.mul_comm (a / i)]; omega
      exact_mod_cast this
  rw [h, Int.emod_def]
  push_cast
  ring

/-- The quotient that decides about the slot. -/
def slotQuot (relative : Int) (i s : Int) : ℚ := Flt.rnd (Flt.rnd (Flt.rnd ((relative : ℚ) / 1000000) - s) / i)

/-- What the code computes, for an interval of `i` seconds. -/
theorem next_eq {relative i spread : Int} (hi : 0 < i) (hr : seconds i ≤ relative) (hb : relative < seconds (2 ^ 50)) :
    (0 : ℚ) ≤ slotQuot relative i (spread % i) ∧ ⌊slotQuot relative i (spread % i)⌋ * i ≤ 2 ^ 51 ∧
    nextInInterval relative (seconds i) spread = seconds ((⌊slotQuot relative i (spread % i)⌋ + 1) * i + spread % i) := by
  have hi' : i < 2 ^ 50 := by unfold seconds at *; omega
  have e1 : Flt.rnd ((seconds i : ℚ) / 1000000) = i := by
    have : ((seconds i : Int) : ℚ) / 1000000 = (i : ℚ) := by unfold seconds; push_cast; ring
    rw [this]
    exact Flt.rnd_int hi.le (by omega)
  have e2 := fmod_int spread hi
  have hs0 := Int.emod_nonneg spread hi.ne'
  have hs1 := Int.emod_lt_of_pos spread hi
  generalize hs : spread % i = s at *
  have hsq : (0 : ℚ) ≤ s := by exact_mod_cast hs0
  have hiq : (0 : ℚ) < i := by exact_mod_cast hi
  have hsi : (s : ℚ) ≤ i := by exact_mod_cast hs1.le
  -- the reference time
  have hx0 : (i : ℚ) ≤ (relative : ℚ) / 1000000 := by
    rw [le_div_iff₀ (by norm_num)]
    unfold seconds at hr
    exact_mod_cast hr
  have hx1 : (relative : ℚ) / 1000000 < ((2 ^ 50 : Int) : ℚ) := by
    rw [div_lt_iff₀ (by norm_num)]
    unfold seconds at hb
    exact_mod_cast hb
  have hx2 : (relative : ℚ) / 1000000 < 2 ^ 53 := by
    refine lt_trans hx1 ?_; norm_num
  have hx3 : (0 : ℚ) ≤ (relative : ℚ) / 1000000 := by linarith
  have hr1 := Flt.rnd_ge hx3 hx2 hx0
  have hr2 := Flt.rnd_le hx3 hx2 hx1.le
  unfold slotQuot nextInInterval
  dsimp only
  rw [e1, e2]
  generalize Flt.rnd ((relative : ℚ) / 1000000) = x' at *
  have hy0 : 0 ≤ x' - s := by linarith
  have hy1 : x' - s ≤ ((2 ^ 50 : Int) : ℚ) := by linarith
  have hy2 : x' - s < 2 ^ 53 := by
    refine lt_of_le_of_lt hy1 ?_; norm_num
  have hr3 := Flt.rnd_nonneg hy0 hy2
  have hr4 := Flt.rnd_le hy0 hy2 hy1
  generalize hy : Flt.rnd (x' - s) = y at *
  have hq0 : 0 ≤ y / i := div_nonneg hr3 hiq.le
  have hi1 : (1 : ℚ) ≤ i := by exact_mod_cast hi
  have hq1 : y / i ≤ y := div_le_self hr3 hi1
  have hq2 : y / i < 2 ^ 53 := by
    refine lt_of_le_of_lt (hq1.trans hr4) ?_; norm_num
  have hr5 := Flt.rnd_nonneg hq0 hq2
  have herr := Flt.rnd_err hq0
  have hbig : Flt.rnd (y / i) * i ≤ 2 ^ 50 + 1 := by
    have h1 := (abs_le.1 herr).2
    have h2 : Flt.rnd (y / i) ≤ y / i * (1 + 2 ^ (-53 : ℤ)) := by linarith
    have h3 := mul_le_mul_of_nonneg_right h2 hiq.le
    have h4 : y / i * (1 + 2 ^ (-53 : ℤ)) * i = y * (1 + 2 ^ (-53 : ℤ)) := by field_simp
    rw [h4] at h3
    have h5 : y * (1 + 2 ^ (-53 : ℤ)) ≤ 2 ^ 50 * (1 + 2 ^ (-53 : ℤ)) := by
      apply mul_le_mul_of_nonneg_right
      · refine hr4.trans (by norm_num)
      · norm_num
    have h6 : (2 : ℚ) ^ 50 * (1 + 2 ^ (-53 : ℤ)) ≤ 2 ^ 50 + 1 := by norm_num
    exact h3.trans (h5.trans h6)
  generalize hq : Flt.rnd (y / i) = q at *
  have hf0 : 0 ≤ ⌊q⌋ := Int.floor_nonneg.2 hr5
  have hfl : ⌊q⌋ * i ≤ 2 ^ 50 + 1 := by
    have h1 : (⌊q⌋ : ℚ) * i ≤ q * i := mul_le_mul_of_nonneg_right (Int.floor_le q) hiq.le
    have : ((⌊q⌋ * i : Int) : ℚ) ≤ ((2 ^ 50 + 1 : Int) : ℚ) := by push_cast; linarith
    exact_mod_cast this
  refine ⟨hr5, by omega, ?_⟩
  unfold Flt.toInt
  rw [if_pos hr5]
  have h1 : ((⌊q⌋ : ℚ) + 1) * i = (((⌊q⌋ + 1) * i : Int) : ℚ) := by push_cast; ring
  have hexp : (⌊q⌋ + 1) * i = ⌊q⌋ * i + i := by ring
  have hnn : 0 ≤ ⌊q⌋ * i := Int.mul_nonneg hf0 hi.le
  rw [h1, Flt.rnd_int (by omega) (by omega)]
  have h2 : (((⌊q⌋ + 1) * i : Int) : ℚ) + s = (((⌊q⌋ + 1) * i + s : Int) : ℚ) := by push_cast; ring
  rw [h2, Flt.rnd_int (by omega) (by omega)]
  have h3 : (((⌊q⌋ + 1) * i + s : Int) : ℚ) * 1000000 = ((seconds ((⌊q⌋ + 1) * i + s) : Int) : ℚ) := by
    unfold seconds; push_cast; ring
  rw [h3, roundEven_int]

/-- The bounds of the intermediate results. -/
theorem next_bounds {relative i s : Int} (hi : 0 < i) (hr : seconds i ≤ relative) (hb : relative < seconds (2 ^ 50)) (hs0 : 0 ≤ s)
    (hs1 : s < i) :
    ((0 : ℚ) ≤ (relative : ℚ) / 1000000 ∧ (relative : ℚ) / 1000000 < 2 ^ 53) ∧
    (0 ≤ Flt.rnd ((relative : ℚ) / 1000000) - s ∧ Flt.rnd ((relative : ℚ) / 1000000) - s < 2 ^ 53) ∧
    (0 ≤ Flt.rnd (Flt.rnd ((relative : ℚ) / 1000000) - s) / i ∧ Flt.rnd (Flt.rnd ((relative : ℚ) / 1000000) - s) / i < 2 ^ 53) := by
  have hsq : (0 : ℚ) ≤ s := by exact_mod_cast hs0
  have hiq : (0 : ℚ) < i := by exact_mod_cast hi
  have hsi : (s : ℚ) ≤ i := by exact_mod_cast hs1.le
  have hx0 : (i : ℚ) ≤ (relative : ℚ) / 1000000 := by
    rw [le_div_iff₀ (by norm_num)]
    unfold seconds at hr
    exact_mod_cast hr
  have hx1 : (relative : ℚ) / 1000000 < ((2 ^ 50 : Int) : ℚ) := by
    rw [div_lt_iff₀ (by norm_num)]
    unfold seconds at hb
    exact_mod_cast hb
  have hx2 : (relative : ℚ) / 1000000 < 2 ^ 53 := by
    refine lt_trans hx1 ?_; norm_num
  have hx3 : (0 : ℚ) ≤ (relative : ℚ) / 1000000 := by linarith
  have hr1 := Flt.rnd_ge hx3 hx2 hx0
  have hr2 := Flt.rnd_le hx3 hx2 hx1.le
  generalize Flt.rnd ((relative : ℚ) / 1000000) = x' at *
  have hy0 : 0 ≤ x' - s := by linarith
  have hy1 : x' - s ≤ ((2 ^ 50 : Int) : ℚ) := by linarith
  have hy2 : x' - s < 2 ^ 53 := by
    refine lt_of_le_of_lt hy1 ?_; norm_num
  have hr3 := Flt.rnd_nonneg hy0 hy2
  have hr4 := Flt.rnd_le hy0 hy2 hy1
  have hi1 : (1 : ℚ) ≤ i := by exact_mod_cast hi
  have hq1 := div_le_self hr3 hi1
  refine ⟨⟨hx3, hx2⟩, ⟨hy0, hy2⟩, div_nonneg hr3 hiq.le, ?_⟩
  refine lt_of_le_of_lt (hq1.trans hr4) ?_; norm_num

theorem seconds_le_iff (a b : Int) : seconds a ≤ b ↔ (a : ℚ) ≤ (b : ℚ) / 1000000 := by
  rw [le_div_iff₀ (by norm_num : (0 : ℚ) < 1000000)]
  unfold seconds
  constructor <;> intro h <;> exact_mod_cast h

theorem seconds_lt_iff (a b : Int) : a < seconds b ↔ (a : ℚ) / 1000000 < b := by
  rw [div_lt_iff₀ (by norm_num : (0 : ℚ) < 1000000)]
  unfold seconds
  constructor <;> intro h <;> exact_mod_cast h

/-- Rounding never makes a slot that has passed the next one. -/
theorem slotQuot_ge {relative i s : Int} (hi : 0 < i) (hr : seconds i ≤ relative) (hb : relative < seconds (2 ^ 50)) (hs0 : 0 ≤ s)
    (hs1 : s < i) {k : Int} (hk : seconds (k * i + s) ≤ relative) : k ≤ ⌊slotQuot relative i s⌋ := by
  obtain ⟨⟨b1, b2⟩, ⟨b3, b4⟩, b5, b6⟩ := next_bounds hi hr hb hs0 hs1
  have hiq : (0 : ℚ) < i := by exact_mod_cast hi
  have h1 := Flt.rnd_ge b1 b2 ((seconds_le_iff _ _).1 hk)
  push_cast at h1
  have h2 := Flt.rnd_ge b3 b4 (k := k * i) (by push_cast; linarith)
  push_cast at h2
  have h3 : (k : ℚ) ≤ Flt.rnd (Flt.rnd ((relative : ℚ) / 1000000) - s) / i := by rw [le_div_iff₀ hiq]; exact h2
  exact Int.le_floor.2 (Flt.rnd_ge b5 b6 h3)

/-- Rounding does not skip a slot unless it is very close. -/
theorem slotQuot_lt {relative i s : Int} (hi : 0 < i) (hr : seconds i ≤ relative) (hb : relative < seconds (2 ^ 50)) (hs0 : 0 ≤ s)
    (hs1 : s < i) {k : Int} (hk : relative < 2 ^ 51 * (seconds (k * i + s) - relative)) : ⌊slotQuot relative i s⌋ < k := by
  obtain ⟨⟨b1, b2⟩, ⟨b3, b4⟩, b5, b6⟩ := next_bounds hi hr hb hs0 hs1
  have hiq : (0 : ℚ) < i := by exact_mod_cast hi
  have hsq : (0 : ℚ) ≤ s := by exact_mod_cast hs0
  have e1 := (abs_le.1 (Flt.rnd_err b1)).2
  have e2 := (abs_le.1 (Flt.rnd_err b3)).2
  have e3 := (abs_le.1 (Flt.rnd_err b5)).2
  rw [Int.floor_lt]
  unfold slotQuot
  have hT : (relative : ℚ) / 1000000 * (1 + 4 * 2 ^ (-53 : ℤ)) < k * i + s := by
    have h1 : ((relative : Int) : ℚ) < 2 ^ 51 * (1000000 * (k * i + s) - relative) := by
      unfold seconds at hk
      have : ((relative : Int) : ℚ) < ((2 ^ 51 * ((k * i + s) * 1000000 - relative) : Int) : ℚ) := by exact_mod_cast hk
      push_cast at this
      linarith
    have h2 : (2 : ℚ) ^ (-53 : ℤ) = 1 / 2 ^ 53 := by norm_num
    rw [h2]
    norm_num at h1 ⊢
    linarith
  have hc : (0 : ℚ) < 2 ^ (-53 : ℤ) := by norm_num
  have hc1 : (2 : ℚ) ^ (-53 : ℤ) ≤ 1 / 8 := by norm_num
  generalize (2 : ℚ) ^ (-53 : ℤ) = c at *
  generalize (relative : ℚ) / 1000000 = x at *
  generalize Flt.rnd x = x' at *
  generalize Flt.rnd (x' - s) = y at *
  generalize Flt.rnd (y / i) = q at *
  have q1 : q * i ≤ y * (1 + c) := by
    have h1 : q ≤ y / i * (1 + c) := by linarith
    have h3 := mul_le_mul_of_nonneg_right h1 hiq.le
    have h4 : y / i * (1 + c) * i = y * (1 + c) := by field_simp
    rwa [h4] at h3
  have q2 : y * (1 + c) ≤ (x' - s) * (1 + c) * (1 + c) := by
    apply mul_le_mul_of_nonneg_right _ (by linarith)
    linarith
  have q3 : (x' - s) * (1 + c) * (1 + c) ≤ (x * (1 + c) - s) * (1 + c) * (1 + c) := by
    apply mul_le_mul_of_nonneg_right _ (by linarith)
    apply mul_le_mul_of_nonneg_right _ (by linarith)
    linarith
  have q4 : (x * (1 + c) - s) * (1 + c) * (1 + c) ≤ x * (1 + 4 * c) - s := by
    have h1 : (x * (1 + c) - s) * (1 + c) * (1 + c) = x * (1 + 4 * c) - s - x * c * (1 - 3 * c - c * c) - s * c * (2 + c) := by ring
    rw [h1]
    have hcc : c * c ≤ 1 / 8 * c := mul_le_mul_of_nonneg_right hc1 hc.le
    have h2 : 0 ≤ x * c * (1 - 3 * c - c * c) := by
      apply mul_nonneg (mul_nonneg b1 hc.le)
      linarith
    have h3 : 0 ≤ s * c * (2 + c) := mul_nonneg (mul_nonneg hsq hc.le) (by linarith)
    linarith
  have q5 : q * i < k * i := by linarith
  exact lt_of_mul_lt_mul_right q5 hiq.le

/-- At whole seconds rounding does not skip a slot. -/
theorem slotQuot_whole {X i s : Int} (hi : 0 < i) (hr : i ≤ X) (hb : X < 2 ^ 50) (hs0 : 0 ≤ s)
    (hs1 : s < i) {k : Int} (hk : X < k * i + s) : ⌊slotQuot (seconds X) i s⌋ < k := by
  have hiq : (0 : ℚ) < i := by exact_mod_cast hi
  have e : ((seconds X : Int) : ℚ) / 1000000 = (X : ℚ) := by unfold seconds; push_cast; ring
  unfold slotQuot
  rw [e, Flt.rnd_int (by omega) (by omega)]
  have e2 : (X : ℚ) - s = ((X - s : Int) : ℚ) := by push_cast; ring
  rw [e2, Flt.rnd_int (by omega) (by omega)]
  have hY0 : (0 : ℚ) ≤ ((X - s : Int) : ℚ) := by
    have : 0 ≤ X - s := by omega
    exact_mod_cast this
  have hY1 : ((X - s : Int) : ℚ) ≤ 2 ^ 50 := by
    have : X - s ≤ 2 ^ 50 := by omega
    exact_mod_cast this
  have hYk : ((X - s : Int) : ℚ) ≤ k * i - 1 := by
    have : X - s ≤ k * i - 1 := by omega
    exact_mod_cast this
  generalize ((X - s : Int) : ℚ) = Y at *
  have e3 := (abs_le.1 (Flt.rnd_err (div_nonneg hY0 hiq.le))).2
  rw [Int.floor_lt]
  generalize Flt.rnd (Y / i) = q at *
  have q1 : q * i ≤ Y * (1 + 2 ^ (-53 : ℤ)) := by
    have h1 : q ≤ Y / i * (1 + 2 ^ (-53 : ℤ)) := by linarith
    have h3 := mul_le_mul_of_nonneg_right h1 hiq.le
    have h4 : Y / i * (1 + 2 ^ (-53 : ℤ)) * i = Y * (1 + 2 ^ (-53 : ℤ)) := by field_simp
    rwa [h4] at h3
  have q2 : Y * 2 ^ (-53 : ℤ) ≤ 2 ^ 50 * 2 ^ (-53 : ℤ) := mul_le_mul_of_nonneg_right hY1 (by norm_num)
  have q3 : (2 : ℚ) ^ 50 * 2 ^ (-53 : ℤ) ≤ 1 / 8 := by norm_num
  have q4 : Y * (1 + 2 ^ (-53 : ℤ)) = Y + Y * 2 ^ (-53 : ℤ) := by ring
  have q5 : q * i < k * i := by
    rw [q4] at q1
    have := q2.trans q3
    generalize Y * 2 ^ (-53 : ℤ) = Z at *
    linarith
  exact lt_of_mul_lt_mul_right q5 hiq.le

theorem seconds_mono {a b : Int} (h : a ≤ b) : seconds a ≤ seconds b := by unfold seconds; omega

theorem isSlot_iff {i : Int} (spread t : Int) :
    IsSlot (seconds i) (seconds spread) t ↔ ∃ k, t = seconds (k * i + spread % i) := by
  unfold IsSlot
  constructor
  · intro h
    obtain ⟨j, hj⟩ := Int.dvd_of_emod_eq_zero h
    refine ⟨j + spread / i, ?_⟩
    have h1 := Int.mul_ediv_add_emod spread i
    have h2 : (j + spread / i) * i + spread % i = j * i + spread := by
      rw [Int.add_mul, Int.mul_comm (spread / i)]; omega
    rw [h2]
    unfold seconds at *
    have h3 : i * 1000000 * j = j * i * 1000000 := by ring
    rw [h3] at hj
    rw [Int.add_mul]
    omega
  · rintro ⟨k, rfl⟩
    have h1 := Int.mul_ediv_add_emod spread i
    have : seconds (k * i + spread % i) - seconds spread = seconds i * (k - spread / i) := by
      have h2 : spread % i = spread - i * (spread / i) := by omega
      rw [h2]
      unfold seconds
      ring
    rw [this]
    exact Int.mul_emod_right _ _

/-- **C24** The next time is a slot strictly after the reference time, and the first one, except that a slot that is closer to the
reference time than the 2⁵¹-th part of the time since the year 1 (28 µs today) may be passed over; at whole seconds
it is exactly the first one.  (Times count from the year 1, so `interval ≤ relative` holds for every real date, and years end
at 9999, long before 2⁵⁰ seconds.) -/
theorem C24_next_slot (relative i spread : Int) (hi : 0 < i) (hr : seconds i ≤ relative) (hb : relative < seconds (2 ^ 50)) :
    IsSlot (seconds i) (seconds spread) (nextInInterval relative (seconds i) spread) ∧
    relative < nextInInterval relative (seconds i) spread ∧
    (∀ t, IsSlot (seconds i) (seconds spread) t → relative < 2 ^ 51 * (t - relative) → nextInInterval relative (seconds i) spread ≤ t) ∧
    (∀ X, relative = seconds X → ∀ t, IsSlot (seconds i) (seconds spread) t → relative < t →
      nextInInterval relative (seconds i) spread ≤ t) := by
  have hs0 := Int.emod_nonneg spread hi.ne'
  have hs1 := Int.emod_lt_of_pos spread hi
  obtain ⟨_, _, h1⟩ := next_eq (spread := spread) hi hr hb
  rw [h1]
  refine ⟨(isSlot_iff _ _).2 ⟨_, rfl⟩, ?_, ?_, ?_⟩
  · by_contra hc
    have := slotQuot_ge hi hr hb hs0 hs1 (not_lt.1 hc)
    omega
  · intro t ht hk
    obtain ⟨k, rfl⟩ := (isSlot_iff _ _).1 ht
    have := slotQuot_lt hi hr hb hs0 hs1 hk
    have h2 := Int.mul_le_mul_of_nonneg_right (show ⌊slotQuot relative i (spread % i)⌋ + 1 ≤ k by omega) hi.le
    exact seconds_mono (by omega)
  · intro X hX t ht hk
    obtain ⟨k, rfl⟩ := (isSlot_iff _ _).1 ht
    subst hX
    have := slotQuot_whole (X := X) hi (by unfold seconds at hr; omega) (by unfold seconds at hb; omega) hs0 hs1 (k := k)
      (by unfold seconds at hk; omega)
    have h2 := Int.mul_le_mul_of_nonneg_right (show ⌊slotQuot (seconds X) i (spread % i)⌋ + 1 ≤ k by omega) hi.le
    exact seconds_mono (by omega)

/-- **C24** In particular the next time is at most one interval and that fraction away. -/
theorem C24_within_interval (relative i spread : Int) (hi : 0 < i) (hr : seconds i ≤ relative) (hb : relative < seconds (2 ^ 50)) :
    nextInInterval relative (seconds i) spread ≤ relative + seconds i + relative / 2 ^ 51 + 1 := by
  have hs0 := Int.emod_nonneg spread hi.ne'
  have hs1 := Int.emod_lt_of_pos spread hi
  obtain ⟨_, _, h1⟩ := next_eq (spread := spread) hi hr hb
  rw [h1]
  by_contra hc
  have hk : relative < 2 ^ 51 * (seconds (⌊slotQuot relative i (spread % i)⌋ * i + spread % i) - relative) := by
    have h2 : seconds ((⌊slotQuot relative i (spread % i)⌋ + 1) * i + spread % i) =
        seconds (⌊slotQuot relative i (spread % i)⌋ * i + spread % i) + seconds i := by unfold seconds; ring
    omega
  have := slotQuot_lt hi hr hb hs0 hs1 hk
  omega

/-- The exception is real: three microseconds before a slot of an hourly schedule, in 2028, the code passes it over (the time in
seconds since the year 1 is rounded to the slot itself). -/
theorem C24_slot_passed_over : ∃ relative t : Int, IsSlot (seconds HOUR) (seconds 3399) t ∧ t = relative + 3 ∧
    nextInInterval relative (seconds HOUR) 3399 = t + seconds HOUR := by
  refine ⟨63967884998999997, seconds 63967884999, ?_, by decide, ?_⟩
  · unfold IsSlot; decide
  · obtain ⟨_, _, h⟩ := next_eq (relative := 63967884998999997) (i := HOUR) (spread := 3399) (by decide) (by decide) (by decide)
    rw [h]
    have e : slotQuot 63967884998999997 HOUR (3399 % HOUR) = (17768856 : Int) := by
      unfold slotQuot
      have h1 : Flt.rnd (((63967884998999997 : Int) : ℚ) / 1000000) = ((63967884999 : Int) : ℚ) := by
        rw [Flt.rnd_of_log (L := 35) (by norm_num) (by norm_num)]
        have : Flt.roundEven (((63967884998999997 : Int) : ℚ) / 1000000 / 2 ^ (35 - 52 : ℤ)) = 63967884999 * 2 ^ 17 := by
          unfold Flt.roundEven
          have hf : ⌊((63967884998999997 : Int) : ℚ) / 1000000 / 2 ^ (35 - 52 : ℤ)⌋ = 63967884999 * 2 ^ 17 - 1 := by
            rw [Int.floor_eq_iff]; constructor <;> norm_num
          rw [hf]
          norm_num
        rw [this]
        norm_num
      rw [h1]
      have h2 : ((63967884999 : Int) : ℚ) - ((3399 % HOUR : Int) : ℚ) = ((63967881600 : Int) : ℚ) := by
        have : (3399 % HOUR : Int) = 3399 := by decide
        rw [this]; norm_num
      rw [h2, Flt.rnd_int (by norm_num) (by norm_num)]
      have h3 : ((63967881600 : Int) : ℚ) / ((HOUR : Int) : ℚ) = ((17768856 : Int) : ℚ) := by
        have : (HOUR : Int) = 3600 := by decide
        rw [this]; norm_num
      rw [h3, Flt.rnd_int (by norm_num) (by norm_num)]
    rw [e, Int.floor_intCast]
    decide

/-- Test (C24): the hypotheses hold at a real date. -/
example : (0 : Int) < DAY ∧ seconds DAY ≤ 63853920000000000 ∧ 63853920000000000 < seconds (2 ^ 50) ∧
    IsSlot (seconds DAY) (seconds 12345) 63853932345000000 := by unfold IsSlot; decide

/-! ### C25 -/

theorem lastByTag_spec (tag : String) (l : List Rev) : ∀ acc : Option Int,
    (∀ a, acc = some a → 0 ≤ a) →
    let res := l.foldl (fun acc r => if tag ∈ r.tags then some (max (acc.getD 0) r.ts) else acc) acc
    (∀ a, res = some a → 0 ≤ a ∧ (acc = some a ∨ a = 0 ∨ ∃ r ∈ l, tag ∈ r.tags ∧ r.ts = a)) ∧
    (∀ r ∈ l, tag ∈ r.tags → ∃ a, res = some a ∧ r.ts ≤ a) ∧
    (∀ a, acc = some a → ∃ b, res = some b ∧ a ≤ b) := by
  induction l with
  | nil =>
    intro acc h
    refine ⟨fun a ha => ⟨h a ha, .inl ha⟩, by simp, fun a ha => ⟨a, ha, Int.le_refl _⟩⟩
  | cons r l ih =>
    intro acc h
    rw [List.foldl_cons]
    by_cases ht : tag ∈ r.tags
    · rw [if_pos ht]
      have hg : 0 ≤ acc.getD 0 := by
        cases acc with
        | none => simp
        | some a => exact h a rfl
      obtain ⟨h1, h2, h3⟩ := ih (some (max (acc.getD 0) r.ts)) (by intro a ha; cases ha; omega)
      dsimp only at h1 h2 h3 ⊢
      refine ⟨fun a ha => ?_, fun x hx hxt => ?_, fun a ha => ?_⟩
      · obtain ⟨h0, h⟩ := h1 a ha
        refine ⟨h0, ?_⟩
        rcases h with h | h | ⟨x, hx, h⟩
        · simp only [Option.some.injEq] at h
          rcases Int.le_total (acc.getD 0) r.ts with hle | hle
          · exact .inr (.inr ⟨r, by simp, ht, by omega⟩)
          · cases acc with
            | none => simp only [Option.getD_none] at h hle; right; left; omega
            | some a' => simp only [Option.getD_some] at h hle; left; congr 1; omega
        · exact .inr (.inl h)
        · exact .inr (.inr ⟨x, by simp [hx], h⟩)
      · rcases List.mem_cons.1 hx with rfl | hx
        · obtain ⟨b, hb, hle⟩ := h3 _ rfl
          exact ⟨b, hb, by omega⟩
        · exact h2 x hx hxt
      · obtain ⟨b, hb, hle⟩ := h3 _ rfl
        subst ha
        simp only [Option.getD_some] at hle
        exact ⟨b, hb, by omega⟩
    · rw [if_neg ht]
      obtain ⟨h1, h2, h3⟩ := ih acc h
      dsimp only at h1 h2 h3 ⊢
      refine ⟨fun a ha => ?_, fun x hx hxt => ?_, h3⟩
      · obtain ⟨h0, h⟩ := h1 a ha
        refine ⟨h0, ?_⟩
        rcases h with h | h | ⟨x, hx, h⟩
        · exact .inl h
        · exact .inr (.inl h)
        · exact .inr (.inr ⟨x, by simp [hx], h⟩)
      · rcases List.mem_cons.1 hx with rfl | hx
        · exact absurd hxt ht
        · exact h2 x hx hxt

/-- The tag has been missed: the schedule knows it and no complete revision carrying it is younger than
its interval. -/
def Missed (sch : Schedule) (s : Repo) (now : Int) (tag : String) : Prop :=
  ∃ spec, (tag, spec) ∈ sch ∧
    ∀ r ∈ s.history, r.stats.has "duration" = true → tag ∈ r.tags → r.ts ≤ now - spec.interval

theorem mem_cleanHistory {s : Repo} {r : Rev} :
    r ∈ s.cleanHistory ↔ r ∈ s.history ∧ r.stats.has "duration" = true := by
  simp [Repo.cleanHistory, Repo.getHistory, Rev.clean]

/-- `Schedule._missed` computes exactly the missed tags (all intervals are shorter than the time
since the year 1). -/
theorem mem_missed_iff (sch : Schedule) (s : Repo) (now : Int) (tag : String)
    (hnow : ∀ e ∈ sch, e.2.interval ≤ now) :
    tag ∈ sch.missed s now ↔ Missed sch s now tag := by
  unfold Schedule.missed Missed
  simp only [List.mem_toFinset, List.mem_map, List.mem_filter]
  have hl := lastByTag_spec tag s.cleanHistory none (by simp)
  dsimp only at hl
  change (∀ a, lastByTag s.cleanHistory tag = some a → _) ∧
    (∀ r ∈ s.cleanHistory, tag ∈ r.tags → ∃ a, lastByTag s.cleanHistory tag = some a ∧ _) ∧ _ at hl
  obtain ⟨h1, h2, _⟩ := hl
  constructor
  · rintro ⟨⟨t, spec⟩, ⟨hm, hc⟩, rfl⟩
    refine ⟨spec, hm, fun r hr hrc hrt => ?_⟩
    obtain ⟨a, ha, hle⟩ := h2 r (mem_cleanHistory.2 ⟨hr, hrc⟩) hrt
    dsimp only at hc
    rw [ha] at hc
    simp only [gt_iff_lt, Int.not_lt, decide_eq_true_eq] at hc
    omega
  · rintro ⟨spec, hm, h⟩
    refine ⟨(tag, spec), ⟨hm, ?_⟩, rfl⟩
    dsimp only
    cases ha : lastByTag s.cleanHistory tag with
    | none => rfl
    | some a =>
      obtain ⟨h0, hx⟩ := h1 a ha
      simp only [gt_iff_lt, Int.not_lt, decide_eq_true_eq]
      rcases hx with hx | hx | ⟨r, hr, hrt, hra⟩
      · cases hx
      · have := hnow _ hm
        dsimp only at this; omega
      · obtain ⟨hr1, hr2⟩ := mem_cleanHistory.1 hr
        have := h r hr1 hr2 hrt
        omega

/-- **C25** Let `(time, tags)` be the next run.  It includes every missed tag and every tag it includes is
missed or due at that regular slot; it is not later than the next regular slot of any tag; and if
a tag was missed and the repository is not empty, it is within five minutes.  `now1 ≤ now2` are
two clock readings less than five minutes apart. -/
theorem C25_missed_tags_are_caught_up (sch : Schedule) (relative spread : Int) (s : Repo)
    (nowM now1 now2 : Int) (time : Int) (tags : Finset String)
    (hnow : ∀ e ∈ sch, e.2.interval ≤ nowM) (hclock : now1 ≤ now2 ∧ now2 ≤ now1 + seconds (5 * 60))
    (h : sch.next relative spread s nowM now1 now2 = .ok (time, tags)) :
    (∀ tag, Missed sch s nowM tag → tag ∈ tags) ∧
    (∀ tag ∈ tags, Missed sch s nowM tag ∨
      ∃ spec, (tag, spec) ∈ sch ∧ nextInInterval relative spec.interval spread = time) ∧
    (∀ tag spec, (tag, spec) ∈ sch → time ≤ nextInInterval relative spec.interval spread) ∧
    (s.history ≠ [] → (∃ tag, Missed sch s nowM tag) → time ≤ now2 + seconds (5 * 60)) := by
  unfold Schedule.next at h
  cases hi : sch.nextIdeal relative spread with
  | error e => rw [hi] at h; cases h
  | ok p =>
    obtain ⟨it, itags⟩ := p
    rw [hi] at h
    dsimp only at h
    have hideal : (∀ tag spec, (tag, spec) ∈ sch → it ≤ nextInInterval relative spec.interval spread) ∧
        (∀ tag ∈ itags, ∃ spec, (tag, spec) ∈ sch ∧ nextInInterval relative spec.interval spread = it) := by
      unfold Schedule.nextIdeal at hi
      rw [show sch.any (fun e => decide (e.2.interval = 0)) = false by
          cases hz : sch.any (fun e => decide (e.2.interval = 0))
          · rfl
          · rw [hz] at hi; cases hi] at hi
      simp only [Bool.false_eq_true, if_false] at hi
      split at hi
      · cases hi
      · rename_i t ht
        cases hi
        rw [List.min?_eq_some_iff] at ht
        constructor
        · intro tag spec hm
          refine ht.2 _ ?_
          simp only [List.map_map, List.mem_map]
          exact ⟨_, hm, rfl⟩
        · intro tag htag
          simp only [List.mem_toFinset, List.mem_map, List.mem_filter, decide_eq_true_eq] at htag
          obtain ⟨e, ⟨⟨e', hm', rfl⟩, he2⟩, rfl⟩ := htag
          exact ⟨e'.2, hm', he2⟩
    have hmiss := fun tag => mem_missed_iff sch s nowM tag hnow
    by_cases hc : sch.missed s nowM ≠ ∅ ∧ s.history ≠ []
    · rw [if_pos hc] at h
      split at h
      · rename_i hgt
        cases h
        refine ⟨fun tag ht => (hmiss tag).2 ht, fun tag ht => .inl ((hmiss tag).1 ht), ?_, ?_⟩
        · intro tag spec hm
          have := hideal.1 tag spec hm
          omega
        · intro _ _
          simp only [seconds]; omega
      · rename_i hgt
        cases h
        refine ⟨fun tag ht => Finset.mem_union_right _ ((hmiss tag).2 ht), fun tag ht => ?_, hideal.1, ?_⟩
        · rcases Finset.mem_union.1 ht with ht | ht
          · exact .inr (hideal.2 tag ht)
          · exact .inl ((hmiss tag).1 ht)
        · intro _ _; omega
    · rw [if_neg hc] at h
      cases h
      refine ⟨fun tag ht => Finset.mem_union_right _ ((hmiss tag).2 ht), fun tag ht => ?_, hideal.1, ?_⟩
      · rcases Finset.mem_union.1 ht with ht | ht
        · exact .inr (hideal.2 tag ht)
        · exact .inl ((hmiss tag).1 ht)
      · rintro hne ⟨tag, ht⟩
        exact absurd ⟨fun h0 => by rw [← hmiss tag, h0] at ht; simp at ht, hne⟩ hc

/-- Test (C25): a repository whose only backup is two days old, daily schedule. -/
def exSchedule : Schedule := [("daily", ⟨seconds DAY, 2⟩), ("weekly", ⟨seconds WEEK, 1⟩)]

/-- Test repository with one complete revision from ten days after the epoch of the model. -/
def exRepo : Repo := { files := [], history := [mkRev "a" (seconds (10 * DAY)) {"daily", "weekly"}] }

example : exSchedule.next (seconds (12 * DAY)) 0 exRepo (seconds (12 * DAY)) (seconds (12 * DAY))
    (seconds (12 * DAY)) = .ok (seconds (12 * DAY), {"daily"}) := by decide +kernel

example : Missed exSchedule exRepo (seconds (12 * DAY)) "daily" :=
  ⟨⟨seconds DAY, 2⟩, by simp [exSchedule], by
    intro r hr _ _
    simp only [exRepo, List.mem_singleton] at hr
    subst hr
    decide⟩

/-! ### C30 -/

/-- **C30** The SLA is reported as violated (a nonzero overdue time, which is then the age of the newest
complete revision) exactly if there is a complete revision and the newest one is older than 1.5
times the shortest interval. -/
theorem C30_sla_exact (s : Repo) (sch : Schedule) (now : Int) (m : Int)
    (hsorted : s.history.Pairwise (fun a b => a.ts ≤ b.ts))
    (hm : m ∈ sch.map (fun e => e.2.interval)) (hmin : ∀ e ∈ sch, m ≤ e.2.interval) (hpos : 0 ≤ m) :
    ∃ v, s.slaOverdue sch now = .ok v ∧
      (v ≠ 0 ↔ (∃ r ∈ s.history, r.stats.has "duration" = true) ∧
        ∀ r ∈ s.history, r.stats.has "duration" = true → 2 * (now - r.ts) > 3 * m) ∧
      (v ≠ 0 → ∃ r ∈ s.history, r.stats.has "duration" = true ∧ v = now - r.ts ∧
        ∀ r' ∈ s.history, r'.stats.has "duration" = true → r'.ts ≤ r.ts) := by
  have hmin? : (sch.map (fun e => e.2.interval)).min? = some m := by
    rw [List.min?_eq_some_iff]
    refine ⟨hm, fun b hb => ?_⟩
    simp only [List.mem_map] at hb
    obtain ⟨e, he, rfl⟩ := hb
    exact hmin e he
  unfold Repo.slaOverdue
  cases hl : s.cleanHistory.getLast? with
  | none =>
    refine ⟨0, rfl, ?_, by simp⟩
    rw [List.getLast?_eq_none_iff] at hl
    constructor
    · simp
    · rintro ⟨⟨r, hr, hc⟩, _⟩
      have := mem_cleanHistory.2 ⟨hr, hc⟩
      rw [hl] at this; simp at this
  | some r =>
    dsimp only
    rw [hmin?]
    have hr := List.mem_of_getLast? hl
    obtain ⟨hr1, hr2⟩ := mem_cleanHistory.1 hr
    have hsc : s.cleanHistory.Pairwise (fun a b => a.ts ≤ b.ts) :=
      hsorted.sublist List.filter_sublist
    have hnewest : ∀ r' ∈ s.history, r'.stats.has "duration" = true → r'.ts ≤ r.ts := by
      intro r' h1 h2
      have hm' := mem_cleanHistory.2 ⟨h1, h2⟩
      obtain ⟨l, hl'⟩ := List.getLast?_eq_some_iff.1 hl
      rw [hl'] at hm' hsc
      rcases List.mem_append.1 hm' with h | h
      · exact (List.pairwise_append.1 hsc).2.2 r' h r (by simp)
      · simp only [List.mem_singleton] at h; rw [h]
    dsimp only
    split
    · rename_i hgt
      refine ⟨_, rfl, ⟨fun _ => ⟨⟨r, hr1, hr2⟩, ?_⟩, fun _ => by omega⟩, fun _ => ⟨r, hr1, hr2, rfl, hnewest⟩⟩
      intro r' h1 h2
      have := hnewest r' h1 h2
      omega
    · rename_i hgt
      refine ⟨0, rfl, ⟨by simp, ?_⟩, by simp⟩
      rintro ⟨_, h⟩
      exact absurd (h r hr1 hr2) hgt

/-- **C30** (no false alarm) A job that keeps its schedule never violates the SLA: as long as some regular slot (any time at most one
interval after the newest complete revision) is not more than half an interval ago, the SLA is held. -/
theorem C30_on_time_is_held (s : Repo) (sch : Schedule) (now m t : Int) (r : Rev)
    (hsorted : s.history.Pairwise (fun a b => a.ts ≤ b.ts))
    (hm : m ∈ sch.map (fun e => e.2.interval)) (hmin : ∀ e ∈ sch, m ≤ e.2.interval) (hpos : 0 < m)
    (hr : r ∈ s.history) (hc : r.stats.has "duration" = true) (ht : t ≤ r.ts + m) (hnow : 2 * (now - t) ≤ m) :
    s.slaOverdue sch now = .ok 0 := by
  obtain ⟨v, h1, h2, _⟩ := C30_sla_exact s sch now m hsorted hm hmin (by omega)
  rw [h1]
  by_cases hv : v = 0
  · rw [hv]
  · have := (h2.1 hv).2 r hr hc
    omega

/-- Test (C30): overdue after a day and a half, not before. -/
example : exRepo.slaOverdue exSchedule (seconds (11 * DAY + 12 * HOUR)) = .ok 0 ∧
    exRepo.slaOverdue exSchedule (seconds (11 * DAY + 12 * HOUR) + 1) =
      .ok (seconds (DAY + 12 * HOUR) + 1) := by decide +kernel

/-! ### C31 -/

/-- The value of a decimal numeral. -/
def decimalValue (l : List Char) : Nat := l.foldl (fun n c => 10 * n + (c.toNat - 48)) 0

theorem pyDigits_digits : ∀ (l : List Char) (n : Nat), (∀ c ∈ l, c.isDigit = true) →
    pyDigits l n = some (l.foldl (fun n c => 10 * n + (c.toNat - 48)) n)
  | [], n, _ => rfl
  | c :: t, n, h => by
    have hc : c.isDigit = true := h c (by simp)
    have hne : c ≠ '_' := by rintro rfl; exact absurd hc (by decide)
    rw [pyDigits, if_pos hc, pyDigits_digits t _ (fun x hx => h x (by simp [hx]))]
    · rfl
    · intro c' t' hcons
      exact fun _ => hne hcons

theorem pyInt_digits (l : List Char) (hne : l ≠ []) (h : ∀ c ∈ l, c.isDigit = true) :
    pyInt l = some (decimalValue l : Int) := by
  cases l with
  | nil => exact absurd rfl hne
  | cons c t =>
    have hc : c.isDigit = true := h c (by simp)
    have h1 : c ≠ '-' := by rintro rfl; exact absurd hc (by decide)
    have h2 : c ≠ '+' := by rintro rfl; exact absurd hc (by decide)
    have hn : pyNat (c :: t) = some (decimalValue (c :: t)) := by
      rw [pyNat, if_pos hc, pyDigits_digits t _ (fun x hx => h x (by simp [hx]))]
      simp [decimalValue]
    unfold pyInt
    split
    · rename_i heq; cases heq; exact absurd rfl h1
    · rename_i heq; cases heq; exact absurd rfl h2
    · rw [hn]; rfl

theorem not_ws_of_digit {c : Char} (h : c.isDigit = true) : c.isWhitespace = false := by
  simp only [Char.isDigit, Bool.and_eq_true, decide_eq_true_eq, ge_iff_le] at h
  simp only [Char.isWhitespace, Bool.or_eq_false_iff, decide_eq_false_iff_not]
  refine ⟨⟨⟨?_, ?_⟩, ?_⟩, ?_⟩ <;> · rintro rfl; revert h; decide

theorem strip_eq_self (l : List Char) (h : ∀ c ∈ l, c.isWhitespace = false) : strip l = l := by
  have hd : ∀ l : List Char, (∀ c ∈ l, c.isWhitespace = false) → l.dropWhile Char.isWhitespace = l := by
    intro l h
    cases l with
    | nil => rfl
    | cons c t => rw [List.dropWhile_cons_of_neg]; simp [h c (by simp)]
  unfold strip
  rw [hd l h, hd _ (fun c hc => h c (by simpa using hc)), List.reverse_reverse]

theorem filter_suffix (l : List Char) (c : Char) (hc : c.isDigit = false)
    (h : ∀ x ∈ l, x.isDigit = true) : (l ++ [c]).filter (fun x => decide (x ≠ c)) = l := by
  rw [List.filter_append, List.filter_eq_self.2]
  · simp
  · intro x hx
    simp only [ne_eq, decide_not, Bool.not_eq_eq_eq_not, Bool.not_true, decide_eq_false_iff_not]
    rintro rfl
    rw [h x hx] at hc; cases hc

theorem parseSuffix_digits (l : List Char) (c : Char) (unit : Int) (hne : l ≠ [])
    (hc : c.isDigit = false) (h : ∀ x ∈ l, x.isDigit = true) :
    parseSuffix (l ++ [c]) c unit = .ok (seconds (decimalValue l * unit)) := by
  unfold parseSuffix pyIntStr
  rw [filter_suffix l c hc h, strip_eq_self l (fun x hx => not_ws_of_digit (h x hx)),
    pyInt_digits l hne h]

/-- **C31** A decimal numeral followed by one of the suffixes w, d, h, m, s, or by nothing, is parsed as
that many weeks, days, hours, minutes or seconds. -/
theorem C31_durations (l : List Char) (hne : l ≠ []) (h : ∀ x ∈ l, x.isDigit = true) :
    parseDuration (String.ofList (l ++ ['w'])) = .ok (decimalValue l * 7 * 24 * 60 * 60 * 1000000) ∧
    parseDuration (String.ofList (l ++ ['d'])) = .ok (decimalValue l * 24 * 60 * 60 * 1000000) ∧
    parseDuration (String.ofList (l ++ ['h'])) = .ok (decimalValue l * 60 * 60 * 1000000) ∧
    parseDuration (String.ofList (l ++ ['m'])) = .ok (decimalValue l * 60 * 1000000) ∧
    parseDuration (String.ofList (l ++ ['s'])) = .ok (decimalValue l * 1000000) ∧
    parseDuration (String.ofList l) = .ok (decimalValue l * 1000000) := by
  have hlast : ∀ c : Char, c.isDigit = false → l.getLast? ≠ some c := by
    intro c hc hl
    have := h c (List.mem_of_getLast? hl)
    rw [this] at hc; cases hc
  refine ⟨?_, ?_, ?_, ?_, ?_, ?_⟩
  · simp only [parseDuration, String.toList_ofList, List.getLast?_append, List.getLast?_singleton]
    simp only [Option.some_or, if_true]
    rw [parseSuffix_digits l 'w' WEEK hne (by decide) h]
    simp only [seconds, WEEK, DAY, HOUR, MINUTE]; rw [Except.ok.injEq]; ring
  · simp only [parseDuration, String.toList_ofList, List.getLast?_append, List.getLast?_singleton]
    simp only [Option.some_or, Option.some.injEq, Char.reduceEq, if_false, if_true]
    rw [parseSuffix_digits l 'd' DAY hne (by decide) h]
    simp only [seconds, DAY, HOUR, MINUTE]; rw [Except.ok.injEq]; ring
  · simp only [parseDuration, String.toList_ofList, List.getLast?_append, List.getLast?_singleton]
    simp only [Option.some_or, Option.some.injEq, Char.reduceEq, if_false, if_true]
    rw [parseSuffix_digits l 'h' HOUR hne (by decide) h]
    simp only [seconds, HOUR, MINUTE]; rw [Except.ok.injEq]; ring
  · simp only [parseDuration, String.toList_ofList, List.getLast?_append, List.getLast?_singleton]
    simp only [Option.some_or, Option.some.injEq, Char.reduceEq, if_false, if_true]
    rw [parseSuffix_digits l 'm' MINUTE hne (by decide) h]
    simp only [seconds, MINUTE]
  · simp only [parseDuration, String.toList_ofList, List.getLast?_append, List.getLast?_singleton]
    simp only [Option.some_or, Option.some.injEq, Char.reduceEq, if_false, if_true]
    rw [parseSuffix_digits l 's' 1 hne (by decide) h]
    simp only [seconds]; rw [Except.ok.injEq]; ring
  · simp only [parseDuration, String.toList_ofList]
    rw [if_neg (hlast _ (by decide)), if_neg (hlast _ (by decide)), if_neg (hlast _ (by decide)),
      if_neg (hlast _ (by decide)), if_neg (hlast _ (by decide))]
    unfold pyIntStr
    rw [strip_eq_self l (fun x hx => not_ws_of_digit (h x hx)), pyInt_digits l hne h]
    rfl

/-- Test (C31). -/
example : parseDuration "24h" = .ok (seconds DAY) ∧ decimalValue ['2', '4'] = 24 ∧
    parseDuration "90" = .ok (seconds 90) ∧ parseDuration "x" = .error .value := by decide +kernel

/-! Instances. -/

example := C24_next_slot 63853920000000000 DAY 12345 (by decide) (by decide) (by decide)
example := C24_within_interval 63853920000000000 DAY 12345 (by decide) (by decide) (by decide)
example := C25_missed_tags_are_caught_up exSchedule (seconds (12 * DAY)) 0 exRepo (seconds (12 * DAY)) (seconds (12 * DAY)) (seconds (12 * DAY))
  (seconds (12 * DAY)) {"daily"} (by decide +kernel) (by decide +kernel) (by decide +kernel)
example := C30_sla_exact exRepo exSchedule (seconds (13 * DAY)) (seconds DAY) (by decide +kernel) (by decide +kernel) (by decide +kernel) (by decide)
example := C30_on_time_is_held exRepo exSchedule (seconds (11 * DAY + 12 * HOUR)) (seconds DAY) (seconds (11 * DAY))
  (mkRev "a" (seconds (10 * DAY)) {"daily", "weekly"}) (by decide +kernel) (by decide +kernel) (by decide +kernel) (by decide) (by decide +kernel)
  (by decide +kernel) (by decide +kernel) (by decide +kernel)
example := C31_durations ['2', '4'] (by decide) (by decide)

end Verif.Repo
