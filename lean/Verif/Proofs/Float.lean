import Verif.Model.Float
import Mathlib.Tactic.Linarith
import Mathlib.Tactic.NormNum
import Mathlib.Tactic.Ring
import Mathlib.Tactic.FieldSimp
import Mathlib.Tactic.Positivity
/-! # Rounding to double precision: what the proofs need -/
namespace Verif.Flt

theorem roundEven_err (z : ℚ) : |(roundEven z : ℚ) - z| ≤ 1 / 2 := by
  have h1 := Int.floor_le z
  have h2 := Int.lt_floor_add_one z
  unfold roundEven
  split
  · rename_i h; rw [abs_le]; constructor <;> linarith
  · rename_i h
    split
    · rename_i h'; push_cast; rw [abs_le]; constructor <;> linarith
    · rename_i h'
      split
      · rw [abs_le]; constructor <;> linarith
      · push_cast; rw [abs_le]; constructor <;> linarith

theorem roundEven_ge {z : ℚ} {n : ℤ} (h : (n : ℚ) ≤ z) : n ≤ roundEven z := by
  have h1 := Int.le_floor.2 h
  unfold roundEven
  split
  · exact h1
  · split
    · omega
    · split <;> omega

theorem roundEven_le {z : ℚ} {n : ℤ} (h : z ≤ n) : roundEven z ≤ n := by
  have h1 := Int.floor_le z
  have h2 := Int.lt_floor_add_one z
  have h3 : ⌊z⌋ ≤ n := by
    have : ((⌊z⌋ : ℤ) : ℚ) ≤ n := by linarith
    exact_mod_cast this
  unfold roundEven
  split
  · exact h3
  · rename_i hh
    have hlt : ⌊z⌋ + 1 ≤ n := by
      rcases Int.lt_or_eq_of_le h3 with h | h
      · omega
      · exfalso
        have : z = (⌊z⌋ : ℤ) := by rw [h]; rw [h] at h1; linarith
        apply hh
        have h0 : z - (⌊z⌋ : ℤ) = 0 := by linarith
        rw [h0]; norm_num
    split
    · exact hlt
    · split <;> omega

theorem ulp_pos (x : ℚ) : 0 < ulp x := by unfold ulp; exact zpow_pos (by norm_num) _

theorem ulp_le {x : ℚ} (h : 0 < x) : ulp x ≤ x * 2 ^ (-52 : ℤ) := by
  unfold ulp
  rw [zpow_sub₀ (by norm_num : (2 : ℚ) ≠ 0), zpow_neg, div_eq_mul_inv]
  have := Int.zpow_log_le_self (b := 2) (r := x) (by norm_num) h
  have h2 : (0 : ℚ) < ((2 : ℚ) ^ (52 : ℤ))⁻¹ := by positivity
  exact mul_le_mul_of_nonneg_right (by exact_mod_cast this) h2.le

/-- An integer is a multiple of the distance around a number below 2⁵³. -/
theorem int_ulp {x : ℚ} (h0 : 0 < x) (h : x < 2 ^ 53) (k : ℤ) : ∃ n : ℤ, (k : ℚ) = n * ulp x := by
  have hl : Int.log 2 x ≤ 52 := by
    have h1 := Int.zpow_log_le_self (b := 2) (r := x) (by norm_num) h0
    have h2 : ((2 : ℕ) : ℚ) ^ Int.log 2 x < ((2 : ℕ) : ℚ) ^ (53 : ℤ) := by
      refine lt_of_le_of_lt h1 ?_
      rw [show ((2 : ℕ) : ℚ) ^ (53 : ℤ) = 2 ^ 53 by norm_num]
      exact h
    have := (zpow_lt_zpow_iff_right₀ (by norm_num : (1 : ℚ) < ((2 : ℕ) : ℚ))).1 h2
    omega
  obtain ⟨m, hm⟩ := Int.eq_ofNat_of_zero_le (show 0 ≤ 52 - Int.log 2 x by omega)
  refine ⟨k * 2 ^ m, ?_⟩
  unfold ulp
  have : Int.log 2 x - 52 = -(m : ℤ) := by omega
  rw [this, zpow_neg, zpow_natCast]
  push_cast
  field_simp

theorem rnd_pos {x : ℚ} (h : 0 < x) : rnd x = roundEven (x / ulp x) * ulp x := by
  unfold rnd
  rw [if_neg h.ne', if_pos h]

theorem rnd_ge {x : ℚ} (h0 : 0 ≤ x) (h : x < 2 ^ 53) {k : ℤ} (hk : (k : ℚ) ≤ x) : (k : ℚ) ≤ rnd x := by
  rcases h0.lt_or_eq with h0 | h0
  · obtain ⟨n, hn⟩ := int_ulp h0 h k
    rw [rnd_pos h0, hn]
    have hu := ulp_pos x
    have : (n : ℚ) ≤ x / ulp x := by rw [le_div_iff₀ hu, ← hn]; exact hk
    have := roundEven_ge this
    exact mul_le_mul_of_nonneg_right (by exact_mod_cast this) hu.le
  · subst h0; simpa [rnd] using hk

theorem rnd_le {x : ℚ} (h0 : 0 ≤ x) (h : x < 2 ^ 53) {k : ℤ} (hk : x ≤ k) : rnd x ≤ k := by
  rcases h0.lt_or_eq with h0 | h0
  · obtain ⟨n, hn⟩ := int_ulp h0 h k
    rw [rnd_pos h0, hn]
    have hu := ulp_pos x
    have : x / ulp x ≤ n := by rw [div_le_iff₀ hu, ← hn]; exact hk
    have := roundEven_le this
    exact mul_le_mul_of_nonneg_right (by exact_mod_cast this) hu.le
  · subst h0; simpa [rnd] using hk

/-- Integers below 2⁵³ are exact. -/
theorem rnd_int {k : ℤ} (h0 : 0 ≤ k) (h : k < 2 ^ 53) : rnd (k : ℚ) = k := by
  have h1 : (0 : ℚ) ≤ k := by exact_mod_cast h0
  have h2 : (k : ℚ) < 2 ^ 53 := by exact_mod_cast h
  exact le_antisymm (rnd_le h1 h2 le_rfl) (rnd_ge h1 h2 le_rfl)

theorem rnd_err {x : ℚ} (h0 : 0 ≤ x) : |rnd x - x| ≤ x * 2 ^ (-53 : ℤ) := by
  rcases h0.lt_or_eq with h0 | h0
  · rw [rnd_pos h0]
    have hu := ulp_pos x
    have he := roundEven_err (x / ulp x)
    have hx : x = x / ulp x * ulp x := by field_simp
    have : (roundEven (x / ulp x) : ℚ) * ulp x - x = ((roundEven (x / ulp x) : ℚ) - x / ulp x) * ulp x := by
      rw [sub_mul, ← hx]
    rw [this, abs_mul, abs_of_pos hu]
    have h1 := mul_le_mul_of_nonneg_right he hu.le
    have h2 := ulp_le h0
    have h3 : (2 : ℚ) ^ (-52 : ℤ) = 2 * 2 ^ (-53 : ℤ) := by norm_num
    rw [h3] at h2
    generalize (2 : ℚ) ^ (-53 : ℤ) = c at *
    have h4 : x * (2 * c) = 2 * (x * c) := by ring
    rw [h4] at h2
    linarith
  · subst h0; simp [rnd]

/-- Rounding is symmetric, as in IEEE 754. -/
theorem rnd_neg (x : ℚ) : rnd (-x) = -rnd x := by
  unfold rnd
  rcases lt_trichotomy x 0 with h | h | h
  · rw [if_neg (by linarith : ¬ -x = 0), if_pos (by linarith : 0 < -x), if_neg (by linarith : ¬ x = 0),
      if_neg (by linarith : ¬ 0 < x), neg_neg]
  · subst h; simp
  · rw [if_neg (by linarith : ¬ -x = 0), if_neg (by linarith : ¬ 0 < -x), if_neg (by linarith : ¬ x = 0),
      if_pos h, neg_neg]

theorem rnd_nonneg {x : ℚ} (h0 : 0 ≤ x) (h : x < 2 ^ 53) : 0 ≤ rnd x := by
  have := rnd_ge h0 h (k := 0) (by simpa using h0)
  simpa using this

/-- Rounding where the exponent is known. -/
theorem rnd_of_log {x : ℚ} {L : ℤ} (h1 : (2 : ℚ) ^ L ≤ x) (h2 : x < 2 ^ (L + 1)) :
    rnd x = roundEven (x / 2 ^ (L - 52)) * 2 ^ (L - 52) := by
  have h0 : 0 < x := lt_of_lt_of_le (zpow_pos (by norm_num) _) h1
  have hl : Int.log 2 x = L := by
    apply le_antisymm
    · have := (Int.lt_zpow_iff_log_lt (b := 2) (by norm_num) (x := L + 1) h0).1 (by exact_mod_cast h2)
      omega
    · exact (Int.zpow_le_iff_le_log (b := 2) (by norm_num) h0).1 (by exact_mod_cast h1)
  rw [rnd_pos h0]
  unfold ulp
  rw [hl]

end Verif.Flt
