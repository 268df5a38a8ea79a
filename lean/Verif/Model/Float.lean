import Mathlib.Data.Int.Log
import Mathlib.Data.Rat.Floor
/-!
# IEEE 754 double precision arithmetic as used by `next_in_interval` (`schedule.py:39-52`)

Values are the rational numbers they stand for; every operation is the exact one followed by `rnd`.  Overflow, subnormal numbers,
infinities and NaN are left out: the numbers that occur are 0 or between 2⁻⁴⁰ and 2⁵³.
-/
namespace Verif.Flt

/-- Rounding to an integer, ties to even (IEEE 754, the default of Python). -/
def roundEven (z : ℚ) : ℤ :=
  if z - ⌊z⌋ < 1 / 2 then ⌊z⌋
  else if 1 / 2 < z - ⌊z⌋ then ⌊z⌋ + 1
  else if ⌊z⌋ % 2 = 0 then ⌊z⌋ else ⌊z⌋ + 1

/-- The distance of neighbouring numbers with a mantissa of 53 bits around `x > 0`. -/
def ulp (x : ℚ) : ℚ := 2 ^ (Int.log 2 x - 52)

/-- The double precision number next to `x` (builtin float operations). -/
def rnd (x : ℚ) : ℚ :=
  if x = 0 then 0
  else if 0 < x then roundEven (x / ulp x) * ulp x
  else -(roundEven (-x / ulp (-x)) * ulp (-x))

/-- `int(x)` (builtin): truncation towards zero. -/
def toInt (x : ℚ) : ℤ := if 0 ≤ x then ⌊x⌋ else -⌊-x⌋

/-- `x % y` for floats (builtin), `y > 0`: exact. -/
def fmod (x y : ℚ) : ℚ := x - y * ⌊x / y⌋

end Verif.Flt
