import Mathlib.Data.Rat.Floor

/-!
# Vocabulary for decimal digits
-/

set_option autoImplicit false

namespace Unc

/-- `10**d` is the decimal exponent (power of ten of the first significant digit) of `v`. -/
def HasExponent (v : ℚ) (d : ℤ) : Prop := (10 : ℚ) ^ d ≤ |v| ∧ |v| < (10 : ℚ) ^ (d + 1)

/-- The first three significant digits of the positive number `v`, as an integer from 100 to 999, and the position `d`
of the first one. -/
def LeadingDigits (v : ℚ) (t : ℕ) (d : ℤ) : Prop :=
  100 ≤ t ∧ t ≤ 999 ∧ (t : ℚ) * (10 : ℚ) ^ (d - 2) ≤ v ∧ v < ((t : ℚ) + 1) * (10 : ℚ) ^ (d - 2)

/-- `m * 10**l` is a multiple of `10**l` at a distance of at most half a unit `10**l` from `v`. -/
def Rounds (v : ℚ) (l : ℤ) (m : ℤ) : Prop := |v - m * (10 : ℚ) ^ l| ≤ (10 : ℚ) ^ l / 2

/-- The integer `m` has exactly `n` decimal digits (without leading zeros). -/
def HasDigits (m : ℤ) (n : ℕ) : Prop := 10 ^ (n - 1) ≤ m.natAbs ∧ m.natAbs < 10 ^ n

end Unc
