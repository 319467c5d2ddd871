import Verif.Model.FloatFormat
import Verif.Spec.Printed

/-!
# Vocabulary for formatting with floating-point arithmetic
-/

set_option autoImplicit false

namespace Unc

/-- What is assumed of the floating-point operations: a relative error of at most `1e-15` for the operations and the powers of
ten, for numbers between `1e-300` and `1e300`, and a logarithm whose integer part is right, except for the numbers just
below a power of ten (relative distance `2e-13`), for which it can be too large by one.  (`Py/B64Format.lean` shows that this
is the case of IEEE 754 doubles.) -/
structure FlOps.Sound (f : FlOps) : Prop where
  rnd_zero : f.rnd 0 = 0
  rnd_near : ∀ q : ℚ, (10 : ℚ) ^ (-300 : ℤ) ≤ |q| → |q| ≤ (10 : ℚ) ^ (300 : ℤ) → |f.rnd q - q| ≤ |q| / 10 ^ 15
  ten_near : ∀ e : ℤ, -300 ≤ e → e ≤ 300 → |f.ten e - (10 : ℚ) ^ e| ≤ (10 : ℚ) ^ e / 10 ^ 15
  log_ge : ∀ (v : ℚ) (d : ℤ), -300 ≤ d → v ≤ (10 : ℚ) ^ (300 : ℤ) → (10 : ℚ) ^ d ≤ v → d ≤ f.logFloor v
  log_le : ∀ (v : ℚ) (d : ℤ), d ≤ 300 → (10 : ℚ) ^ (-300 : ℤ) ≤ v → v < (10 : ℚ) ^ (d + 1) * (1 - 2 / 10 ^ 13) →
    f.logFloor v ≤ d
  log_pow : ∀ d : ℤ, -300 ≤ d → d ≤ 300 → f.logFloor (f.rnd ((10 : ℚ) ^ d)) = d

/-- Zero, or a number between `1e-100` and `1e100` in absolute value. -/
def InRange (x : ℚ) : Prop := x = 0 ∨ (10 : ℚ) ^ (-100 : ℤ) ≤ |x| ∧ |x| ≤ (10 : ℚ) ^ (100 : ℤ)

/-- `n` is within half a unit of its last printed digit of the value `v`, up to rounding errors. -/
def Shown.NearFl (n : Shown) (v : ℚ) : Prop := |v - n.value| ≤ n.unit / 2 + |v| / 10 ^ 13

/-- `s'` is the uncertainty `s`, or its value rounded up to a power of ten, as the rules of the Particle Data Group
require when its three leading digits are 950 or more (up to rounding errors). -/
def SameOrPdgFl (s s' : ℚ) : Prop :=
  s' = s ∨ ∃ (t : ℕ) (d : ℤ) (v : ℚ), |v - s| ≤ s / 10 ^ 12 ∧ LeadingDigits v t d ∧ 950 ≤ t ∧ s' = (10 : ℚ) ^ (d + 1)

/-- The string shows a nominal value `n` and an uncertainty `u` (as percentages if `percent` is true) that are `x` and
`s` rounded at the last printed digit, up to rounding errors. -/
structure FaithfulFl (x s : ℚ) (out : Str) (n u : Shown) (percent : Bool) : Prop where
  displays : Displays out n u percent
  nominal : n.NearFl (x * percentFactor percent)
  uncertainty : ∃ s', SameOrPdgFl (s * percentFactor percent) s' ∧ u.NearFl s'

end Unc
