import Mathlib.Data.Real.Basic

/-
Numerical derivatives with floating-point numbers: bound of the error.
-/

set_option autoImplicit false

namespace Unc

/-- How far from `x ± h` the points where the function is calculated can be, because of rounding. -/
noncomputable def shiftError (u η x h : ℝ) : ℝ := (1 + u) * (u * (|x| + h) + 2 * u * h + η) + u * (|x| + h)

/-- Bound of the error of the numerical derivative of a function at `x`, with the step `h`, where `ε` is the error on the values
of the function, `G` and `M` bounds of its first and third derivatives, and `D` its derivative at `x`: error of the values and of
the points where they are calculated, divided by the step; error of central differences; rounding of the result. -/
noncomputable def numDerivBound (u η x h ε G M D : ℝ) : ℝ :=
  (1 + u) ^ 3 * ((ε + G * shiftError u η x h) / h + h ^ 2 / 6 * M) + ((1 + u) ^ 3 - 1) * |D| + (1 + u) * η / h + η

end Unc
