import Mathlib.Data.Real.Sqrt
import Verif.Py.Basic

/-
Laws of floating-point arithmetic with rounding: the *standard model* of numerical analysis
(Higham, "Accuracy and Stability of Numerical Algorithms", chapter 2), with gradual underflow. They
are true of the IEEE 754 doubles of Python, with `u = 2^-53` and `η = 2^-1075` (rounding to nearest,
provided that `x**2`, which is the C function `pow()`, is rounded correctly);
`Py/B64.lean` gives a type that satisfies them.
-/

namespace Unc

set_option autoImplicit false

/-- Floats with rounding. `val x` is the real number represented by the float `x` when it is finite
(neither infinite nor NaN); it is meaningless otherwise. The result of an operation is finite only if
its operands are, and then it is the exact result with a relative error of at most `u` and, for
products, an absolute error of at most `η` (underflow). -/
class Rounded (F : Type) [PyFloat F] where
  /-- the real number represented by a finite float -/
  val : F → ℝ
  /-- neither infinite nor NaN -/
  Fin : F → Prop
  /-- unit roundoff -/
  u : ℝ
  /-- underflow unit -/
  η : ℝ
  u_nonneg : 0 ≤ u
  η_nonneg : 0 ≤ η
  fin_zero : Fin 0
  val_zero : val 0 = 0
  fin_one : Fin 1
  val_one : val 1 = 1
  add : ∀ a b : F, Fin (a + b) → Fin a ∧ Fin b ∧
    |val (a + b) - (val a + val b)| ≤ u * |val a + val b|
  /-- adding 0 is exact -/
  zero_add : ∀ a : F, Fin (0 + a) → val (0 + a) = val a
  mul : ∀ a b : F, Fin (a * b) → Fin a ∧ Fin b ∧
    |val (a * b) - val a * val b| ≤ u * |val a * val b| + η
  abs : ∀ a : F, Fin (PyFloat.abs a) → Fin a ∧ val (PyFloat.abs a) = |val a|
  sq : ∀ a y : F, PyFloat.sq a = .ok y → Fin y → Fin a ∧
    |val y - val a ^ 2| ≤ u * val a ^ 2 + η
  sqrt : ∀ a y : F, PyFloat.sqrt a = .ok y → Fin y → Fin a ∧ 0 ≤ val a ∧
    |val y - √(val a)| ≤ u * √(val a)
  ltb_zero : ∀ a : F, Fin a → PyFloat.ltb a 0 = false → 0 ≤ val a
  isInf : ∀ a : F, Fin a → PyFloat.isInf a = false
  eqb_zero : ∀ a : F, PyFloat.eqb a 0 = true → Fin a ∧ val a = 0

end Unc
