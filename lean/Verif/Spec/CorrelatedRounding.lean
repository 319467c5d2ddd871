import Verif.Model.Correlated
import Verif.Spec.CorrRounding
import Verif.Py.RoundedSign
import Mathlib.Algebra.BigOperators.Fin

/-
Correlated values with floating-point numbers: what the eigendecomposition represents, and bounds of the rounding errors.
-/

set_option autoImplicit false

namespace Unc

variable {F : Type} {n : ℕ}

/-- A square matrix of floats, as a list of rows. -/
def ofRows (A : Fin n → Fin n → F) : List (List F) := List.ofFn fun i => List.ofFn (A i)

/-- The number by which `correlated_values()` divides, for a variance `x`: the standard deviation, or 1 if it is null. -/
def normFl [PyMath F] (x : F) : F := if PyFloat.eqb (npSqrt x) 0 then 1 else npSqrt x

/-- The matrix whose eigenvalues `correlated_values()` asks for: the covariance matrix `C` divided by the standard deviations, with
floating-point arithmetic. `C91_normalized` says that it is close to the exact correlation matrix. -/
def normalizedFl [PyMath F] (C : Fin n → Fin n → F) : Fin n → Fin n → F :=
  fun i j => npDiv (npDiv (C i j) (normFl (C j j))) (normFl (C i i))

/-- The matrix that is represented by the eigenvalues `l` and by the matrix `Q` of the eigenvectors (in columns), where the
negative eigenvalues are replaced by 0: `Q diag(max(l, 0)) Qᵀ`, calculated without rounding. -/
noncomputable def rebuilt [PyFloat F] [Rounded F] (l : Fin n → F) (Q : Fin n → Fin n → F) (i j : Fin n) : ℝ :=
  ∑ k, Rounded.val (Q i k) * Rounded.val (Q j k) * max (Rounded.val (l k)) 0

/-- Largest absolute value of the coefficient whose exact value is `a`: a product, then the coefficient of a linear
combination. -/
noncomputable def coefMax (u η a : ℝ) : ℝ :=
  (1 + u) * (((1 + u) * |a| + η) + η * max 1 ((1 + u) * |a| + η))

/-- Largest value of a term of a covariance, for the exact coefficients `a` and `b` and the exact variance `v`: the variance is
the square of a square root, and there are two more products. -/
noncomputable def corrTermMax (u η a b v : ℝ) : ℝ :=
  (1 + u) * (((1 + u) * (coefMax u η a * coefMax u η b) + η) * ((1 + u) * ((1 + u) ^ 2 * v) + η)) + η

/-- Bound of the error of a sum of `n` terms `a b v`. Without underflow (`η = 0`), this is `(1 + u)^(n + 9) - 1` times the sum of
the absolute values of the terms (`C91_bound`). -/
noncomputable def correlatedBound (u η : ℝ) (a b v : Fin n → ℝ) : ℝ :=
  (1 + u) ^ n * (∑ k, corrTermMax u η (a k) (b k) (v k)) - ∑ k, |a k * b k * v k|

end Unc
