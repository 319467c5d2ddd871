import Verif.Model.CorrMatrix
import Verif.Spec.Observe
import Verif.Spec.Rounding
import Verif.Py.RoundedDiv

/-
Correlation matrices with floating-point numbers: what a program sees, exact value and bound of the rounding error.
-/

set_option autoImplicit false

namespace Unc

/-- What `correlation_matrix(xs)` returns, or raises, after the history `cs`. -/
def seesCorrelation {F : Type} [PyMath F] (cs : List (Cmd F)) (xs : List (Arg F)) : PyRes (List (List F)) :=
  match sees cs (.covarianceMatrix xs) with
  | .matrix M => correlationMatrix M
  | .err e => .error e
  | _ => .error .typeError

/-- The bound of the error of a correlation coefficient `ρ`, where `σ` is the standard deviation by which the second division is
done: four roundings (two square roots, two divisions), and underflow. -/
noncomputable def corrBound (u η ρ σ : ℝ) : ℝ :=
  ((1 + u) ^ 2 / (1 - u) ^ 2 - 1) * |ρ| + (1 + u) * η / ((1 - u) * σ) + η

end Unc
