import Mathlib.LinearAlgebra.Matrix.PosDef
import Mathlib.Data.Real.StarOrdered
import Verif.Py.NR

/-
Derivatives as real numbers.
-/

namespace Unc

/-- Derivative as a real number: 0 for variables that do not appear (and for NaN, which the theorems
that use this function exclude). -/
noncomputable def coef : Option NR → ℝ
  | some (.fin x) => x
  | _ => 0

/-- Covariance matrix of quantities with derivatives `D i`, for independent variables with standard
deviations `σ v`: the sum over the variables of derivative times derivative times variance. -/
noncomputable def covM {m : ℕ} (D : Fin m → VarId → Option NR) (σ : VarId → ℝ) (V : Finset ℕ) :
    Matrix (Fin m) (Fin m) ℝ :=
  fun i j => ∑ v ∈ V, coef (D i v) * coef (D j v) * σ v ^ 2

end Unc
