import Mathlib.LinearAlgebra.Matrix.Defs
import Verif.Spec.Random

/- Specification: random variables with a given covariance matrix. -/

namespace Unc

set_option autoImplicit false

open MeasureTheory ProbabilityTheory

variable {Ω : Type} [MeasurableSpace Ω] {n : ℕ}

/-- Random variables with covariance matrix `C`; their distribution is arbitrary. -/
structure HasCovariance (P : Measure Ω) (Y : Fin n → Ω → ℝ) (C : Matrix (Fin n) (Fin n) ℝ) : Prop where
  memLp : ∀ i, MemLp (Y i) 2 P
  cov : ∀ i j, cov[Y i, Y j; P] = C i j

end Unc
