import Mathlib.Probability.Moments.Covariance
import Mathlib.Probability.Moments.Variance
import Verif.Spec.FormulaCov

/-
Specification: what the numbers that the package displays mean. The values of the variables are *random variables*, in the
sense of the theory of probability, whose means are the nominal values and whose standard deviations are those of
the variables. The results of a program are functions of these values, so they are random variables too: their means, standard
deviations and covariances are those of the theory of probability (Mathlib).

Nothing here depends on derivatives.
-/

namespace Unc

set_option autoImplicit false

open MeasureTheory ProbabilityTheory

variable {F : Type} [PyFloat F] [Rounded F] {Ω : Type} [MeasurableSpace Ω]

/-- The value of a result, when the values of the variables are random. -/
noncomputable def Formula.random (φ : Formula) (X : VarId → Ω → ℝ) (ω : Ω) : ℝ := φ.eval fun v => X v ω

/-- The random values `X` of the variables: they have the means (nominal values) and the standard deviations of the
variables, and are not correlated (in particular: they are independent). Their distribution is arbitrary. -/
structure RandomValues (P : Measure Ω) (vars : List (RVar F)) (X : VarId → Ω → ℝ) : Prop where
  memLp : ∀ v < vars.length, MemLp (X v) 2 P
  mean : ∀ v cell, vars[v]? = some cell → ∫ ω, X v ω ∂P = Rounded.val cell.nom
  variance : ∀ v cell, vars[v]? = some cell → Var[X v; P] = Rounded.val cell.std ^ 2
  uncorrelated : ∀ v < vars.length, ∀ w < vars.length, v ≠ w → cov[X v, X w; P] = 0

/-- The result is an affine function of the `k` variables, however it is calculated. -/
def Formula.IsAffine (φ : Formula) (k : ℕ) : Prop :=
  ∃ (c : ℝ) (a : VarId → ℝ), ∀ p : VarId → ℝ, φ.eval p = c + ∑ v ∈ Finset.range k, a v * p v

/-- Normalized noise on the `k` variables: bounded random variables with mean 0 and standard deviation 1, which are not
correlated. -/
structure Noise (P : Measure Ω) (k : ℕ) (Z : VarId → Ω → ℝ) : Prop where
  measurable : ∀ v < k, Measurable (Z v)
  bounded : ∃ B : ℝ, ∀ v < k, ∀ ω, |Z v ω| ≤ B
  mean : ∀ v < k, ∫ ω, Z v ω ∂P = 0
  variance : ∀ v < k, Var[Z v; P] = 1
  uncorrelated : ∀ v < k, ∀ w < k, v ≠ w → cov[Z v, Z w; P] = 0

/-- Random values of the variables, with the nominal values as means, and `t` times the standard deviations of the variables as
standard deviations. -/
noncomputable def scaledValues (n : VarId → ℝ) (vars : List (RVar F)) (Z : VarId → Ω → ℝ) (t : ℝ) (v : VarId) (ω : Ω) : ℝ :=
  n v + t * (stdOf vars v * Z v ω)

/-- The functions of a formula are measurable functions. -/
def Formula.MeasurableFns : Formula → Prop
  | .var _ | .const _ => True
  | .pos a | .neg a | .abs a => a.MeasurableFns
  | .add a b | .sub a b | .mul a b | .div a b => a.MeasurableFns ∧ b.MeasurableFns
  | .fn1 s a => Measurable s.g ∧ a.MeasurableFns
  | .fn2 s a b => (Measurable fun p : ℝ × ℝ => s.g p.1 p.2) ∧ a.MeasurableFns ∧ b.MeasurableFns

end Unc
