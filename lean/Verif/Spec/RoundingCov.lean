import Verif.Spec.Rounding

/-!
# Covariances calculated with rounding: exact values and bounds
-/

namespace Unc

set_option autoImplicit false

variable {F : Type} [PyFloat F] [Rounded F]

/-- Exact contribution of a variable to the covariance of two quantities: the product of the derivatives and of the variance
of the variable. -/
noncomputable def Grad.covTerm (g h : Grad) (vars : List (RVar F)) (v : VarId) : ℝ :=
  match g v, h v, vars[v]? with
  | some I, some J, some cell => I.exact * J.exact * Rounded.val cell.std ^ 2
  | _, _, _ => 0

/-- Largest possible absolute value of the contribution calculated with floats: each derivative has its own error
(`Info.bound`), and each of the three products is rounded. -/
noncomputable def Grad.covTermMax (g h : Grad) (vars : List (RVar F)) (v : VarId) : ℝ :=
  match g v, h v, vars[v]? with
  | some I, some J, some cell =>
    (1 + Rounded.u F) *
      (((1 + Rounded.u F) * ((|I.exact| + I.bound F) * (|J.exact| + J.bound F)) + Rounded.η F) *
        ((1 + Rounded.u F) * Rounded.val cell.std ^ 2 + Rounded.η F)) + Rounded.η F
  | _, _, _ => 0

/-- The exact covariance. -/
noncomputable def Grad.cov (g h : Grad) (vars : List (RVar F)) : ℝ :=
  ∑ v ∈ Finset.range vars.length, g.covTerm h vars v

/-- Number of variables that both quantities depend on. -/
def Grad.covCount (g h : Grad) (n : ℕ) : ℕ :=
  ((List.range n).filter fun v => (g v).isSome && (h v).isSome).length

/-- Bound on the error of the covariance: `n` additions. -/
noncomputable def Grad.covBound (g h : Grad) (vars : List (RVar F)) : ℝ :=
  (1 + Rounded.u F) ^ g.covCount h vars.length * (∑ v ∈ Finset.range vars.length, g.covTermMax h vars v) -
    ∑ v ∈ Finset.range vars.length, |g.covTerm h vars v|

end Unc
