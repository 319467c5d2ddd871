import Verif.Spec.Formula

/-!
# Covariances of the results of formulas
-/

namespace Unc

set_option autoImplicit false

variable {F : Type} [PyFloat F] [Rounded F]

/-- Part of the covariance of two results that comes from the variable `v`: the product of the partial derivatives and of the
variance of the variable. -/
noncomputable def Formula.covTerm (φ ψ : Formula) (n : VarId → ℝ) (vars : List (RVar F)) (v : VarId) : ℝ :=
  φ.partialAt n v * ψ.partialAt n v * stdOf vars v ^ 2

/-- Covariance given by the linear theory of error propagation. -/
noncomputable def Formula.cov (φ ψ : Formula) (n : VarId → ℝ) (vars : List (RVar F)) : ℝ :=
  ∑ v ∈ Finset.range vars.length, φ.covTerm ψ n vars v

/-- Largest possible absolute value of the part that is calculated with floats: each derivative has its own error
(`Formula.derivBound`), and each of the three products is rounded. -/
noncomputable def Formula.covTermMax (φ ψ : Formula) (n : VarId → ℝ) (vars : List (RVar F)) (v : VarId) : ℝ :=
  if φ.count v = 0 ∨ ψ.count v = 0 then 0
  else
    (1 + Rounded.u F) *
      (((1 + Rounded.u F) * ((|φ.partialAt n v| + φ.derivBound (Rounded.u F) (Rounded.η F) n v) *
          (|ψ.partialAt n v| + ψ.derivBound (Rounded.u F) (Rounded.η F) n v)) + Rounded.η F) *
        ((1 + Rounded.u F) * stdOf vars v ^ 2 + Rounded.η F)) + Rounded.η F

/-- Number of variables that appear in both formulas. -/
def Formula.covCount (φ ψ : Formula) (k : ℕ) : ℕ :=
  ((List.range k).filter fun v => φ.count v ≠ 0 && ψ.count v ≠ 0).length

/-- Bound on the error of the covariance. -/
noncomputable def Formula.covBound (φ ψ : Formula) (n : VarId → ℝ) (vars : List (RVar F)) : ℝ :=
  (1 + Rounded.u F) ^ φ.covCount ψ vars.length * (∑ v ∈ Finset.range vars.length, φ.covTermMax ψ n vars v) -
    ∑ v ∈ Finset.range vars.length, |φ.covTerm ψ n vars v|

end Unc
