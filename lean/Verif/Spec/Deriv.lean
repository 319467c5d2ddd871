import Mathlib.Analysis.Calculus.Deriv.Basic
import Verif.Py.NR

/-
True partial derivatives of a Python function of floats, in exact arithmetic.
-/

namespace Unc

set_option autoImplicit false

open Topology

/-- Real numbers as arguments of a Python function. -/
def flts (xs : List ℝ) : List (PyVal NR) := xs.map fun x => .flt (.fin x)

/-- `d` is the derivative of `f` at `xs` with respect to argument number `i`: when only this argument
changes, and stays close to its value in `xs`, `f` returns the values of a function of a real
variable `g` whose derivative (in the sense of calculus) is `d`. -/
def IsPartial (f : PyFn NR) (xs : List ℝ) (i : Nat) (d : ℝ) : Prop :=
  ∃ g : ℝ → ℝ, (∀ᶠ t in 𝓝 (xs.getD i 0), f (flts (xs.set i t)) [] = .ok (.flt (.fin (g t)))) ∧
    HasDerivAt g d (xs.getD i 0)

end Unc
