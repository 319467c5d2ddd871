import Mathlib.LinearAlgebra.Matrix.PosDef
import Mathlib.Data.Real.StarOrdered
import Verif.Model.Correlated
import Verif.Py.NRMath
import Verif.Spec.Calls

/-
Vocabulary for the properties of correlated values and of matrices.
-/

namespace Unc

set_option autoImplicit false

open NR Matrix

/-- The rows of a real matrix, as a program gives them. -/
def rows {m n : ℕ} (M : Matrix (Fin m) (Fin n) ℝ) : List (List NR) :=
  List.ofFn fun i => List.ofFn fun j => fin (M i j)

/-- Array given by its elements. -/
def arr {α : Type} {p q : ℕ} (f : Fin p → Fin q → α) : List (List α) :=
  List.ofFn fun i => List.ofFn (f i)

/-- The derivative of an element with respect to a variable (`none`: no dependence). A number without
uncertainty (first `none`) has no derivatives. -/
def gradOf {F : Type} (S : Option (Lin F)) : Lin F := fun v => S.bind fun D => D v

/-- The derivative of an element with respect to the variable `v` is the real number `d`: either it is
given as `d`, or it is not given and `d = 0`. -/
def HasDeriv (S : Option (Lin NR)) (v : VarId) (d : ℝ) : Prop :=
  gradOf S v = some (fin d) ∨ gradOf S v = none ∧ d = 0

/-- After the history `cs`, the array `A` of numbers with or without uncertainty has the nominal values
`N`, and its derivatives with respect to the variable `v` are `dA v`. -/
def IsArray {p q : ℕ} (cs : List (Cmd NR)) (A : Fin p → Fin q → Arg NR) (N : Matrix (Fin p) (Fin q) ℝ)
    (dA : VarId → Matrix (Fin p) (Fin q) ℝ) : Prop :=
  ∀ i j, ∃ S, SeenAs cs (A i j) (.flt (fin (N i j)), S) ∧ ∀ v, HasDeriv S v (dA v i j)

/-- What is assumed of NumPy's matrix inverse: it returns the inverse of invertible matrices. -/
def GoodInv (inv : List (List NR) → PyRes (List (List NR))) : Prop :=
  ∀ (n : ℕ) (N : Matrix (Fin n) (Fin n) ℝ), IsUnit N → inv (rows N) = .ok (rows N⁻¹)

/-- The four equations of Moore and Penrose. -/
structure Penrose {m n : ℕ} (A : Matrix (Fin m) (Fin n) ℝ) (P : Matrix (Fin n) (Fin m) ℝ) : Prop where
  apa : A * P * A = A
  pap : P * A * P = P
  ap : (A * P)ᵀ = A * P
  pa : (P * A)ᵀ = P * A

/-- What is assumed of NumPy's eigensolver: for a symmetric matrix `R`, it returns an orthogonal matrix
`U` and eigenvalues `l` such that `R = U diag(l) Uᵀ`. -/
def GoodEigh (eigh : EighFn NR) : Prop :=
  ∀ (n : ℕ) (R : Matrix (Fin n) (Fin n) ℝ), R.IsSymm →
    ∃ (l : Fin n → ℝ) (U : Matrix (Fin n) (Fin n) ℝ),
      eigh (rows R) = .ok (List.ofFn fun i => fin (l i), rows U) ∧
      U * Uᵀ = 1 ∧ R = U * diagonal l * Uᵀ

/-- `P` is the positive part of the symmetric matrix `R`: `R = P - N`, with positive semi-definite
matrices such that `P N = 0`. -/
def PositivePart {n : ℕ} (R P : Matrix (Fin n) (Fin n) ℝ) : Prop :=
  ∃ N : Matrix (Fin n) (Fin n) ℝ, P.PosSemidef ∧ N.PosSemidef ∧ R = P - N ∧ P * N = 0

end Unc
