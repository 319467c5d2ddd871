/-
Python exceptions and float operations used by the package.

`PyFloat` is a class of *operations only*: it carries no law, so a theorem proved for every
`PyFloat F` holds for IEEE doubles with whatever rounding, overflow, NaN and signed zeros.
The laws of exact arithmetic that some theorems need are in the separate class `ExactLin`.
-/

namespace Unc

/-- Python exceptions that the modelled code raises or lets through. -/
inductive PyErr
  | valueError
  | zeroDivisionError
  | overflowError
  | typeError
  | keyError
  | indexError
  | attributeError
  | stopIteration
  /-- `uncertainties.core.NegativeStdDev` (core.py 2711-2713). -/
  | negativeStdDev
  /-- Any other exception raised by user code. -/
  | other (code : Nat)
  /-- Not a Python exception: the model ran out of the fuel given to a loop. Theorem
  `C04_reading_terminates` shows that it never happens. -/
  | outOfFuel
  deriving DecidableEq, Repr

/-- Result of running Python code: a value or an exception. -/
abbrev PyRes (α : Type) := Except PyErr α

/-- The float operations used by `uncertainties/core.py` outside of the operator tables. -/
class PyFloat (F : Type) extends Zero F, One F, Add F, Sub F, Mul F, Neg F where
  /-- `float('nan')` -/
  nan : F
  /-- `abs(x)` -/
  abs : F → F
  /-- `x / y`; raises `ZeroDivisionError` when `y == 0`. -/
  truediv : F → F → PyRes F
  /-- `x**2`; can raise `OverflowError`. -/
  sq : F → PyRes F
  /-- `math.sqrt(x)` -/
  sqrt : F → PyRes F
  /-- the float `2.` -/
  two : F
  /-- `x == y` -/
  eqb : F → F → Bool
  /-- `x < y` -/
  ltb : F → F → Bool
  /-- `math.isinf(x)` -/
  isInf : F → Bool
  /-- `STEP_SIZE` (core.py 295): `sqrt(sys.float_info.epsilon)`. -/
  stepSize : F

/-- `bool(x)` for a float: `x != 0`. (NaN is true.) -/
def PyFloat.truthy {F : Type} [PyFloat F] (x : F) : Bool := !(PyFloat.eqb x (0 : F))

/-- The float operations do not return the error that stands for an endless loop of the model. -/
class Halts (F : Type) [PyFloat F] : Prop where
  truediv : ∀ a b : F, PyFloat.truediv a b ≠ .error .outOfFuel
  sq : ∀ a : F, PyFloat.sq a ≠ .error .outOfFuel
  sqrt : ∀ a : F, PyFloat.sqrt a ≠ .error .outOfFuel

/-- The laws of exact arithmetic used by the theorems on derivatives and standard deviations.
`0 * x = 0` is *not* among them: it fails for `x = nan`. -/
class ExactLin (F : Type) [PyFloat F] : Prop where
  add_assoc : ∀ a b c : F, a + b + c = a + (b + c)
  add_comm : ∀ a b : F, a + b = b + a
  zero_add : ∀ a : F, 0 + a = a
  mul_assoc : ∀ a b c : F, a * b * c = a * (b * c)
  mul_comm : ∀ a b : F, a * b = b * a
  one_mul : ∀ a : F, 1 * a = a
  mul_add : ∀ a b c : F, a * (b + c) = a * b + a * c
  sq_eq : ∀ a : F, PyFloat.sq a = .ok (a * a)

end Unc
