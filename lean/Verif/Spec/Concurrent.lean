import Verif.Model.ThreadCov
import Verif.Spec.Observe

/-
Vocabulary of C89 and C90: a thread calculates `x.error_components()` or `x.s` (`x.std_dev`, for the result of a
calculation), or `covariance_matrix(xs)`, while other threads run commands.
-/

namespace Unc

set_option autoImplicit false

variable {F : Type} [PyMath F]

/-- The commands that the other threads ran, among some events. -/
def ran (es : List (Event F)) : List (Cmd F) := es.filterMap id

/-- The history, for the other threads, when the events `p` happened since the thread got the derivatives of `x`. -/
def during (cs : List (Cmd F)) (x : Arg F) (p : List (Event F)) : List (Cmd F) := cs ++ .derivatives x :: ran p

/-- What `x.error_components()` returns, in a thread that starts after the history `cs`, with the events `es`; `none` if it has
not returned yet. -/
def compsDuring (cs : List (Cmd F)) (x : Arg F) (es : List (Event F)) : Option (Out F) :=
  ((after cs).compsDuring x es).map fun
    | .error e => .err e
    | .ok l => .dict (fun v => l.lookup v)

/-- Idem for `x.s`, which is `x.std_dev` for the result of a calculation. -/
def stdDuring (cs : List (Cmd F)) (x : Arg F) (es : List (Event F)) : Option (Out F) :=
  ((after cs).compsDuring x es).map finishStd

/-- The history, for the other threads, when the events `p` happened since the thread got the derivatives of all the `xs`. -/
def duringAll (cs : List (Cmd F)) (xs : List (Arg F)) (p : List (Event F)) : List (Cmd F) := cs ++ xs.map .derivatives ++ ran p

/-- What `covariance_matrix(xs)` returns, in a thread that starts after the history `cs`, with the events `es`; `none` if it has not
returned yet. -/
def covDuring (cs : List (Cmd F)) (xs : List (Arg F)) (es : List (Event F)) : Option (Out F) :=
  ((after cs).covDuring xs es).map fun
    | .error e => .err e
    | .ok M => .matrix M

/-- The error component for a derivative `d` and a standard deviation `s` (C06). -/
def component (d s : F) : F := if PyFloat.eqb s 0 then 0 else PyFloat.abs (d * s)

/-- Products by 0, in the arithmetic: the magnitude of the product of 0 and of a finite number is 0; the one of the product of 0 and of
NaN is the same as the one of the product of any other number and of NaN. -/
class TimesZero (F : Type) [PyFloat F] : Prop where
  mul : ∀ d s t : F, PyFloat.isInf d = false → PyFloat.eqb t 0 = true →
    PyFloat.abs (d * t) = 0 ∨ PyFloat.abs (d * t) = PyFloat.abs (d * s)

end Unc
