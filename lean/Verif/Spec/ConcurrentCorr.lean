import Verif.Spec.Concurrent
import Verif.Spec.CorrRounding

/-
Vocabulary of C92: a thread calculates `correlation_matrix(xs)` while other threads run commands.
-/

namespace Unc

set_option autoImplicit false

variable {F : Type} [PyMath F]

/-- What `correlation_matrix(xs)` returns, in a thread that starts after the history `cs`, with the events `es` (core.py 2933-2943);
`none` if it has not returned yet. Only `covariance_matrix()` (line 2939) reads objects that other threads can change. -/
def corrDuring (cs : List (Cmd F)) (xs : List (Arg F)) (es : List (Event F)) : Option (PyRes (List (List F))) :=
  (covDuring cs xs es).map fun
    | .matrix M => correlationMatrix M
    | .err e => .error e
    | _ => .error .typeError

end Unc
