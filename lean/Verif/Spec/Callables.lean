import Verif.Model.Callables
import Verif.Spec.Calls

/-
What the documentation of `wrap` says for any callable: the derivative number `i` of `derivatives_args` is the derivative with respect to
the positional parameter number `i` of calls.
-/

namespace Unc

set_option autoImplicit false

variable {F : Type}

/-- The callable `c`, as a function of the parameters that a call fills: the parameter number `i` is the one that the positional argument
number `i` of a call fills. -/
def PyCallable.asFunction (c : PyCallable F) (derivativesArgs : DSource F) (derivativesKwargs : List (String × Option (DerivFn F)))
    (nodup : (derivativesKwargs.map Prod.fst).Nodup) : WrapDef F :=
  ⟨c.call, derivativesArgs, derivativesKwargs, c.params, nodup, fun l h => (List.nodup_append.1 (c.nodup l h)).2.1⟩

end Unc
