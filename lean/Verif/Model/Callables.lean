import Verif.Model.Wrap

/-
`wrap` (core.py 436-775) for all the kinds of callables: functions, methods, classes, `functools.partial` objects, instances of classes
that define `__call__`...
-/

namespace Unc

set_option autoImplicit false

variable {F : Type}

/-- What `wrap` reads from a callable. The names of the parameters of a Python function are distinct. -/
structure PyCallable (F : Type) where
  /-- the value of a call -/
  call : PyFn F
  /-- The positional-or-keyword parameters that a call can fill, in order (`none`: the module `inspect` does not find them). -/
  params : Option (List String)
  /-- The parameter which is already filled: the first parameter (usually `self` or `cls`) of bound methods, and of the `__init__` method
  of classes. -/
  bound : Option String
  /-- The attribute `__name__`. Functions, methods and classes have one; `functools.partial` objects and instances of classes that
  define `__call__` do not have one (unless the program adds it). -/
  name : Option String
  nodup : ∀ l, params = some l → (bound.toList ++ l).Nodup := by simp

/-- `getargspec(c).args` (core.py 41-47, 581); `none`: `TypeError`. This is `inspect.getfullargspec()`, whose documentation says that it
"includes the already bound first parameter in the signature output for bound methods" (`inspect.getargspec()`, in Python 2, does so too). -/
def PyCallable.fullArgSpec (c : PyCallable F) : Option (List String) := c.params.map fun l => c.bound.toList ++ l

/-- `wrap(c, derivatives_args, derivatives_kwargs)` (core.py 436-775): the wrapped function and its attribute `name` (core.py 771), or an
exception if `c` has no attribute `__name__` (core.py 645, 766). Simplification: the documentation string is not modelled. -/
def wrapCallable (c : PyCallable F) (derivativesArgs : DSource F) (derivativesKwargs : List (String × Option (DerivFn F)))
    (nodup : (derivativesKwargs.map Prod.fst).Nodup) : PyRes (WrapDef F × String) :=
  let argspec := c.fullArgSpec
  match c.name with
  | none => .error .attributeError
  | some name =>
    .ok (⟨c.call, derivativesArgs, derivativesKwargs, argspec, nodup, fun names h => by
      obtain ⟨l, h1, rfl⟩ := Option.map_eq_some_iff.1 h
      exact c.nodup l h1⟩, name)

end Unc
