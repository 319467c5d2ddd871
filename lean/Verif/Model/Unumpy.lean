import Verif.Model.Arrays

/-
Vectorized functions of `unumpy` (unumpy/core.py 663-728).
-/

namespace Unc

set_option autoImplicit false

/-! ### Names -/

/-- The keys of `fixed_derivatives` (umath_core.py 180-228). -/
def fixedDerivativeNames : List String :=
  ["acos", "acosh", "asin", "asinh", "atan", "atan2", "atanh", "copysign", "cos", "cosh", "degrees", "erf", "erfc",
   "exp", "expm1", "fabs", "hypot", "log", "log10", "log1p", "pow", "radians", "sin", "sinh", "sqrt", "tan", "tanh"]

/-- `num_deriv_funcs` (umath_core.py 62). -/
def numDerivFuncs : List String := ["fmod", "gamma", "lgamma"]

/-- `locally_cst_funcs` (umath_core.py 74). -/
def locallyCstFuncs : List String := ["ceil", "floor", "isinf", "isnan", "trunc"]

/-- `many_scalars_to_scalar_funcs` (umath_core.py 240-266, 351, 375), for the names found in the `math`
module of the version of Python in use. -/
def manyScalarsToScalarFuncs (dirMath : List String) : List String :=
  dirMath.filter (fun name => decide (name ∈ fixedDerivativeNames ∨ name ∈ numDerivFuncs ∨ name ∈ locallyCstFuncs)) ++
    ["modf", "ldexp"]

/-- `func_name_translations` (unumpy/core.py 674-676). -/
def funcNameTranslations : List (String × String) :=
  ["acos", "acosh", "asin", "atan", "atan2", "atanh"].map fun f => (f, "arc" ++ String.ofList f.toList.tail)

/-- Name in `unumpy` of a function of `umath` (unumpy/core.py 678-683). -/
def unumpyName (f : String) : String := (funcNameTranslations.lookup f).getD f

/-- The attributes of `unumpy` set by the loop (unumpy/core.py 685-723): each attribute is the vectorized
version of a function of `umath`. -/
def unumpyAttributes (dirMath : List String) : List (String × String) :=
  (manyScalarsToScalarFuncs dirMath).map fun f => (unumpyName f, f)

/-- `getattr(unumpy, name)`, for these attributes: the last one that was set. -/
def unumpyGetattr (dirMath : List String) (name : String) : Option String :=
  (unumpyAttributes dirMath).reverse.lookup name

/-! ### Vectorized functions -/

variable {F : Type} [PyMath F]

/-- `numpy.vectorize(func)(A, B, ...)` (unumpy/core.py 717): the function `call` (of `umath`) is called for each
element, here given with the list of its arguments. (Arrays of the same shape, with two dimensions.) -/
def vectorized (call : List (Arg F) → Cmd F) (base : Nat) (A : List (List (List (Arg F)))) :
    List (Cmd F) × List (List (Arg F)) :=
  (A.flatten.map call, number base A)

end Unc
