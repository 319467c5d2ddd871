import Verif.Model.Arrays
import Verif.Spec.PyEval

/-
The obsolete ways of reading and setting standard deviations, which the package still accepts: `x.std_dev()`,
`M.std_devs()` and `x.set_std_dev(s)`. The deprecation warnings are not in the model.
-/

set_option autoImplicit false

namespace Unc

/-- The values of a program, as far as the obsolete methods are concerned. -/
inductive LVal (F : Type) where
  /-- number with uncertainty -/
  | unc (u : UF F)
  | float (x : F)
  /-- `CallableStdDev` (core.py 935-948): a float that can be called -/
  | callableStdDev (x : F)
  /-- `unumpy.matrix` (unumpy/core.py 598-642) -/
  | matrix (A : List (List (Val F)))
  /-- `CallableStdDevs` (unumpy/core.py 576-596): a matrix that can be called -/
  | callableStdDevs (l : List (List F))
  /-- the method `set_std_dev` of a variable -/
  | setStdDev (u : UF F)
  | none
  | foreign (n : Nat)

variable {F : Type}

/-- The float, for objects that are floats. -/
def LVal.float? : LVal F → Option F
  | .float x => some x
  | .callableStdDev x => some x
  | _ => Option.none

/-- What a function of the package does, in a program with other objects. -/
def inWorld {S α β : Type} (r : World F → World F × PyRes α) (f : α → β) : Run (World F × S) β := fun w =>
  ((r w.1).2.map f, ((r w.1).1, w.2))

variable [PyMath F]

/-- The attributes `std_dev` of numbers (core.py 1817-1835 and 2770-2772), `set_std_dev` of variables (core.py 2792) and
`std_devs` of matrices (unumpy/core.py 640-642); `other` gives the meaning of other attributes. Results that are not variables have no
method `set_std_dev`. -/
def legacyAttr {S : Type} (other : LVal F → String → Run (World F × S) (LVal F)) :
    LVal F → String → Run (World F × S) (LVal F)
  | .unc u, "std_dev" => inWorld (fun w => w.stdDev u) .callableStdDev
  | .unc u, "set_std_dev" => fun w =>
    match u.var with
    | Option.none => (.error .attributeError, w)
    | some _ => (.ok (.setStdDev u), w)
  | .matrix A, "std_devs" => inWorld (fun w => w.stdDevs A) .callableStdDevs
  | v, n => other v n

/-- Calls: `CallableStdDev.__call__` (core.py 945-948), `CallableStdDevs.__call__` (unumpy/core.py 593-596) and
`Variable.set_std_dev` (core.py 2792-2795); `other` gives the meaning of other calls. The parameter of `set_std_dev` is named
`value`. -/
def legacyCall {S : Type} (other : LVal F → List (ArgKind × LVal F) → Run (World F × S) (LVal F))
    (setattr : LVal F → String → LVal F → Run (World F × S) (LVal F)) :
    LVal F → List (ArgKind × LVal F) → Run (World F × S) (LVal F)
  | .callableStdDev x, [] => fun w => (.ok (.callableStdDev x), w)
  | .callableStdDevs l, [] => fun w => (.ok (.callableStdDevs l), w)
  | .setStdDev u, [(.pos, a)] => setattr (.unc u) "std_dev" a
  | .setStdDev u, [(.kw "value", a)] => setattr (.unc u) "std_dev" a
  | .float _, _ => fun w => (.error .typeError, w)
  | v, args => other v args

/-- `x.std_dev = s` (core.py 2778-2789): the new standard deviation must be a float. -/
def legacySetattr {S : Type} (other : LVal F → String → LVal F → Run (World F × S) (LVal F)) :
    LVal F → String → LVal F → Run (World F × S) (LVal F)
  | .unc u, "std_dev", a =>
    match a.float? with
    | Option.none => other (.unc u) "std_dev" a
    | some s => inWorld (fun w => w.assignStd u s) (fun _ => .none)
  | v, n, a => other v n a

/-- A program with the package: `I` gives the meaning of what is not in the package. -/
def withPackage {S : Type} (I : Interp (World F × S) (LVal F)) : Interp (World F × S) (LVal F) :=
  { I with
    attr := legacyAttr I.attr
    call := legacyCall I.call (legacySetattr I.setattr)
    setattr := legacySetattr I.setattr }

end Unc
