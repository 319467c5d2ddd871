import Verif.Model.World

/-!
# Sum of `covariance_matrix()` in any order
-/

set_option autoImplicit false

namespace Unc

variable {F : Type} [PyFloat F]

/-- The sum of core.py 2910-2917, `sum(derivatives1[var]*derivatives2[var]*var._std_dev**2 for var in ...)`, when Python
iterates over the set of common variables in the order `vs`.  `covElem` (Model/World.lean) is the case of the order of the
first dictionary. -/
def covSum (std D1 D2 : VarId → Option F) : List VarId → F → PyRes F
  | [], acc => .ok acc
  | v :: vs, acc =>
    match D1 v, D2 v with
    | some a, some b =>
      match std v with
      | none => .error .attributeError   -- no such variable
      | some s =>
        match PyFloat.sq s with
        | .error e => .error e
        | .ok s2 => covSum std D1 D2 vs (acc + a * b * s2)
    | _, _ => .error .keyError

end Unc
