import Verif.Py.ZN

/-
`OZ`: integers with NaN, where squares overflow as they do with IEEE doubles. Used for a
counterexample: everything else is as in `ZN`.
-/

namespace Unc

/-- An integer or NaN. -/
def OZ := ZN

/-- Squares that are not below 2**1024 overflow, as with IEEE doubles. -/
def OZ.sq : ZN → PyRes ZN
  | .nan => .ok .nan
  | .fin x => if x.natAbs < 2 ^ 256 * 2 ^ 256 then .ok (.fin (x * x)) else .error .overflowError

instance : PyMath OZ := { (inferInstance : PyMath ZN) with sq := OZ.sq }

end Unc
