import Verif.Model.FloatFormat
import Verif.Model.Parse

/-!
# Parsing with floating-point arithmetic

The parser of `Model/Parse.lean` for floats whose operations are rounded.
-/

set_option autoImplicit false

namespace Unc

/-- Floats, with the operations `f`. -/
def Fl (_ : FlOps) : Type := FNum

/-- The float nearest to a number. -/
def FlOps.nearest (f : FlOps) : FNum → Fl f
  | .fin q => FNum.fin (f.rnd q)
  | .inf s => FNum.inf s
  | .nan => FNum.nan

/-- The operations of the parser (core.py 2995-3163): `float(s)` is the float nearest to the decimal number; in `n/x`
(core.py 3051), the integer is first converted to a float. -/
instance (f : FlOps) : PyText (Fl f) where
  ofStr s := (pyFloat s).map f.nearest
  pow10 n := if 308 < n then throw .overflowError else pure (FNum.fin (f.ten n))
  mul x y := match (y : FNum), (x : FNum) with
    | .fin k, .fin q => FNum.fin (f.rnd (q * k))
    | .fin k, .inf s => if k = 0 then FNum.nan else FNum.inf s
    | .fin _, .nan => FNum.nan
    | _, _ => y
  one := FNum.fin 1
  divInt n x := match (x : FNum) with
    | .fin q => if q = 0 then throw .zeroDivisionError else pure (FNum.fin (f.rnd (f.rnd n / q)))
    | _ => pure FNum.nan
  isNegFinite x := FNum.isNeg x && !FNum.isInfinite x

end Unc
