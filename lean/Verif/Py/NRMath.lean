import Mathlib.Analysis.SpecialFunctions.Arcosh
import Mathlib.Analysis.SpecialFunctions.Arsinh
import Mathlib.Analysis.SpecialFunctions.Artanh
import Mathlib.Analysis.SpecialFunctions.Gamma.Basic
import Mathlib.Analysis.SpecialFunctions.Trigonometric.Arctan
import Mathlib.Analysis.SpecialFunctions.Complex.Arg
import Mathlib.Analysis.SpecialFunctions.Log.Base
import Mathlib.MeasureTheory.Integral.IntervalIntegral.Basic
import Verif.Py.NR
import Verif.Model.Umath

/-
The `math` module in exact arithmetic with NaN.
-/

namespace Unc

namespace NR

open Classical

/-- Error function. -/
noncomputable def erfReal (x : ℝ) : ℝ := 2 / Real.sqrt Real.pi * ∫ t in (0:ℝ)..x, Real.exp (-t ^ 2)

/-- A real function defined on a domain; `ValueError` ("math domain error") elsewhere. -/
noncomputable def onDomain (p : Prop) (y : ℝ) : PyRes NR :=
  if p then .ok (fin y) else .error .valueError

/-- The functions of the `math` module for real numbers: domain and value. -/
noncomputable def mathReal (fn : MF1) (x : ℝ) : PyRes NR :=
  match fn with
  | .acos => onDomain (-1 ≤ x ∧ x ≤ 1) (Real.arccos x)
  | .acosh => onDomain (1 ≤ x) (Real.arcosh x)
  | .asin => onDomain (-1 ≤ x ∧ x ≤ 1) (Real.arcsin x)
  | .asinh => .ok (fin (Real.arsinh x))
  | .atan => .ok (fin (Real.arctan x))
  | .atanh => onDomain (-1 < x ∧ x < 1) (Real.artanh x)
  | .cos => .ok (fin (Real.cos x))
  | .cosh => .ok (fin (Real.cosh x))
  | .degrees => .ok (fin (x * 180 / Real.pi))
  | .erf => .ok (fin (erfReal x))
  | .erfc => .ok (fin (1 - erfReal x))
  | .exp => .ok (fin (Real.exp x))
  | .expm1 => .ok (fin (Real.exp x - 1))
  | .fabs => .ok (fin |x|)
  | .gamma => onDomain (∀ n : ℕ, x ≠ -n) (Real.Gamma x)
  | .lgamma => onDomain (∀ n : ℕ, x ≠ -n) (Real.log |Real.Gamma x|)
  | .log10 => onDomain (0 < x) (Real.log x / Real.log 10)
  | .log1p => onDomain (-1 < x) (Real.log (1 + x))
  | .radians => .ok (fin (x * Real.pi / 180))
  | .sin => .ok (fin (Real.sin x))
  | .sinh => .ok (fin (Real.sinh x))
  | .sqrt => onDomain (0 ≤ x) (Real.sqrt x)
  | .tan => .ok (fin (Real.tan x))
  | .tanh => .ok (fin (Real.tanh x))

/-- `math.pow` for real numbers. -/
noncomputable def mathPowReal (x y : ℝ) : PyRes NR :=
  if y = 0 then .ok (fin 1)
  else if x = 0 then
    if y < 0 then .error .valueError else .ok (fin 0)
  else if 0 < x then .ok (fin (x ^ y))
  else if y = (⌊y⌋ : ℝ) then .ok (fin (x ^ ⌊y⌋))
  else .error .valueError

/-- The functions of two variables of the `math` module for real numbers. There is no signed zero:
the sign of 0 is +. -/
noncomputable def mathReal2 (fn : MF2) (x y : ℝ) : PyRes NR :=
  match fn with
  | .atan2 => .ok (fin (Complex.arg ⟨y, x⟩))      -- atan2(y, x)
  | .copysign => .ok (fin (if 0 ≤ y then |x| else -|x|))
  | .fmod => if y = 0 then .error .valueError else .ok (fin (x - y * truncReal (x / y)))
  | .hypot => .ok (fin (Real.sqrt (x ^ 2 + y ^ 2)))
  | .pow => mathPowReal x y

/-- The functions of `math` that are locally constant, for real numbers; `bool` results are integers
in Python. -/
noncomputable def lcstReal (fn : LF) (x : ℝ) : PyVal NR :=
  match fn with
  | .ceil => .flt (fin ⌈x⌉)
  | .floor => .flt (fin ⌊x⌋)
  | .isinf => .flt (fin 0)
  | .isnan => .flt (fin 0)
  | .trunc => .flt (fin (truncReal x))

/-- Exponent given by `math.frexp`. -/
noncomputable def frexpExp (x : ℝ) : ℤ := if x = 0 then 0 else ⌊Real.logb 2 |x|⌋ + 1

noncomputable instance instPyMath : PyMath NR where
  fn1 fn
    | fin x => mathReal fn x
    | nan => .ok nan
  fn2 fn
    | fin x, fin y => mathReal2 fn x y
    | nan, fin y =>
      match fn with
      | .pow => if y = 0 then .ok (fin 1) else .ok nan
      | .fmod => if y = 0 then .error .valueError else .ok nan
      | _ => .ok nan
    | fin x, nan =>
      match fn with
      | .pow => if x = 1 then .ok (fin 1) else .ok nan
      | .copysign => .ok (fin |x|)
      | _ => .ok nan
    | nan, nan => .ok nan
  logb
    | fin x, fin b =>
      if x ≤ 0 then .error .valueError
      else if b ≤ 0 then .error .valueError
      else if b = 1 then .error .zeroDivisionError
      else .ok (fin (Real.log x / Real.log b))
    | fin x, nan => if x ≤ 0 then .error .valueError else .ok nan
    | nan, fin b =>
      if b ≤ 0 then .error .valueError
      else if b = 1 then .error .zeroDivisionError
      else .ok nan
    | nan, nan => .ok nan
  lcst fn
    | fin x => .ok (lcstReal fn x)
    | nan =>
      match fn with
      | .isinf => .ok (.flt (fin 0))
      | .isnan => .ok (.flt (fin 1))
      | _ => .error .valueError
  modf
    | fin x => (fin (x - truncReal x), fin (truncReal x))
    | nan => (nan, nan)
  ldexp
    | fin x, i => .ok (fin (x * 2 ^ i))
    | nan, _ => .ok nan
  frexp
    | fin x => (fin (x / 2 ^ frexpExp x), frexpExp x)
    | nan => (nan, 0)
  pow2 i := fin (2 ^ i)
  fsum l := .ok (l.foldl (· + ·) (fin 0))
  ten := fin 10
  half := fin (1 / 2)
  erfCoef := fin (2 / Real.sqrt Real.pi)

end NR

end Unc
