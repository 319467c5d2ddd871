import Verif.Model.Ops

/-
Model of `umath_core.py`: mathematical functions of numbers with uncertainties.
-/

namespace Unc

/-- The functions of one number from the `math` module that are wrapped with derivatives
(umath_core.py 62, 180-213), except `log`. -/
inductive MF1 where
  | acos | acosh | asin | asinh | atan | atanh | cos | cosh | degrees | erf | erfc | exp | expm1
  | fabs | gamma | lgamma | log10 | log1p | radians | sin | sinh | sqrt | tan | tanh
  deriving DecidableEq, Repr

/-- The functions of two numbers, except `log`. -/
inductive MF2 where
  | atan2 | copysign | fmod | hypot | pow
  deriving DecidableEq, Repr

/-- Locally constant functions (umath_core.py 74). -/
inductive LF where
  | ceil | floor | isinf | isnan | trunc
  deriving DecidableEq, Repr

/-- The `math` module. -/
class PyMath (F : Type) extends PyOps F where
  fn1 : MF1 → F → PyRes F
  fn2 : MF2 → F → F → PyRes F
  /-- `math.log(x, base)` -/
  logb : F → F → PyRes F
  /-- `math.ceil`, etc. -/
  lcst : LF → F → PyRes (PyVal F)
  /-- `math.modf` -/
  modf : F → F × F
  /-- `math.ldexp` -/
  ldexp : F → Int → PyRes F
  /-- `math.frexp` -/
  frexp : F → F × Int
  /-- `2**i`, as a float -/
  pow2 : Int → F
  /-- `math.fsum` -/
  fsum : List F → PyRes F
  /-- the constant `10` -/
  ten : F
  /-- the constant `0.5` -/
  half : F
  /-- `erf_coef` (umath_core.py 178): `2/math.sqrt(math.pi)` -/
  erfCoef : F

variable {F : Type} [PyMath F]

open PyFloat PyMath

/-- `_deriv_fabs` (umath_core.py 158-162). -/
def derivFabs (x : F) : PyRes F := if geb x 0 then .ok 1 else .ok (-1)

/-- `_deriv_copysign` (umath_core.py 152-156). -/
def derivCopysign (x y : F) : PyRes F := do
  let s ← fn2 .copysign 1 y
  if geb x 0 then .ok s else .ok (-s)

/-- `_deriv_pow_0` (umath_core.py 164-170). -/
def mathPowDeriv0 (x y : F) : PyRes F :=
  if eqb y 0 then .ok 0
  else do
    let test ← (if !eqb x 0 then .ok true else do
      let m ← PyOps.mod y 1
      .ok (eqb m 0) : PyRes Bool)
    if test then do
      let p ← fn2 .pow x (y - 1)
      .ok (y * p)
    else .ok nan

/-- `_deriv_pow_1` (umath_core.py 172-176). -/
def mathPowDeriv1 (x y : F) : PyRes F :=
  if eqb x 0 && ltb 0 y then .ok 0
  else do
    let l ← PyOps.log x
    let p ← fn2 .pow x y
    .ok (l * p)

/-- The entries of `fixed_derivatives` for one argument (umath_core.py 180-213); `none` for functions
that are not in the table, and whose derivatives are calculated numerically (line 59, 237-240). -/
def MF1.deriv (fn : MF1) : Option (F → PyRes F) :=
  match fn with
  | .acos => some fun x => do let x2 ← sq x; let s ← PyFloat.sqrt (1 - x2); truediv (-1) s
  | .acosh => some fun x => do let x2 ← sq x; let s ← PyFloat.sqrt (x2 - 1); truediv 1 s
  | .asin => some fun x => do let x2 ← sq x; let s ← PyFloat.sqrt (1 - x2); truediv 1 s
  | .asinh => some fun x => do let x2 ← sq x; let s ← PyFloat.sqrt (1 + x2); truediv 1 s
  | .atan => some fun x => do let x2 ← sq x; truediv 1 (1 + x2)
  | .atanh => some fun x => do let x2 ← sq x; truediv 1 (1 - x2)
  | .cos => some fun x => do let s ← fn1 .sin x; .ok (-s)
  | .cosh => some fun x => fn1 .sinh x
  | .degrees => some fun _ => fn1 .degrees 1
  | .erf => some fun x => do let x2 ← sq x; let e ← fn1 .exp (-x2); .ok (e * erfCoef)
  | .erfc => some fun x => do let x2 ← sq x; let e ← fn1 .exp (-x2); .ok (-e * erfCoef)
  | .exp => some fun x => fn1 .exp x
  | .expm1 => some fun x => fn1 .exp x
  | .fabs => some derivFabs
  | .gamma => none
  | .lgamma => none
  | .log10 => some fun x => do let a ← truediv 1 x; let l ← PyOps.log ten; truediv a l
  | .log1p => some fun x => truediv 1 (1 + x)
  | .radians => some fun _ => fn1 .radians 1
  | .sin => some fun x => fn1 .cos x
  | .sinh => some fun x => fn1 .cosh x
  | .sqrt => some fun x => do let s ← PyFloat.sqrt x; truediv half s
  | .tan => some fun x => do let t ← fn1 .tan x; let t2 ← sq t; .ok (1 + t2)
  | .tanh => some fun x => do let t ← fn1 .tanh x; let t2 ← sq t; .ok (1 - t2)

/-- The entries of `fixed_derivatives` for two arguments, first argument (umath_core.py 180-213). -/
def MF2.deriv0 (fn : MF2) : Option (F → F → PyRes F) :=
  match fn with
  | .atan2 => some fun y x => do                    -- x/(x**2+y**2)
      let x2 ← sq x; let y2 ← sq y; truediv x (x2 + y2)
  | .copysign => some derivCopysign
  | .fmod => none
  | .hypot => some fun x y => do let h ← fn2 .hypot x y; truediv x h
  | .pow => some mathPowDeriv0

/-- Second argument. -/
def MF2.deriv1 (fn : MF2) : Option (F → F → PyRes F) :=
  match fn with
  | .atan2 => some fun y x => do                    -- -y/(x**2+y**2)
      let x2 ← sq x; let y2 ← sq y; truediv (-y) (x2 + y2)
  | .copysign => some fun _ _ => .ok 0
  | .fmod => none
  | .hypot => some fun x y => do let h ← fn2 .hypot x y; truediv y h
  | .pow => some mathPowDeriv1

/-- `log_der0` (umath_core.py 132-141). -/
def logDer0 : DerivFn F
  | [.flt x], [] => truediv 1 x
  | [.flt x, .flt b], [] => do let a ← truediv 1 x; let l ← PyOps.log b; truediv a l
  | _, _ => .error .typeError

/-- `lambda x, y: -math.log(x, y)/y/math.log(y)` (umath_core.py 203). -/
def logDer1 : DerivFn F
  | [.flt x, .flt y], [] => do
    let a ← logb x y
    let b ← truediv (-a) y
    let l ← PyOps.log y
    truediv b l
  | _, _ => .error .typeError

/-- `nan_if_exception` (core.py 2471-2483) on a derivative. -/
def nanIfExceptionFn (d : DerivFn F) : DerivFn F := fun args kwargs => nanIfException (d args kwargs)

/-- `math.sin`, etc., as a function of its arguments. -/
def MF1.func (fn : MF1) : PyFn F
  | [.flt x], [] => (fn1 fn x).map .flt
  | _, _ => .error .typeError

def MF2.func (fn : MF2) : PyFn F
  | [.flt x, .flt y], [] => (fn2 fn x y).map .flt
  | _, _ => .error .typeError

/-- `math.log` -/
def logFunc : PyFn F
  | [.flt x], [] => (PyOps.log x).map .flt
  | [.flt x, .flt b], [] => (logb x b).map .flt
  | _, _ => .error .typeError

/-- What is given to `wrap` (umath_core.py 239-266). The functions of the `math` module do not accept
keyword arguments, so the result of `getargspec` plays no role; it depends on the Python version. -/
def MF1.wrapDef (fn : MF1) : WrapDef F where
  f := fn.func
  derivativesArgs := .finite (match (fn.deriv : Option (F → PyRes F)) with
    | none => []
    | some d => [some (nanIfExceptionFn (lambda1 d))])
  derivativesKwargs := []
  argspec := none

def MF2.wrapDef (fn : MF2) : WrapDef F where
  f := fn.func
  derivativesArgs := .finite (match (fn.deriv0 : Option (F → F → PyRes F)), (fn.deriv1 : Option (F → F → PyRes F)) with
    | some d0, some d1 => [some (nanIfExceptionFn (lambda2 d0)), some (nanIfExceptionFn (lambda2 d1))]
    | _, _ => [])
  derivativesKwargs := []
  argspec := none

def logWrapDef : WrapDef F where
  f := logFunc
  derivativesArgs := .finite [some (nanIfExceptionFn logDer0), some (nanIfExceptionFn logDer1)]
  derivativesKwargs := []
  argspec := none

/-- All arguments converted to floats. -/
def allFloats : List (PyVal F) → Option (List F)
  | [] => some []
  | .flt x :: rest => (allFloats rest).map (x :: ·)
  | _ :: _ => none

/-- `flat_fsum` (umath_core.py 307). -/
def flatFsum : PyFn F
  | args, [] =>
    match allFloats args with
    | some l => (fsum l).map .flt
    | none => .error .typeError
  | _, _ => .error .typeError

/-- `flat_fsum_wrap` (umath_core.py 309-317); `umath.fsum(l)` is the call of this function with the
elements of `l` (line 300). -/
def fsumWrapDef : WrapDef F where
  f := flatFsum
  derivativesArgs := .infinite (fun _ => some (fun _ _ => .ok 1))
  derivativesKwargs := []
  argspec := some []

/-- `wrap_locally_cst_func(func)` (umath_core.py 220-237) called with some arguments: `nominal_value`
(core.py 2853-2866) is applied to each of them. -/
def wrapLocallyCst (func : PyFn F) (args : List (Val F)) (kwargs : List (String × Val F)) : PyRes (Val F) :=
  (func (args.map Val.nominal) (kwargs.map fun p => (p.1, p.2.nominal))).map .plain

/-- `math.ceil`, etc. as functions of their arguments (locally_cst_funcs, umath_core.py 74). -/
def LF.func (fn : LF) : PyFn F
  | [.flt x], [] => lcst fn x
  | _, _ => .error .typeError

/-- `bool(aff_func._linear_part)` -/
def World.linTruthy (w : World F) (u : UF F) : PyRes Bool :=
  match w.nodes[u.lin]? with
  | none => .error .attributeError
  | some lc => .ok lc.truthy

/-- `umath.modf(x)` (umath_core.py 328-351). `NotUpcast` is `PyErr.other 1`. -/
def World.modf (w : World F) (x : Val F) : World F × PyRes (Val F × F) :=
  match w.toAffine x with
  | (w, .error e) => (w, .error e)
  | (w, .ok none) => (w, .error (.other 1))
  | (w, .ok (some u)) =>
    match PyMath.modf u.nom with
    | (frac, int) =>
      match w.linTruthy u with
      | .error e => (w, .error e)
      | .ok true => (w, .ok (.unc { nom := frac, lin := u.lin, var := none }, int))
      | .ok false => (w, .ok (.plain (.flt frac), int))

/-- `umath.ldexp(x, i)` (umath_core.py 353-375), for an integer `i`. The coefficient `2**i` is a
Python integer when `i >= 0`; the model uses its value as a float. In the last case, `math.ldexp` is
called with `x` itself; it does not accept numbers with uncertainty. -/
def World.ldexp (w : World F) (x : Val F) (i : Int) : World F × PyRes (Val F) :=
  match w.toAffine x with
  | (w, .error e) => (w, .error e)
  | (w, .ok none) => (w, .error (.other 1))
  | (w, .ok (some u)) =>
    match w.linTruthy u with
    | .error e => (w, .error e)
    | .ok true =>
      match PyMath.ldexp u.nom i with
      | .error e => (w, .error e)
      | .ok r =>
        let (w, n) := w.alloc (.terms [.pair (pow2 i) u.lin])
        (w, .ok (.unc { nom := r, lin := n, var := none }))
    | .ok false =>
      match x with
      | .plain (.flt a) =>
        match PyMath.ldexp a i with
        | .error e => (w, .error e)
        | .ok r => (w, .ok (.plain (.flt r)))
      | _ => (w, .error .typeError)

/-- `umath.frexp(x)` (umath_core.py 377-406). The list given to `LinearCombination` (line 398) is
`[2**-exponent, aff_func._linear_part]`: none of its two elements is a
`(coefficient, LinearCombination)` pair. -/
def World.frexp (w : World F) (x : Val F) : World F × PyRes (Val F × Int) :=
  match w.toAffine x with
  | (w, .error e) => (w, .error e)
  | (w, .ok none) => (w, .error (.other 1))
  | (w, .ok (some u)) =>
    match w.linTruthy u with
    | .error e => (w, .error e)
    | .ok true =>
      match PyMath.frexp u.nom with
      | (mantissa, exponent) =>
        let (w, n) := w.alloc (.terms [.junk, .junk])
        (w, .ok (.unc { nom := mantissa, lin := n, var := none }, exponent))
    | .ok false =>
      match x with
      | .plain (.flt a) => (w, .ok (.plain (.flt (PyMath.frexp a).1), (PyMath.frexp a).2))
      | _ => (w, .error .typeError)

end Unc
