import Verif.Model.World

/-
Model of the operator tables (core.py 2471-2708): functions of floats, their derivatives, and the
wrapped operators of `AffineScalarFunc`.
-/

namespace Unc

/-- Result of `float.__pow__`: real or complex. -/
inductive NumRes (F : Type) where
  | real (x : F)
  | complex

/-- The additional float operations used by the operator tables. -/
class PyOps (F : Type) extends PyFloat F where
  /-- `x // y` -/
  floordiv : F → F → PyRes F
  /-- `x % y` -/
  mod : F → F → PyRes F
  /-- `x ** y`; complex for a negative `x` and a non-integer `y` (Python 3) -/
  pow : F → F → PyRes (NumRes F)
  /-- `math.log(x)` -/
  log : F → PyRes F
  /-- `math.trunc(x)`, converted to float -/
  trunc : F → PyRes F

variable {F : Type} [PyOps F]

/-- Operators with a reflection (core.py 2514-2528, 2563). `div` (Python 2) is the same as
`truediv`. -/
inductive BinOp where
  | add | sub | mul | truediv | floordiv | mod | pow
  deriving DecidableEq, Repr

/-- Operators without reflection (core.py 2646-2651). -/
inductive UnOp where
  | abs | neg | pos | trunc
  deriving DecidableEq, Repr

/-- The operation on floats. -/
def BinOp.onFloats (op : BinOp) (x y : F) : PyRes (PyVal F) :=
  match op with
  | .add => .ok (.flt (x + y))
  | .sub => .ok (.flt (x - y))
  | .mul => .ok (.flt (x * y))
  | .truediv => (PyFloat.truediv x y).map .flt
  | .floordiv => (PyOps.floordiv x y).map .flt
  | .mod => (PyOps.mod x y).map .flt
  | .pow =>
    match PyOps.pow x y with
    | .error e => .error e
    | .ok (.real z) => .ok (.flt z)
    | .ok .complex => .ok .cplx

/-- `float.__op__(x, y)`: `NotImplemented` for an `y` which is not a real number. -/
def BinOp.method (op : BinOp) : PyFn F
  | [.flt x, .flt y], [] => op.onFloats x y
  | [.flt _, _], [] => .ok .notImpl
  | _, _ => .error .typeError

/-- `float.__rop__(y, x)`, which is `x op y`. -/
def BinOp.rmethod (op : BinOp) : PyFn F
  | [.flt y, .flt x], [] => op.onFloats x y
  | [.flt _, _], [] => .ok .notImpl
  | _, _ => .error .typeError

/-- `no_complex_result(func)` (core.py 2595-2613). -/
def noComplexResult (f : PyFn F) : PyFn F := fun args kwargs =>
  match f args kwargs with
  | .ok .cplx => .error .valueError
  | r => r

/-- The functions that are wrapped (core.py 2618-2621, 2684-2688): `custom_ops` for powers. -/
def BinOp.func (op : BinOp) : PyFn F :=
  match op with
  | .pow => noComplexResult op.method
  | _ => op.method

/-- Idem for reflected operators. -/
def BinOp.rfunc (op : BinOp) : PyFn F :=
  match op with
  | .pow => noComplexResult op.rmethod
  | _ => op.rmethod

/-- `pow_deriv_0` (core.py 2549-2555). A complex power (not reachable when `x**y` itself is real)
is not modelled: `TypeError`. -/
def powDeriv0 (x y : F) : PyRes F :=
  if PyFloat.eqb y 0 then .ok 0
  else
    let test : PyRes Bool :=                         -- x != 0 or y % 1 == 0
      if !PyFloat.eqb x 0 then .ok true
      else
        match PyOps.mod y 1 with
        | .error e => .error e
        | .ok m => .ok (PyFloat.eqb m 0)
    match test with
    | .error e => .error e
    | .ok true =>
      match PyOps.pow x (y - 1) with                 -- y*x**(y-1)
      | .error e => .error e
      | .ok (.real p) => .ok (y * p)
      | .ok .complex => .error .typeError
    | .ok false => .ok PyFloat.nan

/-- `pow_deriv_1` (core.py 2557-2561). -/
def powDeriv1 (x y : F) : PyRes F :=
  if PyFloat.eqb x 0 && PyFloat.ltb 0 y then .ok 0
  else
    match PyOps.log x with
    | .error e => .error e
    | .ok l =>
      match PyOps.pow x y with
      | .error e => .error e
      | .ok (.real p) => .ok (l * p)
      | .ok .complex => .error .typeError

/-- `nan_if_exception` (core.py 2471-2483). -/
def nanIfException (r : PyRes F) : PyRes F :=
  match r with
  | .error .valueError => .ok PyFloat.nan
  | .error .zeroDivisionError => .ok PyFloat.nan
  | .error .overflowError => .ok PyFloat.nan
  | r => r

/-- Derivative of `x op y` with respect to `x` (core.py 2514-2528, 2549-2573). -/
def BinOp.deriv0 (op : BinOp) (x y : F) : PyRes F :=
  match op with
  | .add => .ok 1
  | .sub => .ok 1
  | .mul => .ok y
  | .truediv => PyFloat.truediv 1 y                  -- 1/y
  | .floordiv => .ok 0
  | .mod => .ok 1
  | .pow => nanIfException (powDeriv0 x y)

/-- Derivative of `x op y` with respect to `y` (core.py 2514-2528, 2549-2573). -/
def BinOp.deriv1 (op : BinOp) (x y : F) : PyRes F :=
  match op with
  | .add => .ok 1
  | .sub => .ok (-1)
  | .mul => .ok x
  | .truediv =>                                      -- -x/y**2
    match PyFloat.sq y with
    | .error e => .error e
    | .ok y2 => PyFloat.truediv (-x) y2
  | .floordiv => .ok 0
  | .mod =>                       -- partial_derivative(float.__mod__, 1)(x, y)
    partialDerivative (BinOp.method .mod) (.pos 1) [.flt x, .flt y] []
  | .pow => nanIfException (powDeriv1 x y)

/-- A function of two floats as a function of its list of arguments. -/
def lambda2 (d : F → F → PyRes F) : DerivFn F
  | [.flt a, .flt b], [] => d a b
  | _, _ => .error .typeError

/-- A function of one float as a function of its list of arguments. -/
def lambda1 (d : F → PyRes F) : DerivFn F
  | [.flt a], [] => d a
  | _, _ => .error .typeError

/-- What is given to `wrap` for `__op__` (core.py 2532-2534, 2684-2694). -/
def BinOp.wrapDef (op : BinOp) : WrapDef F where
  f := op.func
  derivativesArgs := .finite [some (lambda2 op.deriv0), some (lambda2 op.deriv1)]
  derivativesKwargs := []
  argspec := match op with
    | .pow => some []                       -- no_complex_func(*args, **kwargs)
    | _ => some ["self", "value"]
  argspecNodup := by cases op <;> simp

/-- What is given to `wrap` for `__rop__`: `lambda y, x: ...`, in reversed order
(core.py 2536-2537, 2564-2565). -/
def BinOp.rwrapDef (op : BinOp) : WrapDef F where
  f := op.rfunc
  derivativesArgs := .finite [some (lambda2 (fun y x => op.deriv1 x y)),
                              some (lambda2 (fun y x => op.deriv0 x y))]
  derivativesKwargs := []
  argspec := match op with
    | .pow => some []
    | _ => some ["self", "value"]
  argspecNodup := by cases op <;> simp

/-- `float.__abs__(x)`, etc. -/
def UnOp.onFloat (op : UnOp) (x : F) : PyRes F :=
  match op with
  | .abs => .ok (PyFloat.abs x)
  | .neg => .ok (-x)
  | .pos => .ok x
  | .trunc => PyOps.trunc x

/-- `x >= y` on floats. -/
def geb (x y : F) : Bool := PyFloat.ltb y x || PyFloat.eqb x y

/-- The derivatives (core.py 2638-2651). -/
def UnOp.deriv (op : UnOp) (x : F) : PyRes F :=
  match op with
  | .abs => if geb x 0 then .ok 1 else .ok (-1)
  | .neg => .ok (-1)
  | .pos => .ok 1
  | .trunc => .ok 0

/-- The function that is wrapped (core.py 2661-2663). -/
def UnOp.func (op : UnOp) : PyFn F
  | [.flt x], [] => (op.onFloat x).map .flt
  | _, _ => .error .typeError

/-- What is given to `wrap` (core.py 2661-2663). -/
def UnOp.wrapDef (op : UnOp) : WrapDef F where
  f := op.func
  derivativesArgs := .finite [some (lambda1 op.deriv)]
  derivativesKwargs := []
  argspec := some ["self"]

/-- All the operators, in the order in which the model wraps them. -/
def opDefs : List (WrapDef F) :=
  [UnOp.abs, .neg, .pos, .trunc].map UnOp.wrapDef ++
  [BinOp.add, .sub, .mul, .truediv, .floordiv, .mod, .pow].map BinOp.wrapDef ++
  [BinOp.add, .sub, .mul, .truediv, .floordiv, .mod, .pow].map BinOp.rwrapDef

/-- Number of the wrapped function `AffineScalarFunc.__op__`. -/
def UnOp.id : UnOp → Nat
  | .abs => 0 | .neg => 1 | .pos => 2 | .trunc => 3

/-- Number of the wrapped function `AffineScalarFunc.__op__`. -/
def BinOp.id : BinOp → Nat
  | .add => 4 | .sub => 5 | .mul => 6 | .truediv => 7 | .floordiv => 8 | .mod => 9 | .pow => 10

/-- Number of the wrapped function `AffineScalarFunc.__rop__`. -/
def BinOp.rid : BinOp → Nat
  | .add => 11 | .sub => 12 | .mul => 13 | .truediv => 14 | .floordiv => 15 | .mod => 16
  | .pow => 17

/-- State after `import uncertainties` (core.py 2709): operators wrapped, no number yet. -/
def World.init : World F :=
  { nodes := [], vars := [], wraps := opDefs.map mkWrapped }

/-- `op x` for a number with uncertainty. -/
def World.unop (w : World F) (op : UnOp) (x : UF F) : World F × PyRes (Val F) :=
  w.call op.id [.unc x] []

/-- `a op b` where at least one operand is a number with uncertainty: Python calls
`type(a).__op__(a, b)`, then, if the result is `NotImplemented`, `type(b).__rop__(b, a)`, then raises
`TypeError`. Operands of other types are assumed not to know how to handle numbers with
uncertainty (NumPy arrays do: not modelled). `Variable` is a subclass of `AffineScalarFunc` that
does not override the operators, hence the reflected method has no priority. -/
def World.binop (w : World F) (op : BinOp) (a b : Val F) : World F × PyRes (Val F) :=
  let reflected (w : World F) : World F × PyRes (Val F) :=
    match b with
    | .plain _ => (w, .error .typeError)
    | .unc _ =>
      match w.call op.rid [b, a] [] with
      | (w, .ok (.plain .notImpl)) => (w, .error .typeError)
      | r => r
  match a with
  | .plain _ => reflected w
  | .unc _ =>
    match w.call op.id [a, b] [] with
    | (w, .ok (.plain .notImpl)) => reflected w
    | r => r

end Unc
