import Mathlib.Data.List.Dedup
import Verif.Model.Correlated

/-
Arrays of numbers with uncertainties (unumpy/core.py): access to nominal values and standard
deviations, creation, functions of arrays (with given derivatives: matrix inverse and pseudo-inverse;
or with numerical derivatives), and matrix product.

Like in `Model/Correlated.lean`, a function of arrays is described by the commands that it runs and by
the values that it returns (references to the results of these commands, or plain numbers). Arrays have
two dimensions: they are lists of rows. NumPy's functions `numpy.linalg.inv()` and `numpy.linalg.pinv()`
are parameters.
-/

namespace Unc

set_option autoImplicit false

variable {F : Type} [PyMath F]

/-! ### NumPy arrays of floats -/

/-- Element-wise operation on two arrays with the same shape. -/
def npMap2 (f : F → F → F) (A B : List (List F)) : List (List F) := List.zipWith (List.zipWith f) A B

/-- `-A` -/
def npNeg (A : List (List F)) : List (List F) := A.map fun row => row.map fun x => -x

/-- `A*c` for a scalar `c` -/
def npScale (A : List (List F)) (c : F) : List (List F) := A.map fun row => row.map fun x => x * c

/-- Transpose of a real matrix (`.H` for a `numpy.matrix`). -/
def npT (A : List (List F)) : List (List F) :=
  (List.range (A.headD []).length).map fun j => A.map fun row => row[j]?.getD 0

/-- Sum of products. -/
def npInner (a b : List F) : F := (List.zipWith (· * ·) a b).foldl (· + ·) 0

/-- Matrix product of floats. Simplification: the sums are done in order. -/
def npDot (A B : List (List F)) : List (List F) := A.map fun row => (npT B).map fun col => npInner row col

/-- `numpy.eye(n)` -/
def npEye (n : Nat) : List (List F) :=
  (List.range n).map fun i => (List.range n).map fun j => if i = j then 1 else 0

/-! ### Nominal values, standard deviations, creation -/

/-- `float(nominal_value(x))`: what `to_nominal_values()` does for each element (unumpy/core.py 59-63,
core.py 2853-2866). -/
def Val.floatNominal : Val F → PyRes F
  | .unc u => .ok u.nom
  | .plain (.flt x) => .ok x
  | .plain _ => .error .typeError

/-- Applies a function that can raise an exception to the elements of a list, in order. -/
def mapRes' {α β : Type} (f : α → PyRes β) : List α → PyRes (List β)
  | [] => .ok []
  | x :: xs =>
    match f x with
    | .error e => .error e
    | .ok y =>
      match mapRes' f xs with
      | .error e => .error e
      | .ok ys => .ok (y :: ys)

/-- `unumpy.nominal_values(arr)` (unumpy/core.py 82-96). -/
def nominalValues (arr : List (List (Val F))) : PyRes (List (List F)) := mapRes' (mapRes' Val.floatNominal) arr

/-- `std_dev(x)` for the elements of a list, in order. -/
def World.stdDevList (w : World F) : List (Val F) → World F × PyRes (List F)
  | [] => (w, .ok [])
  | x :: xs =>
    match w.stdDevOf x with
    | (w, .error e) => (w, .error e)
    | (w, .ok s) =>
      match w.stdDevList xs with
      | (w, .error e) => (w, .error e)
      | (w, .ok ss) => (w, .ok (s :: ss))

/-- `unumpy.std_devs(arr)` (unumpy/core.py 98-112). -/
def World.stdDevs (w : World F) : List (List (Val F)) → World F × PyRes (List (List F))
  | [] => (w, .ok [])
  | row :: rest =>
    match w.stdDevList row with
    | (w, .error e) => (w, .error e)
    | (w, .ok ss) =>
      match w.stdDevs rest with
      | (w, .error e) => (w, .error e)
      | (w, .ok l) => (w, .ok (ss :: l))

/-- References to results of successive commands, with the shape of an array. -/
def number {α : Type} (base : Nat) : List (List α) → List (List (Arg F))
  | [] => []
  | row :: rest => (List.range row.length).map (fun j => .ref (base + j)) :: number (base + row.length) rest

/-- `unumpy.uarray(nominal_values, std_devs)` and `umatrix()` (unumpy/core.py 272-296, 644-659), with
arrays of the same shape (for broadcasting, see `Model/Broadcast.lean`). -/
def uarray (base : Nat) (noms stds : List (List F)) : List (Cmd F) × List (List (Arg F)) :=
  let pairs := List.zipWith List.zip noms stds
  (pairs.flatten.map fun p => .ufloat p.1 p.2 none, number base pairs)

/-! ### Functions of arrays -/

/-- The elements of an array. -/
def evalArray (env : List (Option (Val F))) (A : List (List (Arg F))) : Option (List (List (Val F))) :=
  evalArgs (evalArgs (Arg.eval env)) A

/-- `unumpy.nominal_values(A)`, for references to the elements of an array. -/
def Machine.nominalValues (m : Machine F) (A : List (List (Arg F))) : PyRes (List (List F)) :=
  match evalArray m.env A with
  | none => .error (.other 0)
  | some vals => Unc.nominalValues vals

/-- `unumpy.std_devs(A)`, for references to the elements of an array. -/
def Machine.stdDevs (m : Machine F) (A : List (List (Arg F))) : Machine F × PyRes (List (List F)) :=
  match evalArray m.env A with
  | none => (m, .error (.other 0))
  | some vals => (⟨(m.w.stdDevs vals).1, m.env⟩, (m.w.stdDevs vals).2)

/-- `element.derivatives` for the elements that are numbers with uncertainties, in order
(unumpy/core.py 172-184 and 386-392). Other elements have no derivatives. -/
def World.readRow (w : World F) : List (Val F) → World F × PyRes (List (Derivs F))
  | [] => (w, .ok [])
  | .plain _ :: rest =>
    match w.readRow rest with
    | (w, .error e) => (w, .error e)
    | (w, .ok l) => (w, .ok ([] :: l))
  | .unc u :: rest =>
    match w.derivatives u with
    | (w, .error e) => (w, .error e)
    | (w, .ok d) =>
      match w.readRow rest with
      | (w, .error e) => (w, .error e)
      | (w, .ok l) => (w, .ok (d :: l))

/-- Idem for all the rows. -/
def World.readArray (w : World F) : List (List (Val F)) → World F × PyRes (List (List (Derivs F)))
  | [] => (w, .ok [])
  | row :: rest =>
    match w.readRow row with
    | (w, .error e) => (w, .error e)
    | (w, .ok ds) =>
      match w.readArray rest with
      | (w, .error e) => (w, .error e)
      | (w, .ok l) => (w, .ok (ds :: l))

/-- `array_derivative(arr, var)` (unumpy/core.py 116-128, 300-318): derivative of each element, or 0.
The derivatives were read before: reading them again gives the same dictionaries. -/
def arrayDerivative (dicts : List (List (Derivs F))) (v : VarId) : List (List F) :=
  dicts.map fun row => row.map fun d => (d.lookup v).getD 0

/-- A function of arrays with its derivatives: it returns its value, and the derivative of the result
with respect to a variable when the derivative of the array is given. -/
abbrev DerivArrayFn (F : Type) :=
  List (List F) → PyRes (List (List F) × (VarId → List (List F) → PyRes (List (List F))))

/-- The items of the dictionary of derivatives of the element `(i, j)` of the result: non-null
derivatives only (`if derivative_value: derivative_dict[var] = derivative_value`, unumpy/core.py 237-243
and 428-434). `vars` gives the name of each variable, with the derivative of the result. -/
def elementItems (vars : List (Arg F × List (List F))) (i j : Nat) : List (Arg F × F) :=
  vars.filterMap fun p =>
    match (p.2[i]?).bind (·[j]?) with
    | none => none
    | some c => if PyFloat.truthy c then some (p.1, c) else none

/-- One of the elements that depend on the variable `v`. -/
def carrier (els : List (Arg F × Derivs F)) (v : VarId) : Arg F :=
  ((els.find? fun p => (p.2.lookup v).isSome).map Prod.fst).getD (.const .notImpl)

/-- `func_with_deriv_to_uncert_func(func_with_derivatives)(array_like)` (unumpy/core.py 361-447) and
the similar code of `wrap_array_func()` (unumpy/core.py 164-248): commands, and result. `ord` is the
order in which Python iterates over a set of variables. The commands `.variable` stand for the
references to the variables that the program finds in the dictionaries of derivatives. -/
def arrayFunc (ord : List VarId → List VarId) (func : DerivArrayFn F) (m : Machine F)
    (A : List (List (Arg F))) : PyRes (List (Cmd F) × List (List (Arg F))) :=
  match evalArray m.env A with
  | none => .error (.other 0)    -- reference to something that does not exist
  | some vals =>
    match m.w.readArray vals with
    | (_, .error e) => .error e
    | (_, .ok dicts) =>
      -- variables = set(); variables |= set(element.derivatives.keys())
      let varSet := ord ((dicts.flatten.flatMap fun d => d.map Prod.fst).dedup)
      match nominalValues vals with
      | .error e => .error e
      | .ok arrNominal =>
        match func arrNominal with
        | .error e => .error e
        | .ok (value, deriv) =>
          let reads : List (Cmd F) := A.flatten.map .derivatives
          if varSet.isEmpty then
            .ok (reads, value.map fun row => row.map fun x => .const (.flt x))
          else
            match mapRes' (fun v => deriv v (arrayDerivative dicts v)) varSet with
            | .error e => .error e
            | .ok derivs =>
              let base := m.env.length
              let names : List (Arg F) := (List.range varSet.length).map fun k => .ref (base + k)
              let els := A.flatten.zip dicts.flatten
              .ok (reads ++ varSet.map (fun v => .variable (carrier els v) v) ++
                  (value.mapIdx fun i row => row.mapIdx fun j x =>
                    Cmd.affine x (elementItems (names.zip derivs) i j)).flatten,
                number (base + varSet.length) value)

/-- `inv_with_derivatives()` (unumpy/core.py 453-475). -/
def invWithDerivatives (inv : List (List F) → PyRes (List (List F))) : DerivArrayFn F := fun arr =>
  match inv arr with
  | .error e => .error e
  | .ok inverse => .ok (inverse, fun _ d => .ok (npDot (npDot (npNeg inverse) d) inverse))

/-- `ulinalg.inv(A)` (unumpy/core.py 477). -/
def ulinalgInv (inv : List (List F) → PyRes (List (List F))) (ord : List VarId → List VarId) (m : Machine F)
    (A : List (List (Arg F))) : PyRes (List (Cmd F) × List (List (Arg F))) :=
  arrayFunc ord (invWithDerivatives inv) m A

/-- `pinv_with_derivatives()` (unumpy/core.py 493-538). -/
def pinvWithDerivatives (pinv : List (List F) → F → PyRes (List (List F))) (rcond : F) : DerivArrayFn F :=
  fun arr =>
    match pinv arr rcond with
    | .error e => .error e
    | .ok inverse =>
      let PA := npDot arr inverse
      let AP := npDot inverse arr
      let factor21 := npDot inverse (npT inverse)
      let factor22 := npMap2 (· - ·) (npEye arr.length) PA
      let factor31 := npMap2 (· - ·) (npEye (arr.headD []).length) AP
      let factor32 := npDot (npT inverse) inverse
      .ok (inverse, fun _ d =>
        let term1 := npDot (npDot (npNeg inverse) d) inverse
        let term2 := npDot (npDot factor21 (npT d)) factor22
        let term3 := npDot (npDot factor31 (npT d)) factor32
        .ok (npMap2 (· + ·) (npMap2 (· + ·) term1 term2) term3))

/-- `ulinalg.pinv(A, rcond)` (unumpy/core.py 558-559). -/
def ulinalgPinv (pinv : List (List F) → F → PyRes (List (List F))) (rcond : F) (ord : List VarId → List VarId)
    (m : Machine F) (A : List (List (Arg F))) : PyRes (List (Cmd F) × List (List (Arg F))) :=
  arrayFunc ord (pinvWithDerivatives pinv rcond) m A

/-- `umatrix.I` (unumpy/core.py 617-620): inverse of square matrices, pseudo-inverse of the others
(with the default `rcond`). -/
def umatrixI (inv : List (List F) → PyRes (List (List F))) (pinv : List (List F) → F → PyRes (List (List F)))
    (rcond : F) (ord : List VarId → List VarId) (m : Machine F) (A : List (List (Arg F))) :
    PyRes (List (Cmd F) × List (List (Arg F))) :=
  if A.length = (A.headD []).length then ulinalgInv inv ord m A else ulinalgPinv pinv rcond ord m A

/-! ### Numerical derivatives -/

/-- The literals of `wrap_array_func()`: `1e5` and `1e-8`. -/
structure ShiftLiterals (F : Type) where
  e5 : F
  em8 : F

/-- Python's `max(x, y)` for floats: the first one, unless the second one is larger. -/
def pyMax (x y : F) : F := if PyFloat.ltb x y then y else x

/-- The shift of a variable (unumpy/core.py 219-227). -/
def shiftVar (lit : ShiftLiterals F) (nom std : F) : PyRes F :=
  match PyFloat.truediv std lit.e5 with
  | .error e => .error e
  | .ok a =>
    let shift := pyMax a (lit.em8 * PyFloat.abs nom)
    .ok (if PyFloat.truthy shift then shift else lit.em8)

/-- Numerical derivative in `wrap_array_func()` (unumpy/core.py 229-235). -/
def numericalDeriv (lit : ShiftLiterals F) (func : List (List F) → PyRes (List (List F))) (w : World F) :
    DerivArrayFn F := fun arr =>
  match func arr with
  | .error e => .error e
  | .ok value => .ok (value, fun v d =>
      match w.vars[v]? with
      | none => .error .attributeError
      | some cell =>
        match shiftVar lit cell.nom cell.std with
        | .error e => .error e
        | .ok shift =>
          match func (npMap2 (· + ·) arr (npScale d shift)) with
          | .error e => .error e
          | .ok shifted => .ok (npMap2 (fun a b => npDiv (a - b) shift) shifted value))

/-- `wrap_array_func(func)(arr)` (unumpy/core.py 130-266). -/
def wrapArrayFunc (lit : ShiftLiterals F) (func : List (List F) → PyRes (List (List F)))
    (ord : List VarId → List VarId) (m : Machine F) (A : List (List (Arg F))) :
    PyRes (List (Cmd F) × List (List (Arg F))) :=
  arrayFunc ord (numericalDeriv lit func m.w) m A

/-! ### Product of matrices of numbers with uncertainties -/

/-- Element of an array of objects: float, or number with uncertainty. -/
inductive El (F : Type) where
  | num (x : F)
  | qty (a : Arg F)

/-- The element that a program sees. -/
def El.toArg : El F → Arg F
  | .num x => .const (.flt x)
  | .qty a => a

/-- What is referred to. -/
def El.ofArg (env : List (Option (Val F))) (a : Arg F) : PyRes (El F) :=
  match a.eval env with
  | some (.unc _) => .ok (.qty a)
  | some (.plain (.flt x)) => .ok (.num x)
  | _ => .error .typeError

/-- `a*b`, with the commands that it needs. -/
def El.mul (base : Nat) : El F → El F → List (Cmd F) × El F
  | .num x, .num y => ([], .num (x * y))
  | a, b => ([.binop .mul a.toArg b.toArg], .qty (.ref base))

/-- `a+b`, with the commands that it needs. -/
def El.add (base : Nat) : El F → El F → List (Cmd F) × El F
  | .num x, .num y => ([], .num (x + y))
  | a, b => ([.binop .add a.toArg b.toArg], .qty (.ref base))

/-- Sum of products, added to `acc`. -/
def dotLoop (base : Nat) (acc : El F) : List (El F × El F) → List (Cmd F) × El F
  | [] => ([], acc)
  | p :: rest =>
    let m := p.1.mul base p.2
    let a := acc.add (base + m.1.length) m.2
    let r := dotLoop (base + m.1.length + a.1.length) a.2 rest
    (m.1 ++ a.1 ++ r.1, r.2)

/-- Element of the product of two matrices of objects, as NumPy calculates it: `a0*b0 + a1*b1 + ...` -/
def elDot (base : Nat) : List (El F × El F) → List (Cmd F) × El F
  | [] => ([], .num 0)
  | p :: rest =>
    let m := p.1.mul base p.2
    let r := dotLoop (base + m.1.length) m.2 rest
    (m.1 ++ r.1, r.2)

/-- Row of the product. -/
def dotRow (base : Nat) (row : List (El F)) : List (List (El F)) → List (Cmd F) × List (El F)
  | [] => ([], [])
  | col :: cols =>
    let x := elDot base (row.zip col)
    let r := dotRow (base + x.1.length) row cols
    (x.1 ++ r.1, x.2 :: r.2)

/-- Product of a matrix by a matrix given by its columns. -/
def dotRows (base : Nat) (cols : List (List (El F))) : List (List (El F)) → List (Cmd F) × List (List (El F))
  | [] => ([], [])
  | row :: rest =>
    let x := dotRow base row cols
    let r := dotRows (base + x.1.length) cols rest
    (x.1 ++ r.1, x.2 :: r.2)

/-- `A*B` for matrices of objects (`numpy.matrix` product, `numpy.dot()` or `A @ B` of object arrays: it
calls the operators `*` and `+` of the elements). -/
def matDot (m : Machine F) (A B : List (List (Arg F))) : PyRes (List (Cmd F) × List (List (Arg F))) :=
  match mapRes' (mapRes' (El.ofArg m.env)) A, mapRes' (mapRes' (El.ofArg m.env)) B with
  | .ok a, .ok b =>
    let cols := (List.range (b.headD []).length).map fun j => b.filterMap fun row => row[j]?
    let r := dotRows m.env.length cols a
    .ok (r.1, r.2.map fun row => row.map El.toArg)
  | .error e, _ => .error e
  | _, .error e => .error e

/-- Products of pairs of elements, in order, with the commands that they need. -/
def mulPairs (base : Nat) : List (El F × El F) → List (Cmd F) × List (El F)
  | [] => ([], [])
  | p :: rest =>
    let x := p.1.mul base p.2
    let r := mulPairs (base + x.1.length) rest
    (x.1 ++ r.1, x.2 :: r.2)

/-- Idem for the rows of an array. -/
def mulPairRows (base : Nat) : List (List (El F × El F)) → List (Cmd F) × List (List (El F))
  | [] => ([], [])
  | row :: rest =>
    let x := mulPairs base row
    let r := mulPairRows (base + x.1.length) rest
    (x.1 ++ r.1, x.2 :: r.2)

/-- Left operand of the product of something by a matrix. -/
inductive LeftOperand (F : Type) where
  | single (x : Arg F)
  | array (B : List (List (Arg F)))

/-- `unumpy.matrix.__rmul__(self, other)` (unumpy/core.py 604-613), called for `other*self`. NumPy's `isscalar()` is
true for plain numbers, and `numeric.dot(self, other)` then multiplies each element by the scalar; it is false for a
number with uncertainty, which `numeric.dot(other, self)` multiplies by each element (product by an array of
dimension 0). -/
def matRmul (m : Machine F) (self : List (List (Arg F))) : LeftOperand F → PyRes (List (Cmd F) × List (List (Arg F)))
  | .array B => matDot m B self
  | .single x =>
    match mapRes' (mapRes' (El.ofArg m.env)) self, El.ofArg m.env x with
    | .ok a, .ok e =>
      let r := mulPairRows m.env.length (a.map fun row => row.map fun y =>
        match e with
        | .num _ => (y, e)
        | .qty _ => (e, y))
      .ok (r.1, r.2.map fun row => row.map El.toArg)
    | .error err, _ => .error err
    | _, .error err => .error err

end Unc
