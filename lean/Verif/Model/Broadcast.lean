import Verif.Model.Arrays

/-
Arrays with any number of dimensions and broadcasting: `unumpy.uarray()` and the vectorized functions of `unumpy` with arguments of different
shapes (for instance `uarray([1, 2, 3], 0.1)`).

NumPy is not part of the code: `numpy.vectorize()` is described here by its documentation (broadcasting rules; the function is called
once for each element of the result, in C order, when the types of the results are given).
-/

namespace Unc

set_option autoImplicit false

/-- A NumPy array: its shape, and its elements in C order (the last index changes the fastest). A number is an array of shape `()`. -/
structure NDArray (α : Type) where
  shape : List Nat
  data : List α
deriving DecidableEq, Repr

/-- Position in C order of the element with the given indices. -/
def cOrder : List Nat → List Nat → Nat
  | _ :: s, i :: I => i * s.prod + cOrder s I
  | _, _ => 0

/-- `A[i, j, ...]` -/
def NDArray.get? {α : Type} (A : NDArray α) (I : List Nat) : Option α := A.data[cOrder A.shape I]?

/-- All the indices, in C order. -/
def indices : List Nat → List (List Nat)
  | [] => [[]]
  | d :: s => (List.range d).flatMap fun i => (indices s).map (i :: ·)

/-- Shape of the result of the broadcasting of two shapes (which are given from the last dimension): `ValueError` if they are not
compatible. -/
def broadcast2 : List Nat → List Nat → PyRes (List Nat)
  | [], t => .ok t
  | s, [] => .ok s
  | a :: s, b :: t =>
    match broadcast2 s t with
    | .error e => .error e
    | .ok r =>
      if a = b then .ok (a :: r)
      else if a = 1 then .ok (b :: r)
      else if b = 1 then .ok (a :: r)
      else .error .valueError

/-- Idem for any number of shapes (given from the last dimension). -/
def broadcastRev : List (List Nat) → PyRes (List Nat)
  | [] => .ok []
  | s :: ss =>
    match broadcastRev ss with
    | .error e => .error e
    | .ok r => broadcast2 s r

/-- `numpy.broadcast_shapes(*shapes)` -/
def broadcastShapes (ss : List (List Nat)) : PyRes (List Nat) :=
  match broadcastRev (ss.map List.reverse) with
  | .error e => .error e
  | .ok r => .ok r.reverse

/-- Indices in an array of a given shape, for the indices of the result: the last dimensions are those of the array, and
dimensions of length 1 are repeated. -/
def alignIndex (shape I : List Nat) : List Nat :=
  (List.zipWith (fun d i => if d = 1 then 0 else i) shape.reverse I.reverse).reverse

/-- The element of an array used for an element of the result. -/
def NDArray.broadcastGet? {α : Type} (A : NDArray α) (I : List Nat) : Option α := A.get? (alignIndex A.shape I)

/-- Idem (the elements of an array exist: see the property C103). -/
def NDArray.pick {α : Type} (A : NDArray α) (I : List Nat) : PyRes α :=
  match A.broadcastGet? I with
  | some a => .ok a
  | none => .error (.other 0)

variable {F : Type} [PyMath F]

/-- `numpy.vectorize(Variable, otypes=[object])(nominal_values, std_devs)` (unumpy/core.py 291-296): commands, and result (references to
the results of the commands). A negative standard deviation raises an exception (core.py 2786-2787). -/
def uarrayND (base : Nat) (noms stds : NDArray F) : PyRes (List (Cmd F) × NDArray (Arg F)) :=
  match broadcastShapes [noms.shape, stds.shape] with
  | .error e => .error e
  | .ok shape =>
    match mapRes' noms.pick (indices shape), mapRes' stds.pick (indices shape) with
    | .error e, _ => .error e
    | _, .error e => .error e
    | .ok n, .ok s =>
      let pairs := n.zip s
      if pairs.any fun p => PyFloat.ltb p.2 0 && !PyFloat.isInf p.2 then .error .negativeStdDev
      else .ok (pairs.map fun p => .ufloat p.1 p.2 none,
        ⟨shape, (List.range pairs.length).map fun k => .ref (base + k)⟩)

/-- A vectorized function of `unumpy` with `otypes=[object]` (unumpy/core.py 694-727): `call` is the call of the function of `umath`. -/
def vectorizedND (call : List (Arg F) → Cmd F) (base : Nat) (As : List (NDArray (Arg F))) :
    PyRes (List (Cmd F) × NDArray (Arg F)) :=
  match broadcastShapes (As.map NDArray.shape) with
  | .error e => .error e
  | .ok shape =>
    match mapRes' (fun I => mapRes' (fun A => NDArray.pick A I) As) (indices shape) with
    | .error e => .error e
    | .ok args => .ok (args.map call, ⟨shape, (List.range args.length).map fun k => .ref (base + k)⟩)

/-- Calls made one after the other, until the first exception. -/
def Machine.runCalls (m : Machine F) : List (Cmd F) → Machine F × Option PyErr
  | [] => (m, none)
  | c :: cs =>
    match m.step c with
    | (m', .err e) => (m', some e)
    | (m', _) => m'.runCalls cs

/-- The call of a vectorized function of `unumpy` with `otypes=[object]` (unumpy/core.py 694-727), including exceptions: NumPy calls the
function for each element in C order (for the usual arrays, which are stored in C order), and the first exception is propagated. -/
def Machine.callND (f : Nat) (m : Machine F) (As : List (NDArray (Arg F))) : Machine F × PyRes (NDArray (Arg F)) :=
  match vectorizedND (fun args => .call f args []) m.env.length As with
  | .error e => (m, .error e)
  | .ok (cmds, x) =>
    match m.runCalls cmds with
    | (m', some e) => (m', .error e)
    | (m', none) => (m', .ok x)

/-- `unumpy.nominal_values(A)` (unumpy/core.py 59-63 and 82-96): each element of the array, in C order, is converted. -/
def Machine.nominalValuesND (m : Machine F) (A : NDArray (Arg F)) : PyRes (NDArray F) :=
  match m.nominalValues [A.data] with
  | .error e => .error e
  | .ok rows => .ok ⟨A.shape, rows.flatten⟩

/-- `unumpy.std_devs(A)` (unumpy/core.py 65-69 and 98-112). -/
def Machine.stdDevsND (m : Machine F) (A : NDArray (Arg F)) : Machine F × PyRes (NDArray F) :=
  match m.stdDevs [A.data] with
  | (m', .error e) => (m', .error e)
  | (m', .ok rows) => (m', .ok ⟨A.shape, rows.flatten⟩)

/-- A locally constant function called with some arguments (umath_core.py 220-237). -/
def Machine.cstValue (m : Machine F) (f : PyFn F) (args : List (Arg F)) : PyRes (PyVal F) :=
  match evalArgs (Arg.eval m.env) args with
  | none => .error (.other 0)    -- reference to something that does not exist
  | some vals =>
    match wrapLocallyCst f vals [] with
    | .ok (.plain v) => .ok v
    | .ok (.unc _) => .error (.other 0)    -- does not happen
    | .error e => .error e

/-- A vectorized locally constant function of `unumpy`, like `unumpy.floor()` (unumpy/core.py 694-727): the types of the results
are not given to `numpy.vectorize()`. In this case, `numpy.vectorize()` raises an exception for empty arrays; otherwise, the
results are converted to the type of the first one. `cast v w` is the conversion of `w` to the NumPy type of `v` (for instance: the
first result of `floor()` is generally a 64-bit integer, and larger integers cannot be converted: `OverflowError`). -/
def Machine.vectorizedCst (cast : PyVal F → PyVal F → PyRes (PyVal F)) (f : PyFn F) (m : Machine F) (As : List (NDArray (Arg F))) :
    PyRes (NDArray (PyVal F)) :=
  if As.any fun A => A.data.isEmpty then .error .valueError
  else
    match broadcastShapes (As.map NDArray.shape) with
    | .error e => .error e
    | .ok shape =>
      match mapRes' (fun I => mapRes' (fun A => NDArray.pick A I) As) (indices shape) with
      | .error e => .error e
      | .ok args =>
        match mapRes' (m.cstValue f) args with
        | .error e => .error e
        | .ok [] => .error (.other 0)    -- does not happen
        | .ok (v :: vs) =>
          match mapRes' (cast v) (v :: vs) with
          | .error e => .error e
          | .ok data => .ok ⟨shape, data⟩

end Unc
