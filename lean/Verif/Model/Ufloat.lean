import Verif.Model.Parse

/-
`ufloat()` with all its forms (core.py 3165-3290), and the conversions of numbers with uncertainties to
pure numbers (core.py 2697-2707).
-/

namespace Unc

set_option autoImplicit false

variable {F : Type} [PyText F]

/-- The Python objects that can be given to `ufloat()`. -/
inductive Obj (F : Type) where
  /-- a number (`float`, `int`, ...) -/
  | num (x : F)
  | str (s : Str)
  | tuple (l : List (Obj F))
  | none
  /-- another object: `float()`, `< 0` and `.strip()` do not exist for it -/
  | other (code : Nat)

/-- A new variable: nominal value, standard deviation, tag. -/
structure Made (F : Type) where
  nom : F
  std : F
  tag : Obj F

/-- `float(x)` -/
def Obj.toFloat : Obj F → PyRes F
  | .num x => .ok x
  | .str s => orValueError (PyText.ofStr s)
  | .tuple _ => .error .typeError
  | .none => .error .typeError
  | .other _ => .error .typeError

/-- The setter of `Variable.std_dev` (core.py 2778-2789): `std_dev < 0` raises a `TypeError` for objects
that are not numbers (this is the behavior of Python 3). -/
def Obj.checkStd : Obj F → PyRes F
  | .num s => if PyText.isNegFinite s then .error .negativeStdDev else .ok s
  | _ => .error .typeError

/-- `Variable(value, std_dev, tag)` (core.py 2728-2768). -/
def variableInit (value std tag : Obj F) : PyRes (Made F) :=
  match value.toFloat with
  | .error e => .error e
  | .ok n =>
    match std.checkStd with
    | .error e => .error e
    | .ok s => .ok ⟨n, s, tag⟩

/-- `ufloat_fromstr(representation, tag)` (core.py 3165-3227). The final call to `ufloat()` with two
numbers is a call to `Variable()` that does not raise `TypeError` or `ValueError`. -/
def fromstr (s : Str) (tag : Obj F) : PyRes (Made F) :=
  match strToNumberWithUncert (F := F) (strip s) with
  | .error e => .error e
  | .ok (n, u) => variableInit (.num n) (.num u) tag

/-- `tag if tag is not None else std_dev` (core.py 3297-3300). -/
def tagArg (std tag : Obj F) : Obj F :=
  match tag with
  | .none => std
  | t => t

/-- `ufloat(nominal_value, std_dev, tag)` (core.py 3250-3316), where arguments which are not given are
`None`; `ufloat_obsolete()` (core.py 3229-3241) is inlined. The deprecation warning is not modelled. -/
def ufloatCall (nominal std tag : Obj F) : PyRes (Made F) :=
  let obsolete : PyRes (Made F) :=
    match nominal with
    | .tuple [] => .error .indexError
    | .tuple [_] => .error .indexError
    | .tuple (a :: b :: _) => ufloatCall a b (tagArg std tag)
    | .str s => fromstr s (tagArg std tag)
    | _ => .error .attributeError       -- representation.strip()
  match variableInit nominal std tag with
  | .ok v => .ok v
  | .error .typeError => obsolete
  | .error .valueError => obsolete
  | .error e => .error e

/-! ### Conversions -/

/-- The conversions, in the order of the loop (core.py 2700). -/
def coercionTypes : List String := ["complex", "int", "long", "float"]

/-- A function created by the loop (core.py 2701-2705). It refers to the variable `coercion_type` of the
enclosing function (not to its value when the function was created): it is called with the current
value of this variable, and returns the message of the `TypeError` that it raises. -/
def raiseError (cls : String) (coercionType : String) : String :=
  "can't convert an affine function (" ++ cls ++ ") to " ++ coercionType ++ "; use x.nominal_value"

/-- The local variables of `add_operators_to_AffineScalarFunc()` and the methods added to the class. -/
structure ClassState where
  coercionType : String
  methods : List (String × (String → String → String))

/-- One turn of the loop: assignment of the loop variable, and creation of a method. -/
def coercionTurn (st : ClassState) (name : String) : ClassState :=
  ⟨name, st.methods ++ [("__" ++ name ++ "__", raiseError)]⟩

/-- The loop (core.py 2700-2707). -/
def coercionLoop : ClassState := coercionTypes.foldl coercionTurn ⟨"", []⟩

/-- `complex(x)`, `int(x)`, `float(x)` for a number with uncertainty of class `cls`: call of the method of the
class. Result: exception and message. -/
def coerce (cls : String) (name : String) : Option (PyErr × String) :=
  match coercionLoop.methods.lookup ("__" ++ name ++ "__") with
  | none => none
  | some f => some (.typeError, f cls coercionLoop.coercionType)

end Unc
