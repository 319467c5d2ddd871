import Verif.Model.Ufloat

/-
The code updates of `lib1to2/fixes/`: transformations of Python expressions that replace obsolete calls.

The transformations are done by `lib2to3`, which matches the patterns of the fixers on the syntax tree,
and transforms the deepest nodes first. The syntax tree is simplified: only the parts of the syntax that
the patterns can distinguish are represented.
-/

namespace Unc

set_option autoImplicit false

/-- How an argument is passed. -/
inductive ArgKind where
  /-- `f(x)` -/
  | pos
  /-- `f(*x)` -/
  | star
  /-- `f(**x)` -/
  | dstar
  /-- `f(name=x)` -/
  | kw (name : String)
  /-- text that is not a valid argument (syntax error) -/
  | bad
  deriving DecidableEq, Repr

/-- Python expressions. -/
inductive Ex where
  | name (s : String)
  /-- a string literal -/
  | str (s : Str)
  /-- `(a, b, ...)`, without a comma before the closing parenthesis -/
  | tuple (l : List Ex)
  /-- `e.name` -/
  | attr (e : Ex) (name : String)
  /-- `f(...)` -/
  | call (f : Ex) (kinds : List ArgKind) (args : List Ex)
  /-- anything else that follows an expression in a `power` node of the grammar: `e[i]`, `e**n` -/
  | trail (e : Ex) (code : Nat) (l : List Ex)
  /-- `e.name = x` (a statement) -/
  | assign (e : Ex) (name : String) (x : Ex)
  /-- `e.name = m = x` (a statement) -/
  | assign2 (e : Ex) (name m : String) (x : Ex)
  /-- any other syntax (operators, literals, lambda functions...) -/
  | other (code : Nat) (l : List Ex)

/-! ### `ufloat()` -/

/-- The new function name and arguments of a call to `ufloat` that matches the pattern (fix_ufloat.py 18-68,
70-103): `(tuple)`, `(tuple, tag)`, `(string)` or `(string, tag)`. -/
def ufloatArgs (kinds : List ArgKind) (args : List Ex) : Option (String × List ArgKind × List Ex) :=
  match kinds, args with
  | [.pos], [.tuple [a, b]] => some ("ufloat", [.pos, .pos], [a, b])
  | [.pos, k], [.tuple [a, b], t] => some ("ufloat", [.pos, .pos, k], [a, b, t])
  | [.pos], [.str s] => some ("ufloat_fromstr", [.pos], [.str s])
  | [.pos, k], [.str s, t] => some ("ufloat_fromstr", [.pos, k], [.str s, t])
  | _, _ => none

/-- `FixUfloat` at a node (fix_ufloat.py 36-112): non-dotted access, then dotted access (to the attribute of
a name). -/
def fixUfloatNode : Ex → Ex
  | .call (.name "ufloat") kinds args =>
    match ufloatArgs kinds args with
    | some (f, k, a) => .call (.name f) k a
    | none => .call (.name "ufloat") kinds args
  | .call (.attr (.name o) "ufloat") kinds args =>
    match ufloatArgs kinds args with
    | some (f, k, a) => .call (.attr (.name o) f) k a
    | none => .call (.attr (.name o) "ufloat") kinds args
  | e => e

mutual
/-- `FixUfloat` on an expression: the deepest nodes are transformed first. -/
def fixUfloat : Ex → Ex
  | .name s => .name s
  | .str s => .str s
  | .tuple l => .tuple (fixUfloatList l)
  | .attr e n => .attr (fixUfloat e) n
  | .call f k args => fixUfloatNode (.call (fixUfloat f) k (fixUfloatList args))
  | .trail e c l => .trail (fixUfloat e) c (fixUfloatList l)
  | .assign e n x => .assign (fixUfloat e) n (fixUfloat x)
  | .assign2 e n m x => .assign2 (fixUfloat e) n m (fixUfloat x)
  | .other c l => .other c (fixUfloatList l)

/-- Idem for a list of expressions. -/
def fixUfloatList : List Ex → List Ex
  | [] => []
  | e :: l => fixUfloat e :: fixUfloatList l
end

/-! ### `.std_dev()` and `.set_std_dev()` -/

/-- `FixStdDev` at a node (fix_std_dev.py 14-38), when the node is a whole `power` node: the pattern ends with the
call. `set_arg=any` also matches a keyword argument: its text `name=x` is put on the right of the assignment. It matches
`*x` and many arguments too (the result is not valid, or assigns a tuple): not modelled. -/
def fixStdDevNode : Ex → Ex
  | .call (.attr e "std_dev") [] [] => .attr e "std_dev"
  | .call (.attr e "set_std_dev") [.pos] [x] => .assign e "std_dev" x
  | .call (.attr e "set_std_dev") [.kw n] [x] => .assign2 e "std_dev" n x
  | e => e

/-- `FixStdDevs` at a node (fix_std_devs.py 14-22), idem. -/
def fixStdDevsNode : Ex → Ex
  | .call (.attr e "std_devs") [] [] => .attr e "std_devs"
  | e => e

mutual
/-- `FixStdDev` and `FixStdDevs` on an expression; `whole`: the expression is not followed by `.`, `(`, `[` or
`**`, in other words it is a whole `power` node. -/
def fixPower (node : Ex → Ex) (whole : Bool) : Ex → Ex
  | .name s => .name s
  | .str s => .str s
  | .tuple l => .tuple (fixPowerList node l)
  | .attr e n => .attr (fixPower node false e) n
  | .call f k args =>
    let e := Ex.call (fixPower node false f) k (fixPowerList node args)
    if whole then node e else e
  | .trail e c l => .trail (fixPower node false e) c (fixPowerList node l)
  | .assign e n x => .assign (fixPower node false e) n (fixPower node true x)
  | .assign2 e n m x => .assign2 (fixPower node false e) n m (fixPower node true x)
  | .other c l => .other c (fixPowerList node l)

/-- Idem for a list of expressions. -/
def fixPowerList (node : Ex → Ex) : List Ex → List Ex
  | [] => []
  | e :: l => fixPower node true e :: fixPowerList node l
end

/-- `FixStdDev` on an expression. -/
def fixStdDev (e : Ex) : Ex := fixPower fixStdDevNode true e

/-- `FixStdDevs` on an expression. -/
def fixStdDevs (e : Ex) : Ex := fixPower fixStdDevsNode true e

/-! ### `uarray()` and `umatrix()` -/

/-- The kind of an argument after a star was put in front of it (fix_uarray_umatrix.py 66-75). -/
def ArgKind.addStar : ArgKind → ArgKind
  | .pos => .star
  | .star => .dstar
  | _ => .bad

/-- The new arguments of a call to `uarray` or `umatrix` that matches the pattern
(fix_uarray_umatrix.py 32-45, 57-83): tuple, then single argument. Calls with many arguments are not modified. -/
def uarrayArgs (kinds : List ArgKind) (args : List Ex) : Option (List ArgKind × List Ex) :=
  match kinds, args with
  | [.pos], [.tuple [a, b]] => some ([.pos, .pos], [a, b])
  | [k], [x] => some ([k.addStar], [x])
  | _, _ => none

/-- `FixUarrayUmatrix` at a node, for the function `fn` ("uarray" or "umatrix"). -/
def fixUarrayNode (fn : String) : Ex → Ex
  | .call (.name g) kinds args =>
    match (if g = fn then uarrayArgs kinds args else none) with
    | some (k, a) => .call (.name g) k a
    | none => .call (.name g) kinds args
  | .call (.attr (.name o) g) kinds args =>
    match (if g = fn then uarrayArgs kinds args else none) with
    | some (k, a) => .call (.attr (.name o) g) k a
    | none => .call (.attr (.name o) g) kinds args
  | e => e

mutual
/-- `FixUarrayUmatrix` on an expression. -/
def fixUarray (fn : String) : Ex → Ex
  | .name s => .name s
  | .str s => .str s
  | .tuple l => .tuple (fixUarrayList fn l)
  | .attr e n => .attr (fixUarray fn e) n
  | .call f k args => fixUarrayNode fn (.call (fixUarray fn f) k (fixUarrayList fn args))
  | .trail e c l => .trail (fixUarray fn e) c (fixUarrayList fn l)
  | .assign e n x => .assign (fixUarray fn e) n (fixUarray fn x)
  | .assign2 e n m x => .assign2 (fixUarray fn e) n m (fixUarray fn x)
  | .other c l => .other c (fixUarrayList fn l)

/-- Idem for a list of expressions. -/
def fixUarrayList (fn : String) : List Ex → List Ex
  | [] => []
  | e :: l => fixUarray fn e :: fixUarrayList fn l
end

/-- `uarray(nominal_values, std_devs)` (unumpy/core.py 272-296) and `umatrix(nominal_values, std_devs)`
(unumpy/core.py 644-659): with `std_devs` being `None` (not given), the first argument is unpacked; then,
creation of the array with `make`. The deprecation warning is not modelled. -/
def uarrayCall {V R : Type} (isNone : V → Bool) (unpack : V → PyRes (V × V)) (make : V → V → R) (fail : PyErr → R)
    (nominal : V) (std : Option V) : R :=
  match std with
  | some s =>
    if isNone s then
      match unpack nominal with
      | .ok (n, s) => make n s
      | .error e => fail e
    else make nominal s
  | none =>
    match unpack nominal with
    | .ok (n, s) => make n s
    | .error e => fail e

end Unc
