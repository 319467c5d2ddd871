import Verif.Model.Machine

/-
Python's limit on the depth of recursions, for the two operations of the package that are recursive: `copy.deepcopy` and
`pickle`, which copy the contents of a `LinearCombination` (core.py 1579-1584, 2364-2374, 2376-2451) recursively.

The limit is counted in nested `LinearCombination` objects, each of which takes a few calls of Python functions. The exception
is `RecursionError`, represented by `PyErr.outOfFuel`.
-/

set_option autoImplicit false

namespace Unc

variable {F : Type} [PyMath F]

/-- `copy.deepcopy(x)` (core.py 2364-2374, 2833-2845), with a limit on recursions. -/
def World.deepcopyWithin (limit : Nat) (w : World F) (u : UF F) : World F × PyRes (UF F) :=
  match u.var with
  | some v => w.copyVar v
  | none =>
    match copyNode false limit u.lin w Memo.empty with
    | (w, _, .error e) => (w, .error e)
    | (w, _, .ok n) => (w, .ok { nom := u.nom, lin := n, var := none })

/-- `pickle.loads(pickle.dumps(x))`, with a limit on recursions. -/
def World.pickleWithin (limit : Nat) (w : World F) (u : UF F) : World F × PyRes (UF F) :=
  match u.var with
  | some v =>
    match copyVarMemo true w Memo.empty v with
    | (w, _, .error e) => (w, .error e)
    | (w, _, .ok v') =>
      match w.vars[v']? with
      | none => (w, .error .attributeError)
      | some cell => (w, .ok { nom := cell.nom, lin := cell.lin, var := some v' })
  | none =>
    match copyNode true limit u.lin w Memo.empty with
    | (w, _, .error e) => (w, .error e)
    | (w, _, .ok n) => (w, .ok { nom := u.nom, lin := n, var := none })

/-- The effect of a copying function on a machine. -/
def Machine.copying (m : Machine F) (f : World F → UF F → World F × PyRes (UF F)) (x : Arg F) : Machine F × Out F :=
  match x.evalUnc m.env with
  | none => m.invalid 1
  | some u =>
    match f m.w u with
    | (w, .error e) => (⟨w, m.env ++ [none]⟩, .err e)
    | (w, .ok u) => (⟨w, m.env ++ [some (.unc u)]⟩, .done)

end Unc
