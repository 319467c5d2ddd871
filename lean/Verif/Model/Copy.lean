import Verif.Model.World

/-
Model of `copy.copy`, `copy.deepcopy` and pickling for numbers with uncertainties
(core.py 1579-1584, 2364-2451, 2814-2845), together with the traversal that the `copy` and `pickle`
modules of Python do.
-/

namespace Unc

variable {F : Type} [PyFloat F]

/-- The memo of a deep copy or of a pickle: objects already copied. -/
structure Memo where
  nodes : List (NodeId × NodeId)
  vars : List (VarId × VarId)

def Memo.empty : Memo := ⟨[], []⟩

/-- Copy of a variable, with the memo.

With `copy.deepcopy` (`share = false`), `Variable.__deepcopy__` calls `Variable.__copy__`
(core.py 2814-2845): `Variable(self.nominal_value, self.std_dev, self.tag)`.

With `pickle` (`share = true`), `__getstate__` and `__setstate__` (core.py 2376-2451) copy the slots
(so that the setter of `std_dev` is not called), including the `_linear_part`, which is itself an
object of the pickle and thus has an entry in the memo. The `_linear_part` of a variable is always
`{self: 1.}`: the variable and its linear part refer to each other, and the model creates both at
the same time. Any other value of `_linear_part` (not reachable) is not modelled (`PyErr.other`). -/
def copyVarMemo (share : Bool) (w : World F) (m : Memo) (v : VarId) :
    World F × Memo × PyRes VarId :=
  match m.vars.lookup v with
  | some v' => (w, m, .ok v')
  | none =>
    match w.vars[v]? with
    | none => (w, m, .error .attributeError)   -- no such variable
    | some cell =>
      if share then
        match w.nodes[cell.lin]? with
        | some (.dict [(u, x)]) =>
          if u = v then
            let v' := w.vars.length
            let (w1, n) := w.alloc (.dict [(v', x)])
            ({ w1 with vars := w1.vars ++ [{ cell with lin := n }] },
             ⟨(cell.lin, n) :: m.nodes, (v, v') :: m.vars⟩, .ok v')
          else (w, m, .error (.other 0))
        | _ => (w, m, .error (.other 0))
      else
        match w.ufloat cell.nom cell.std cell.tag with
        | (w, .error e) => (w, m, .error e)
        | (w, .ok u) =>
          match u.var with
          | none => (w, m, .error (.other 0))
          | some v' => (w, ⟨m.nodes, (v, v') :: m.vars⟩, .ok v')

/-- Copy of the items of a dictionary: the keys are copied. -/
def copyDict (share : Bool) : Derivs F → World F → Memo → World F × Memo × PyRes (Derivs F)
  | [], w, m => (w, m, .ok [])
  | (v, x) :: d, w, m =>
    match copyVarMemo share w m v with
    | (w, m, .error e) => (w, m, .error e)
    | (w, m, .ok v') =>
      match copyDict share d w m with
      | (w, m, .error e) => (w, m, .error e)
      | (w, m, .ok d') => (w, m, .ok ((v', x) :: d'))

/-- Copy of the elements of a list of terms, in Python order (so from the last element of
`LC.terms`), with a function that copies objects. -/
def copyItems (cp : NodeId → World F → Memo → World F × Memo × PyRes NodeId) :
    List (Item F) → World F → Memo → World F × Memo × PyRes (List (Item F))
  | [], w, m => (w, m, .ok [])
  | .junk :: ts, w, m =>
    match copyItems cp ts w m with
    | (w, m, .error e) => (w, m, .error e)
    | (w, m, .ok ts') => (w, m, .ok (.junk :: ts'))
  | .pair c j :: ts, w, m =>
    match copyItems cp ts w m with
    | (w, m, .error e) => (w, m, .error e)
    | (w, m, .ok ts') =>
      match cp j w m with
      | (w, m, .error e) => (w, m, .error e)
      | (w, m, .ok j') => (w, m, .ok (.pair c j' :: ts'))

/-- Copy of a `LinearCombination` through `__getstate__`/`__setstate__` (core.py 1579-1584): the
contents are copied recursively, each object once. The bound `fuel` is on the depth of the
recursion. Python creates the copy before its contents; here, it is created after (only the
addresses differ), except if the copy was created in the meantime (for the linear part of a
variable). The limit of Python on the depth of recursions is not modelled. -/
def copyNode (share : Bool) : Nat → NodeId → World F → Memo → World F × Memo × PyRes NodeId
  | 0, _, w, m => (w, m, .error .outOfFuel)
  | fuel + 1, i, w, m =>
    match m.nodes.lookup i with
    | some i' => (w, m, .ok i')
    | none =>
      match w.nodes[i]? with
      | none => (w, m, .error .attributeError)   -- no such object
      | some (.dict d) =>
        match copyDict share d w m with
        | (w, m, .error e) => (w, m, .error e)
        | (w, m, .ok d') =>
          match m.nodes.lookup i with
          | some i' => (w, m, .ok i')
          | none =>
            let (w, i') := w.alloc (.dict d')
            (w, ⟨(i, i') :: m.nodes, m.vars⟩, .ok i')
      | some (.terms ts) =>
        match copyItems (copyNode share fuel) ts w m with
        | (w, m, .error e) => (w, m, .error e)
        | (w, m, .ok ts') =>
          let (w, i') := w.alloc (.terms ts')
          (w, ⟨(i, i') :: m.nodes, m.vars⟩, .ok i')

/-- `copy.copy(x)`: `Variable.__copy__` for variables (core.py 2814-2832); for other numbers, a new
object with the same attributes, and in particular the same `LinearCombination`. -/
def World.copy (w : World F) (u : UF F) : World F × PyRes (UF F) :=
  match u.var with
  | some v => w.copyVar v
  | none => (w, .ok u)

/-- `copy.deepcopy(x)` (core.py 2364-2374, 2833-2845). -/
def World.deepcopy (w : World F) (u : UF F) : World F × PyRes (UF F) :=
  match u.var with
  | some v => w.copyVar v
  | none =>
    match copyNode false (u.lin + 1) u.lin w Memo.empty with
    | (w, _, .error e) => (w, .error e)
    | (w, _, .ok n) => (w, .ok { nom := u.nom, lin := n, var := none })

/-- Pickling and unpickling of one of the objects of a list. -/
def pickleOne (w : World F) (m : Memo) (u : UF F) : World F × Memo × PyRes (UF F) :=
  match u.var with
  | some v =>
    match copyVarMemo true w m v with
    | (w, m, .error e) => (w, m, .error e)
    | (w, m, .ok v') =>
      match w.vars[v']? with
      | none => (w, m, .error .attributeError)
      | some cell => (w, m, .ok { nom := cell.nom, lin := cell.lin, var := some v' })
  | none =>
    match copyNode true (u.lin + 1) u.lin w m with
    | (w, m, .error e) => (w, m, .error e)
    | (w, m, .ok n) => (w, m, .ok { nom := u.nom, lin := n, var := none })

/-- The objects of a list, in order, with a common memo. -/
def pickleList : List (UF F) → World F → Memo → World F × PyRes (List (UF F))
  | [], w, _ => (w, .ok [])
  | u :: us, w, m =>
    match pickleOne w m u with
    | (w, _, .error e) => (w, .error e)
    | (w, m, .ok u') =>
      match pickleList us w m with
      | (w, .error e) => (w, .error e)
      | (w, .ok us') => (w, .ok (u' :: us'))

/-- `pickle.loads(pickle.dumps(us))`, in the same process. -/
def World.pickle (w : World F) (us : List (UF F)) : World F × PyRes (List (UF F)) :=
  pickleList us w Memo.empty

end Unc
