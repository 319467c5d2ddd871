import Verif.Model.Machine

/-
Identity of objects: deep copies of lists of numbers with uncertainties, and hash values.
-/

set_option autoImplicit false

namespace Unc

variable {F : Type}

/-- `id(x)` of a number with uncertainty: variables are objects of the heap; each other number with uncertainty is a
new object, created by the command that gave it (core.py 1631-1665: nothing but variables is shared between the results of
two operations). Literal values are no number with uncertainty: they have no relevant identity. -/
def Machine.objId (m : Machine F) : Arg F → Option (Nat ⊕ VarId)
  | .const _ => none
  | .ref i =>
    match m.env[i]? with
    | some (some (.unc u)) =>
      match u.var with
      | some v => some (.inr v)
      | none => some (.inl i)
    | _ => none

/-- `copy.deepcopy` of a list of numbers with uncertainties, in the state `m`: the commands that it runs, and the elements
of the copy. Python's `copy` module goes through the elements and calls `__deepcopy__(memo)` of each object it did not
copy yet; `AffineScalarFunc.__deepcopy__` (core.py 2364-2374) and `Variable.__deepcopy__` (core.py 2833-2845) do not use
the memo. `memo` are the objects already copied, and `k` is the number of the next result. -/
def Machine.deepcopyList (m : Machine F) : List (Arg F) → List (Arg F × Arg F) → Nat → List (Cmd F) × List (Arg F)
  | [], _, _ => ([], [])
  | x :: xs, memo, k =>
    match memo.find? (fun p => m.objId p.1 = m.objId x) with
    | some p => ((m.deepcopyList xs memo k).1, p.2 :: (m.deepcopyList xs memo k).2)
    | none =>
      (.deepcopy x :: (m.deepcopyList xs ((x, .ref k) :: memo) (k + 1)).1,
       .ref k :: (m.deepcopyList xs ((x, .ref k) :: memo) (k + 1)).2)

/-- `hash(x)` of a number with uncertainty: the identity of a variable (core.py 2807-2812, `Variable.__hash__`). The class
`AffineScalarFunc` defines `__eq__` without `__hash__` (core.py 1766), so that the other numbers with uncertainty are not
hashable. -/
def Machine.hash (m : Machine F) (x : Arg F) : PyRes VarId :=
  match m.objId x with
  | some (.inr v) => .ok v
  | _ => .error .typeError

/-! ### Dictionaries

The derivatives (core.py 1526-1577) and the error components (core.py 1785-1816) are Python dictionaries, whose keys are
variables. The model of the rest of the package uses association lists with the identities of the variables as keys. This
is what a Python dictionary does: it first compares the hash values, then the objects, then uses `==`. -/

/-- A Python dictionary: hash value, key and value of each item, in order of insertion. -/
abbrev PyDict (K V : Type) := List (Nat × K × V)

/-- Is the object `k`, whose hash value is `h`, the key of this item? `same` is the identity of objects, and `eq` is `==`. -/
def PyDict.isKey {K V : Type} (same eq : K → K → Bool) (h : Nat) (k : K) (item : Nat × K × V) : Bool :=
  item.1 == h && (same item.2.1 k || eq item.2.1 k)

/-- `d.get(k)` -/
def PyDict.get {K V : Type} (same eq : K → K → Bool) (hash : K → Nat) (d : PyDict K V) (k : K) : Option V :=
  (d.find? (PyDict.isKey same eq (hash k) k)).map fun i => i.2.2

/-- `d[k] = x` -/
def PyDict.set {K V : Type} (same eq : K → K → Bool) (hash : K → Nat) (d : PyDict K V) (k : K) (x : V) : PyDict K V :=
  match d with
  | [] => [(hash k, k, x)]
  | i :: d => if PyDict.isKey same eq (hash k) k i then (i.1, i.2.1, x) :: d else i :: PyDict.set same eq hash d k x

end Unc
