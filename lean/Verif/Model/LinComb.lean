import Verif.Py.Basic

/-
Model of `LinearCombination` (core.py 1487-1584) and of the `derivatives` property of
`AffineScalarFunc` (core.py 1683-1703).

`LinearCombination` objects are mutable and shared: they are the cells of a heap, designated by
their address (`NodeId`).
-/

namespace Unc

/-- Identity of a `Variable` object (they are hashed by `id()`, core.py 2807-2812). -/
macro "VarId" : term => `(Nat)
/-- Address of a `LinearCombination` object. -/
macro "NodeId" : term => `(Nat)

variable {F : Type}

/-- An element of the list form of `linear_combo` (core.py 1511-1515): a
`(coefficient, LinearCombination)` pair. `junk` stands for any object that cannot be unpacked
as a pair: `umath.frexp` stores such objects (umath_core.py 398). -/
inductive Item (F : Type) where
  | pair (c : F) (n : NodeId)
  | junk
  deriving Repr, DecidableEq

/-- A dictionary from variables to floats, in insertion order. -/
abbrev Derivs (F : Type) := List (VarId × F)

/-- The `linear_combo` attribute (core.py 1503-1518): a dict (expanded form), or a list of terms.
The Python list is stored in reverse: the head of `ts` is the last element of the Python list,
which is the one that `pop()` removes. `expanded()` (core.py 1527-1531) is true for the case `dict`. -/
inductive LC (F : Type) where
  | dict (d : Derivs F)
  | terms (ts : List (Item F))
  deriving Repr, DecidableEq

/-- All the `LinearCombination` objects created so far; objects are never removed (garbage
collection is not observable). -/
abbrev Heap (F : Type) := List (LC F)

/-- `LinearCombination.__bool__` (core.py 1520-1525). -/
def LC.truthy : LC F → Bool
  | .dict [] => false
  | .dict (_ :: _) => true
  | .terms [] => false
  | .terms (_ :: _) => true

section
variable [PyFloat F]

/-- `derivatives[v] += x` on a `collections.defaultdict(float)` (core.py 1548, 1568). -/
def addTo : Derivs F → VarId → F → Derivs F
  | [], v, x => [(v, 0 + x)]
  | (u, y) :: d, v, x => if u = v then (u, y + x) :: d else (u, y) :: addTo d v x

/-- `for (var, factor) in main_expr.linear_combo.items(): derivatives[var] += main_factor*factor`
(core.py 1567-1568). -/
def addScaled (c : F) : Derivs F → Derivs F → Derivs F
  | [], acc => acc
  | (v, x) :: d, acc => addScaled c d (addTo acc v (c * x))

/-- `for (factor, expr) in main_expr.linear_combo:
self.linear_combo.append((main_factor*factor, expr))` (core.py 1571-1573). First list: the
elements still to be visited, in Python order; second list: `self.linear_combo` (reversed).
Returns `self.linear_combo` and whether unpacking an element failed (`TypeError`). -/
def pushScaled (c : F) : List (Item F) → List (Item F) → List (Item F) × Bool
  | [], ts => (ts, true)
  | .junk :: _, ts => (ts, false)
  | .pair f n :: rest, ts => pushScaled c rest (.pair (c * f) n :: ts)

/-- Outcome of one iteration of the loop of `expand`. -/
inductive StepOut (F : Type) where
  /-- the loop is finished, and `self.linear_combo = derivatives` was executed -/
  | done
  /-- the loop goes on, with these local `derivatives` -/
  | go (d : Derivs F)
  | raise (e : PyErr)
  deriving Repr, DecidableEq

/-- One iteration of the `while` loop of `LinearCombination.expand` (core.py 1550-1577) for the
object `i`, with local variable `derivatives` equal to `d`: test of `self.linear_combo`, `pop()`,
then addition of the term to the derivatives or expansion of the term. The final assignment (line
1577) is executed in the iteration that finds the list empty.

A dict in `self.linear_combo` at this point is only possible when another thread expanded the
object in the meantime: an empty dict ends the loop, and `pop()` without argument on a dict is a
`TypeError`. -/
def expandStep (h : Heap F) (i : NodeId) (d : Derivs F) : Heap F × StepOut F :=
  match h[i]? with
  | none => (h, .raise .attributeError)  -- no such object
  | some (.dict []) => (h.set i (.dict d), .done)
  | some (.dict (_ :: _)) => (h, .raise .typeError)
  | some (.terms []) => (h.set i (.dict d), .done)
  | some (.terms (.junk :: ts)) => (h.set i (.terms ts), .raise .typeError)
  | some (.terms (.pair c j :: ts)) =>
    let h1 := h.set i (.terms ts)
    match h1[j]? with
    | none => (h1, .raise .attributeError)  -- no such object
    | some (.dict dj) => (h1, .go (addScaled c dj d))
    | some (.terms tj) =>
      match pushScaled c tj.reverse ts with
      | (ts', true) => (h1.set i (.terms ts'), .go d)
      | (ts', false) => (h1.set i (.terms ts'), .raise .typeError)

/-- The `while` loop of `expand` (core.py 1550-1577), with a bound on the number of iterations. -/
def expandLoop : Nat → Heap F → NodeId → Derivs F → Heap F × PyRes Unit
  | 0, h, _, _ => (h, .error .outOfFuel)
  | fuel + 1, h, i, d =>
    match expandStep h i d with
    | (h', .done) => (h', .ok ())
    | (h', .raise e) => (h', .error e)
    | (h', .go d') => expandLoop fuel h' i d'

/-- Number of loop iterations that the items of a list need, given the number `cs[j]` of
iterations that expanding object `j` in place needs. -/
def itemsCost (cs : List Nat) : List (Item F) → Nat
  | [] => 0
  | .junk :: ts => 1 + itemsCost cs ts
  | .pair _ j :: ts => 1 + (cs[j]?).getD 0 + itemsCost cs ts

/-- Loop iterations needed by an object. -/
def nodeCost (cs : List Nat) : LC F → Nat
  | .dict _ => 0
  | .terms ts => itemsCost cs ts

/-- Loop iterations needed by each object of the heap (objects refer to earlier objects). -/
def costs (h : Heap F) : List Nat :=
  h.foldl (fun cs lc => cs ++ [nodeCost cs lc]) []

/-- A number of iterations that is sufficient for `expand` (proved in `Lemmas/LinComb.lean`). -/
def fuelFor (h : Heap F) (i : NodeId) : Nat := ((costs h)[i]?).getD 0 + 1

/-- `LinearCombination.expand` (core.py 1533-1577). -/
def expand (h : Heap F) (i : NodeId) : Heap F × PyRes Unit :=
  expandLoop (fuelFor h i) h i []

/-- `AffineScalarFunc.derivatives` (core.py 1683-1703), for an object whose `_linear_part` is the
cell `i`. The removal of the default factory (line 1701) is not modelled: the dict is only read by
iteration or with keys that it contains. -/
def readDerivs (h : Heap F) (i : NodeId) : Heap F × PyRes (Derivs F) :=
  match h[i]? with
  | none => (h, .error .attributeError)
  | some (.dict d) => (h, .ok d)
  | some (.terms _) =>
    match expand h i with
    | (h', .error e) => (h', .error e)
    | (h', .ok ()) =>
      match h'[i]? with
      | some (.dict d) => (h', .ok d)
      | _ => (h', .error .attributeError)

end

end Unc
