import Verif.Model.LinComb
import Verif.Py.Num

/-
`LinearCombination.expand` (core.py 1533-1577) when products and sums of coefficients can raise exceptions: this is the case
with Python integers, because the product of a large `int` and of a `float` is an `OverflowError`. This is the same code as
in `Model/LinComb.lean`, for any operations `mul` and `add` with exceptions (theorem `readDerivsF_rel` of `Lemmas/IntExpand.lean`:
the two models agree when nothing is raised).
-/

namespace Unc

set_option autoImplicit false

/-- The operations on coefficients. -/
structure CoefOps (C : Type) where
  /-- `0.0`, the default value of `collections.defaultdict(float)` -/
  zero : C
  /-- `a + b` -/
  add : C → C → PyRes C
  /-- `a * b` -/
  mul : C → C → PyRes C

section
variable {C : Type} (O : CoefOps C)

/-- `derivatives[v] += x` (core.py 1548, 1568). -/
def addToF : Derivs C → VarId → C → PyRes (Derivs C)
  | [], v, x => (O.add O.zero x).map fun y => [(v, y)]
  | (u, y) :: d, v, x =>
    if u = v then (O.add y x).map fun z => (u, z) :: d else (addToF d v x).map fun d' => (u, y) :: d'

/-- `for (var, factor) in main_expr.linear_combo.items(): derivatives[var] += main_factor*factor` (core.py 1567-1568). After
an exception, the local variable `derivatives` is lost. -/
def addScaledF (c : C) : Derivs C → Derivs C → PyRes (Derivs C)
  | [], acc => .ok acc
  | (v, x) :: d, acc =>
    match O.mul c x with
    | .error e => .error e
    | .ok y =>
      match addToF O acc v y with
      | .error e => .error e
      | .ok acc' => addScaledF c d acc'

/-- `for (factor, expr) in main_expr.linear_combo: self.linear_combo.append((main_factor*factor, expr))` (core.py 1571-1573).
The elements that are appended before an exception stay. -/
def pushScaledF (c : C) : List (Item C) → List (Item C) → List (Item C) × PyRes Unit
  | [], ts => (ts, .ok ())
  | .junk :: _, ts => (ts, .error .typeError)
  | .pair f n :: rest, ts =>
    match O.mul c f with
    | .error e => (ts, .error e)
    | .ok g => pushScaledF c rest (.pair g n :: ts)

/-- One iteration of the loop of `expand` (core.py 1550-1577). -/
def expandStepF (h : Heap C) (i : NodeId) (d : Derivs C) : Heap C × StepOut C :=
  match h[i]? with
  | none => (h, .raise .attributeError)
  | some (.dict []) => (h.set i (.dict d), .done)
  | some (.dict (_ :: _)) => (h, .raise .typeError)
  | some (.terms []) => (h.set i (.dict d), .done)
  | some (.terms (.junk :: ts)) => (h.set i (.terms ts), .raise .typeError)
  | some (.terms (.pair c j :: ts)) =>
    let h1 := h.set i (.terms ts)
    match h1[j]? with
    | none => (h1, .raise .attributeError)
    | some (.dict dj) =>
      match addScaledF O c dj d with
      | .ok d' => (h1, .go d')
      | .error e => (h1, .raise e)
    | some (.terms tj) =>
      match pushScaledF O c tj.reverse ts with
      | (ts', .ok ()) => (h1.set i (.terms ts'), .go d)
      | (ts', .error e) => (h1.set i (.terms ts'), .raise e)

/-- The `while` loop of `expand` (core.py 1550-1577), with a bound on the number of iterations. -/
def expandLoopF : Nat → Heap C → NodeId → Derivs C → Heap C × PyRes Unit
  | 0, h, _, _ => (h, .error .outOfFuel)
  | fuel + 1, h, i, d =>
    match expandStepF O h i d with
    | (h', .done) => (h', .ok ())
    | (h', .raise e) => (h', .error e)
    | (h', .go d') => expandLoopF fuel h' i d'

/-- `AffineScalarFunc.derivatives` (core.py 1683-1703) and `LinearCombination.expand` (core.py 1533-1577). -/
def readDerivsF (h : Heap C) (i : NodeId) : Heap C × PyRes (Derivs C) :=
  match h[i]? with
  | none => (h, .error .attributeError)
  | some (.dict d) => (h, .ok d)
  | some (.terms _) =>
    match expandLoopF O (fuelFor h i) h i [] with
    | (h', .error e) => (h', .error e)
    | (h', .ok ()) =>
      match h'[i]? with
      | some (.dict d) => (h', .ok d)
      | _ => (h', .error .attributeError)

end

/-- A coefficient: a Python `int` or `float`. -/
inductive Coef where
  | int (n : ℤ)
  | flt (x : B64)
  deriving DecidableEq, Repr

/-- An operation between a coefficient and a float, for which an `int` is converted. -/
def Coef.withFloat (a : Coef) (f : B64 → B64) : PyRes Coef :=
  match a with
  | .flt x => .ok (.flt (f x))
  | .int n =>
    match Num.ofInt n with
    | some x => .ok (.flt (f x))
    | none => .error .overflowError

/-- `a + b` -/
def Coef.add : Coef → Coef → PyRes Coef
  | .int m, .int n => .ok (.int (m + n))
  | a, .flt y => a.withFloat (· + y)
  | .flt x, b => b.withFloat (x + ·)

/-- `a * b` -/
def Coef.mul : Coef → Coef → PyRes Coef
  | .int m, .int n => .ok (.int (m * n))
  | a, .flt y => a.withFloat (· * y)
  | .flt x, b => b.withFloat (x * ·)

/-- The operations of Python. -/
def pythonOps : CoefOps Coef := ⟨.flt 0, Coef.add, Coef.mul⟩

end Unc
