import Verif.Model.Machine

/-
Model of what happens inside `AffineScalarFunc.derivatives` and `LinearCombination.expand`
(core.py 1533-1577, 1683-1703) when several threads run them at the same time, or when an asynchronous
exception (like `KeyboardInterrupt`) stops them.

Python code is a sequence of operations on shared objects (reading or setting an attribute, popping or
appending an element, getting the next element of an iteration, ...). Another thread can run, or an
exception can be raised, between any two of them. Operations on local variables only (like those on the
dictionary `derivatives` of `expand`, which is not shared before line 1577) are merged with the shared
operation that precedes them.
-/

namespace Unc

set_option autoImplicit false

variable {F : Type}

/-- A `LinearCombination` object: the list object given to `__init__` (it stays the same object; its
elements are in reverse order, as in `LC.terms`), and the dictionary in attribute `linear_combo` if this
attribute was set to a dictionary. Dictionaries found in `linear_combo` are never modified. -/
structure TCell (F : Type) where
  items : List (Item F)
  dict : Option (Derivs F)
  deriving Repr, DecidableEq

def LC.cell : LC F → TCell F
  | .dict d => ⟨[], some d⟩
  | .terms ts => ⟨ts, none⟩

def TCell.lc : TCell F → LC F
  | ⟨_, some d⟩ => .dict d
  | ⟨ts, none⟩ => .terms ts

/-- Where a thread is, in the code of `derivatives` for an object whose linear part is `self`. The
local variable `derivatives` of `expand` is called `d`. -/
inductive Pc (F : Type) where
  /-- line 1697: `if not self._linear_part.expanded()` -/
  | start
  /-- line 1550: `while self.linear_combo` -/
  | loop (d : Derivs F)
  /-- line 1562: `(main_factor, main_expr) = self.linear_combo.pop()` -/
  | pop (d : Derivs F)
  /-- line 1566: `if main_expr.expanded()` -/
  | test (d : Derivs F) (c : F) (j : NodeId)
  /-- lines 1567-1568: `for (var, factor) in main_expr.linear_combo.items()` -/
  | items (d : Derivs F) (c : F) (j : NodeId)
  /-- line 1571: evaluation of `main_expr.linear_combo` -/
  | load (d : Derivs F) (c : F) (j : NodeId)
  /-- line 1571: next element (number `k`) of the list -/
  | iter (d : Derivs F) (c : F) (j : NodeId) (k : Nat)
  /-- line 1573: `self.linear_combo.append((main_factor*factor, expr))` -/
  | append (d : Derivs F) (c : F) (j : NodeId) (k : Nat) (p : F) (n : NodeId)
  /-- line 1577: `self.linear_combo = derivatives` -/
  | assign (d : Derivs F)
  /-- line 1701: `self._linear_part.linear_combo.default_factory = None` -/
  | clear
  /-- line 1703: `return self._linear_part.linear_combo` -/
  | ret
  /-- the value of `derivatives`, or an exception -/
  | done (r : PyRes (Derivs F))

section
variable [PyFloat F]

/-- One operation of a thread that reads the derivatives of an object whose linear part is `self`
(core.py 1550-1577, 1697-1703). -/
def Pc.step (self : NodeId) (h : List (TCell F)) : Pc F → List (TCell F) × Pc F
  | .start =>
    match h[self]? with
    | none => (h, .done (.error .attributeError))   -- no such object
    | some ⟨_, some _⟩ => (h, .ret)
    | some ⟨_, none⟩ => (h, .loop [])
  | .loop d =>
    match h[self]? with
    | none => (h, .done (.error .attributeError))   -- no such object
    | some ⟨_, some []⟩ => (h, .assign d)
    | some ⟨_, some (_ :: _)⟩ => (h, .pop d)
    | some ⟨[], none⟩ => (h, .assign d)
    | some ⟨_ :: _, none⟩ => (h, .pop d)
  | .pop d =>
    match h[self]? with
    | none => (h, .done (.error .attributeError))   -- no such object
    | some ⟨_, some _⟩ => (h, .done (.error .typeError))   -- `dict.pop` needs an argument
    | some ⟨[], none⟩ => (h, .done (.error .indexError))   -- `pop from empty list`
    | some ⟨.junk :: ts, none⟩ => (h.set self ⟨ts, none⟩, .done (.error .typeError))
    | some ⟨.pair c j :: ts, none⟩ => (h.set self ⟨ts, none⟩, .test d c j)
  | .test d c j =>
    match h[j]? with
    | none => (h, .done (.error .attributeError))   -- no such object
    | some ⟨_, some _⟩ => (h, .items d c j)
    | some ⟨_, none⟩ => (h, .load d c j)
  | .items d c j =>
    match h[j]? with
    | some ⟨_, some dj⟩ => (h, .loop (addScaled c dj d))
    | _ => (h, .done (.error .attributeError))   -- a list has no `items`
  | .load d c j =>
    match h[j]? with
    | none => (h, .done (.error .attributeError))   -- no such object
    | some ⟨_, some []⟩ => (h, .loop d)   -- iteration over an empty dictionary
    | some ⟨_, some (_ :: _)⟩ => (h, .done (.error .typeError))   -- a key is not a pair
    | some ⟨_, none⟩ => (h, .iter d c j 0)
  | .iter d c j k =>
    match h[j]? with
    | none => (h, .done (.error .attributeError))   -- no such object
    | some cell =>
      match cell.items.reverse[k]? with
      | none => (h, .loop d)
      | some .junk => (h, .done (.error .typeError))
      | some (.pair f n) => (h, .append d c j k (c * f) n)
  | .append d c j k p n =>
    match h[self]? with
    | some ⟨ts, none⟩ => (h.set self ⟨.pair p n :: ts, none⟩, .iter d c j (k + 1))
    | _ => (h, .done (.error .attributeError))   -- a dictionary has no `append`
  | .assign d =>
    match h[self]? with
    | none => (h, .done (.error .attributeError))   -- no such object
    | some ⟨ts, _⟩ => (h.set self ⟨ts, some d⟩, .clear)
  | .clear =>
    match h[self]? with
    | some ⟨_, some _⟩ => (h, .ret)
    | _ => (h, .done (.error .attributeError))   -- a list has no `default_factory`
  | .ret =>
    match h[self]? with
    | some ⟨_, some d⟩ => (h, .done (.ok d))
    | _ => (h, .done (.error .typeError))   -- a list is not a mapping
  | .done r => (h, .done r)

/-- A thread that reads the derivatives of an object. -/
structure Thread (F : Type) where
  u : UF F
  pc : Pc F

/-- Shared objects, and threads. -/
structure Race (F : Type) where
  cells : List (TCell F)
  threads : List (Thread F)

/-- Thread number `t` does one operation. -/
def Race.step (r : Race F) (t : Nat) : Race F :=
  match r.threads[t]? with
  | none => r
  | some th =>
    match th.pc.step th.u.lin r.cells with
    | (h, pc) => ⟨h, r.threads.set t ⟨th.u, pc⟩⟩

/-- The threads do their operations in the order given by the schedule. -/
def Race.run (r : Race F) : List Nat → Race F
  | [] => r
  | t :: sched => (r.step t).run sched

/-- The objects, seen from the rest of the program. -/
def Race.heap (r : Race F) : Heap F := r.cells.map TCell.lc

end

/-! ### Readers -/

/-- What a thread reads on an object. -/
inductive ReadKind where
  | derivatives
  | errorComponents
  | s
  | stdDev
  deriving DecidableEq, Repr

/-- The command that reads it. -/
def ReadKind.cmd : ReadKind → Arg F → Cmd F
  | .derivatives, x => .derivatives x
  | .errorComponents, x => .errorComponents x
  | .s, x => .s x
  | .stdDev, x => .stdDev x

section
variable [PyFloat F]

/-- `sqrt(sum(delta**2 for delta in ...))` for error components (core.py 1832-1835). -/
def finishStd (l : PyRes (Derivs F)) : Out F :=
  match l with
  | .error e => .err e
  | .ok l =>
    match sumSquares (l.map Prod.snd) 0 with
    | .error e => .err e
    | .ok t =>
      match PyFloat.sqrt t with
      | .error e => .err e
      | .ok s => .val (.flt s)

/-- What the thread does once it has the derivatives of `u` (core.py 1798-1814, 1832-1835). It reads
the attributes `_std_dev` of the variables, that no reader changes. For a variable, `std_dev` is a mere
attribute (core.py 2770-2772): the derivatives, that the code does not read in this case, are ignored. -/
def ReadKind.finish (vars : List (VarCell F)) (kind : ReadKind) (u : UF F) (r : PyRes (Derivs F)) :
    Out F :=
  match r with
  | .error e => .err e
  | .ok d =>
    match kind with
    | .derivatives => .dict (fun v => d.lookup v)
    | .errorComponents =>
      match errorLoop vars d with
      | .error e => .err e
      | .ok l => .dict (fun v => l.lookup v)
    | .s => finishStd (errorLoop vars d)
    | .stdDev =>
      match u.var with
      | none => finishStd (errorLoop vars d)
      | some v =>
        match vars[v]? with
        | none => .err .attributeError   -- no such variable
        | some cell => .val (.flt cell.std)

end

/-- A thread reads `kind` of `x`. -/
structure Reader (F : Type) where
  kind : ReadKind
  x : Arg F

variable [PyMath F]

/-- The threads start in the state `m` (all the readers must read numbers with uncertainties). -/
def startReaders (m : Machine F) (rs : List (Reader F)) : Option (Race F) :=
  (evalArgs (fun r : Reader F => r.x.evalUnc m.env) rs).map fun us =>
    ⟨m.w.nodes.map LC.cell, us.map fun u => ⟨u, .start⟩⟩

/-- The state of the program when the threads have done some operations. -/
def Machine.withRace (m : Machine F) (r : Race F) : Machine F :=
  ⟨{ m.w with nodes := r.heap }, m.env⟩

/-- What thread number `t`, that reads `kind`, sees; `none` if it is not finished. -/
def Race.sees (m : Machine F) (r : Race F) (t : Nat) (kind : ReadKind) : Option (Out F) :=
  match r.threads[t]? with
  | some ⟨u, .done res⟩ => some (kind.finish m.w.vars u res)
  | _ => none

end Unc
