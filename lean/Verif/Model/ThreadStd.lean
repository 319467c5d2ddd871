import Verif.Model.Threads

/-
Model of what happens inside `AffineScalarFunc.error_components()` and `std_dev` (core.py 1798-1815,
1834-1835) when other threads change the standard deviations of variables during the call.

The derivatives are read first (core.py 1798; Model/Threads.lean is about threads inside this reading).
The loop then reads the attribute `_std_dev` of each variable twice: in the test (core.py 1808) and in the
product (core.py 1813). Other threads can run between any two of these readings. A change of standard
deviation is a single assignment of this attribute (core.py 2778-2789).
-/

namespace Unc

set_option autoImplicit false

variable {F : Type}

/-- Where a thread is, in the loop of `error_components`. `todo`: the items that the loop has not reached;
`found`: the dictionary `error_components`, which is not shared (last item first). -/
inductive EPc (F : Type) where
  /-- lines 1798-1808: next item, and `if variable._std_dev == 0` -/
  | check (todo found : Derivs F)
  /-- line 1813: `error_components[variable] = abs(derivative*variable._std_dev)` -/
  | mult (v : VarId) (d : F) (todo found : Derivs F)
  /-- line 1815: the result -/
  | done (r : PyRes (Derivs F))

section
variable [PyFloat F]

/-- One operation of the thread (core.py 1798-1815); `vars` contains the current attributes of the
variables. -/
def EPc.step (vars : List (VarCell F)) : EPc F → EPc F
  | .check [] found => .done (.ok found.reverse)
  | .check ((v, d) :: todo) found =>
    match vars[v]? with
    | none => .done (.error .attributeError)   -- no such variable
    | some cell =>
      if PyFloat.eqb cell.std 0 then .check todo ((v, 0) :: found)   -- lines 1808-1811
      else .mult v d todo found
  | .mult v d todo found =>
    match vars[v]? with
    | none => .done (.error .attributeError)   -- no such variable
    | some cell => .check todo ((v, PyFloat.abs (d * cell.std)) :: found)
  | .done r => .done r

/-- The result, when the thread is done. -/
def EPc.result : EPc F → Option (PyRes (Derivs F))
  | .done r => some r
  | _ => none

end

variable [PyMath F]

/-- What happens in the program: the thread that calculates the error components does one operation
(`none`), or some other thread runs a command (`some c`). The command of another thread is seen as a single
operation: simplification for the commands other than changes of standard deviations. -/
abbrev Event (F : Type) := Option (Cmd F)

/-- The thread, starting in some state of the objects of the program, after some events. -/
def EPc.run : Machine F → EPc F → List (Event F) → EPc F
  | _, pc, [] => pc
  | m, pc, none :: es => EPc.run m (pc.step m.w.vars) es
  | m, pc, some c :: es => EPc.run (m.step c).1 pc es

/-- `x.error_components()` in a thread, with the given events once the derivatives are known (core.py
1783-1815); `none` if `x` is not a number with uncertainty, or if the call is not over. -/
def Machine.compsDuring (m : Machine F) (x : Arg F) (es : List (Event F)) : Option (PyRes (Derivs F)) :=
  match x.evalUnc m.env with
  | none => none
  | some u =>
    match m.w.derivatives u with
    | (_, .error e) => some (.error e)
    | (w, .ok d) => (EPc.run ⟨w, m.env⟩ (.check d []) es).result

end Unc
