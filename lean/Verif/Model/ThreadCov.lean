import Verif.Model.ThreadStd

/-
Model of what happens inside `covariance_matrix(nums_with_uncert)` (core.py 2883-2926) when other threads change
the standard deviations of variables during the call.

The attribute `_std_dev` of a variable is read once for each element that contains this variable (core.py 2911).
Other threads can run between any two of these readings.

Simplification: the derivatives of the numbers (core.py 2904, 2909) are all read before the first element. They
never change once they are known (C88), and the threads that are inside this reading are modelled in
Model/Threads.lean.
-/

namespace Unc

set_option autoImplicit false

variable {F : Type}

/-- The variables of the loops of `covariance_matrix` (core.py 2902-2919), except those of the current sum. -/
structure CLoop (F : Type) where
  /-- `derivatives1` (line 2904) -/
  d1 : Derivs F
  /-- the derivatives of the numbers of the line after the current one (line 2908) -/
  d2s : List (Derivs F)
  /-- `coefs_expr1` (line 2906) -/
  row : List F
  /-- the derivatives of the numbers before the one of the line -/
  before : List (Derivs F)
  /-- the derivatives of the numbers after the one of the line (line 2903) -/
  after : List (Derivs F)
  /-- `covariance_matrix` (line 2902) -/
  rows : List (List F)

/-- Where a thread is, in `covariance_matrix`. -/
inductive CPc (F : Type) where
  /-- in the sum for an element (lines 2910-2917); `d2`: `derivatives2`; `todo`: the items of `derivatives1` that the
  sum has not reached; `acc`: the sum so far -/
  | sum (l : CLoop F) (d2 todo : Derivs F) (acc : F)
  /-- line 2926 -/
  | done (r : PyRes (List (List F)))

section
variable [PyFloat F]

/-- Start of a line (core.py 2903-2909). There is always a number in the line. -/
def CPc.line (before : List (Derivs F)) (d1 : Derivs F) (after : List (Derivs F)) (rows : List (List F)) : CPc F :=
  match before ++ [d1] with
  | [] => .done (.ok rows)
  | d2 :: d2s => .sum ⟨d1, d2s, [], before, after, rows⟩ d2 d1 0

/-- Start of the loops (core.py 2902-2903). -/
def CPc.start : List (Derivs F) → CPc F
  | [] => .done (.ok [])
  | d1 :: after => CPc.line [] d1 after []

/-- The result, when the thread is done. -/
def CPc.result : CPc F → Option (PyRes (List (List F)))
  | .done r => some r
  | _ => none

/-- One operation of the thread (core.py 2903-2926); `vars` contains the current attributes of the variables. The
symmetrization (lines 2921-2924) only reads and changes lists that are not shared: it is a single operation. -/
def CPc.step (vars : List (VarCell F)) : CPc F → CPc F
  | .sum l _ [] acc =>
    match l.d2s with
    | d2 :: d2s => .sum { l with d2s := d2s, row := l.row ++ [acc] } d2 l.d1 0   -- next element of the line
    | [] =>
      match l.after with
      | [] => .done (symmetrize 0 (l.rows ++ [l.row ++ [acc]]))   -- lines 2921-2926
      | d :: ds => CPc.line (l.before ++ [l.d1]) d ds (l.rows ++ [l.row ++ [acc]])   -- next line
  | .sum l d2 ((v, a) :: todo) acc =>
    match d2.lookup v with
    | none => .sum l d2 todo acc   -- not a common variable (line 2914)
    | some b =>
      match vars[v]? with
      | none => .done (.error .attributeError)   -- no such variable
      | some cell =>
        match PyFloat.sq cell.std with
        | .error e => .done (.error e)
        | .ok s2 => .sum l d2 todo (acc + a * b * s2)
  | .done r => .done r

/-- The derivatives of numbers (core.py 2904, 2909). -/
def World.derivsAll : List (UF F) → World F → World F × PyRes (List (Derivs F))
  | [], w => (w, .ok [])
  | u :: us, w =>
    match w.derivatives u with
    | (w, .error e) => (w, .error e)
    | (w, .ok d) =>
      match World.derivsAll us w with
      | (w, .error e) => (w, .error e)
      | (w, .ok ds) => (w, .ok (d :: ds))

end

variable [PyMath F]

/-- The thread, starting in some state of the objects of the program, after some events. -/
def CPc.run : Machine F → CPc F → List (Event F) → CPc F
  | _, pc, [] => pc
  | m, pc, none :: es => CPc.run m (pc.step m.w.vars) es
  | m, pc, some c :: es => CPc.run (m.step c).1 pc es

/-- `covariance_matrix(xs)` in a thread, with the given events once the derivatives are known (core.py 2883-2926);
`none` if some element of `xs` is not a number with uncertainty, or if the call is not over. -/
def Machine.covDuring (m : Machine F) (xs : List (Arg F)) (es : List (Event F)) : Option (PyRes (List (List F))) :=
  match evalArgs (Arg.evalUnc m.env) xs with
  | none => none
  | some us =>
    match World.derivsAll us m.w with
    | (_, .error e) => some (.error e)
    | (w, .ok ds) => (CPc.run ⟨w, m.env⟩ (CPc.start ds) es).result

end Unc
