import Verif.Model.Wrap

/-
Model of the objects (`AffineScalarFunc`, `Variable`) and of the API functions that read, create
and update them: calls of wrapped functions, `derivatives`, `error_components`, `std_dev` and its
setter, comparisons, `covariance_matrix`, `std_score`.

All the functions take the state of the program and return the new state along with a value or an
exception; like in Python, the changes made before an exception is raised are kept.
-/

namespace Unc

variable {F : Type}

/-- An `AffineScalarFunc` object (core.py 1586-1677): nominal value, address of the
`LinearCombination`, and for `Variable` objects (core.py 2715-2757) their identity. -/
structure UF (F : Type) where
  nom : F
  lin : NodeId
  var : Option VarId
  deriving DecidableEq, Repr

/-- The attributes of a `Variable` (core.py 2728-2768): nominal value, current `_std_dev`, tag, and
its own linear part. -/
structure VarCell (F : Type) where
  nom : F
  std : F
  tag : Option String
  lin : NodeId

/-- The state of the program: all the objects created by the package. -/
structure World (F : Type) where
  nodes : Heap F
  vars : List (VarCell F)
  wraps : List (Wrapped F)

/-- A Python value: number with uncertainty, or other value. -/
inductive Val (F : Type) where
  | unc (u : UF F)
  | plain (v : PyVal F)
  deriving DecidableEq, Repr

/-- `isinstance(value, AffineScalarFunc)` -/
def Val.isUnc : Val F → Bool
  | .unc _ => true
  | .plain _ => false

/-- `nominal_value(x)` (core.py 2853-2866). -/
def Val.nominal : Val F → PyVal F
  | .unc u => .flt u.nom
  | .plain v => v

/-- Creation of a `LinearCombination` object. -/
def World.alloc (w : World F) (lc : LC F) : World F × NodeId :=
  ({ w with nodes := w.nodes ++ [lc] }, w.nodes.length)

section
variable [PyFloat F]

/-! ### Calling a wrapped function -/

/-- `float(x)` for a number (core.py 1659). -/
def PyVal.toFloat : PyVal F → PyRes F
  | .flt x => .ok x
  | .cplx => .error .typeError
  | .other _ => .error .typeError
  | .notImpl => .error .typeError

/-- The loop over `pos_w_uncert` (core.py 724-729): `pos` is the position of the first argument of
the list; `acc` is `linear_part` (reversed, as in `LC.terms`). -/
def posTerms (argsValues : List (PyVal F)) (kwValues : KwArgs F) :
    Nat → List (Val F) → Wrapped F → List (Item F) → Wrapped F × PyRes (List (Item F))
  | _, [], wf, acc => (wf, .ok acc)
  | pos, .plain _ :: rest, wf, acc => posTerms argsValues kwValues (pos + 1) rest wf acc
  | pos, .unc u :: rest, wf, acc =>
    match wf.posDeriv pos with
    | (wf', .error e) => (wf', .error e)
    | (wf', .ok d) =>
      match d argsValues kwValues with
      | .error e => (wf', .error e)
      | .ok c => posTerms argsValues kwValues (pos + 1) rest wf' (.pair c u.lin :: acc)

/-- The loop over `names_w_uncert` (core.py 731-747). -/
def kwTerms (argsValues : List (PyVal F)) (kwValues : KwArgs F) :
    List (String × Val F) → Wrapped F → List (Item F) → Wrapped F × PyRes (List (Item F))
  | [], wf, acc => (wf, .ok acc)
  | (_, .plain _) :: rest, wf, acc => kwTerms argsValues kwValues rest wf acc
  | (name, .unc u) :: rest, wf, acc =>
    match wf.kwDeriv name with
    | (wf', d) =>
      match d argsValues kwValues with
      | .error e => (wf', .error e)
      | .ok c => kwTerms argsValues kwValues rest wf' (.pair c u.lin :: acc)

/-- `f_with_affine_output(*args, **kwargs)` (core.py 646-752), for a wrapped function in state
`wf`. Returns the new state of the wrapped function; the terms of the new `LinearCombination` are
returned instead of being allocated here. -/
def callTerms (wf : Wrapped F) (args : List (Val F)) (kwargs : List (String × Val F)) :
    Wrapped F × PyRes (PyVal F ⊕ (F × List (Item F))) :=
  let argsValues := args.map Val.nominal
  let kwValues := kwargs.map (fun p => (p.1, p.2.nominal))
  if args.all (fun a => !a.isUnc) && kwargs.all (fun p => !p.2.isUnc) then
    -- No number with uncertainty: return f(*args, **kwargs)   (core.py 668-669)
    match wf.df.f argsValues kwValues with
    | .error e => (wf, .error e)
    | .ok v => (wf, .ok (.inl v))
  else
    match wf.df.f argsValues kwValues with        -- f_nominal_value (core.py 705)
    | .error e => (wf, .error e)
    | .ok v =>
      if !v.floatLike then (wf, .ok (.inl .notImpl))   -- core.py 713-714
      else
        match posTerms argsValues kwValues 0 args wf [] with
        | (wf, .error e) => (wf, .error e)
        | (wf, .ok acc) =>
          match kwTerms argsValues kwValues kwargs wf acc with
          | (wf, .error e) => (wf, .error e)
          | (wf, .ok acc) =>
            match v.toFloat with                        -- AffineScalarFunc.__init__
            | .error e => (wf, .error e)
            | .ok x => (wf, .ok (.inr (x, acc)))

/-- Call of the wrapped function number `fid`. -/
def World.call (w : World F) (fid : Nat) (args : List (Val F)) (kwargs : List (String × Val F)) :
    World F × PyRes (Val F) :=
  match w.wraps[fid]? with
  | none => (w, .error .typeError)   -- no such function
  | some wf =>
    match callTerms wf args kwargs with
    | (wf', .error e) => ({ w with wraps := w.wraps.set fid wf' }, .error e)
    | (wf', .ok (.inl v)) => ({ w with wraps := w.wraps.set fid wf' }, .ok (.plain v))
    | (wf', .ok (.inr (x, ts))) =>
      let w1 := { w with wraps := w.wraps.set fid wf' }
      let (w2, n) := w1.alloc (.terms ts)
      (w2, .ok (.unc { nom := x, lin := n, var := none }))

/-- `wrap(...)`: creation of a wrapped function; returns its number. -/
def World.wrap (w : World F) (df : WrapDef F) : World F × Nat :=
  ({ w with wraps := w.wraps ++ [mkWrapped df] }, w.wraps.length)

/-! ### Variables -/

/-- `ufloat(nominal_value, std_dev, tag)` with numbers (core.py 3250-3283), i.e. `Variable.__init__`
(core.py 2728-2768): the test of the setter is done before the model creates anything, because
objects created before the exception are not reachable. -/
def World.ufloat (w : World F) (n s : F) (tag : Option String) : World F × PyRes (UF F) :=
  if PyFloat.ltb s 0 && !PyFloat.isInf s then (w, .error .negativeStdDev)
  else
    let v := w.vars.length
    let (w1, node) := w.alloc (.dict [(v, 1)])       -- LinearCombination({self: 1.})
    ({ w1 with vars := w1.vars ++ [{ nom := n, std := s, tag := tag, lin := node }] },
     .ok { nom := n, lin := node, var := some v })

/-- The setter of `Variable.std_dev` (core.py 2778-2789). -/
def World.setStd (w : World F) (v : VarId) (s : F) : World F × PyRes Unit :=
  match w.vars[v]? with
  | none => (w, .error .attributeError)   -- no such variable
  | some cell =>
    if PyFloat.ltb s 0 && !PyFloat.isInf s then (w, .error .negativeStdDev)
    else ({ w with vars := w.vars.set v { cell with std := s } }, .ok ())

/-- `x.std_dev = s` for any number with uncertainty: `AffineScalarFunc.std_dev` is a property
without setter (core.py 1817-1835). -/
def World.assignStd (w : World F) (u : UF F) (s : F) : World F × PyRes Unit :=
  match u.var with
  | none => (w, .error .attributeError)
  | some v => w.setStd v s

/-! ### Reading -/

/-- `x.derivatives` (core.py 1684-1703). -/
def World.derivatives (w : World F) (u : UF F) : World F × PyRes (Derivs F) :=
  match readDerivs w.nodes u.lin with
  | (h, r) => ({ w with nodes := h }, r)

/-- The loop of `error_components` (core.py 1798-1812). -/
def errorLoop (vars : List (VarCell F)) : Derivs F → PyRes (Derivs F)
  | [] => .ok []
  | (v, d) :: rest =>
    match vars[v]? with
    | none => .error .attributeError   -- no such variable
    | some cell =>
      match errorLoop vars rest with
      | .error e => .error e
      | .ok l =>
        if PyFloat.eqb cell.std 0 then .ok ((v, 0) :: l)
        else .ok ((v, PyFloat.abs (d * cell.std)) :: l)

/-- `x.error_components()` (core.py 1783-1814). -/
def World.errorComponents (w : World F) (u : UF F) : World F × PyRes (Derivs F) :=
  match w.derivatives u with
  | (w', .error e) => (w', .error e)
  | (w', .ok d) => (w', errorLoop w'.vars d)

/-- `sum(delta**2 for delta in ...)` (core.py 1834), starting from `acc`. -/
def sumSquares : List F → F → PyRes F
  | [], acc => .ok acc
  | x :: xs, acc =>
    match PyFloat.sq x with
    | .error e => .error e
    | .ok y => sumSquares xs (acc + y)

/-- `AffineScalarFunc.std_dev` (core.py 1817-1835), also available as `x.s` (core.py 1838). -/
def World.affStdDev (w : World F) (u : UF F) : World F × PyRes F :=
  match w.errorComponents u with
  | (w', .error e) => (w', .error e)
  | (w', .ok comps) =>
    match sumSquares (comps.map Prod.snd) 0 with
    | .error e => (w', .error e)
    | .ok t => (w', PyFloat.sqrt t)

/-- `x.std_dev`: overridden in `Variable` (core.py 2770-2772). -/
def World.stdDev (w : World F) (u : UF F) : World F × PyRes F :=
  match u.var with
  | none => w.affStdDev u
  | some v =>
    match w.vars[v]? with
    | none => (w, .error .attributeError)   -- no such variable
    | some cell => (w, .ok cell.std)

/-- `std_dev(x)` (core.py 2868-2881). -/
def World.stdDevOf (w : World F) : Val F → World F × PyRes F
  | .unc u => w.stdDev u
  | .plain _ => (w, .ok 0)

/-- `x.std_score(value)` (core.py 2349-2362). The subtraction is done first; only
`ZeroDivisionError` is caught. -/
def World.stdScore (w : World F) (u : UF F) (value : F) : World F × PyRes F :=
  match w.stdDev u with
  | (w', .error .zeroDivisionError) => (w', .error .valueError)
  | (w', .error e) => (w', .error e)
  | (w', .ok s) =>
    match PyFloat.truediv (value - u.nom) s with
    | .error .zeroDivisionError => (w', .error .valueError)
    | .error e => (w', .error e)
    | .ok r => (w', .ok r)

/-! ### Covariance matrix -/

/-- One element (core.py 2910-2917): the sum over the variables common to both dictionaries. The
order of iteration over a Python set is not specified; the order of the first dictionary is used. -/
def covElem (vars : List (VarCell F)) (d2 : Derivs F) : Derivs F → F → PyRes F
  | [], acc => .ok acc
  | (v, a) :: rest, acc =>
    match d2.lookup v with
    | none => covElem vars d2 rest acc
    | some b =>
      match vars[v]? with
      | none => .error .attributeError   -- no such variable
      | some cell =>
        match PyFloat.sq cell.std with
        | .error e => .error e
        | .ok s2 => covElem vars d2 rest (acc + a * b * s2)

/-- One line of the lower triangle: the loop over `nums_with_uncert[:i1]` (core.py 2908-2917). -/
def World.covRow (d1 : Derivs F) : List (UF F) → World F → World F × PyRes (List F)
  | [], w => (w, .ok [])
  | u2 :: rest, w =>
    match w.derivatives u2 with
    | (w, .error e) => (w, .error e)
    | (w, .ok d2) =>
      match covElem w.vars d2 d1 0 with
      | .error e => (w, .error e)
      | .ok x =>
        match World.covRow d1 rest w with
        | (w, .error e) => (w, .error e)
        | (w, .ok l) => (w, .ok (x :: l))

/-- The loop over `enumerate(nums_with_uncert, 1)` (core.py 2903-2919): `done` are the numbers
before the first one of the list. -/
def World.covRows (done : List (UF F)) : List (UF F) → World F → World F × PyRes (List (List F))
  | [], w => (w, .ok [])
  | u :: rest, w =>
    match w.derivatives u with
    | (w, .error e) => (w, .error e)
    | (w, .ok d1) =>
      match World.covRow d1 (done ++ [u]) w with
      | (w, .error e) => (w, .error e)
      | (w, .ok row) =>
        match World.covRows (done ++ [u]) rest w with
        | (w, .error e) => (w, .error e)
        | (w, .ok rows) => (w, .ok (row :: rows))

/-- `covariance_matrix[j][i] for j in range(i+1, len(covariance_matrix))` (core.py 2923-2924):
the elements number `i` of the lines after line `i`. -/
def column (i : Nat) : List (List F) → PyRes (List F)
  | [] => .ok []
  | row :: rows =>
    match row[i]? with
    | none => .error .indexError
    | some x =>
      match column i rows with
      | .error e => .error e
      | .ok l => .ok (x :: l)

/-- Symmetrization (core.py 2921-2924). The lines that are extended are those before the lines
that are read, so that reading the original lines is the same. -/
def symmetrize (i : Nat) : List (List F) → PyRes (List (List F))
  | [] => .ok []
  | row :: rows =>
    match column i rows with
    | .error e => .error e
    | .ok col =>
      match symmetrize (i + 1) rows with
      | .error e => .error e
      | .ok m => .ok ((row ++ col) :: m)

/-- `covariance_matrix(nums_with_uncert)` (core.py 2883-2926). -/
def World.covarianceMatrix (w : World F) (us : List (UF F)) : World F × PyRes (List (List F)) :=
  match World.covRows [] us w with
  | (w, .error e) => (w, .error e)
  | (w, .ok rows) => (w, symmetrize 0 rows)

/-! ### Comparisons -/

/-- `to_affine_scalar(x)` (core.py 270-290); `none` for `NotUpcast`. -/
def World.toAffine (w : World F) : Val F → World F × PyRes (Option (UF F))
  | .unc u => (w, .ok (some u))
  | .plain (.flt x) =>
    let (w', n) := w.alloc (.dict [])
    (w', .ok (some { nom := x, lin := n, var := none }))
  | .plain .cplx => (w, .error .typeError)      -- float(1j)
  | .plain (.other _) => (w, .ok none)
  | .plain .notImpl => (w, .ok none)

/-- `eq_on_aff_funcs` (core.py 823-831); `sub` is the number of the wrapped function
`AffineScalarFunc.__sub__`. -/
def World.eqAff (sub : Nat) (w : World F) (x y : UF F) : World F × PyRes Bool :=
  match w.call sub [.unc x, .unc y] [] with
  | (w, .error e) => (w, .error e)
  | (w, .ok (.plain _)) => (w, .error .attributeError)   -- no _nominal_value attribute
  | (w, .ok (.unc diff)) =>
    if PyFloat.truthy diff.nom then (w, .ok false)
    else
      match w.stdDev diff with
      | (w, .error e) => (w, .error e)
      | (w, .ok s) => (w, .ok (!PyFloat.truthy s))

/-- `ne_on_aff_funcs` (core.py 833-839). -/
def World.neAff (sub : Nat) (w : World F) (x y : UF F) : World F × PyRes Bool :=
  match w.eqAff sub x y with
  | (w, .error e) => (w, .error e)
  | (w, .ok b) => (w, .ok (!b))

/-- `gt_on_aff_funcs` (core.py 841-846): `a > b` is `b < a` for floats. -/
def World.gtAff (w : World F) (x y : UF F) : World F × PyRes Bool :=
  (w, .ok (PyFloat.ltb y.nom x.nom))

/-- `lt_on_aff_funcs` (core.py 857-862). -/
def World.ltAff (w : World F) (x y : UF F) : World F × PyRes Bool :=
  (w, .ok (PyFloat.ltb x.nom y.nom))

/-- `ge_on_aff_funcs` (core.py 848-855). -/
def World.geAff (sub : Nat) (w : World F) (x y : UF F) : World F × PyRes Bool :=
  match w.gtAff x y with
  | (w, .error e) => (w, .error e)
  | (w, .ok true) => (w, .ok true)
  | (w, .ok false) => w.eqAff sub x y

/-- `le_on_aff_funcs` (core.py 864-871). -/
def World.leAff (sub : Nat) (w : World F) (x y : UF F) : World F × PyRes Bool :=
  match w.ltAff x y with
  | (w, .error e) => (w, .error e)
  | (w, .ok true) => (w, .ok true)
  | (w, .ok false) => w.eqAff sub x y

/-- The six comparison operators. -/
inductive CmpOp where
  | eq | ne | gt | ge | lt | le
  deriving DecidableEq, Repr

/-- The functions given to `force_aff_func_args` (core.py 1768-1779). -/
def World.cmpAff (sub : Nat) (op : CmpOp) (w : World F) (x y : UF F) : World F × PyRes Bool :=
  match op with
  | .eq => w.eqAff sub x y
  | .ne => w.neAff sub x y
  | .gt => w.gtAff x y
  | .ge => w.geAff sub x y
  | .lt => w.ltAff x y
  | .le => w.leAff sub x y

/-- `force_aff_func_args(func)(x, y)` (core.py 776-806); `none` for `NotImplemented`. -/
def World.cmp (sub : Nat) (op : CmpOp) (w : World F) (x : UF F) (y : Val F) :
    World F × PyRes (Option Bool) :=
  match w.toAffine y with
  | (w, .error e) => (w, .error e)
  | (w, .ok none) => (w, .ok none)
  | (w, .ok (some y')) =>
    match w.cmpAff sub op x y' with
    | (w, .error e) => (w, .error e)
    | (w, .ok b) => (w, .ok (some b))

/-- `AffineScalarFunc.__bool__` (core.py 1723-1734): `self != 0.` -/
def World.toBool (sub : Nat) (w : World F) (x : UF F) : World F × PyRes Bool :=
  match w.cmp sub .ne x (.plain (.flt 0)) with
  | (w, .error e) => (w, .error e)
  | (w, .ok (some b)) => (w, .ok b)
  | (w, .ok none) => (w, .ok true)    -- not reachable: a float is always converted

/-- `copy.copy(x)` and `copy.deepcopy(x)` for a variable (core.py 2814-2845). -/
def World.copyVar (w : World F) (v : VarId) : World F × PyRes (UF F) :=
  match w.vars[v]? with
  | none => (w, .error .attributeError)   -- no such variable
  | some cell => w.ufloat cell.nom cell.std cell.tag

end

end Unc
