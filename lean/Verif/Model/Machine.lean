import Verif.Model.Copy
import Verif.Model.Umath

/-
Histories of use of the package: sequences of commands that a program can run on numbers with
uncertainties, with the values that it sees. Commands refer to the results of earlier commands.
-/

namespace Unc

/-- Argument of a command: result of an earlier command, or literal value. -/
inductive Arg (F : Type) where
  | ref (k : Nat)
  | const (v : PyVal F)

/-- The commands. -/
inductive Cmd (F : Type) where
  -- Creation of objects:
  /-- `ufloat(n, s, tag)` -/
  | ufloat (n s : F) (tag : Option String)
  /-- `AffineScalarFunc(n, LinearCombination({x: c, ...}))`, where the `x` are variables: what
  `correlated_values()` and the functions of `unumpy` build -/
  | affine (n : F) (items : List (Arg F × F))
  /-- `wrap(f, ...)`; this is also what the creation of the functions of `umath` does -/
  | wrap (df : WrapDef F)
  /-- call of the wrapped function number `f` -/
  | call (f : Nat) (args : List (Arg F)) (kwargs : List (String × Arg F))
  /-- `-x`, etc. -/
  | unop (op : UnOp) (x : Arg F)
  /-- `x + y`, etc. -/
  | binop (op : BinOp) (x y : Arg F)
  /-- `umath.modf(x)`: two results -/
  | modf (x : Arg F)
  /-- `umath.ldexp(x, i)` -/
  | ldexp (x : Arg F) (i : Int)
  /-- call of `wrap_locally_cst_func(f)`, as in `umath.ceil(x)` -/
  | lcst (f : PyFn F) (args : List (Arg F)) (kwargs : List (String × Arg F))
  /-- `copy.copy(x)` -/
  | copy (x : Arg F)
  /-- `copy.deepcopy(x)` -/
  | deepcopy (x : Arg F)
  /-- `pickle.loads(pickle.dumps([x, ...]))` -/
  | pickle (xs : List (Arg F))
  /-- the variable `v`, found as a key of `x.derivatives` -/
  | variable (x : Arg F) (v : VarId)
  -- Update:
  /-- `x.std_dev = s` -/
  | setStd (x : Arg F) (s : F)
  -- Reading:
  /-- `nominal_value(x)` -/
  | nominal (x : Arg F)
  /-- `std_dev(x)` -/
  | stdDev (x : Arg F)
  /-- `x.s` -/
  | s (x : Arg F)
  /-- `x.derivatives` -/
  | derivatives (x : Arg F)
  /-- `x.error_components()` -/
  | errorComponents (x : Arg F)
  /-- `x.std_score(value)` -/
  | stdScore (x : Arg F) (value : F)
  /-- `covariance_matrix([x, ...])` -/
  | covarianceMatrix (xs : List (Arg F))
  /-- `x == y`, etc. -/
  | compare (op : CmpOp) (x y : Arg F)
  /-- `bool(x)` -/
  | toBool (x : Arg F)
  /-- `x.tag` -/
  | tag (x : Arg F)

/-- Commands that only look at values. -/
def Cmd.isRead {F : Type} : Cmd F → Bool
  | .nominal _ | .stdDev _ | .s _ | .derivatives _ | .errorComponents _ | .stdScore _ _
  | .covarianceMatrix _ | .compare _ _ _ | .toBool _ | .tag _ => true
  | _ => false

/-- What a program sees of a command. Dictionaries are seen as functions (the order of their items
is not part of the model's observations). -/
inductive Out (F : Type) where
  /-- the command has no visible result other than the object that it created -/
  | done
  | err (e : PyErr)
  | val (v : PyVal F)
  | bool (b : Bool)
  | dict (l : VarId → Option F)
  | matrix (m : List (List F))
  | tag (t : Option String)
  /-- the command refers to something that does not exist, or a plain value where an object with
  uncertainty is needed -/
  | invalid

/-- The state of a history: all the objects, and the values bound by the commands, in order
(`none` for commands that failed). -/
structure Machine (F : Type) where
  w : World F
  env : List (Option (Val F))

variable {F : Type}

/-- Value of an argument. -/
def Arg.eval (env : List (Option (Val F))) : Arg F → Option (Val F)
  | .ref k => (env[k]?).join
  | .const v => some (.plain v)

/-- Value of an argument that must be a number with uncertainty. -/
def Arg.evalUnc (env : List (Option (Val F))) (a : Arg F) : Option (UF F) :=
  match a.eval env with
  | some (.unc u) => some u
  | _ => none

/-- Values of many arguments. -/
def evalArgs {α β : Type} (ev : α → Option β) : List α → Option (List β)
  | [] => some []
  | a :: as =>
    match ev a with
    | none => none
    | some v =>
      match evalArgs ev as with
      | none => none
      | some vs => some (v :: vs)

/-- Values of keyword arguments. -/
def Arg.evalKw (env : List (Option (Val F))) (p : String × Arg F) : Option (String × Val F) :=
  (p.2.eval env).map (fun v => (p.1, v))

/-- Item of a dictionary of derivatives: its key must be a variable. -/
def Arg.evalItem (env : List (Option (Val F))) (p : Arg F × F) : Option (VarId × F) :=
  ((p.1.evalUnc env).bind UF.var).map (fun v => (v, p.2))

/-- Binds the result of a command. `NotImplemented` is a visible result, but it is not bound. -/
def Machine.bind (env : List (Option (Val F))) (w : World F) :
    PyRes (Val F) → Machine F × Out F
  | .error e => (⟨w, env ++ [none]⟩, .err e)
  | .ok (.plain .notImpl) => (⟨w, env ++ [none]⟩, .val .notImpl)
  | .ok v => (⟨w, env ++ [some v]⟩, .done)

/-- A command that cannot be run. -/
def Machine.invalid (m : Machine F) (n : Nat) : Machine F × Out F :=
  (⟨m.w, m.env ++ List.replicate n none⟩, .invalid)

/-- `x > y` for `y < x`, etc. -/
def CmpOp.swap : CmpOp → CmpOp
  | .eq => .eq | .ne => .ne | .gt => .lt | .ge => .le | .lt => .gt | .le => .ge

/-- Python's fallback when all the comparison methods return `NotImplemented`: identity for `==` and
`!=` (the operands are different objects here), and `TypeError` for the other comparisons. -/
def CmpOp.fallback : CmpOp → PyRes Bool
  | .eq => .ok false
  | .ne => .ok true
  | _ => .error .typeError

variable [PyMath F]

/-- Call of a comparison method of `a`; `CmpOp.fallback` if it returns `NotImplemented`. -/
def World.cmpRun (w : World F) (op : CmpOp) (a : UF F) (b : Val F) : World F × PyRes Bool :=
  match w.cmp BinOp.sub.id op a b with
  | (w, .error e) => (w, .error e)
  | (w, .ok (some r)) => (w, .ok r)
  | (w, .ok none) => (w, op.fallback)

/-- `x op y`, with at least one number with uncertainty. Python calls `type(x).__op__` first, except
if the type of `y` is a strict subclass of the type of `x` (derived quantity compared to a
variable): then, the reflected method of `y` is called first. If the first method returns
`NotImplemented`, the reflected method of the other operand is called. Operands of other types are
assumed not to know how to compare themselves to numbers with uncertainty. -/
def World.compare (op : CmpOp) (w : World F) (x y : Val F) : World F × PyRes Bool :=
  match x, y with
  | .unc a, .unc b =>
    if a.var.isNone && b.var.isSome then w.cmpRun op.swap b x else w.cmpRun op a y
  | .unc a, .plain _ => w.cmpRun op a y
  | .plain _, .unc b => w.cmpRun op.swap b x
  | .plain _, .plain _ => (w, .error .typeError)    -- not a comparison of this package

/-- The variable `v` obtained as a key of `u.derivatives` (core.py 1683-1703): keys are `Variable`
objects. -/
def World.variable (w : World F) (u : UF F) (v : VarId) : World F × PyRes (UF F) :=
  match w.derivatives u with
  | (w, .error e) => (w, .error e)
  | (w, .ok d) =>
    match d.lookup v with
    | none => (w, .error .keyError)
    | some _ =>
      match w.vars[v]? with
      | none => (w, .error .attributeError)   -- no such variable
      | some cell => (w, .ok { nom := cell.nom, lin := cell.lin, var := some v })

/-- `x.tag`: attribute of variables only (core.py 2726, 2768). -/
def World.tag (w : World F) (u : UF F) : World F × PyRes (Option String) :=
  match u.var with
  | none => (w, .error .attributeError)
  | some v =>
    match w.vars[v]? with
    | none => (w, .error .attributeError)   -- no such variable
    | some cell => (w, .ok cell.tag)

/-- Is this a number with uncertainty that depends on no variable? (`umath.modf()` and `umath.ldexp()`
return a plain float for some of these numbers, core.py 1520-1525, umath_core.py 343-350 and 361-374,
depending on whether their linear part was expanded already: they are not part of the histories for
these numbers, see `Machine.step`, and `C30_fails_constant` in Props/C27_Umath.lean.) -/
def World.isConst (w : World F) : Val F → Bool
  | .unc u =>
    match (w.derivatives u).2 with
    | .ok d => d.isEmpty
    | .error _ => false
  | .plain _ => false

/-- A command that reads something of one number with uncertainty. -/
def Machine.read (m : Machine F) (x : Arg F) (f : World F → UF F → World F × PyRes (Out F)) :
    Machine F × Out F :=
  match x.evalUnc m.env with
  | none => m.invalid 0
  | some u =>
    match f m.w u with
    | (w, .error e) => (⟨w, m.env⟩, .err e)
    | (w, .ok o) => (⟨w, m.env⟩, o)

/-- Conversion of the result of a function that reads something. -/
def mapRes {α β : Type} (f : α → β) (r : World F × PyRes α) : World F × PyRes β :=
  (r.1, r.2.map f)

/-- Execution of a command. -/
def Machine.step (m : Machine F) : Cmd F → Machine F × Out F
  | .ufloat n s tag =>
    match m.w.ufloat n s tag with
    | (w, .error e) => (⟨w, m.env ++ [none]⟩, .err e)
    | (w, .ok u) => (⟨w, m.env ++ [some (.unc u)]⟩, .done)
  | .affine n items =>
    match evalArgs (Arg.evalItem m.env) items with
    | none => m.invalid 1
    | some d =>
      if (d.map Prod.fst).Nodup then
        match m.w.alloc (.dict d) with
        | (w, i) => (⟨w, m.env ++ [some (.unc { nom := n, lin := i, var := none })]⟩, .done)
      else m.invalid 1    -- the keys of a dictionary are different
  | .wrap df => (⟨(m.w.wrap df).1, m.env⟩, .done)
  | .call f args kwargs =>
    if f < m.w.wraps.length then
      match evalArgs (Arg.eval m.env) args, evalArgs (Arg.evalKw m.env) kwargs with
      | some a, some k =>
        match m.w.call f a k with
        | (w, r) => Machine.bind m.env w r
      | _, _ => m.invalid 1
    else m.invalid 1
  | .unop op x =>
    match x.evalUnc m.env with
    | none => m.invalid 1
    | some u =>
      match m.w.unop op u with
      | (w, r) => Machine.bind m.env w r
  | .binop op x y =>
    match x.eval m.env, y.eval m.env with
    | some a, some b =>
      if a.isUnc || b.isUnc then
        match m.w.binop op a b with
        | (w, r) => Machine.bind m.env w r
      else m.invalid 1
    | _, _ => m.invalid 1
  | .modf x =>
    match x.eval m.env with
    | none => m.invalid 2
    | some v =>
      if m.w.isConst v then m.invalid 2 else
      match m.w.modf v with
      | (w, .error e) => (⟨w, m.env ++ [none, none]⟩, .err e)
      | (w, .ok (a, b)) => (⟨w, m.env ++ [some a, some (.plain (.flt b))]⟩, .done)
  | .ldexp x i =>
    match x.eval m.env with
    | none => m.invalid 1
    | some v =>
      if m.w.isConst v then m.invalid 1 else
      match m.w.ldexp v i with
      | (w, r) => Machine.bind m.env w r
  | .lcst f args kwargs =>
    match evalArgs (Arg.eval m.env) args, evalArgs (Arg.evalKw m.env) kwargs with
    | some a, some k => Machine.bind m.env m.w (wrapLocallyCst f a k)
    | _, _ => m.invalid 1
  | .copy x =>
    match x.evalUnc m.env with
    | none => m.invalid 1
    | some u =>
      match m.w.copy u with
      | (w, .error e) => (⟨w, m.env ++ [none]⟩, .err e)
      | (w, .ok u) => (⟨w, m.env ++ [some (.unc u)]⟩, .done)
  | .deepcopy x =>
    match x.evalUnc m.env with
    | none => m.invalid 1
    | some u =>
      match m.w.deepcopy u with
      | (w, .error e) => (⟨w, m.env ++ [none]⟩, .err e)
      | (w, .ok u) => (⟨w, m.env ++ [some (.unc u)]⟩, .done)
  | .pickle xs =>
    match evalArgs (Arg.evalUnc m.env) xs with
    | none => m.invalid xs.length
    | some us =>
      match m.w.pickle us with
      | (w, .error e) => (⟨w, m.env ++ List.replicate xs.length none⟩, .err e)
      | (w, .ok us) => (⟨w, m.env ++ us.map (fun u => some (.unc u))⟩, .done)
  | .variable x v =>
    match x.evalUnc m.env with
    | none => m.invalid 1
    | some u =>
      match m.w.variable u v with
      | (w, .error e) => (⟨w, m.env ++ [none]⟩, .err e)
      | (w, .ok u) => (⟨w, m.env ++ [some (.unc u)]⟩, .done)
  | .setStd x s =>
    m.read x (fun w u => mapRes (fun _ => .done) (w.assignStd u s))
  | .nominal x =>
    match x.eval m.env with
    | none => m.invalid 0
    | some v => (m, .val v.nominal)
  | .stdDev x =>
    match x.eval m.env with
    | none => m.invalid 0
    | some v =>
      match m.w.stdDevOf v with
      | (w, .error e) => (⟨w, m.env⟩, .err e)
      | (w, .ok s) => (⟨w, m.env⟩, .val (.flt s))
  | .s x => m.read x (fun w u => mapRes (fun s => .val (.flt s)) (w.affStdDev u))
  | .derivatives x => m.read x (fun w u => mapRes (fun d => .dict (fun v => d.lookup v)) (w.derivatives u))
  | .errorComponents x =>
    m.read x (fun w u => mapRes (fun d => .dict (fun v => d.lookup v)) (w.errorComponents u))
  | .stdScore x value => m.read x (fun w u => mapRes (fun s => .val (.flt s)) (w.stdScore u value))
  | .covarianceMatrix xs =>
    match evalArgs (Arg.evalUnc m.env) xs with
    | none => m.invalid 0
    | some us =>
      match m.w.covarianceMatrix us with
      | (w, .error e) => (⟨w, m.env⟩, .err e)
      | (w, .ok l) => (⟨w, m.env⟩, .matrix l)
  | .compare op x y =>
    match x.eval m.env, y.eval m.env with
    | some a, some b =>
      if a.isUnc || b.isUnc then
        match m.w.compare op a b with
        | (w, .error e) => (⟨w, m.env⟩, .err e)
        | (w, .ok r) => (⟨w, m.env⟩, .bool r)
      else m.invalid 0
    | _, _ => m.invalid 0
  | .toBool x => m.read x (fun w u => mapRes .bool (w.toBool BinOp.sub.id u))
  | .tag x => m.read x (fun w u => mapRes .tag (w.tag u))

/-- Execution of a sequence of commands, with what the program sees. -/
def Machine.run (m : Machine F) : List (Cmd F) → Machine F × List (Out F)
  | [] => (m, [])
  | c :: cs =>
    match m.step c with
    | (m, o) =>
      match Machine.run m cs with
      | (m, os) => (m, o :: os)

/-- State after `import uncertainties`. -/
def Machine.init : Machine F := ⟨World.init, []⟩

end Unc
