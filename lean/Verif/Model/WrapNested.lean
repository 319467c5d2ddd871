import Verif.Model.WrapEffects

/-
`wrap` (core.py 436-752) for functions with side effects that can also call wrapped functions: recursive functions (a function that
calls its own wrapped version), and functions that call each other. Such calls are made while a call of the same wrapped function
is in progress: they can change its caches in the middle of this call.

This is the same code as in `Model/WrapEffects.lean`, where functions are *programs*. Simplification: the arguments of the calls that
functions make are plain values, or numbers with uncertainty that exist before the calls.
-/

namespace Unc

set_option autoImplicit false

/-- What a call of a wrapped function returns (see `callE`). -/
abbrev CallResult (F : Type) := PyRes (PyVal F ⊕ (F × List (Item F)))

/-- A program, that reads and changes a state of type `S`, calls wrapped functions (by their number), and returns a value or
raises an exception. It can catch the exceptions of the calls. -/
inductive Prog (S F α : Type) where
  | ret (r : PyRes α)
  | get (k : S → Prog S F α)
  | put (s : S) (k : Prog S F α)
  | call (j : Nat) (args : List (Val F)) (kwargs : List (String × Val F)) (nodup : (kwargs.map Prod.fst).Nodup)
      (k : CallResult F → Prog S F α)

variable {S F : Type}

/-- One program after another (unless there is an exception). -/
def Prog.bind {α β : Type} (p : Prog S F α) (q : α → Prog S F β) : Prog S F β :=
  match p with
  | .ret (.error e) => .ret (.error e)
  | .ret (.ok a) => q a
  | .get k => .get fun s => (k s).bind q
  | .put s k => .put s (k.bind q)
  | .call j args kwargs nodup k => .call j args kwargs nodup fun r => (k r).bind q

/-- A function given to `wrap`. -/
abbrev PFn (S F : Type) := List (PyVal F) → KwArgs F → Prog S F (PyVal F)

/-- A derivative. -/
abbrev PDeriv (S F : Type) := List (PyVal F) → KwArgs F → Prog S F F

/-- The two calls of the function and the quotient (core.py 342-356); see `shiftedCalls`. -/
def shiftedCallsP [PyFloat F] (f : PFn S F) (plus minus : List (PyVal F) × KwArgs F) (step : F) : Prog S F F :=
  (f plus.1 plus.2).bind fun vp => (f minus.1 minus.2).bind fun vm => .ret (centralDiff vp vm step)

/-- `partial_derivative(f, arg_ref)` (core.py 303-358); see `partialDerivativeE`. -/
def partialDerivativeP [PyFloat F] (f : PFn S F) : ArgRef → PDeriv S F
  | .pos i => fun args kwargs =>
    match args[i]? with
    | none => .ret (.error .indexError)
    | some (.flt x) =>
      let step := derivStep x
      shiftedCallsP f (args.set i (.flt (x + step)), kwargs)
        (args.set i (.flt (x + step - PyFloat.two * step)), kwargs) step
    | some _ => .ret (.error .typeError)
  | .kw name => fun args kwargs =>
    match kwargs.lookup name with
    | none => .ret (.error .keyError)
    | some (.flt x) =>
      let step := derivStep x
      shiftedCallsP f (args, setKw kwargs name (.flt (x + step)))
        (args, setKw kwargs name (.flt (x + step - PyFloat.two * step))) step
    | some _ => .ret (.error .typeError)

/-- The arguments of `wrap` (core.py 436) and `getargspec(f).args`; see `EWrapDef`. -/
structure PWrapDef (S F : Type) where
  f : PFn S F
  derivativesArgs : Nat → Option (PDeriv S F)
  derivativesKwargs : List (String × Option (PDeriv S F))
  argspec : Option (List String)
  kwargsNodup : (derivativesKwargs.map Prod.fst).Nodup := by simp
  argspecNodup : ∀ names, argspec = some names → names.Nodup := by simp

/-- The closure variables of `f_with_affine_output`: `derivatives_args_index` and `derivatives_all_kwargs`. -/
structure PWrapped (S F : Type) where
  df : PWrapDef S F
  iter : EIter (PDeriv S F)
  kw : List (String × PDeriv S F)

/-- The wrapped functions of the program (the numbers that are not used can be those of any function). -/
abbrev Closures (S F : Type) := Nat → PWrapped S F

/-- The closure variables of the function number `j` are changed. -/
def Closures.set (w : Closures S F) (j : Nat) (wf : PWrapped S F) : Closures S F := fun i => if i = j then wf else w i

/-- How calls of wrapped functions are done. -/
abbrev NestedCall (S F : Type) :=
  Nat → List (Val F) → List (String × Val F) → Closures S F → S → Closures S F × S × CallResult F

/-- The run of a program. -/
def Prog.run {α : Type} (call : NestedCall S F) : Prog S F α → Closures S F → S → Closures S F × S × PyRes α
  | .ret r, w, s => (w, s, r)
  | .get k, w, s => (k s).run call w s
  | .put s k, w, _ => k.run call w s
  | .call j args kwargs _ k, w, s =>
    match call j args kwargs w s with
    | (w, s, r) => (k r).run call w s

section
variable [PyFloat F]

/-- `wrap(f, derivatives_args, derivatives_kwargs)` (core.py 436-626); see `mkWrappedE`. -/
def mkWrappedP (df : PWrapDef S F) : PWrapped S F :=
  let num := partialDerivativeP df.f
  let it := EIter.mk' df.derivativesArgs
  let kw := initKwargsE num df.derivativesKwargs []
  let (it, kw) :=
    match df.argspec with
    | none => (it, kw)
    | some names => initArgspecE num 0 names it kw
  let it := { it with
    returnedElements := convertNonesE num 0 it.returnedElements
    noneConverter := fun index => some (num (.pos index)) }
  { df := df, iter := it, kw := kw }

omit [PyFloat F] in
/-- `derivatives_args_index[pos]` in a call (core.py 727). A `None` is not callable. -/
def PWrapped.posDeriv (w : PWrapped S F) (pos : Nat) : PWrapped S F × PyRes (PDeriv S F) :=
  match w.iter.getItem pos with
  | (it, .ok (some d)) => ({ w with iter := it }, .ok d)
  | (it, .ok none) => ({ w with iter := it }, .error .typeError)
  | (it, .error e) => ({ w with iter := it }, .error e)

/-- `derivatives_all_kwargs.setdefault(name, partial_derivative(f, name))` (core.py 738-741). -/
def PWrapped.kwDeriv (w : PWrapped S F) (name : String) : PWrapped S F × PDeriv S F :=
  match w.kw.lookup name with
  | some d => (w, d)
  | none =>
    let d := partialDerivativeP w.df.f (.kw name)
    ({ w with kw := w.kw ++ [(name, d)] }, d)

omit [PyFloat F] in
/-- The loop over `pos_w_uncert` (core.py 724-729), in a call of the function number `j`. -/
def posTermsP (call : NestedCall S F) (j : Nat) (argsValues : List (PyVal F)) (kwValues : KwArgs F) :
    Nat → List (Val F) → Closures S F → S → List (Item F) → Closures S F × S × PyRes (List (Item F))
  | _, [], w, s, acc => (w, s, .ok acc)
  | pos, .plain _ :: rest, w, s, acc => posTermsP call j argsValues kwValues (pos + 1) rest w s acc
  | pos, .unc u :: rest, w, s, acc =>
    match (w j).posDeriv pos with
    | (wf, .error e) => (w.set j wf, s, .error e)
    | (wf, .ok d) =>
      match (d argsValues kwValues).run call (w.set j wf) s with
      | (w, s, .error e) => (w, s, .error e)
      | (w, s, .ok c) => posTermsP call j argsValues kwValues (pos + 1) rest w s (.pair c u.lin :: acc)

/-- The loop over `names_w_uncert` (core.py 731-747), in a call of the function number `j`. -/
def kwTermsP (call : NestedCall S F) (j : Nat) (argsValues : List (PyVal F)) (kwValues : KwArgs F) :
    List (String × Val F) → Closures S F → S → List (Item F) → Closures S F × S × PyRes (List (Item F))
  | [], w, s, acc => (w, s, .ok acc)
  | (_, .plain _) :: rest, w, s, acc => kwTermsP call j argsValues kwValues rest w s acc
  | (name, .unc u) :: rest, w, s, acc =>
    match (w j).kwDeriv name with
    | (wf, d) =>
      match (d argsValues kwValues).run call (w.set j wf) s with
      | (w, s, .error e) => (w, s, .error e)
      | (w, s, .ok c) => kwTermsP call j argsValues kwValues rest w s (.pair c u.lin :: acc)

/-- `f_with_affine_output(*args, **kwargs)` (core.py 646-752) for the function number `j`; `call` does the calls of wrapped functions
that the functions of the user make. -/
def bodyP (call : NestedCall S F) : NestedCall S F := fun j args kwargs w s =>
  let argsValues := args.map Val.nominal
  let kwValues := kwargs.map (fun p => (p.1, p.2.nominal))
  if args.all (fun a => !a.isUnc) && kwargs.all (fun p => !p.2.isUnc) then
    match ((w j).df.f argsValues kwValues).run call w s with            -- core.py 668-669
    | (w, s, .error e) => (w, s, .error e)
    | (w, s, .ok v) => (w, s, .ok (.inl v))
  else
    match ((w j).df.f argsValues kwValues).run call w s with            -- f_nominal_value (core.py 705)
    | (w, s, .error e) => (w, s, .error e)
    | (w, s, .ok v) =>
      if !v.floatLike then (w, s, .ok (.inl .notImpl))   -- core.py 713-714
      else
        match posTermsP call j argsValues kwValues 0 args w s [] with
        | (w, s, .error e) => (w, s, .error e)
        | (w, s, .ok acc) =>
          match kwTermsP call j argsValues kwValues kwargs w s acc with
          | (w, s, .error e) => (w, s, .error e)
          | (w, s, .ok acc) =>
            match v.toFloat with                          -- AffineScalarFunc.__init__
            | .error e => (w, s, .error e)
            | .ok x => (w, s, .ok (.inr (x, acc)))

end

/-- `RecursionError`, a class of exceptions of Python. -/
def recursionError : PyErr := .other 0

/-- A call of a wrapped function, with at most `limit` calls inside each other; beyond, Python raises an exception. Simplification: the limit
of Python is a number of Python functions, of any kind. -/
def callP [PyFloat F] : (limit : Nat) → NestedCall S F
  | 0 => fun _ _ _ w s => (w, s, .error recursionError)
  | limit + 1 => bodyP (callP limit)

/-- A call made by the program: the limit, the number of the function, the arguments, and the state of the program when it starts. -/
structure PCall (S F : Type) where
  limit : Nat
  j : Nat
  args : List (Val F)
  kwargs : List (String × Val F)
  nodup : (kwargs.map Prod.fst).Nodup
  state : S

/-- The wrapped functions after a history of calls. -/
def callsP [PyFloat F] : List (PCall S F) → Closures S F → Closures S F
  | [], w => w
  | c :: rest, w => callsP rest (callP c.limit c.j c.args c.kwargs w c.state).1

end Unc
