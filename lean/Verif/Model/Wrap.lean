import Verif.Model.LinComb

/-
Model of numerical differentiation (core.py 292-358), of `IndexableIter` (core.py 380-434) and of
the set-up part of `wrap` (core.py 551-626). The call of a wrapped function is in `World.lean`.
-/

namespace Unc

variable {F : Type}

/-- Python values without uncertainty, as far as this package distinguishes them. -/
inductive PyVal (F : Type) where
  /-- a real number: `float`, and also `int`, `bool`, `numpy` scalars... which are converted to
  `float` by the code when needed; the model does not distinguish them from the float -/
  | flt (x : F)
  /-- a complex number (an instance of `numbers.Number` that cannot be converted to `float`) -/
  | cplx
  /-- any other object (string, list, array...) -/
  | other (code : Nat)
  /-- `NotImplemented` -/
  | notImpl
  deriving Repr, DecidableEq

/-- `isinstance(x, FLOAT_LIKE_TYPES)` (core.py 95, 128): instances of `numbers.Number`. -/
def PyVal.floatLike : PyVal F → Bool
  | .flt _ => true
  | .cplx => true
  | .other _ => false
  | .notImpl => false

/-- Keyword arguments, in order. -/
abbrev KwArgs (F : Type) := List (String × PyVal F)

/-- A Python function of plain values. Functions are assumed to be deterministic and without side
effect. -/
abbrev PyFn (F : Type) := List (PyVal F) → KwArgs F → PyRes (PyVal F)

/-- A derivative function; it returns a float. -/
abbrev DerivFn (F : Type) := List (PyVal F) → KwArgs F → PyRes F

/-- `arg_ref` of `partial_derivative` (core.py 303-316): position or keyword. -/
inductive ArgRef where
  | pos (i : Nat)
  | kw (name : String)
  deriving DecidableEq, Repr

/-- `d[name] = x` for an existing key, or addition at the end. -/
def setKw {α : Type} : List (String × α) → String → α → List (String × α)
  | [], name, x => [(name, x)]
  | (k, y) :: rest, name, x => if k = name then (k, x) :: rest else (k, y) :: setKw rest name x

section
variable [PyFloat F]

/-- The step of `partial_derivative` (core.py 335-340). -/
def derivStep (x : F) : F :=
  let step := PyFloat.stepSize * PyFloat.abs x
  if PyFloat.truthy step then step else PyFloat.stepSize

/-- `(shifted_f_plus - shifted_f_minus)/2/step` (core.py 356). Only real values can be
subtracted and divided so as to give a float (a complex derivative is not modelled: `TypeError`). -/
def centralDiff (vp vm : PyVal F) (step : F) : PyRes F :=
  match vp, vm with
  | .flt p, .flt m =>
    match PyFloat.truediv (p - m) PyFloat.two with
    | .error e => .error e
    | .ok q => PyFloat.truediv q step
  | _, _ => .error .typeError

/-- `partial_derivative(f, arg_ref)` (core.py 303-358). The shifted argument must be a real
number (`TypeError` otherwise; shifting complex numbers is not modelled). -/
def partialDerivative (f : PyFn F) : ArgRef → DerivFn F
  | .pos i => fun args kwargs =>
    match args[i]? with
    | none => .error .indexError
    | some (.flt x) =>
      let step := derivStep x
      let xPlus := x + step                    -- args_with_var[arg_ref] += step
      match f (args.set i (.flt xPlus)) kwargs with
      | .error e => .error e
      | .ok vp =>
        let xMinus := xPlus - PyFloat.two * step   -- args_with_var[arg_ref] -= 2*step
        match f (args.set i (.flt xMinus)) kwargs with
        | .error e => .error e
        | .ok vm => centralDiff vp vm step
    | some _ => .error .typeError
  | .kw name => fun args kwargs =>
    match kwargs.lookup name with
    | none => .error .keyError
    | some (.flt x) =>
      let step := derivStep x
      let xPlus := x + step
      match f args (setKw kwargs name (.flt xPlus)) with
      | .error e => .error e
      | .ok vp =>
        let xMinus := xPlus - PyFloat.two * step
        match f args (setKw kwargs name (.flt xMinus)) with
        | .error e => .error e
        | .ok vm => centralDiff vp vm step
    | some _ => .error .typeError

end

/-- The `derivatives_args` argument of `wrap` (core.py 472-501): an iterable of functions or `None`,
finite or infinite. -/
inductive DSource (F : Type) where
  | finite (l : List (Option (DerivFn F)))
  | infinite (s : Nat → Option (DerivFn F))

/-- `itertools.chain(derivatives_args, itertools.repeat(None))` (core.py 551-555): element number
`i` that the iterator produces. -/
def DSource.chained : DSource F → Nat → Option (DerivFn F)
  | .finite l, i => (l[i]?).getD none
  | .infinite s, i => s i

/-- `IndexableIter` (core.py 380-429). `iterable` is a one-shot iterator: the stream of the elements
it produces, and how many of them have been taken by `next()`. -/
structure IndexableIter (F : Type) where
  stream : Nat → Option (DerivFn F)
  taken : Nat
  returnedElements : List (Option (DerivFn F))
  noneConverter : Nat → Option (DerivFn F)

/-- `IndexableIter.__init__` (core.py 398-408) -/
def IndexableIter.mk' (stream : Nat → Option (DerivFn F)) : IndexableIter F :=
  { stream := stream, taken := 0, returnedElements := [], noneConverter := fun _ => none }

/-- One iteration of the loop of `__getitem__` (core.py 420-427). -/
def IndexableIter.fetch (it : IndexableIter F) (pos : Nat) : IndexableIter F :=
  let value := it.stream it.taken              -- value = next(self.iterable)
  let value := match value with
    | none => it.noneConverter pos
    | some d => some d
  { it with taken := it.taken + 1, returnedElements := it.returnedElements ++ [value] }

/-- The loop `for pos in range(len(returned_elements), index+1)` (core.py 420): `n` iterations from
`pos` on. -/
def IndexableIter.fetchMany (it : IndexableIter F) (pos : Nat) : Nat → IndexableIter F
  | 0 => it
  | n + 1 => (it.fetch pos).fetchMany (pos + 1) n

/-- `IndexableIter.__getitem__` (core.py 410-429), for a non-negative index. -/
def IndexableIter.getItem (it : IndexableIter F) (index : Nat) :
    IndexableIter F × PyRes (Option (DerivFn F)) :=
  match it.returnedElements[index]? with
  | some e => (it, .ok e)
  | none =>
    let len := it.returnedElements.length
    let it' := it.fetchMany len (index + 1 - len)
    match it'.returnedElements[index]? with
    | some e => (it', .ok e)
    | none => (it', .error .indexError)

/-- The arguments of `wrap` (core.py 436), and what `getargspec(f).args` returns for `f`
(`none`: `TypeError`). The keys of a Python dict are distinct, and so are the names of the
parameters of a Python function. -/
structure WrapDef (F : Type) where
  f : PyFn F
  derivativesArgs : DSource F
  derivativesKwargs : List (String × Option (DerivFn F))
  argspec : Option (List String)
  kwargsNodup : (derivativesKwargs.map Prod.fst).Nodup := by simp
  argspecNodup : ∀ names, argspec = some names → names.Nodup := by simp

/-- The state of a wrapped function: the closure variables of `f_with_affine_output`. -/
structure Wrapped (F : Type) where
  df : WrapDef F
  /-- `derivatives_args_index` -/
  iter : IndexableIter F
  /-- `derivatives_all_kwargs` -/
  kw : List (String × DerivFn F)

section
variable [PyFloat F]

/-- The loop over `derivatives_kwargs` (core.py 564-573). -/
def initKwargs (f : PyFn F) :
    List (String × Option (DerivFn F)) → List (String × DerivFn F) → List (String × DerivFn F)
  | [], kw => kw
  | (name, none) :: rest, kw => initKwargs f rest (setKw kw name (partialDerivative f (.kw name)))
  | (name, some d) :: rest, kw => initKwargs f rest (setKw kw name d)

/-- The loop over the positional-or-keyword parameters (core.py 593-610); `index` is the index of
the first name of the list. -/
def initArgspec (f : PyFn F) (index : Nat) :
    List String → IndexableIter F → List (String × DerivFn F) →
    IndexableIter F × List (String × DerivFn F)
  | [], it, kw => (it, kw)
  | name :: names, it, kw =>
    match it.getItem index with
    | (it', .error _) => (it', kw)   -- not reachable: the iterator never ends
    | (it', .ok none) =>
      initArgspec f (index + 1) names it' (setKw kw name (partialDerivative f (.kw name)))
    | (it', .ok (some d)) => initArgspec f (index + 1) names it' (setKw kw name d)

/-- Conversion of the `None` elements (core.py 617-623). -/
def convertNones (f : PyFn F) (index : Nat) :
    List (Option (DerivFn F)) → List (Option (DerivFn F))
  | [] => []
  | none :: rest => some (partialDerivative f (.pos index)) :: convertNones f (index + 1) rest
  | some d :: rest => some d :: convertNones f (index + 1) rest

/-- `wrap(f, derivatives_args, derivatives_kwargs)` (core.py 436-626), up to the definition of the
wrapped function. Setting the documentation string and the name is not modelled. -/
def mkWrapped (df : WrapDef F) : Wrapped F :=
  let it := IndexableIter.mk' df.derivativesArgs.chained
  let kw := initKwargs df.f df.derivativesKwargs []
  let (it, kw) :=
    match df.argspec with
    | none => (it, kw)
    | some names => initArgspec df.f 0 names it kw
  let it := { it with
    returnedElements := convertNones df.f 0 it.returnedElements
    noneConverter := fun index => some (partialDerivative df.f (.pos index)) }
  { df := df, iter := it, kw := kw }

/-- `derivatives_args_index[pos]` in a call (core.py 727). A `None` is not callable. -/
def Wrapped.posDeriv (w : Wrapped F) (pos : Nat) : Wrapped F × PyRes (DerivFn F) :=
  match w.iter.getItem pos with
  | (it, .ok (some d)) => ({ w with iter := it }, .ok d)
  | (it, .ok none) => ({ w with iter := it }, .error .typeError)
  | (it, .error e) => ({ w with iter := it }, .error e)

/-- `derivatives_all_kwargs.setdefault(name, partial_derivative(f, name))` (core.py 738-741). -/
def Wrapped.kwDeriv (w : Wrapped F) (name : String) : Wrapped F × DerivFn F :=
  match w.kw.lookup name with
  | some d => (w, d)
  | none =>
    let d := partialDerivative w.df.f (.kw name)
    ({ w with kw := w.kw ++ [(name, d)] }, d)

end

end Unc
