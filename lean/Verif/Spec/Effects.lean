import Verif.Model.WrapEffects

/-
Vocabulary of C96: which functions of the user a call of a wrapped function calls, in which order and with which arguments.
-/

namespace Unc

set_option autoImplicit false

variable {S F : Type}

/-- The arguments with an uncertainty: by position, then by keyword. -/
def uncertainArgs (args : List (Val F)) (kwargs : List (String × Val F)) : List (ArgRef × UF F) :=
  (args.zipIdx.filterMap fun
    | (.unc u, i) => some (.pos i, u)
    | (.plain _, _) => none) ++
  kwargs.filterMap fun
    | (name, .unc u) => some (.kw name, u)
    | (_, .plain _) => none

/-- The derivative given by the user of `wrap` for an argument (documentation of `wrap`, core.py 436-520), if any: a derivative
of `derivatives_args` for a positional argument or the name of a positional parameter, or else one of `derivatives_kwargs`. It is
given with its place in the arguments of `wrap`. -/
def EWrapDef.given (df : EWrapDef S F) : ArgRef → Option (ArgRef × EDeriv S F)
  | .pos i => (df.derivativesArgs i).map fun d => (.pos i, d)
  | .kw name =>
    match (df.argspec.getD []).idxOf? name with
    | some i => (df.derivativesArgs i).map fun d => (.pos i, d)
    | none => ((df.derivativesKwargs.lookup name).getD none).map fun d => (.kw name, d)

/-- A call of a function of the user: the function given to `wrap`, or one of the derivatives (with its place in the arguments
of `wrap`). -/
inductive UserCall (F : Type) where
  | function (args : List (PyVal F)) (kwargs : KwArgs F)
  | derivative (place : ArgRef) (args : List (PyVal F)) (kwargs : KwArgs F)

/-- Is this a call of the function given to `wrap`? -/
def UserCall.isFunction : UserCall F → Bool
  | .function _ _ => true
  | .derivative _ _ _ => false

/-- The arguments of a call. -/
def UserCall.args : UserCall F → List (PyVal F) × KwArgs F
  | .function a k => (a, k)
  | .derivative _ a k => (a, k)

/-- Same arguments, except that the argument `r` is `x`. -/
def withArg (a : List (PyVal F)) (k : KwArgs F) (x : F) : ArgRef → List (PyVal F) × KwArgs F
  | .pos i => (a.set i (.flt x), k)
  | .kw name => (a, setKw k name (.flt x))

variable [PyFloat F]

/-- The calls for the derivative with respect to the argument `r`, whose nominal value is `x`: the derivative given by the
user, or else the function itself, at `x` ± the step of numerical differentiation. -/
def derivCalls (df : EWrapDef S F) (a : List (PyVal F)) (k : KwArgs F) (r : ArgRef) (x : F) : List (UserCall F) :=
  match df.given r with
  | some (place, _) => [.derivative place a k]
  | none =>
    let plus := withArg a k (x + derivStep x) r
    let minus := withArg a k (x + derivStep x - PyFloat.two * derivStep x) r
    [.function plus.1 plus.2, .function minus.1 minus.2]

/-- The calls of a complete call of the wrapped function: the function at the nominal values of the arguments; then, for each
argument with an uncertainty, the calls for its derivative. -/
def expectedCalls (df : EWrapDef S F) (args : List (Val F)) (kwargs : List (String × Val F)) : List (UserCall F) :=
  let a := args.map Val.nominal
  let k := kwargs.map fun p => (p.1, p.2.nominal)
  .function a k :: (uncertainArgs args kwargs).flatMap fun p => derivCalls df a k p.1 p.2.nom

/-! ### Writing down the calls -/

/-- The calls, in order, each with the exception that it raised (if any). -/
abbrev CallLog (F : Type) := List (UserCall F × Option PyErr)

/-- The exception, if any. -/
def raisedBy {α : Type} : PyRes α → Option PyErr
  | .ok _ => none
  | .error e => some e

/-- The same function, which also adds its calls to a list. -/
def noted {α : Type} (c : List (PyVal F) → KwArgs F → UserCall F) (f : List (PyVal F) → KwArgs F → S → S × PyRes α) :
    List (PyVal F) → KwArgs F → S × CallLog F → (S × CallLog F) × PyRes α :=
  fun a k s => (((f a k s.1).1, s.2 ++ [(c a k, raisedBy (f a k s.1).2)]), (f a k s.1).2)

/-- The same arguments of `wrap`, with functions that add their calls to a list. -/
def EWrapDef.noted (df : EWrapDef S F) : EWrapDef (S × CallLog F) F where
  f := Unc.noted .function df.f
  derivativesArgs i := (df.derivativesArgs i).map (Unc.noted (.derivative (.pos i)))
  derivativesKwargs := df.derivativesKwargs.map fun p => (p.1, p.2.map (Unc.noted (.derivative (.kw p.1))))
  argspec := df.argspec
  kwargsNodup := by
    have : (df.derivativesKwargs.map fun p => (p.1, p.2.map (Unc.noted (F := F) (.derivative (.kw p.1))))).map Prod.fst =
        df.derivativesKwargs.map Prod.fst := by simp [Function.comp_def]
    rw [this]
    exact df.kwargsNodup
  argspecNodup := df.argspecNodup

/-! ### Values -/

/-- One after the other, until an exception. -/
def inOrder {α β : Type} : List (α × (S → S × PyRes β)) → S → S × PyRes (List (α × β))
  | [], s => (s, .ok [])
  | (a, g) :: rest, s =>
    match g s with
    | (s1, .error e) => (s1, .error e)
    | (s1, .ok b) =>
      match inOrder rest s1 with
      | (s2, .error e) => (s2, .error e)
      | (s2, .ok l) => (s2, .ok ((a, b) :: l))

/-- The value of the derivative with respect to the argument `r`: that of the function given by the user, or else
`(f(x+step)-f(x-step))/2/step`. -/
def derivValue (df : EWrapDef S F) (a : List (PyVal F)) (k : KwArgs F) (r : ArgRef) (x : F) : S → S × PyRes F :=
  match df.given r with
  | some (_, d) => d a k
  | none => shiftedCalls df.f (withArg a k (x + derivStep x) r)
      (withArg a k (x + derivStep x - PyFloat.two * derivStep x) r) (derivStep x)

/-- What a call returns: the result of the function if there is no uncertainty; else, `NotImplemented` if the function does not
return a number, or a nominal value and terms `(u, c)`: number with uncertainty and coefficient. -/
def documentedCall (df : EWrapDef S F) (args : List (Val F)) (kwargs : List (String × Val F)) (s : S) :
    S × PyRes (PyVal F ⊕ (F × List (UF F × F))) :=
  let a := args.map Val.nominal
  let k := kwargs.map fun p => (p.1, p.2.nominal)
  match df.f a k s with
  | (s1, .error e) => (s1, .error e)
  | (s1, .ok v) =>
    if (uncertainArgs args kwargs).isEmpty then (s1, .ok (.inl v))
    else if !v.floatLike then (s1, .ok (.inl .notImpl))
    else
      match inOrder ((uncertainArgs args kwargs).map fun p => (p.2, derivValue df a k p.1 p.2.nom)) s1 with
      | (s2, .error e) => (s2, .error e)
      | (s2, .ok l) =>
        match v.toFloat with
        | .error e => (s2, .error e)
        | .ok x => (s2, .ok (.inr (x, l)))

/-- The terms of a `LinearCombination` (the list is reversed, see `LC`). -/
def termsOf (l : List (UF F × F)) : List (Item F) := (l.map fun p => Item.pair p.2 p.1.lin).reverse

end Unc
