import Verif.Model.World

/-
`wrap` (core.py 436-752) for functions with side effects: the functions given to `wrap` can read and change a state of any type
`S` (global variables, files, mutable objects given as arguments, random number generators...), and they can return a
different value at each call. This is the same code as in `Model/Wrap.lean` and `Model/World.lean` (theorem `C96_pure`: the
two models agree for functions without side effects).

Simplifications: the iterable `derivatives_args` has no side effect (see `Model/WrapIterator.lean`), and the functions do not call wrapped
functions (see `Model/WrapNested.lean`).
-/

namespace Unc

set_option autoImplicit false

/-- A Python function of plain values, with side effects on a state of type `S`. -/
abbrev EFn (S F : Type) := List (PyVal F) → KwArgs F → S → S × PyRes (PyVal F)

/-- A derivative function with side effects; it returns a float. -/
abbrev EDeriv (S F : Type) := List (PyVal F) → KwArgs F → S → S × PyRes F

variable {S F : Type}

/-- The two calls of the function and the quotient (core.py 342-356); `plus` and `minus` are the arguments of the calls. -/
def shiftedCalls [PyFloat F] (f : EFn S F) (plus minus : List (PyVal F) × KwArgs F) (step : F) (s : S) : S × PyRes F :=
  match f plus.1 plus.2 s with
  | (s1, .error e) => (s1, .error e)
  | (s1, .ok vp) =>
    match f minus.1 minus.2 s1 with
    | (s2, .error e) => (s2, .error e)
    | (s2, .ok vm) => (s2, centralDiff vp vm step)

/-- `partial_derivative(f, arg_ref)` (core.py 303-358). -/
def partialDerivativeE [PyFloat F] (f : EFn S F) : ArgRef → EDeriv S F
  | .pos i => fun args kwargs s =>
    match args[i]? with
    | none => (s, .error .indexError)
    | some (.flt x) =>
      let step := derivStep x
      shiftedCalls f (args.set i (.flt (x + step)), kwargs)
        (args.set i (.flt (x + step - PyFloat.two * step)), kwargs) step s
    | some _ => (s, .error .typeError)
  | .kw name => fun args kwargs s =>
    match kwargs.lookup name with
    | none => (s, .error .keyError)
    | some (.flt x) =>
      let step := derivStep x
      shiftedCalls f (args, setKw kwargs name (.flt (x + step)))
        (args, setKw kwargs name (.flt (x + step - PyFloat.two * step))) step s
    | some _ => (s, .error .typeError)

/-- `IndexableIter` (core.py 380-429), with elements of type `D`; see `IndexableIter`. -/
structure EIter (D : Type) where
  stream : Nat → Option D
  taken : Nat
  returnedElements : List (Option D)
  noneConverter : Nat → Option D

section
variable {D : Type}

/-- `IndexableIter.__init__` (core.py 398-408) -/
def EIter.mk' (stream : Nat → Option D) : EIter D :=
  { stream := stream, taken := 0, returnedElements := [], noneConverter := fun _ => none }

/-- One iteration of the loop of `__getitem__` (core.py 420-427). -/
def EIter.fetch (it : EIter D) (pos : Nat) : EIter D :=
  let value := it.stream it.taken
  let value := match value with
    | none => it.noneConverter pos
    | some d => some d
  { it with taken := it.taken + 1, returnedElements := it.returnedElements ++ [value] }

/-- The loop `for pos in range(len(returned_elements), index+1)` (core.py 420). -/
def EIter.fetchMany (it : EIter D) (pos : Nat) : Nat → EIter D
  | 0 => it
  | n + 1 => (it.fetch pos).fetchMany (pos + 1) n

/-- `IndexableIter.__getitem__` (core.py 410-429), for a non-negative index. -/
def EIter.getItem (it : EIter D) (index : Nat) : EIter D × PyRes (Option D) :=
  match it.returnedElements[index]? with
  | some e => (it, .ok e)
  | none =>
    let len := it.returnedElements.length
    let it' := it.fetchMany len (index + 1 - len)
    match it'.returnedElements[index]? with
    | some e => (it', .ok e)
    | none => (it', .error .indexError)

/-- The loop over `derivatives_kwargs` (core.py 564-573); `num` is `partial_derivative(f, ·)`. -/
def initKwargsE (num : ArgRef → D) : List (String × Option D) → List (String × D) → List (String × D)
  | [], kw => kw
  | (name, none) :: rest, kw => initKwargsE num rest (setKw kw name (num (.kw name)))
  | (name, some d) :: rest, kw => initKwargsE num rest (setKw kw name d)

/-- The loop over the positional-or-keyword parameters (core.py 593-610). -/
def initArgspecE (num : ArgRef → D) (index : Nat) :
    List String → EIter D → List (String × D) → EIter D × List (String × D)
  | [], it, kw => (it, kw)
  | name :: names, it, kw =>
    match it.getItem index with
    | (it', .error _) => (it', kw)   -- not reachable: the iterator never ends
    | (it', .ok none) => initArgspecE num (index + 1) names it' (setKw kw name (num (.kw name)))
    | (it', .ok (some d)) => initArgspecE num (index + 1) names it' (setKw kw name d)

/-- Conversion of the `None` elements (core.py 617-623). -/
def convertNonesE (num : ArgRef → D) (index : Nat) : List (Option D) → List (Option D)
  | [] => []
  | none :: rest => some (num (.pos index)) :: convertNonesE num (index + 1) rest
  | some d :: rest => some d :: convertNonesE num (index + 1) rest

end

/-- The arguments of `wrap` (core.py 436) and `getargspec(f).args` (`none`: `TypeError`). The iterable `derivatives_args` is given
by its elements, followed by `None`s if it is finite (core.py 551-555). -/
structure EWrapDef (S F : Type) where
  f : EFn S F
  derivativesArgs : Nat → Option (EDeriv S F)
  derivativesKwargs : List (String × Option (EDeriv S F))
  argspec : Option (List String)
  kwargsNodup : (derivativesKwargs.map Prod.fst).Nodup := by simp
  argspecNodup : ∀ names, argspec = some names → names.Nodup := by simp

/-- The closure variables of `f_with_affine_output`: `derivatives_args_index` and `derivatives_all_kwargs`. -/
structure EWrapped (S F : Type) where
  df : EWrapDef S F
  iter : EIter (EDeriv S F)
  kw : List (String × EDeriv S F)

section
variable [PyFloat F]

/-- `wrap(f, derivatives_args, derivatives_kwargs)` (core.py 436-626), up to the definition of the wrapped function. -/
def mkWrappedE (df : EWrapDef S F) : EWrapped S F :=
  let num := partialDerivativeE df.f
  let it := EIter.mk' df.derivativesArgs
  let kw := initKwargsE num df.derivativesKwargs []
  let (it, kw) :=
    match df.argspec with
    | none => (it, kw)
    | some names => initArgspecE num 0 names it kw
  let it := { it with
    returnedElements := convertNonesE num 0 it.returnedElements
    noneConverter := fun index => some (num (.pos index)) }
  { df := df, iter := it, kw := kw }

/-- `derivatives_args_index[pos]` in a call (core.py 727). A `None` is not callable. -/
def EWrapped.posDeriv (w : EWrapped S F) (pos : Nat) : EWrapped S F × PyRes (EDeriv S F) :=
  match w.iter.getItem pos with
  | (it, .ok (some d)) => ({ w with iter := it }, .ok d)
  | (it, .ok none) => ({ w with iter := it }, .error .typeError)
  | (it, .error e) => ({ w with iter := it }, .error e)

/-- `derivatives_all_kwargs.setdefault(name, partial_derivative(f, name))` (core.py 738-741). -/
def EWrapped.kwDeriv (w : EWrapped S F) (name : String) : EWrapped S F × EDeriv S F :=
  match w.kw.lookup name with
  | some d => (w, d)
  | none =>
    let d := partialDerivativeE w.df.f (.kw name)
    ({ w with kw := w.kw ++ [(name, d)] }, d)

/-- The loop over `pos_w_uncert` (core.py 724-729); see `posTerms`. -/
def posTermsE (argsValues : List (PyVal F)) (kwValues : KwArgs F) :
    Nat → List (Val F) → EWrapped S F → S → List (Item F) → EWrapped S F × S × PyRes (List (Item F))
  | _, [], wf, s, acc => (wf, s, .ok acc)
  | pos, .plain _ :: rest, wf, s, acc => posTermsE argsValues kwValues (pos + 1) rest wf s acc
  | pos, .unc u :: rest, wf, s, acc =>
    match wf.posDeriv pos with
    | (wf', .error e) => (wf', s, .error e)
    | (wf', .ok d) =>
      match d argsValues kwValues s with
      | (s', .error e) => (wf', s', .error e)
      | (s', .ok c) => posTermsE argsValues kwValues (pos + 1) rest wf' s' (.pair c u.lin :: acc)

/-- The loop over `names_w_uncert` (core.py 731-747). -/
def kwTermsE (argsValues : List (PyVal F)) (kwValues : KwArgs F) :
    List (String × Val F) → EWrapped S F → S → List (Item F) → EWrapped S F × S × PyRes (List (Item F))
  | [], wf, s, acc => (wf, s, .ok acc)
  | (_, .plain _) :: rest, wf, s, acc => kwTermsE argsValues kwValues rest wf s acc
  | (name, .unc u) :: rest, wf, s, acc =>
    match wf.kwDeriv name with
    | (wf', d) =>
      match d argsValues kwValues s with
      | (s', .error e) => (wf', s', .error e)
      | (s', .ok c) => kwTermsE argsValues kwValues rest wf' s' (.pair c u.lin :: acc)

/-- `f_with_affine_output(*args, **kwargs)` (core.py 646-752): the new state of the wrapped function, the new state, and the result:
a plain value (`NotImplemented` included), or the nominal value and the terms of the new `LinearCombination`. -/
def callE (wf : EWrapped S F) (args : List (Val F)) (kwargs : List (String × Val F)) (s : S) :
    EWrapped S F × S × PyRes (PyVal F ⊕ (F × List (Item F))) :=
  let argsValues := args.map Val.nominal
  let kwValues := kwargs.map (fun p => (p.1, p.2.nominal))
  if args.all (fun a => !a.isUnc) && kwargs.all (fun p => !p.2.isUnc) then
    match wf.df.f argsValues kwValues s with            -- core.py 668-669
    | (s, .error e) => (wf, s, .error e)
    | (s, .ok v) => (wf, s, .ok (.inl v))
  else
    match wf.df.f argsValues kwValues s with            -- f_nominal_value (core.py 705)
    | (s, .error e) => (wf, s, .error e)
    | (s, .ok v) =>
      if !v.floatLike then (wf, s, .ok (.inl .notImpl))   -- core.py 713-714
      else
        match posTermsE argsValues kwValues 0 args wf s [] with
        | (wf, s, .error e) => (wf, s, .error e)
        | (wf, s, .ok acc) =>
          match kwTermsE argsValues kwValues kwargs wf s acc with
          | (wf, s, .error e) => (wf, s, .error e)
          | (wf, s, .ok acc) =>
            match v.toFloat with                          -- AffineScalarFunc.__init__
            | .error e => (wf, s, .error e)
            | .ok x => (wf, s, .ok (.inr (x, acc)))

/-- The wrapped function after a history of calls: each call has its arguments, and a state of the program when it starts (other
parts of the program can change this state between the calls). -/
def callsE : List ((List (Val F) × List (String × Val F)) × S) → EWrapped S F → EWrapped S F
  | [], wf => wf
  | (c, s) :: rest, wf => callsE rest (callE wf c.1 c.2 s).1

end

end Unc
