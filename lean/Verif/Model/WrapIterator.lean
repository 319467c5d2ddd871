import Verif.Model.WrapEffects

/-
`wrap` (core.py 436-752) when `derivatives_args` is an iterator of the user (a generator, a file reader...): asking for the next
derivative can have effects, can raise an exception, and can give any answer. The functions have side effects on a state of type `S`, as in
`Model/WrapEffects.lean`; the iterator has a state of type `I`.

Simplifications: the functions do not change the state of the iterator during a call (other parts of the program can change it
between the calls), and the functions and the iterator do not call the wrapped function.
-/

namespace Unc

set_option autoImplicit false

/-- What `next(iterator)` does: `StopIteration`, another exception, or an element (a derivative or `None`). -/
inductive NextRes (D : Type) where
  | stop
  | raise (e : PyErr)
  | item (d : Option D)

/-- An iterator with a state: the new state, and the answer. -/
abbrev Source (I D : Type) := I → I × NextRes D

/-- `IndexableIter(itertools.chain(derivatives_args, itertools.repeat(None)))` (core.py 380-429 and 551-555). `ended`: the first
iterator of the chain has ended. -/
structure IIter (D : Type) where
  ended : Bool
  returnedElements : List (Option D)
  noneConverter : Nat → Option D

section
variable {I D : Type}

/-- `next(self.iterable)` (core.py 422): the chain never asks again an iterator that has ended; an exception goes through it. -/
def IIter.next (src : Source I D) (it : IIter D) (i : I) : IIter D × I × PyRes (Option D) :=
  if it.ended then (it, i, .ok none)
  else
    match src i with
    | (i', .stop) => ({ it with ended := true }, i', .ok none)
    | (i', .raise e) => (it, i', .error e)
    | (i', .item d) => (it, i', .ok d)

/-- The loop of `__getitem__` (core.py 420-427). -/
def IIter.fetchMany (src : Source I D) (pos : Nat) : Nat → IIter D → I → IIter D × I × PyRes Unit
  | 0, it, i => (it, i, .ok ())
  | n + 1, it, i =>
    match it.next src i with
    | (it', i', .error e) => (it', i', .error e)
    | (it', i', .ok value) =>
      let value := match value with
        | none => it'.noneConverter pos
        | some d => some d
      IIter.fetchMany src (pos + 1) n { it' with returnedElements := it'.returnedElements ++ [value] } i'

/-- `IndexableIter.__getitem__` (core.py 410-429), for a non-negative index. -/
def IIter.getItem (src : Source I D) (it : IIter D) (index : Nat) (i : I) : IIter D × I × PyRes (Option D) :=
  match it.returnedElements[index]? with
  | some e => (it, i, .ok e)
  | none =>
    let len := it.returnedElements.length
    match IIter.fetchMany src len (index + 1 - len) it i with
    | (it', i', .error e) => (it', i', .error e)
    | (it', i', .ok ()) =>
      match it'.returnedElements[index]? with
      | some e => (it', i', .ok e)
      | none => (it', i', .error .indexError)

/-- The loop over the positional-or-keyword parameters (core.py 593-610); an exception of the iterator leaves `wrap`. -/
def initArgspecI (src : Source I D) (num : ArgRef → D) (index : Nat) :
    List String → IIter D → List (String × D) → I → I × PyRes (IIter D × List (String × D))
  | [], it, kw, i => (i, .ok (it, kw))
  | name :: names, it, kw, i =>
    match it.getItem src index i with
    | (_, i', .error e) => (i', .error e)
    | (it', i', .ok none) => initArgspecI src num (index + 1) names it' (setKw kw name (num (.kw name))) i'
    | (it', i', .ok (some d)) => initArgspecI src num (index + 1) names it' (setKw kw name d) i'

end

/-- The arguments of `wrap` (core.py 436) and `getargspec(f).args` (`none`: `TypeError`); `source` is the iterator over
`derivatives_args`. -/
structure IWrapDef (S I F : Type) where
  f : EFn S F
  source : Source I (EDeriv S F)
  derivativesKwargs : List (String × Option (EDeriv S F))
  argspec : Option (List String)
  kwargsNodup : (derivativesKwargs.map Prod.fst).Nodup := by simp
  argspecNodup : ∀ names, argspec = some names → names.Nodup := by simp

/-- The closure variables of `f_with_affine_output`: `derivatives_args_index` and `derivatives_all_kwargs`. -/
structure IWrapped (S I F : Type) where
  df : IWrapDef S I F
  iter : IIter (EDeriv S F)
  kw : List (String × EDeriv S F)

section
variable {S I F : Type} [PyFloat F]

/-- `wrap(f, derivatives_args, derivatives_kwargs)` (core.py 436-626), up to the definition of the wrapped function. -/
def mkWrappedI (df : IWrapDef S I F) (i : I) : I × PyRes (IWrapped S I F) :=
  let num := partialDerivativeE df.f
  let it : IIter (EDeriv S F) := { ended := false, returnedElements := [], noneConverter := fun _ => none }
  let kw := initKwargsE num df.derivativesKwargs []
  let r : I × PyRes (IIter (EDeriv S F) × List (String × EDeriv S F)) :=
    match df.argspec with
    | none => (i, .ok (it, kw))
    | some names => initArgspecI df.source num 0 names it kw i
  match r with
  | (i', .error e) => (i', .error e)
  | (i', .ok (it, kw)) =>
    let it := { it with
      returnedElements := convertNonesE num 0 it.returnedElements
      noneConverter := fun index => some (num (.pos index)) }
    (i', .ok { df := df, iter := it, kw := kw })

/-- `derivatives_args_index[pos]` in a call (core.py 727). A `None` is not callable. -/
def IWrapped.posDeriv (w : IWrapped S I F) (pos : Nat) (i : I) : IWrapped S I F × I × PyRes (EDeriv S F) :=
  match w.iter.getItem w.df.source pos i with
  | (it, i', .ok (some d)) => ({ w with iter := it }, i', .ok d)
  | (it, i', .ok none) => ({ w with iter := it }, i', .error .typeError)
  | (it, i', .error e) => ({ w with iter := it }, i', .error e)

/-- `derivatives_all_kwargs.setdefault(name, partial_derivative(f, name))` (core.py 738-741). -/
def IWrapped.kwDeriv (w : IWrapped S I F) (name : String) : IWrapped S I F × EDeriv S F :=
  match w.kw.lookup name with
  | some d => (w, d)
  | none =>
    let d := partialDerivativeE w.df.f (.kw name)
    ({ w with kw := w.kw ++ [(name, d)] }, d)

/-- The loop over `pos_w_uncert` (core.py 724-729). -/
def posTermsI (argsValues : List (PyVal F)) (kwValues : KwArgs F) :
    Nat → List (Val F) → IWrapped S I F → S → I → List (Item F) → IWrapped S I F × S × I × PyRes (List (Item F))
  | _, [], wf, s, i, acc => (wf, s, i, .ok acc)
  | pos, .plain _ :: rest, wf, s, i, acc => posTermsI argsValues kwValues (pos + 1) rest wf s i acc
  | pos, .unc u :: rest, wf, s, i, acc =>
    match wf.posDeriv pos i with
    | (wf', i', .error e) => (wf', s, i', .error e)
    | (wf', i', .ok d) =>
      match d argsValues kwValues s with
      | (s', .error e) => (wf', s', i', .error e)
      | (s', .ok c) => posTermsI argsValues kwValues (pos + 1) rest wf' s' i' (.pair c u.lin :: acc)

/-- The loop over `names_w_uncert` (core.py 731-747). -/
def kwTermsI (argsValues : List (PyVal F)) (kwValues : KwArgs F) :
    List (String × Val F) → IWrapped S I F → S → List (Item F) → IWrapped S I F × S × PyRes (List (Item F))
  | [], wf, s, acc => (wf, s, .ok acc)
  | (_, .plain _) :: rest, wf, s, acc => kwTermsI argsValues kwValues rest wf s acc
  | (name, .unc u) :: rest, wf, s, acc =>
    match wf.kwDeriv name with
    | (wf', d) =>
      match d argsValues kwValues s with
      | (s', .error e) => (wf', s', .error e)
      | (s', .ok c) => kwTermsI argsValues kwValues rest wf' s' (.pair c u.lin :: acc)

/-- `f_with_affine_output(*args, **kwargs)` (core.py 646-752); see `callE`. -/
def callI (wf : IWrapped S I F) (args : List (Val F)) (kwargs : List (String × Val F)) (s : S) (i : I) :
    IWrapped S I F × S × I × PyRes (PyVal F ⊕ (F × List (Item F))) :=
  let argsValues := args.map Val.nominal
  let kwValues := kwargs.map (fun p => (p.1, p.2.nominal))
  if args.all (fun a => !a.isUnc) && kwargs.all (fun p => !p.2.isUnc) then
    match wf.df.f argsValues kwValues s with            -- core.py 668-669
    | (s, .error e) => (wf, s, i, .error e)
    | (s, .ok v) => (wf, s, i, .ok (.inl v))
  else
    match wf.df.f argsValues kwValues s with            -- f_nominal_value (core.py 705)
    | (s, .error e) => (wf, s, i, .error e)
    | (s, .ok v) =>
      if !v.floatLike then (wf, s, i, .ok (.inl .notImpl))   -- core.py 713-714
      else
        match posTermsI argsValues kwValues 0 args wf s i [] with
        | (wf, s, i, .error e) => (wf, s, i, .error e)
        | (wf, s, i, .ok acc) =>
          match kwTermsI argsValues kwValues kwargs wf s acc with
          | (wf, s, .error e) => (wf, s, i, .error e)
          | (wf, s, .ok acc) =>
            match v.toFloat with                          -- AffineScalarFunc.__init__
            | .error e => (wf, s, i, .error e)
            | .ok x => (wf, s, i, .ok (.inr (x, acc)))

/-- A call in a history: its arguments, the state of the program when it starts, and what other parts of the program do to the
state of the iterator before. -/
structure ICall (S I F : Type) where
  args : List (Val F)
  kwargs : List (String × Val F)
  state : S
  before : I → I

/-- The wrapped function and its iterator after a history of calls. -/
def callsI : List (ICall S I F) → IWrapped S I F → I → IWrapped S I F × I
  | [], wf, i => (wf, i)
  | c :: rest, wf, i =>
    match callI wf c.args c.kwargs c.state (c.before i) with
    | (wf', _, i', _) => callsI rest wf' i'

end

end Unc
