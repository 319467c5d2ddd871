import Verif.Model.Machine
import Verif.Spec.Copy

/-
What a program that uses numbers with uncertainties sees, according to linear error propagation:
the state is a list of variables (nominal value, current standard deviation, tag), the user's wrapped
functions, and the values bound so far (nominal value and gradient for quantities). Reading something
does not change the state. There are no lazy expressions, no addresses and no caches.
-/

namespace Unc

/-- State of the specification. -/
structure SState (F : Type) where
  vars : List (SVar F)
  fns : List (WrapDef F)
  env : List (Option (SVal F))

variable {F : Type}

/-- Value of an argument. -/
def Arg.seval (env : List (Option (SVal F))) : Arg F → Option (SVal F)
  | .ref k => (env[k]?).join
  | .const v => some (.plain v)

/-- Value of an argument that must be a quantity. -/
def Arg.sevalUnc (env : List (Option (SVal F))) (a : Arg F) : Option (SQ F) :=
  match a.seval env with
  | some (.unc q) => some q
  | _ => none

/-- Values of keyword arguments. -/
def Arg.sevalKw (env : List (Option (SVal F))) (p : String × Arg F) : Option (String × SVal F) :=
  (p.2.seval env).map (fun v => (p.1, v))

/-- Item of a gradient: the key is a variable. -/
def Arg.sevalItem (env : List (Option (SVal F))) (p : Arg F × F) : Option (VarId × F) :=
  ((p.1.sevalUnc env).bind SQ.var).map (fun v => (v, p.2))

/-- A quantity that depends on none of the `n` variables. -/
def SVal.isConst (n : Nat) : SVal F → Bool
  | .unc q => !(List.range n).any (fun v => (q.grad v).isSome)
  | .plain _ => false

/-- Binds the result of a command. -/
def SState.bind (s : SState F) : PyRes (SVal F) → SState F × Out F
  | .error e => ({ s with env := s.env ++ [none] }, .err e)
  | .ok (.plain .notImpl) => ({ s with env := s.env ++ [none] }, .val .notImpl)
  | .ok v => ({ s with env := s.env ++ [some v] }, .done)

/-- A command that cannot be run. -/
def SState.invalid (s : SState F) (n : Nat) : SState F × Out F :=
  ({ s with env := s.env ++ List.replicate n none }, .invalid)

/-- Result of a command that reads something. -/
def PyRes.out {α : Type} (f : α → Out F) : PyRes α → Out F
  | .error e => .err e
  | .ok x => f x

variable [PyMath F]

/-- `a op b`, with Python's fallback for values that cannot be compared. -/
def specCmpRun (vars : List (SVar F)) (op : CmpOp) (a : SQ F) (b : SVal F) : PyRes Bool :=
  match specCmpVal vars op a b with
  | .error e => .error e
  | .ok (some r) => .ok r
  | .ok none => op.fallback

/-- `x op y`: `x` and `y` are compared as documented (`specCmpVal`); `y op' x` is the same comparison
in the other direction. A derived quantity is compared to a variable in the other direction. -/
def specCompare (vars : List (SVar F)) (op : CmpOp) (x y : SVal F) : PyRes Bool :=
  match x, y with
  | .unc a, .unc b =>
    if a.var.isNone && b.var.isSome then specCmpRun vars op.swap b x else specCmpRun vars op a y
  | .unc a, .plain _ => specCmpRun vars op a y
  | .plain _, .unc b => specCmpRun vars op.swap b x
  | .plain _, .plain _ => .error .typeError

/-- `x.std_score(value)`: `(value - nominal)/std_dev`, and `ValueError` in place of
`ZeroDivisionError`. -/
def specStdScore (vars : List (SVar F)) (q : SQ F) (value : F) : PyRes F :=
  match specStdDev vars q with
  | .error .zeroDivisionError => .error .valueError
  | .error e => .error e
  | .ok s =>
    match PyFloat.truediv (value - q.nom) s with
    | .error .zeroDivisionError => .error .valueError
    | .error e => .error e
    | .ok r => .ok r

/-- `modf`: the fractional part keeps the gradient of the argument. -/
def specModf : SVal F → PyRes (SVal F × F)
  | .unc q => .ok (.unc { nom := (PyMath.modf q.nom).1, grad := q.grad, var := none },
      (PyMath.modf q.nom).2)
  | .plain (.flt x) => .ok (.plain (.flt (PyMath.modf x).1), (PyMath.modf x).2)
  | .plain .cplx => .error .typeError
  | .plain _ => .error (.other 1)

/-- `ldexp`: the gradient is multiplied by `2**i`. -/
def specLdexp (i : Int) : SVal F → PyRes (SVal F)
  | .unc q =>
    match PyMath.ldexp q.nom i with
    | .error e => .error e
    | .ok r => .ok (.unc { nom := r, grad := Lin.comb [(PyMath.pow2 i, q.grad)], var := none })
  | .plain (.flt x) =>
    match PyMath.ldexp x i with
    | .error e => .error e
    | .ok r => .ok (.plain (.flt r))
  | .plain .cplx => .error .typeError
  | .plain _ => .error (.other 1)

/-- Locally constant functions: value of the function on the nominal values, without uncertainty. -/
def specLcst (f : PyFn F) (args : List (SVal F)) (kwargs : List (String × SVal F)) : PyRes (SVal F) :=
  match f (args.map SVal.nominal) (kwargs.map fun p => (p.1, p.2.nominal)) with
  | .error e => .error e
  | .ok v => .ok (.plain v)

/-- The tag of a variable. -/
def specTag (vars : List (SVar F)) (q : SQ F) : PyRes (Option String) :=
  match q.var with
  | none => .error .attributeError
  | some v =>
    match vars[v]? with
    | none => .error .attributeError
    | some cell => .ok cell.tag

/-- A command that reads something of one quantity. -/
def SState.read (s : SState F) (x : Arg F) (f : SQ F → Out F) : SState F × Out F :=
  match x.sevalUnc s.env with
  | none => s.invalid 0
  | some q => (s, f q)

/-- The commands other than copies. -/
def SState.step (s : SState F) : Cmd F → SState F × Out F
  | .ufloat n std tag =>
    if specBadStd std then ({ s with env := s.env ++ [none] }, .err .negativeStdDev)
    else
      let v := s.vars.length
      ({ s with vars := s.vars ++ [{ nom := n, std := std, tag := tag }],
                env := s.env ++ [some (.unc { nom := n, grad := Lin.single v, var := some v })] },
       .done)
  | .affine n items =>
    match evalArgs (Arg.sevalItem s.env) items with
    | none => s.invalid 1
    | some d =>
      if (d.map Prod.fst).Nodup then
        ({ s with env := s.env ++ [some (.unc { nom := n, grad := Lin.ofDict d, var := none })] },
         .done)
      else s.invalid 1
  | .wrap df => ({ s with fns := s.fns ++ [df] }, .done)
  | .call f args kwargs =>
    match s.fns[f]? with
    | none => s.invalid 1
    | some df =>
      match evalArgs (Arg.seval s.env) args, evalArgs (Arg.sevalKw s.env) kwargs with
      | some a, some k => s.bind (specCall df a k)
      | _, _ => s.invalid 1
  | .unop op x =>
    match x.sevalUnc s.env with
    | none => s.invalid 1
    | some q => s.bind (specCall op.wrapDef [.unc q] [])
  | .binop op x y =>
    match x.seval s.env, y.seval s.env with
    | some a, some b =>
      if a.isUnc || b.isUnc then s.bind (specBinop op a b) else s.invalid 1
    | _, _ => s.invalid 1
  | .modf x =>
    match x.seval s.env with
    | none => s.invalid 2
    | some v =>
      if v.isConst s.vars.length then s.invalid 2 else
      match specModf v with
      | .error e => ({ s with env := s.env ++ [none, none] }, .err e)
      | .ok (a, b) => ({ s with env := s.env ++ [some a, some (.plain (.flt b))] }, .done)
  | .ldexp x i =>
    match x.seval s.env with
    | none => s.invalid 1
    | some v => if v.isConst s.vars.length then s.invalid 1 else s.bind (specLdexp i v)
  | .lcst f args kwargs =>
    match evalArgs (Arg.seval s.env) args, evalArgs (Arg.sevalKw s.env) kwargs with
    | some a, some k => s.bind (specLcst f a k)
    | _, _ => s.invalid 1
  | .copy _ => (s, .invalid)        -- see `SpecStep`
  | .deepcopy _ => (s, .invalid)    -- see `SpecStep`
  | .pickle _ => (s, .invalid)      -- see `SpecStep`
  | .variable x v =>
    match x.sevalUnc s.env with
    | none => s.invalid 1
    | some q =>
      match q.grad v, s.vars[v]? with
      | some _, some cell =>
        ({ s with env := s.env ++
            [some (.unc { nom := cell.nom, grad := Lin.single v, var := some v })] }, .done)
      | _, _ => ({ s with env := s.env ++ [none] }, .err .keyError)
  | .setStd x std =>
    match x.sevalUnc s.env with
    | none => s.invalid 0
    | some q =>
      match q.var with
      | none => (s, .err .attributeError)
      | some v =>
        if specBadStd std then (s, .err .negativeStdDev)
        else ({ s with vars := s.vars.modify v (fun c => { c with std := std }) }, .done)
  | .nominal x =>
    match x.seval s.env with
    | none => s.invalid 0
    | some v => (s, .val v.nominal)
  | .stdDev x =>
    match x.seval s.env with
    | none => s.invalid 0
    | some (.unc q) => (s, PyRes.out (fun x => .val (.flt x)) (specStdDev s.vars q))
    | some (.plain _) => (s, .val (.flt 0))
  | .s x => s.read x (fun q => PyRes.out (fun x => .val (.flt x)) (specStd s.vars q.grad))
  | .derivatives x => s.read x (fun q => .dict q.grad)
  | .errorComponents x => s.read x (fun q => .dict (specErrorComponents s.vars q.grad))
  | .stdScore x value =>
    s.read x (fun q => PyRes.out (fun x => .val (.flt x)) (specStdScore s.vars q value))
  | .covarianceMatrix xs =>
    match evalArgs (Arg.sevalUnc s.env) xs with
    | none => s.invalid 0
    | some qs => (s, .matrix (qs.map fun x => qs.map fun y => specCov s.vars x.grad y.grad))
  | .compare op x y =>
    match x.seval s.env, y.seval s.env with
    | some a, some b =>
      if a.isUnc || b.isUnc then (s, PyRes.out .bool (specCompare s.vars op a b)) else s.invalid 0
    | _, _ => s.invalid 0
  | .toBool x => s.read x (fun q => PyRes.out .bool (specCmp s.vars .ne q (specExact 0)))
  | .tag x => s.read x (fun q => PyRes.out .tag (specTag s.vars q))

/-- `s'` is `s` after a copy of the quantities `qs`, which is bound. -/
def SpecCopied (s s' : SState F) (qs : List (SQ F)) : Prop :=
  ∃ ρ qs', SpecCopy s.vars s'.vars ρ qs qs' ∧ s'.fns = s.fns ∧
    s'.env = s.env ++ qs'.map (fun q => some (.unc q))

/-- One command: new state, and what the program sees. A copy is made of new variables whose
identities are not specified. -/
def SpecStep (s : SState F) (c : Cmd F) (s' : SState F) (o : Out F) : Prop :=
  match c with
  | .copy x =>
    match x.sevalUnc s.env with
    | none => (s', o) = s.invalid 1
    | some q =>
      o = .done ∧
      match q.var with
      | none => s' = { s with env := s.env ++ [some (.unc q)] }   -- same quantity
      | some _ => SpecCopied s s' [q]
  | .deepcopy x =>
    match x.sevalUnc s.env with
    | none => (s', o) = s.invalid 1
    | some q => o = .done ∧ SpecCopied s s' [q]
  | .pickle xs =>
    match evalArgs (Arg.sevalUnc s.env) xs with
    | none => (s', o) = s.invalid xs.length
    | some qs => o = .done ∧ SpecCopied s s' qs
  | c => (s', o) = s.step c

/-- Sequences of commands. -/
inductive SpecRun : SState F → List (Cmd F) → SState F → List (Out F) → Prop where
  | nil (s) : SpecRun s [] s []
  | cons {s c s1 o cs s2 os} : SpecStep s c s1 o → SpecRun s1 cs s2 os →
      SpecRun s (c :: cs) s2 (o :: os)

/-- After `import uncertainties`. -/
def SState.init : SState F := ⟨[], opDefs, []⟩

end Unc
