import Verif.Spec.Lin
import Verif.Spec.Wrap
import Verif.Model.Ops

/-
Specification of the package as eager first-order error propagation: a quantity is a nominal value
and a gradient (`Lin`), a variable has a current standard deviation; there is no lazy expression,
no sharing, no cache. The theorems of `Lemmas/World.lean` and `Props/Refinement.lean` show that the
model of the code behaves like this specification.
-/

namespace Unc

variable {F : Type}

/-- A quantity: nominal value, gradient, and its identity when it is a variable. -/
structure SQ (F : Type) where
  nom : F
  grad : Lin F
  var : Option VarId

/-- Quantity or other Python value. -/
inductive SVal (F : Type) where
  | unc (q : SQ F)
  | plain (v : PyVal F)

def SVal.isUnc : SVal F → Bool
  | .unc _ => true
  | .plain _ => false

def SVal.nominal : SVal F → PyVal F
  | .unc q => .flt q.nom
  | .plain v => v

/-- A variable: nominal value, current standard deviation, tag. -/
structure SVar (F : Type) where
  nom : F
  std : F
  tag : Option String

variable [PyFloat F]

/-- `ψ 0 + ψ 1 + ... + ψ (n-1)` -/
def sumVars (ψ : VarId → F) : Nat → F
  | 0 => 0
  | n + 1 => sumVars ψ n + ψ n

/-- Error component: `|derivative * std_dev|`, and 0 for exact variables. -/
def specComponent (d std : F) : F :=
  if PyFloat.eqb std 0 then 0 else PyFloat.abs (d * std)

/-- Contribution of variable `v` to the variance of a quantity. -/
def specVarianceTerm (vars : List (SVar F)) (grad : Lin F) (v : VarId) : F :=
  match grad v, vars[v]? with
  | some d, some cell => specComponent d cell.std * specComponent d cell.std
  | _, _ => 0

/-- Linear error propagation: variance of a quantity. -/
def specVariance (vars : List (SVar F)) (grad : Lin F) : F :=
  sumVars (specVarianceTerm vars grad) vars.length

/-- Standard deviation of a quantity. -/
def specStd (vars : List (SVar F)) (grad : Lin F) : PyRes F :=
  PyFloat.sqrt (specVariance vars grad)

/-- Standard deviation as read through `x.std_dev`: variables have their own. -/
def specStdDev (vars : List (SVar F)) (q : SQ F) : PyRes F :=
  match q.var with
  | none => specStd vars q.grad
  | some v =>
    match vars[v]? with
    | none => .error .attributeError
    | some cell => .ok cell.std

/-- The error components of a quantity. -/
def specErrorComponents (vars : List (SVar F)) (grad : Lin F) : Lin F := fun v =>
  match grad v, vars[v]? with
  | some d, some cell => some (specComponent d cell.std)
  | _, _ => none

/-- Covariance of two quantities. -/
def specCov (vars : List (SVar F)) (g1 g2 : Lin F) : F :=
  sumVars (fun v =>
    match g1 v, g2 v, vars[v]? with
    | some a, some b, some cell => a * b * (cell.std * cell.std)
    | _, _, _ => 0) vars.length

/-- Gradient terms of the uncertain positional arguments. -/
def specPosTerms (df : WrapDef F) (av : List (PyVal F)) (kv : KwArgs F) :
    Nat → List (SVal F) → PyRes (List (F × Lin F))
  | _, [] => .ok []
  | pos, .plain _ :: rest => specPosTerms df av kv (pos + 1) rest
  | pos, .unc q :: rest =>
    match df.specPos pos av kv with
    | .error e => .error e
    | .ok c =>
      match specPosTerms df av kv (pos + 1) rest with
      | .error e => .error e
      | .ok l => .ok ((c, q.grad) :: l)

/-- Gradient terms of the uncertain keyword arguments. -/
def specKwTerms (df : WrapDef F) (av : List (PyVal F)) (kv : KwArgs F) :
    List (String × SVal F) → PyRes (List (F × Lin F))
  | [] => .ok []
  | (_, .plain _) :: rest => specKwTerms df av kv rest
  | (name, .unc q) :: rest =>
    match df.specKw name av kv with
    | .error e => .error e
    | .ok c =>
      match specKwTerms df av kv rest with
      | .error e => .error e
      | .ok l => .ok ((c, q.grad) :: l)

/-- Call of a wrapped function: value of `f` at the nominal values; gradient by the chain rule
with the documented derivatives. -/
def specCall (df : WrapDef F) (args : List (SVal F)) (kwargs : List (String × SVal F)) :
    PyRes (SVal F) :=
  let av := args.map SVal.nominal
  let kv := kwargs.map (fun p => (p.1, p.2.nominal))
  match df.f av kv with
  | .error e => .error e
  | .ok v =>
    if args.all (fun a => !a.isUnc) && kwargs.all (fun p => !p.2.isUnc) then .ok (.plain v)
    else if !v.floatLike then .ok (.plain .notImpl)
    else
      match specPosTerms df av kv 0 args with
      | .error e => .error e
      | .ok l1 =>
        match specKwTerms df av kv kwargs with
        | .error e => .error e
        | .ok l2 =>
          match v.toFloat with
          | .error e => .error e
          | .ok x => .ok (.unc { nom := x, grad := Lin.comb (l1 ++ l2), var := none })

/-- `x == y`: the difference has nominal value 0 and standard deviation 0. -/
def specEq (vars : List (SVar F)) (x y : SQ F) : PyRes Bool :=
  if PyFloat.truthy (x.nom - y.nom) then .ok false
  else
    match specStd vars (Lin.comb [(1, x.grad), (-1, y.grad)]) with
    | .error e => .error e
    | .ok s => .ok (!PyFloat.truthy s)

/-- The comparison operators. -/
def specCmp (vars : List (SVar F)) (op : CmpOp) (x y : SQ F) : PyRes Bool :=
  match op with
  | .eq => specEq vars x y
  | .ne => (specEq vars x y).map (fun b => !b)
  | .lt => .ok (PyFloat.ltb x.nom y.nom)
  | .gt => .ok (PyFloat.ltb y.nom x.nom)
  | .le => if PyFloat.ltb x.nom y.nom then .ok true else specEq vars x y
  | .ge => if PyFloat.ltb y.nom x.nom then .ok true else specEq vars x y

/-- Plain numbers are exact quantities. -/
def specExact (x : F) : SQ F := { nom := x, grad := Lin.zero, var := none }

/-- Standard deviations that are refused: negative, and not infinite. -/
def specBadStd (s : F) : Bool := PyFloat.ltb s 0 && !PyFloat.isInf s

/-- The specification of comparisons with any value. -/
def specCmpVal (vars : List (SVar F)) (op : CmpOp) (x : SQ F) : SVal F → PyRes (Option Bool)
  | .unc y => (specCmp vars op x y).map some
  | .plain (.flt y) => (specCmp vars op x (specExact y)).map some
  | .plain .cplx => .error .typeError
  | .plain (.other _) => .ok none
  | .plain .notImpl => .ok none

/-- `a op b` in the specification. -/
def specBinop {F : Type} [PyOps F] (op : BinOp) (a b : SVal F) : PyRes (SVal F) :=
  let reflected : PyRes (SVal F) :=
    match b with
    | .plain _ => .error .typeError
    | .unc _ =>
      match specCall op.rwrapDef [b, a] [] with
      | .ok (.plain .notImpl) => .error .typeError
      | r => r
  match a with
  | .plain _ => reflected
  | .unc _ =>
    match specCall op.wrapDef [a, b] [] with
    | .ok (.plain .notImpl) => reflected
    | r => r

end Unc
