import Verif.Py.Rounded
import Verif.Spec.Machine
import Mathlib.Algebra.BigOperators.Fin

/-
Specification of the derivatives of quantities computed with rounding: the *exact* chain rule, i.e.
with the real numbers, applied to the partial derivatives that the program computed for each operation
(these are floats, functions of the nominal values), and the quantities that the error bounds need.

Nothing here depends on the order in which things are computed or read.
-/

namespace Unc

set_option autoImplicit false

/-- What is known about the derivative of a quantity with respect to a variable. A quantity is a tree
of operations; each path from its root to an occurrence of the variable contributes the product of the
partial derivatives along the path. -/
structure Info where
  /-- the exact derivative: sum of the products -/
  exact : ℝ
  /-- sum of the absolute values of the products -/
  mag : ℝ
  /-- sum of the products, with each partial derivative `c` replaced by `max 1 |c|` -/
  scale : ℝ
  /-- length of the longest path -/
  depth : ℕ
  /-- number of paths, i.e. of occurrences of the variable -/
  uses : ℕ
  /-- all the partial derivatives along the paths are finite floats -/
  fin : Prop

/-- Contributions of two arguments of an operation. -/
def Info.add (a b : Info) : Info where
  exact := a.exact + b.exact
  mag := a.mag + b.mag
  scale := a.scale + b.scale
  depth := max a.depth b.depth
  uses := a.uses + b.uses
  fin := a.fin ∧ b.fin

/-- Derivatives of a quantity with respect to all the variables (`none`: the quantity does not depend
on the variable). -/
abbrev Grad := VarId → Option Info

/-- Sum of possibly absent contributions. -/
def infoAdd : Option Info → Option Info → Option Info
  | none, b => b
  | some a, none => some a
  | some a, some b => some (a.add b)

/-- The derivatives of a constant. -/
def Grad.zero : Grad := fun _ => none

def Grad.add (a b : Grad) : Grad := fun v => infoAdd (a v) (b v)

/-- The derivatives of a variable. -/
def Grad.single (v : VarId) : Grad := fun w =>
  if w = v then some { exact := 1, mag := 1, scale := 1, depth := 0, uses := 1, fin := True } else none

section
variable {F : Type} [PyFloat F] [Rounded F]

/-- Contribution of an argument whose partial derivative is the float `c`. -/
noncomputable def Info.smul (c : F) (a : Info) : Info where
  exact := Rounded.val c * a.exact
  mag := |Rounded.val c| * a.mag
  scale := max 1 |Rounded.val c| * a.scale
  depth := a.depth + 1
  uses := a.uses
  fin := Rounded.Fin c ∧ a.fin

noncomputable def Grad.smul (c : F) (a : Grad) : Grad := fun v => (a v).map (Info.smul c)

/-- `c₁ g₁ + c₂ g₂ + ...` -/
noncomputable def Grad.comb : List (F × Grad) → Grad
  | [] => Grad.zero
  | (c, l) :: rest => Grad.add (Grad.smul c l) (Grad.comb rest)

/-- The derivatives given explicitly: a dictionary from variables to floats. -/
noncomputable def Grad.ofDict (d : Derivs F) : Grad :=
  Grad.comb (d.map fun p => (p.2, Grad.single p.1))

/-- Bound on the error of the derivative computed by the package. For `η = 0`, this is
`((1+u)^N - 1) * mag`, with `N = depth + uses - 1`. -/
noncomputable def Info.bound (F : Type) [PyFloat F] [Rounded F] (a : Info) : ℝ :=
  (1 + Rounded.u F) ^ (a.depth + a.uses - 1) *
    (a.mag + ((1 + Rounded.η F) ^ a.depth - 1) * a.scale) - a.mag

end

variable {F : Type}

/-- A quantity: nominal value, derivatives, and its identity when it is a variable. -/
structure RQ (F : Type) where
  nom : F
  grad : Grad
  var : Option VarId

/-- Quantity or other Python value. -/
inductive RVal (F : Type) where
  | unc (q : RQ F)
  | plain (v : PyVal F)

def RVal.isUnc : RVal F → Bool
  | .unc _ => true
  | .plain _ => false

def RVal.nominal : RVal F → PyVal F
  | .unc q => .flt q.nom
  | .plain v => v

section
variable [PyFloat F]

/-- The partial derivatives with respect to the uncertain positional arguments, with the derivatives
of these arguments. -/
def exactPosTerms (df : WrapDef F) (av : List (PyVal F)) (kv : KwArgs F) :
    Nat → List (RVal F) → PyRes (List (F × Grad))
  | _, [] => .ok []
  | pos, .plain _ :: rest => exactPosTerms df av kv (pos + 1) rest
  | pos, .unc q :: rest =>
    match df.specPos pos av kv with
    | .error e => .error e
    | .ok c =>
      match exactPosTerms df av kv (pos + 1) rest with
      | .error e => .error e
      | .ok l => .ok ((c, q.grad) :: l)

/-- Idem for the uncertain keyword arguments. -/
def exactKwTerms (df : WrapDef F) (av : List (PyVal F)) (kv : KwArgs F) :
    List (String × RVal F) → PyRes (List (F × Grad))
  | [] => .ok []
  | (_, .plain _) :: rest => exactKwTerms df av kv rest
  | (name, .unc q) :: rest =>
    match df.specKw name av kv with
    | .error e => .error e
    | .ok c =>
      match exactKwTerms df av kv rest with
      | .error e => .error e
      | .ok l => .ok ((c, q.grad) :: l)

variable [Rounded F]

/-- Call of a wrapped function: value of `f` at the nominal values; chain rule. -/
noncomputable def exactCall (df : WrapDef F) (args : List (RVal F)) (kwargs : List (String × RVal F)) :
    PyRes (RVal F) :=
  let av := args.map RVal.nominal
  let kv := kwargs.map (fun p => (p.1, p.2.nominal))
  match df.f av kv with
  | .error e => .error e
  | .ok v =>
    if args.all (fun a => !a.isUnc) && kwargs.all (fun p => !p.2.isUnc) then .ok (.plain v)
    else if !v.floatLike then .ok (.plain .notImpl)
    else
      match exactPosTerms df av kv 0 args with
      | .error e => .error e
      | .ok l1 =>
        match exactKwTerms df av kv kwargs with
        | .error e => .error e
        | .ok l2 =>
          match v.toFloat with
          | .error e => .error e
          | .ok x => .ok (.unc { nom := x, grad := Grad.comb (l1 ++ l2), var := none })

end

/-- `a op b`, with Python's reflected operators. -/
noncomputable def exactBinop [PyOps F] [Rounded F] (op : BinOp) (a b : RVal F) : PyRes (RVal F) :=
  let reflected : PyRes (RVal F) :=
    match b with
    | .plain _ => .error .typeError
    | .unc _ =>
      match exactCall op.rwrapDef [b, a] [] with
      | .ok (.plain .notImpl) => .error .typeError
      | r => r
  match a with
  | .plain _ => reflected
  | .unc _ =>
    match exactCall op.wrapDef [a, b] [] with
    | .ok (.plain .notImpl) => reflected
    | r => r

/-- A variable: nominal value and standard deviation. -/
structure RVar (F : Type) where
  nom : F
  std : F

/-- State: the variables, the functions, the values bound so far. -/
structure RState (F : Type) where
  vars : List (RVar F)
  fns : List (WrapDef F)
  env : List (Option (RVal F))

/-- Value of an argument. -/
def Arg.reval (env : List (Option (RVal F))) : Arg F → Option (RVal F)
  | .ref k => (env[k]?).join
  | .const v => some (.plain v)

/-- Value of an argument that must be a quantity. -/
def Arg.revalUnc (env : List (Option (RVal F))) (a : Arg F) : Option (RQ F) :=
  match a.reval env with
  | some (.unc q) => some q
  | _ => none

/-- Values of keyword arguments. -/
def Arg.revalKw (env : List (Option (RVal F))) (p : String × Arg F) : Option (String × RVal F) :=
  (p.2.reval env).map (fun v => (p.1, v))

/-- Item of a dictionary of derivatives: the key is a variable. -/
def Arg.revalItem (env : List (Option (RVal F))) (p : Arg F × F) : Option (VarId × F) :=
  ((p.1.revalUnc env).bind RQ.var).map (fun v => (v, p.2))

/-- A quantity that depends on none of the `n` variables. -/
def RVal.isConst (n : Nat) : RVal F → Bool
  | .unc q => !(List.range n).any (fun v => (q.grad v).isSome)
  | .plain _ => false

/-- Binds the result of a command. -/
def RState.bind (s : RState F) : PyRes (RVal F) → RState F
  | .error _ => { s with env := s.env ++ [none] }
  | .ok (.plain .notImpl) => { s with env := s.env ++ [none] }
  | .ok v => { s with env := s.env ++ [some v] }

/-- Nothing is bound. -/
def RState.skip (s : RState F) (n : Nat) : RState F := { s with env := s.env ++ List.replicate n none }

section std
variable [PyFloat F] [Rounded F]

/-- Exact contribution of a variable to the uncertainty: derivative times standard deviation (up to
its sign). -/
noncomputable def Grad.term (g : Grad) (vars : List (RVar F)) (v : VarId) : ℝ :=
  match g v, vars[v]? with
  | some I, some cell => I.exact * Rounded.val cell.std
  | _, _ => 0

/-- Bound on the error of the corresponding error component. -/
noncomputable def Grad.termBound (g : Grad) (vars : List (RVar F)) (v : VarId) : ℝ :=
  match g v, vars[v]? with
  | some I, some cell =>
    (1 + Rounded.u F) * (I.bound F * |Rounded.val cell.std|) +
      Rounded.u F * |I.exact * Rounded.val cell.std| + Rounded.η F
  | _, _ => 0

/-- Number of variables that the quantity depends on. -/
def Grad.count (g : Grad) (n : ℕ) : ℕ := ((List.range n).filter fun v => (g v).isSome).length

/-- Square root of the sum of the squares. -/
noncomputable def l2norm (f : VarId → ℝ) (n : ℕ) : ℝ := √(∑ v ∈ Finset.range n, f v ^ 2)

/-- The exact standard deviation. -/
noncomputable def Grad.std (g : Grad) (vars : List (RVar F)) : ℝ := l2norm (g.term vars) vars.length

/-- Bound on the error of the standard deviation computed by the package. -/
noncomputable def Grad.stdBound (g : Grad) (vars : List (RVar F)) : ℝ :=
  (1 + Rounded.u F) ^ (g.count vars.length + 1) *
    (g.std vars + l2norm (g.termBound vars) vars.length + √(g.count vars.length * Rounded.η F)) -
    g.std vars

end std

variable [PyMath F] [Rounded F]

/-- The commands other than copies; those that read something have no effect. -/
noncomputable def RState.step (s : RState F) : Cmd F → RState F
  | .ufloat n std _ =>
    if specBadStd std then s.skip 1
    else { s with
      vars := s.vars ++ [⟨n, std⟩]
      env := s.env ++ [some (.unc { nom := n, grad := Grad.single s.vars.length,
                                    var := some s.vars.length })] }
  | .affine n items =>
    match evalArgs (Arg.revalItem s.env) items with
    | none => s.skip 1
    | some d =>
      if (d.map Prod.fst).Nodup then
        { s with env := s.env ++ [some (.unc { nom := n, grad := Grad.ofDict d, var := none })] }
      else s.skip 1
  | .wrap df => { s with fns := s.fns ++ [df] }
  | .call f args kwargs =>
    match s.fns[f]? with
    | none => s.skip 1
    | some df =>
      match evalArgs (Arg.reval s.env) args, evalArgs (Arg.revalKw s.env) kwargs with
      | some a, some k => s.bind (exactCall df a k)
      | _, _ => s.skip 1
  | .unop op x =>
    match x.revalUnc s.env with
    | none => s.skip 1
    | some q => s.bind (exactCall op.wrapDef [.unc q] [])
  | .binop op x y =>
    match x.reval s.env, y.reval s.env with
    | some a, some b =>
      if a.isUnc || b.isUnc then s.bind (exactBinop op a b) else s.skip 1
    | _, _ => s.skip 1
  | .modf x =>
    match x.reval s.env with
    | none => s.skip 2
    | some v =>
      if v.isConst s.vars.length then s.skip 2 else
      match v with
      | .unc q => { s with env := s.env ++
          [some (.unc { nom := (PyMath.modf q.nom).1, grad := q.grad, var := none }),
           some (.plain (.flt (PyMath.modf q.nom).2))] }
      | .plain (.flt x) => { s with env := s.env ++
          [some (.plain (.flt (PyMath.modf x).1)), some (.plain (.flt (PyMath.modf x).2))] }
      | .plain _ => s.skip 2
  | .ldexp x i =>
    match x.reval s.env with
    | none => s.skip 1
    | some v =>
      if v.isConst s.vars.length then s.skip 1 else
      match v with
      | .unc q =>
        match PyMath.ldexp q.nom i with
        | .error _ => s.skip 1
        | .ok r => { s with env := s.env ++ [some (.unc
            { nom := r, grad := Grad.comb [((PyMath.pow2 i : F), q.grad)], var := none })] }
      | .plain (.flt x) =>
        match PyMath.ldexp x i with
        | .error _ => s.skip 1
        | .ok r => { s with env := s.env ++ [some (.plain (.flt r))] }
      | .plain _ => s.skip 1
  | .lcst f args kwargs =>
    match evalArgs (Arg.reval s.env) args, evalArgs (Arg.revalKw s.env) kwargs with
    | some a, some k =>
      s.bind ((f (a.map RVal.nominal) (k.map fun p => (p.1, p.2.nominal))).map .plain)
    | _, _ => s.skip 1
  | .variable x v =>
    match x.revalUnc s.env with
    | none => s.skip 1
    | some q =>
      match q.grad v, s.vars[v]? with
      | some _, some cell =>
        { s with env := s.env ++ [some (.unc { nom := cell.nom, grad := Grad.single v, var := some v })] }
      | _, _ => s.skip 1
  | .setStd x std =>
    match (x.revalUnc s.env).bind RQ.var with
    | none => s
    | some v =>
      match s.vars[v]? with
      | none => s
      | some cell => if specBadStd std then s else { s with vars := s.vars.set v ⟨cell.nom, std⟩ }
  | _ => s

/-- State after a history. -/
noncomputable def exactly (cs : List (Cmd F)) : RState F :=
  cs.foldl RState.step { vars := [], fns := opDefs, env := [] }

end Unc
