import Verif.Model.Machine

/-
Specification of nominal values: evaluation of a program with plain floats instead of numbers with
uncertainties. There are no uncertainties, derivatives or linear combinations here.
-/

namespace Unc

section
variable {F : Type} [PyOps F]

/-- `x op y` on plain values; complex results are refused. -/
def plainBinop (op : BinOp) : PyVal F → PyVal F → PyRes (PyVal F)
  | .flt x, .flt y =>
    match op.onFloats x y with
    | .ok .cplx => .error .valueError
    | r => r
  | _, _ => .error .typeError

/-- `op x` on plain values. -/
def plainUnop (op : UnOp) : PyVal F → PyRes (PyVal F)
  | .flt x => (op.onFloat x).map .flt
  | _ => .error .typeError

end

variable {F : Type} [PyMath F]

/-- Access to a variable through the keys of the derivatives. -/
def Cmd.isVariable : Cmd F → Bool
  | .variable _ _ => true
  | _ => false

/-- Value of an argument. -/
def Arg.plain (env : List (Option (PyVal F))) : Arg F → Option (PyVal F)
  | .ref k => (env[k]?).join
  | .const v => some v

def Arg.plainKw (env : List (Option (PyVal F))) (p : String × Arg F) : Option (String × PyVal F) :=
  (p.2.plain env).map (fun v => (p.1, v))

/-- The value, if any. -/
def valueOf {α : Type} : PyRes α → Option α
  | .ok a => some a
  | .error _ => none

/-- The state of a computation with plain floats: functions defined so far, and values of the results
of the commands. -/
structure Plain (F : Type) where
  fns : List (WrapDef F)
  env : List (Option (PyVal F))

/-- A command with plain floats: `ufloat(n, s)` is simply `n`, a copy is simply the value, and the
commands that read something create no value. (`variable` has no meaning for plain floats.) -/
def Plain.step (p : Plain F) : Cmd F → Plain F
  | .ufloat n _ _ => ⟨p.fns, p.env ++ [some (.flt n)]⟩
  | .affine n _ => ⟨p.fns, p.env ++ [some (.flt n)]⟩
  | .wrap df => ⟨p.fns ++ [df], p.env⟩
  | .call f args kwargs =>
    match p.fns[f]?, evalArgs (Arg.plain p.env) args, evalArgs (Arg.plainKw p.env) kwargs with
    | some df, some a, some k => ⟨p.fns, p.env ++ [valueOf (df.f a k)]⟩
    | _, _, _ => ⟨p.fns, p.env ++ [none]⟩
  | .unop op x => ⟨p.fns, p.env ++ [(x.plain p.env).bind fun a => valueOf (plainUnop op a)]⟩
  | .binop op x y =>
    match x.plain p.env, y.plain p.env with
    | some a, some b => ⟨p.fns, p.env ++ [valueOf (plainBinop op a b)]⟩
    | _, _ => ⟨p.fns, p.env ++ [none]⟩
  | .modf x =>
    match x.plain p.env with
    | some (.flt a) =>
      ⟨p.fns, p.env ++ [some (.flt (PyMath.modf a).1), some (.flt (PyMath.modf a).2)]⟩
    | _ => ⟨p.fns, p.env ++ [none, none]⟩
  | .ldexp x i =>
    match x.plain p.env with
    | some (.flt a) => ⟨p.fns, p.env ++ [(valueOf (PyMath.ldexp a i)).map .flt]⟩
    | _ => ⟨p.fns, p.env ++ [none]⟩
  | .lcst f args kwargs =>
    match evalArgs (Arg.plain p.env) args, evalArgs (Arg.plainKw p.env) kwargs with
    | some a, some k => ⟨p.fns, p.env ++ [valueOf (f a k)]⟩
    | _, _ => ⟨p.fns, p.env ++ [none]⟩
  | .copy x => ⟨p.fns, p.env ++ [x.plain p.env]⟩
  | .deepcopy x => ⟨p.fns, p.env ++ [x.plain p.env]⟩
  | .pickle xs => ⟨p.fns, p.env ++ xs.map (Arg.plain p.env)⟩
  | .variable _ _ => ⟨p.fns, p.env ++ [none]⟩
  | _ => p

/-- A program with plain floats. -/
def Plain.run (p : Plain F) : List (Cmd F) → Plain F
  | [] => p
  | c :: cs => Plain.run (p.step c) cs

/-- The result of a program run with plain floats. -/
def plainly (cs : List (Cmd F)) : Plain F := Plain.run ⟨opDefs, []⟩ cs

end Unc
