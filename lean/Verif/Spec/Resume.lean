import Verif.Spec.Observe

/-
A calculation that starts from `n` numbers with uncertainty, and that can be run on any `n` numbers of any program.
-/

namespace Unc

set_option autoImplicit false

variable {F : Type}

/-- A step of a calculation on `n` numbers. In its arguments, `.ref k` is the number `k` if `k < n`, and `.ref (n + j)` is the
result of step number `j` (starting from 0). -/
inductive CalcStep (F : Type) where
  /-- unary operator -/
  | unop (op : UnOp) (x : Arg F)
  /-- binary operator -/
  | binop (op : BinOp) (x y : Arg F)
  /-- call of a wrapped function (for instance a function of `umath`) -/
  | call (f : Nat) (args : List (Arg F)) (kwargs : List (String × Arg F))
  /-- call of a locally constant function -/
  | lcst (f : PyFn F) (args : List (Arg F)) (kwargs : List (String × Arg F))

/-- Where the numbers of a calculation are in a program: the first ones are the values number `x i` of the program; the
results are put after the first `base` values. -/
def placeOf {n : Nat} (x : Fin n → Nat) (base k : Nat) : Nat := if h : k < n then x ⟨k, h⟩ else base + (k - n)

/-- An argument, where the values have the places `g`. -/
def Arg.placed (g : Nat → Nat) : Arg F → Arg F
  | .ref k => .ref (g k)
  | .const v => .const v

/-- The command of a step, where the values have the places `g`. -/
def CalcStep.cmd (g : Nat → Nat) : CalcStep F → Cmd F
  | .unop op x => .unop op (x.placed g)
  | .binop op x y => .binop op (x.placed g) (y.placed g)
  | .call f args kwargs => .call f (args.map (Arg.placed g)) (kwargs.map fun p => (p.1, p.2.placed g))
  | .lcst f args kwargs => .lcst f (args.map (Arg.placed g)) (kwargs.map fun p => (p.1, p.2.placed g))

variable [PyMath F] {n : Nat}

/-- The history `cs`, followed by the calculation `p` on its values number `x i`. -/
def calculation (cs : List (Cmd F)) (x : Fin n → Nat) (p : List (CalcStep F)) : List (Cmd F) :=
  cs ++ p.map (CalcStep.cmd (placeOf x (after cs).env.length))

/-- Value number `k` of the calculation. -/
def calcRef (cs : List (Cmd F)) (x : Fin n → Nat) (k : Nat) : Arg F := .ref (placeOf x (after cs).env.length k)

end Unc
