import Verif.Spec.Same
import Mathlib.Logic.Function.Basic

/-
Several programs that run one after the other, in pieces, in the same interpreter (for instance tasks
of an event loop, or the cells of a notebook): the history of the interpreter is made of the commands of
all the programs. Each program has its own names for its values and its wrapped functions.
-/

namespace Unc

variable {F : Type}

/-- Number of values that a command binds. -/
def Cmd.results : Cmd F → Nat
  | .ufloat .. | .affine .. | .call .. | .unop .. | .binop .. | .ldexp .. | .lcst .. => 1
  | .copy _ | .deepcopy _ | .variable .. => 1
  | .modf _ => 2
  | .pickle xs => xs.length
  | _ => 0

/-- The names of a program: its value number `k` is the value number `vals[k]` of the interpreter, and
idem for wrapped functions. -/
structure Names where
  vals : List Nat
  fns : List Nat

/-- An argument of a program, in an interpreter where `nv` values are bound (a name that the program does
not have is a name that the interpreter does not have). -/
def Arg.named (nm : Names) (nv : Nat) : Arg F → Arg F
  | .ref k => .ref (nm.vals.getD k nv)
  | .const v => .const v

/-- A command of a program, in an interpreter where `nv` values are bound and `nf` functions are
wrapped. -/
def Cmd.named (nm : Names) (nv nf : Nat) : Cmd F → Cmd F
  | .ufloat n std t => .ufloat n std t
  | .affine n items => .affine n (items.map fun p => (p.1.named nm nv, p.2))
  | .wrap df => .wrap df
  | .call f args kwargs => .call (nm.fns.getD f nf) (args.map (Arg.named nm nv))
      (kwargs.map fun p => (p.1, p.2.named nm nv))
  | .unop op x => .unop op (x.named nm nv)
  | .binop op x y => .binop op (x.named nm nv) (y.named nm nv)
  | .modf x => .modf (x.named nm nv)
  | .ldexp x i => .ldexp (x.named nm nv) i
  | .lcst f args kwargs => .lcst f (args.map (Arg.named nm nv))
      (kwargs.map fun p => (p.1, p.2.named nm nv))
  | .copy x => .copy (x.named nm nv)
  | .deepcopy x => .deepcopy (x.named nm nv)
  | .pickle xs => .pickle (xs.map (Arg.named nm nv))
  | .variable x v => .variable (x.named nm nv) v
  | .setStd x std => .setStd (x.named nm nv) std
  | .nominal x => .nominal (x.named nm nv)
  | .stdDev x => .stdDev (x.named nm nv)
  | .s x => .s (x.named nm nv)
  | .derivatives x => .derivatives (x.named nm nv)
  | .errorComponents x => .errorComponents (x.named nm nv)
  | .stdScore x value => .stdScore (x.named nm nv) value
  | .covarianceMatrix xs => .covarianceMatrix (xs.map (Arg.named nm nv))
  | .compare op x y => .compare op (x.named nm nv) (y.named nm nv)
  | .toBool x => .toBool (x.named nm nv)
  | .tag x => .tag (x.named nm nv)

/-- The names of a program after one of its commands: the values that the command binds are the next
ones. -/
def Names.grow [PyMath F] (nm : Names) (nv nf : Nat) (c : Cmd F) : Names :=
  ⟨nm.vals ++ List.range' nv c.results, nm.fns ++ List.range' nf c.defs.length⟩

/-- The history of the interpreter for a sequence of commands of several programs (program number,
command). -/
def weave [PyMath F] (names : Nat → Names) (nv nf : Nat) : List (Nat × Cmd F) → List (Cmd F)
  | [] => []
  | (i, c) :: w => c.named (names i) nv nf ::
      weave (Function.update names i ((names i).grow nv nf c)) (nv + c.results) (nf + c.defs.length) w

/-- Idem, after a history `cs` that is common to all the programs: they all have its values and
functions. -/
def weaveAfter [PyMath F] (cs : List (Cmd F)) (w : List (Nat × Cmd F)) : List (Cmd F) :=
  weave (fun _ => ⟨List.range (after cs).env.length, List.range (fnsOf cs).length⟩)
    (after cs).env.length (fnsOf cs).length w

/-- The commands of program `i`. -/
def commandsOf (i : Nat) (w : List (Nat × Cmd F)) : List (Cmd F) :=
  (w.filter (fun p => p.1 == i)).map Prod.snd

/-- What program `i` sees, among what all the programs see. -/
def seenBy (i : Nat) (w : List (Nat × Cmd F)) (os : List (Out F)) : List (Out F) :=
  ((w.zip os).filter (fun p => p.1.1 == i)).map Prod.snd

/-- A command that changes the standard deviation of one of the first `n` values. -/
def Cmd.setsBefore (n : Nat) : Cmd F → Bool
  | .setStd (.ref k) _ => k < n
  | _ => false

end Unc
