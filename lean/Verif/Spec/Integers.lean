import Verif.Py.Num
import Verif.Spec.Plain

/-
Specification for integer constants: two programs that are the same, except that the constants of the first one can be Python
integers (`2*x`) where the second one has floats (`2.0*x`).
-/

namespace Unc

set_option autoImplicit false

/-- The same argument. The integers are between -2**53 and 2**53. -/
inductive SameArg : Arg Num → Arg B64 → Prop
  | ref (k : ℕ) : SameArg (.ref k) (.ref k)
  | float (x : B64) : SameArg (.const (.flt (.flt x))) (.const (.flt x))
  | int (n : ℤ) (h : n.natAbs ≤ 2 ^ 53) : SameArg (.const (.flt (.int n))) (.const (.flt (.fin (n * 2 ^ 1074))))

/-- The same command. (The arguments of `ufloat()` are converted by `float()`, core.py 1659, 2754, 2789.) -/
inductive SameCmd : Cmd Num → Cmd B64 → Prop
  | ufloat (n s : B64) (tag : Option String) : SameCmd (.ufloat (.flt n) (.flt s) tag) (.ufloat n s tag)
  | left (op : BinOp) (k : ℕ) {y : Arg Num} {y' : Arg B64} (h : SameArg y y') :
      SameCmd (.binop op (.ref k) y) (.binop op (.ref k) y')
  | right (op : BinOp) (k : ℕ) {x : Arg Num} {x' : Arg B64} (h : SameArg x x') :
      SameCmd (.binop op x (.ref k)) (.binop op x' (.ref k))
  | unop (op : UnOp) (k : ℕ) : SameCmd (.unop op (.ref k)) (.unop op (.ref k))
  | setStd (k : ℕ) (s : B64) : SameCmd (.setStd (.ref k) (.flt s)) (.setStd (.ref k) s)
  | copy (k : ℕ) : SameCmd (.copy (.ref k)) (.copy (.ref k))
  | deepcopy (k : ℕ) : SameCmd (.deepcopy (.ref k)) (.deepcopy (.ref k))
  | nominal (k : ℕ) : SameCmd (.nominal (.ref k)) (.nominal (.ref k))
  | derivatives (k : ℕ) : SameCmd (.derivatives (.ref k)) (.derivatives (.ref k))
  | errorComponents (k : ℕ) : SameCmd (.errorComponents (.ref k)) (.errorComponents (.ref k))
  | stdDev (k : ℕ) : SameCmd (.stdDev (.ref k)) (.stdDev (.ref k))

/-- The same program. -/
def SameProgram (cs : List (Cmd Num)) (cs' : List (Cmd B64)) : Prop := List.Forall₂ SameCmd cs cs'

end Unc
