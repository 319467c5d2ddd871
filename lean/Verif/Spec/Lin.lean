import Verif.Model.LinComb

/-
Specification of the derivatives of a quantity: a partial map from variables to coefficients
(`none`: the quantity does not depend on the variable). This file does not mention the lazy
representation used by the code.
-/

namespace Unc

variable {F : Type} [PyFloat F]

/-- A linear form: coefficient of each variable, or `none` for variables that do not appear. -/
abbrev Lin (F : Type) := VarId → Option F

/-- Sum of two possibly absent coefficients. -/
def optAdd : Option F → Option F → Option F
  | none, b => b
  | some a, none => some a
  | some a, some b => some (a + b)

/-- The zero linear form: no variable. -/
def Lin.zero : Lin F := fun _ => none

/-- Sum of two linear forms. -/
def Lin.add (a b : Lin F) : Lin F := fun v => optAdd (a v) (b v)

/-- Multiplication of a linear form by a number. -/
def Lin.smul (c : F) (a : Lin F) : Lin F := fun v => (a v).map (c * ·)

/-- The differential of a variable. -/
def Lin.single (v : VarId) : Lin F := fun u => if u = v then some 1 else none

/-- `c₁ l₁ + c₂ l₂ + ...` -/
def Lin.comb : List (F × Lin F) → Lin F
  | [] => Lin.zero
  | (c, l) :: rest => Lin.add (Lin.smul c l) (Lin.comb rest)

/-- The linear form described by a dictionary. -/
def Lin.ofDict (d : Derivs F) : Lin F := fun v => d.lookup v

end Unc
