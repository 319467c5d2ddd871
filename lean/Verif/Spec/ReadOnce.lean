import Verif.Spec.Observe

/-
Specification for operations on numbers whose derivatives were calculated already.
-/

namespace Unc

set_option autoImplicit false

/-- The chain rule, with floats: for each variable, the derivatives of the arguments that depend on it are multiplied by the
coefficients `c 0`, `c 1`... of the arguments, and added to 0 from the last argument to the first one. -/
def chainRule {F : Type} [PyFloat F] (c : Nat → F) : Nat → List (VarId → Option F) → VarId → Option F
  | _, [], _ => none
  | k, D :: Ds, v =>
    match D v with
    | none => chainRule c (k + 1) Ds v
    | some d => some ((chainRule c (k + 1) Ds v).getD 0 + c k * d)

/-- The chain rule for two operands, with coefficients `a` and `b`. -/
def chainRule2 {F : Type} [PyFloat F] (a b : F) (D D' : VarId → Option F) (v : VarId) : Option F :=
  match D v, D' v with
  | none, none => none
  | some d, none => some (0 + a * d)
  | none, some d' => some (0 + b * d')
  | some d, some d' => some ((0 + b * d') + a * d)

variable {F : Type} [PyMath F]

/-- The commands that calculate the derivatives of the result number `k`. -/
def calculates (k : Nat) (value : F) : List (Cmd F) :=
  [.derivatives (.ref k), .errorComponents (.ref k), .stdDev (.ref k), .s (.ref k), .stdScore (.ref k) value]

/-- The derivatives `D` of `x` are known after the history `cs`: it is a plain number, a variable, or a result that was read
at some point. -/
inductive Known (cs : List (Cmd F)) : Arg F → (VarId → Option F) → Prop
  | number (a : F) : Known cs (.const (.flt a)) (fun _ => none)
  | «variable» (k : Nat) (t : Option String) (D : VarId → Option F) (ht : sees cs (.tag (.ref k)) = .tag t)
      (hD : sees cs (.derivatives (.ref k)) = .dict D) : Known cs (.ref k) D
  | read (cs₁ : List (Cmd F)) (c : Cmd F) (cs₂ : List (Cmd F)) (k : Nat) (value : F)
      (D : VarId → Option F) (h : cs = cs₁ ++ c :: cs₂) (hc : c ∈ calculates k value) (hD : sees cs₁ (.derivatives (.ref k)) = .dict D) :
      Known cs (.ref k) D

end Unc
