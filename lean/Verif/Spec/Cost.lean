import Verif.Spec.Observe

/-
How much work reading a result is: number of terms that the loop of `LinearCombination.expand` (core.py 1550-1577) handles.
-/

set_option autoImplicit false

namespace Unc

variable {F : Type}

section
variable [PyFloat F]

/-- Number of terms handled by `expandLoop` (iterations of the loop, except the last one, which finds no term). -/
def loopTerms : Nat → Heap F → NodeId → Derivs F → Nat
  | 0, _, _, _ => 0
  | fuel + 1, h, i, d =>
    match expandStep h i d with
    | (h', .go d') => 1 + loopTerms fuel h' i d'
    | _ => 0

end

variable [PyMath F]

/-- Number of terms handled when the derivatives of `x` are read (by `x.derivatives`, `x.std_dev`, etc.) after the history
`cs`. -/
def termsRead (cs : List (Cmd F)) (x : Arg F) : Nat :=
  match x.evalUnc (after cs).env with
  | none => 0
  | some u =>
    match (after cs).w.nodes[u.lin]? with
    | some (.terms _) => loopTerms (fuelFor (after cs).w.nodes u.lin) (after cs).w.nodes u.lin []
    | _ => 0

/-! ### Prediction from the text of the program -/

/-- Operands of a calculation. -/
def Cmd.operands : Cmd F → List (Arg F)
  | .call _ args kwargs => args ++ kwargs.map Prod.snd
  | .unop _ x => [x]
  | .binop _ x y => [x, y]
  | .ldexp x _ => [x]
  | .modf x => [x]
  | _ => []

/-- What a command copies. -/
def Cmd.copied : Cmd F → List (Arg F)
  | .copy x => [x]
  | .deepcopy x => [x]
  | .pickle xs => xs
  | _ => []

/-- Earlier results used by a calculation or by a copy. -/
def Cmd.uses (c : Cmd F) : List Nat :=
  (c.operands ++ c.copied).filterMap fun
    | .ref k => some k
    | .const _ => none

/-- Work for one operand: one term, and the work for the operand itself. -/
def operandWork (ws : List Nat) : Arg F → Nat
  | .ref k => 1 + (ws[k]?).getD 0
  | .const _ => 0

/-- Work for a copy: the work for the original. -/
def copyWork (ws : List Nat) : Arg F → Nat
  | .ref k => (ws[k]?).getD 0
  | .const _ => 0

/-- Reading a result makes any other reading of it free. -/
def markRead (ws : List Nat) : Arg F → List Nat
  | .ref k => ws.set k 0
  | .const _ => ws

/-- `ws` gives the work for each result so far: the same after one more command. -/
def workStep (ws : List Nat) : Cmd F → List Nat
  | .ufloat _ _ _ | .affine _ _ | .lcst _ _ _ | .variable _ _ => ws ++ [0]
  | .call f args kwargs => ws ++ [((Cmd.call f args kwargs).operands.map (operandWork ws)).sum]
  | .unop op x => ws ++ [((Cmd.unop op x).operands.map (operandWork ws)).sum]
  | .binop op x y => ws ++ [((Cmd.binop op x y).operands.map (operandWork ws)).sum]
  | .ldexp x i => ws ++ [((Cmd.ldexp x i).operands.map (operandWork ws)).sum]
  | .modf x => ws ++ [((Cmd.modf x).operands.map (operandWork ws)).sum, 0]
  | .copy x | .deepcopy x => ws ++ [copyWork ws x]
  | .pickle xs => ws ++ xs.map (copyWork ws)
  | .stdDev x | .s x | .derivatives x | .errorComponents x | .stdScore x _ => markRead ws x
  | _ => ws

/-- The work for each result of a program. -/
def work (cs : List (Cmd F)) : List Nat := cs.foldl workStep []

/-- The result number `k` of the program is made by `ufloat`. -/
def IsVariableResult (cs : List (Cmd F)) (k : Nat) : Prop :=
  ∃ cs₁ n s tag cs₂, cs = cs₁ ++ .ufloat n s tag :: cs₂ ∧ (work cs₁).length = k

/-- Number of times that the result number `k` is used in calculations and copies. -/
def timesUsed (cs : List (Cmd F)) (k : Nat) : Nat := (cs.flatMap Cmd.uses).count k

end Unc
