import Mathlib.Analysis.Calculus.Deriv.Basic
import Mathlib.Analysis.Calculus.FDeriv.Basic
import Mathlib.Analysis.Normed.Group.Basic
import Verif.Spec.Rounding

/-
Specification of calculations done with +, -, *, /, **, abs(), wrapped functions of one or two arguments (those of
`umath`, or of the user) and floating-point numbers: the *formula* that a program calculates, as a function of
the values of the variables, with real numbers; and a bound on the effects of rounding, obtained by following the
rounding errors through the formula.

Nothing here depends on how, or when, the package calculates derivatives.
-/

namespace Unc

set_option autoImplicit false

/-- What is known of a function of one argument: the mathematical function `g` and its derivative `d`, on a
domain `dom`, with Lipschitz constants there; and the accuracy of the program that calculates `g` (`acc`) and of
the one that calculates `d` (`dacc`). -/
structure FnSpec1 where
  g : ℝ → ℝ
  d : ℝ → ℝ
  dom : ℝ → Prop
  lip : ℝ
  dlip : ℝ
  acc : ℝ
  dacc : ℝ

/-- The mathematical part of the description is right. -/
structure FnSpec1.Smooth (s : FnSpec1) : Prop where
  deriv : ∀ x, s.dom x → HasDerivAt s.g (s.d x) x
  lip : ∀ x y, s.dom x → s.dom y → |s.g x - s.g y| ≤ s.lip * |x - y|
  dlip : ∀ x y, s.dom x → s.dom y → |s.d x - s.d y| ≤ s.dlip * |x - y|
  lip_nonneg : 0 ≤ s.lip
  dlip_nonneg : 0 ≤ s.dlip
  acc_nonneg : 0 ≤ s.acc
  dacc_nonneg : 0 ≤ s.dacc

/-- The same description for a function of two arguments, with its partial derivatives `d0` and `d1`. -/
structure FnSpec2 where
  g : ℝ → ℝ → ℝ
  d0 : ℝ → ℝ → ℝ
  d1 : ℝ → ℝ → ℝ
  dom : ℝ → ℝ → Prop
  lip0 : ℝ
  lip1 : ℝ
  d0lip0 : ℝ
  d0lip1 : ℝ
  d1lip0 : ℝ
  d1lip1 : ℝ
  acc : ℝ
  dacc0 : ℝ
  dacc1 : ℝ

/-- The mathematical part of the description is right. -/
structure FnSpec2.Smooth (s : FnSpec2) : Prop where
  deriv : ∀ x y, s.dom x y → HasFDerivAt (fun p : ℝ × ℝ => s.g p.1 p.2)
    (s.d0 x y • ContinuousLinearMap.fst ℝ ℝ ℝ + s.d1 x y • ContinuousLinearMap.snd ℝ ℝ ℝ) (x, y)
  lip : ∀ x y x' y', s.dom x y → s.dom x' y' → |s.g x y - s.g x' y'| ≤ s.lip0 * |x - x'| + s.lip1 * |y - y'|
  d0lip : ∀ x y x' y', s.dom x y → s.dom x' y' →
    |s.d0 x y - s.d0 x' y'| ≤ s.d0lip0 * |x - x'| + s.d0lip1 * |y - y'|
  d1lip : ∀ x y x' y', s.dom x y → s.dom x' y' →
    |s.d1 x y - s.d1 x' y'| ≤ s.d1lip0 * |x - x'| + s.d1lip1 * |y - y'|
  lip_nonneg : 0 ≤ s.lip0 ∧ 0 ≤ s.lip1
  d0lip_nonneg : 0 ≤ s.d0lip0 ∧ 0 ≤ s.d0lip1
  d1lip_nonneg : 0 ≤ s.d1lip0 ∧ 0 ≤ s.d1lip1
  acc_nonneg : 0 ≤ s.acc
  dacc_nonneg : 0 ≤ s.dacc0 ∧ 0 ≤ s.dacc1

/-- Formulas. -/
inductive Formula where
  /-- a variable, created by `ufloat()` -/
  | var (v : VarId)
  /-- a float -/
  | const (c : ℝ)
  | pos (a : Formula)
  | neg (a : Formula)
  | abs (a : Formula)
  | add (a b : Formula)
  | sub (a b : Formula)
  | mul (a b : Formula)
  | div (a b : Formula)
  /-- functions of one and two arguments -/
  | fn1 (s : FnSpec1) (a : Formula)
  | fn2 (s : FnSpec2) (a b : Formula)

namespace Formula

/-- Value, when the variables have the values `n`. -/
noncomputable def eval (n : VarId → ℝ) : Formula → ℝ
  | var v => n v
  | const c => c
  | pos a => a.eval n
  | neg a => -a.eval n
  | abs a => |a.eval n|
  | add a b => a.eval n + b.eval n
  | sub a b => a.eval n - b.eval n
  | mul a b => a.eval n * b.eval n
  | div a b => a.eval n / b.eval n
  | fn1 s a => s.g (a.eval n)
  | fn2 s a b => s.g (a.eval n) (b.eval n)

/-- Partial derivative with respect to the variable `v`. -/
noncomputable def partialAt (φ : Formula) (n : VarId → ℝ) (v : VarId) : ℝ :=
  deriv (fun t => φ.eval (Function.update n v t)) (n v)

/-- Number of times that the variable `v` appears. -/
def count (v : VarId) : Formula → ℕ
  | var w => if w = v then 1 else 0
  | const _ => 0
  | pos a | neg a | abs a | fn1 _ a => a.count v
  | add a b | sub a b | mul a b | div a b | fn2 _ a b => a.count v + b.count v

/-- Maximum number of nested operations. -/
def depth : Formula → ℕ
  | var _ | const _ => 0
  | pos a | neg a | abs a | fn1 _ a => a.depth + 1
  | add a b | sub a b | mul a b | div a b | fn2 _ a b => max a.depth b.depth + 1

def isConst : Formula → Bool
  | const _ => true
  | _ => false

end Formula

/-- Error of a rounded result: `x` is the result of an operation on exact numbers, `e` the error that comes
from its operands. -/
def roundingError (u η x e : ℝ) : ℝ := e + u * (|x| + e) + η

/-- Error of a product that comes from the errors of its operands. -/
def productError (a ea b eb : ℝ) : ℝ := |a| * eb + |b| * ea + ea * eb

/-- Error of a quotient that comes from the errors of its operands, for `eb < |b|`. -/
noncomputable def quotientError (a ea b eb : ℝ) : ℝ := (ea + |a / b| * eb) / (|b| - eb)

/-- Error of `y**2`. -/
def squareError (u η b eb : ℝ) : ℝ := roundingError u η (b ^ 2) (productError b eb b eb)

/-- Error of `1/y`. -/
noncomputable def inverseError (u η b eb : ℝ) : ℝ := roundingError u η (1 / b) (quotientError 1 0 b eb)

/-- Error of `-x/y**2`. -/
noncomputable def quotientDerivError (u η a ea b eb : ℝ) : ℝ :=
  roundingError u η (a / b ^ 2) (quotientError a ea (b ^ 2) (squareError u η b eb))

/-- Sensitivity of a formula to a variable. -/
structure Sens where
  /-- sum, over the occurrences of the variable, of the absolute values of the products of the partial
  derivatives -/
  mag : ℝ
  /-- the same sum, with each partial derivative `c` replaced by `max 1 |c|` -/
  scale : ℝ
  /-- error on `mag` due to the fact that the partial derivatives are calculated with floats, at a point
  that has itself been calculated with floats -/
  magErr : ℝ
  /-- the same error for `scale` -/
  scaleErr : ℝ

namespace Sens

def zero : Sens := ⟨0, 0, 0, 0⟩

def one : Sens := ⟨1, 1, 0, 0⟩

def add (a b : Sens) : Sens := ⟨a.mag + b.mag, a.scale + b.scale, a.magErr + b.magErr, a.scaleErr + b.scaleErr⟩

/-- Effect of an operation whose partial derivative is `c`, known with the error `γ`. -/
noncomputable def smul (c γ : ℝ) (a : Sens) : Sens where
  mag := |c| * a.mag
  scale := max 1 |c| * a.scale
  magErr := γ * a.mag + (|c| + γ) * a.magErr
  scaleErr := γ * a.scale + (max 1 |c| + γ) * a.scaleErr

end Sens

namespace Formula

section
variable (u η : ℝ) (n : VarId → ℝ)

/-- Bound on the error of the value of a formula calculated with floats, where `u` is the unit roundoff and
`η` the underflow unit. -/
noncomputable def err : Formula → ℝ
  | var _ | const _ => 0
  | pos a | neg a | abs a => a.err
  | add a b => roundingError u 0 (a.eval n + b.eval n) (a.err + b.err)
  | sub a b => roundingError u 0 (a.eval n - b.eval n) (a.err + b.err)
  | mul a b => roundingError u η (a.eval n * b.eval n) (productError (a.eval n) a.err (b.eval n) b.err)
  | div a b => roundingError u η (a.eval n / b.eval n) (quotientError (a.eval n) a.err (b.eval n) b.err)
  | fn1 s a => s.lip * a.err + s.acc
  | fn2 s a b => s.lip0 * a.err + s.lip1 * b.err + s.acc

/-- The rounding errors are too small to matter to divisions (a divisor that is not 0 must not become 0),
to `abs()` (a number that is not 0 must not change sign) and to functions (their arguments must remain in the
domain). -/
def Safe : Formula → Prop
  | var _ | const _ => True
  | pos a | neg a => a.Safe
  | abs a => a.Safe ∧ a.err u η n < |a.eval n|
  | add a b | sub a b | mul a b => a.Safe ∧ b.Safe
  | div a b => a.Safe ∧ b.Safe ∧ b.err u η n < |b.eval n| ∧
      (b.isConst = false → squareError u η (b.eval n) (b.err u η n) < b.eval n ^ 2)
  | fn1 s a => a.Safe ∧ s.Smooth ∧ ∀ x, |x - a.eval n| ≤ a.err u η n → s.dom x
  | fn2 s a b => a.Safe ∧ b.Safe ∧ s.Smooth ∧
      ∀ x y, |x - a.eval n| ≤ a.err u η n → |y - b.eval n| ≤ b.err u η n → s.dom x y

/-- Sensitivity to the variable `v`. -/
noncomputable def sens (v : VarId) : Formula → Sens
  | var w => if w = v then Sens.one else Sens.zero
  | const _ => Sens.zero
  | pos a | neg a | abs a => a.sens v
  | add a b | sub a b => (a.sens v).add (b.sens v)
  | mul a b => ((a.sens v).smul (b.eval n) (b.err u η n)).add ((b.sens v).smul (a.eval n) (a.err u η n))
  | div a b =>
    ((a.sens v).smul (1 / b.eval n) (inverseError u η (b.eval n) (b.err u η n))).add
      ((b.sens v).smul (a.eval n / b.eval n ^ 2)
        (quotientDerivError u η (a.eval n) (a.err u η n) (b.eval n) (b.err u η n)))
  | fn1 s a => (a.sens v).smul (s.d (a.eval n)) (s.dlip * a.err u η n + s.dacc)
  | fn2 s a b =>
    ((a.sens v).smul (s.d0 (a.eval n) (b.eval n)) (s.d0lip0 * a.err u η n + s.d0lip1 * b.err u η n + s.dacc0)).add
      ((b.sens v).smul (s.d1 (a.eval n) (b.eval n)) (s.d1lip0 * a.err u η n + s.d1lip1 * b.err u η n + s.dacc1))

/-- Bound on the part of the error of the derivative with respect to `v` that comes from the calculation of
the sum of the products of partial derivatives. -/
noncomputable def sumBound (φ : Formula) (v : VarId) : ℝ :=
  let s := φ.sens u η n v
  let N := φ.depth + φ.count v - 1
  ((1 + u) ^ N - 1) * (s.mag + s.magErr) + (1 + u) ^ N * ((1 + η) ^ φ.depth - 1) * (s.scale + s.scaleErr)

/-- Bound on the error of the derivative with respect to `v`. -/
noncomputable def derivBound (φ : Formula) (v : VarId) : ℝ := φ.sumBound u η n v + (φ.sens u η n v).magErr

end

end Formula

variable {F : Type}

/-- State: the variables, with their nominal values and standard deviations, and the formulas of the results
of the commands. -/
structure FState (F : Type) where
  vars : List (RVar F)
  env : List (Option Formula)

section
variable [PyFloat F] [Rounded F]

/-- The formula of an argument. -/
noncomputable def Arg.formula (env : List (Option Formula)) : Arg F → Option Formula
  | .ref k => (env[k]?).join
  | .const (.flt c) => some (.const (Rounded.val c))
  | .const _ => none

/-- The formula of a result. -/
def UnOp.formula : UnOp → Formula → Option Formula
  | .pos, a => some (.pos a)
  | .neg, a => some (.neg a)
  | .abs, a => some (.abs a)
  | .trunc, _ => none

/-- The formula of a result. -/
def BinOp.formula : BinOp → Formula → Formula → Option Formula
  | .add, a, b => some (.add a b)
  | .sub, a, b => some (.sub a b)
  | .mul, a, b => some (.mul a b)
  | .truediv, a, b => some (.div a b)
  | _, _, _ => none

/-- Descriptions of the functions that a program calls with one or two arguments, by their numbers, and of the powers: `x**c`
for a float `c`, and `x**y` when `y` is not a float. -/
structure FnSpecs where
  one : ℕ → Option FnSpec1
  two : ℕ → Option FnSpec2
  powc : ℝ → Option FnSpec1 := fun _ => none
  pow : Option FnSpec2 := none

/-- No function. -/
def FnSpecs.none : FnSpecs := { one := fun _ => Option.none, two := fun _ => Option.none }

/-- The formula of a power. -/
def FnSpecs.powFormula (S : FnSpecs) : Formula → Formula → Option Formula
  | a, .const c => (S.powc c).map fun s => .fn1 s a
  | a, b => S.pow.map fun s => .fn2 s a b

/-- The formula of the result of an operator. -/
def FnSpecs.binop (S : FnSpecs) : BinOp → Formula → Formula → Option Formula
  | .pow, a, b => S.powFormula a b
  | op, a, b => op.formula a b

/-- A wrapped function calculates `s.g` with the accuracy `s.acc`, and its derivative (the one that is given to
`wrap()`, or the numerical derivative) is calculated with the accuracy `s.dacc`. -/
structure Implements1 (df : WrapDef F) (s : FnSpec1) : Prop where
  value : ∀ x y : F, Rounded.Fin x → s.dom (Rounded.val x) → df.f [.flt x] [] = .ok (.flt y) → Rounded.Fin y →
    |Rounded.val y - s.g (Rounded.val x)| ≤ s.acc
  deriv : ∀ x c : F, Rounded.Fin x → s.dom (Rounded.val x) → df.specPos 0 [.flt x] [] = .ok c → Rounded.Fin c →
    |Rounded.val c - s.d (Rounded.val x)| ≤ s.dacc

/-- Idem for two arguments. -/
structure Implements2 (df : WrapDef F) (s : FnSpec2) : Prop where
  value : ∀ x y z : F, Rounded.Fin x → Rounded.Fin y → s.dom (Rounded.val x) (Rounded.val y) →
    df.f [.flt x, .flt y] [] = .ok (.flt z) → Rounded.Fin z →
    |Rounded.val z - s.g (Rounded.val x) (Rounded.val y)| ≤ s.acc
  deriv0 : ∀ x y c : F, Rounded.Fin x → Rounded.Fin y → s.dom (Rounded.val x) (Rounded.val y) →
    df.specPos 0 [.flt x, .flt y] [] = .ok c → Rounded.Fin c →
    |Rounded.val c - s.d0 (Rounded.val x) (Rounded.val y)| ≤ s.dacc0
  deriv1 : ∀ x y c : F, Rounded.Fin x → Rounded.Fin y → s.dom (Rounded.val x) (Rounded.val y) →
    df.specPos 1 [.flt x, .flt y] [] = .ok c → Rounded.Fin c →
    |Rounded.val c - s.d1 (Rounded.val x) (Rounded.val y)| ≤ s.dacc1

variable (S : FnSpecs)

/-- The commands of calculations with +, -, *, /, **, abs() and functions. -/
noncomputable def FState.step (s : FState F) : Cmd F → FState F
  | .ufloat n std _ =>
    if specBadStd std then { s with env := s.env ++ [none] }
    else { vars := s.vars ++ [⟨n, std⟩], env := s.env ++ [some (.var s.vars.length)] }
  | .unop op x => { s with env := s.env ++ [(x.formula s.env).bind op.formula] }
  | .binop op x y =>
    { s with env := s.env ++ [(x.formula s.env).bind fun a => (y.formula s.env).bind (S.binop op a)] }
  | .call f [x] [] =>
    { s with env := s.env ++ [(S.one f).bind fun sp => (x.formula s.env).map (.fn1 sp)] }
  | .call f [x, y] [] =>
    { s with env := s.env ++ [(S.two f).bind fun sp => (x.formula s.env).bind fun a =>
        (y.formula s.env).map (.fn2 sp a)] }
  | .setStd x std =>
    match x.formula s.env with
    | some (.var v) =>
      match s.vars[v]? with
      | some cell => if specBadStd std then s else { s with vars := s.vars.set v ⟨cell.nom, std⟩ }
      | none => s
    | _ => s
  | _ => s

/-- The formulas of the results of a program. -/
noncomputable def formulas (cs : List (Cmd F)) : FState F := cs.foldl (FState.step S) ⟨[], []⟩

/-- The value of the variables. -/
noncomputable def FState.point (s : FState F) (v : VarId) : ℝ :=
  match s.vars[v]? with
  | some cell => Rounded.val cell.nom
  | none => 0

/-- Standard deviation of a variable. -/
noncomputable def stdOf (vars : List (RVar F)) (v : VarId) : ℝ :=
  match vars[v]? with
  | some cell => Rounded.val cell.std
  | none => 0

/-- Part of the uncertainty of a result that comes from the variable `v` (up to its sign). -/
noncomputable def Formula.term (φ : Formula) (n : VarId → ℝ) (vars : List (RVar F)) (v : VarId) : ℝ :=
  φ.partialAt n v * stdOf vars v

/-- Standard deviation given by the linear theory of error propagation: the square root of the sum of the
squares of the partial derivatives multiplied by the standard deviations of the variables. -/
noncomputable def Formula.std (φ : Formula) (n : VarId → ℝ) (vars : List (RVar F)) : ℝ :=
  l2norm (φ.term n vars) vars.length

/-- Bound on the error of the part that comes from the variable `v`. -/
noncomputable def Formula.termBound (φ : Formula) (n : VarId → ℝ) (vars : List (RVar F)) (v : VarId) : ℝ :=
  if φ.count v = 0 then 0
  else (1 + Rounded.u F) * (φ.derivBound (Rounded.u F) (Rounded.η F) n v * |stdOf vars v|) +
    Rounded.u F * |φ.term n vars v| + Rounded.η F

/-- Number of variables in a formula. -/
def Formula.nVars (φ : Formula) (k : ℕ) : ℕ := ((List.range k).filter fun v => φ.count v ≠ 0).length

/-- Bound on the error of the standard deviation. -/
noncomputable def Formula.stdBound (φ : Formula) (n : VarId → ℝ) (vars : List (RVar F)) : ℝ :=
  (1 + Rounded.u F) ^ (φ.nVars vars.length + 1) *
    (φ.std n vars + l2norm (φ.termBound n vars) vars.length + √(φ.nVars vars.length * Rounded.η F)) -
    φ.std n vars

/-- An operand: the result of another command, or a finite float. -/
def Arg.IsOperand : Arg F → Prop
  | .ref _ => True
  | .const (.flt c) => Rounded.Fin c
  | .const _ => False

def Arg.IsRef : Arg F → Prop
  | .ref _ => True
  | .const _ => False

/-- A power that is described by `S`: one of the two operands is the result of another command. -/
def IsPower : Arg F → Arg F → Prop
  | .ref _, .const (.flt c) => Rounded.Fin c ∧ (S.powc (Rounded.val c)).isSome
  | .const (.flt c), .ref _ => Rounded.Fin c ∧ S.pow.isSome
  | .ref _, .ref _ => S.pow.isSome
  | _, _ => False

/-- Calculations with +, -, *, /, abs() and the powers and functions that are described by `S`, definitions of functions,
updates of standard deviations, and reading commands. -/
def Cmd.IsCalc : Cmd F → Prop
  | .ufloat _ _ _ => True
  | .unop op _ => op = .pos ∨ op = .neg ∨ op = .abs
  | .binop .pow x y => IsPower S x y
  | .binop op x y => (op = .add ∨ op = .sub ∨ op = .mul ∨ op = .truediv) ∧ x.IsOperand ∧ y.IsOperand
  | .wrap _ => True
  | .call f args kwargs => kwargs = [] ∧
      ((∃ x, args = [x] ∧ x.IsRef ∧ (S.one f).isSome) ∨
       (∃ x y, args = [x, y] ∧ x.IsOperand ∧ y.IsOperand ∧ (x.IsRef ∨ y.IsRef) ∧ (S.two f).isSome))
  | .setStd _ _ => True
  | c => c.isRead = true

end

section
variable [PyMath F] [Rounded F]

/-- The function `lambda x: x**c`, with the derivative that the package uses for powers (core.py 2549-2555). -/
def powConst (c : F) : WrapDef F where
  f := fun
    | [x], [] => BinOp.func .pow [x, .flt c] []
    | _, _ => .error .typeError
  derivativesArgs := .finite [some (lambda1 fun x => BinOp.deriv0 .pow x c)]
  derivativesKwargs := []
  argspec := some ["x"]
  argspecNodup := by simp

/-- The functions `fns` and the powers satisfy their descriptions. -/
structure FnSpecs.Right (S : FnSpecs) (fns : List (WrapDef F)) : Prop where
  one : ∀ f s df, S.one f = some s → fns[f]? = some df → Implements1 df s
  two : ∀ f s df, S.two f = some s → fns[f]? = some df → Implements2 df s
  powc : ∀ (c : F) s, Rounded.Fin c → S.powc (Rounded.val c) = some s → Implements1 (powConst c) s
  pow : ∀ s, S.pow = some s → Implements2 (BinOp.wrapDef .pow : WrapDef F) s

end

end Unc
