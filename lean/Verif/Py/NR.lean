import Mathlib.Analysis.SpecialFunctions.Pow.Real
import Mathlib.Analysis.SpecialFunctions.Log.Basic
import Verif.Model.Ops

/-
`NR`: exact arithmetic with NaN. A float is a real number or NaN; operations are exact, so that
neither rounding, nor overflow, nor infinities exist. Used for the theorems on derivatives and
standard deviations.
-/

namespace Unc

/-- A real number or NaN. -/
inductive NR where
  | nan
  | fin (x : ℝ)

namespace NR

open Classical

/-- Extension of a function of two real numbers to NaN. -/
def lift2 (f : ℝ → ℝ → ℝ) : NR → NR → NR
  | fin x, fin y => fin (f x y)
  | _, _ => nan

/-- Extension of a function of a real number to NaN. -/
def lift1 (f : ℝ → ℝ) : NR → NR
  | fin x => fin (f x)
  | nan => nan

/-- The integer part of a real number (towards zero). -/
noncomputable def truncReal (x : ℝ) : ℝ := if 0 ≤ x then (⌊x⌋ : ℝ) else (⌈x⌉ : ℝ)

noncomputable instance instPyFloat : PyFloat NR where
  zero := fin 0
  one := fin 1
  add := lift2 (· + ·)
  sub := lift2 (· - ·)
  mul := lift2 (· * ·)
  neg := lift1 (fun x => -x)
  nan := nan
  abs := lift1 (fun x => |x|)
  truediv
    | fin x, fin y => if y = 0 then .error .zeroDivisionError else .ok (fin (x / y))
    | nan, fin y => if y = 0 then .error .zeroDivisionError else .ok nan
    | _, nan => .ok nan
  sq x := .ok (lift2 (· * ·) x x)
  sqrt
    | fin x => if x < 0 then .error .valueError else .ok (fin (Real.sqrt x))
    | nan => .ok nan
  two := fin 2
  eqb
    | fin x, fin y => decide (x = y)
    | _, _ => false
  ltb
    | fin x, fin y => decide (x < y)
    | _, _ => false
  isInf _ := false
  stepSize := fin (Real.sqrt (2 ^ (-52 : ℤ)))

instance : Halts NR where
  truediv a b := by
    simp only [PyFloat.truediv]
    split <;> (try split) <;> simp
  sq a := by simp [PyFloat.sq]
  sqrt a := by
    simp only [PyFloat.sqrt]
    split <;> (try split) <;> simp

/-- Python's `x ** y` for real numbers. -/
noncomputable def powReal (x y : ℝ) : PyRes (NumRes NR) :=
  if y = 0 then .ok (.real (fin 1))
  else if x = 0 then
    if y < 0 then .error .zeroDivisionError else .ok (.real (fin 0))
  else if 0 < x then .ok (.real (fin (x ^ y)))
  else if y = (⌊y⌋ : ℝ) then .ok (.real (fin (x ^ ⌊y⌋)))
  else .ok .complex

noncomputable instance instPyOps : PyOps NR where
  floordiv
    | fin x, fin y => if y = 0 then .error .zeroDivisionError else .ok (fin ⌊x / y⌋)
    | nan, fin y => if y = 0 then .error .zeroDivisionError else .ok nan
    | _, nan => .ok nan
  mod
    | fin x, fin y => if y = 0 then .error .zeroDivisionError else .ok (fin (x - y * ⌊x / y⌋))
    | nan, fin y => if y = 0 then .error .zeroDivisionError else .ok nan
    | _, nan => .ok nan
  pow
    | fin x, fin y => powReal x y
    | nan, fin y => if y = 0 then .ok (.real (fin 1)) else .ok (.real nan)
    | fin x, nan => if x = 1 then .ok (.real (fin 1)) else .ok (.real nan)
    | nan, nan => .ok (.real nan)
  log
    | fin x => if x ≤ 0 then .error .valueError else .ok (fin (Real.log x))
    | nan => .ok nan
  trunc
    | fin x => .ok (fin (truncReal x))
    | nan => .error .valueError

@[simp] theorem zero_eq : (0 : NR) = fin 0 := rfl
@[simp] theorem one_eq : (1 : NR) = fin 1 := rfl
@[simp] theorem fin_add (x y : ℝ) : (fin x + fin y : NR) = fin (x + y) := rfl
@[simp] theorem fin_sub (x y : ℝ) : (fin x - fin y : NR) = fin (x - y) := rfl
@[simp] theorem fin_mul (x y : ℝ) : (fin x * fin y : NR) = fin (x * y) := rfl
@[simp] theorem neg_fin (x : ℝ) : (-(fin x) : NR) = fin (-x) := rfl
@[simp] theorem neg_nan : (-nan : NR) = nan := rfl
@[simp] theorem nan_add (x : NR) : nan + x = nan := rfl
@[simp] theorem add_nan (x : NR) : x + nan = nan := by cases x <;> rfl
@[simp] theorem nan_mul (x : NR) : nan * x = nan := rfl
@[simp] theorem mul_nan (x : NR) : x * nan = nan := by cases x <;> rfl
@[simp] theorem nan_sub (x : NR) : nan - x = nan := rfl
@[simp] theorem sub_nan (x : NR) : x - nan = nan := by cases x <;> rfl

instance : ExactLin NR where
  add_assoc a b c := by cases a <;> cases b <;> cases c <;> simp [_root_.add_assoc]
  add_comm a b := by cases a <;> cases b <;> simp [_root_.add_comm]
  zero_add a := by cases a <;> simp
  mul_assoc a b c := by cases a <;> cases b <;> cases c <;> simp [_root_.mul_assoc]
  mul_comm a b := by cases a <;> cases b <;> simp [_root_.mul_comm]
  one_mul a := by cases a <;> simp
  mul_add a b c := by cases a <;> cases b <;> cases c <;> simp [_root_.mul_add]
  sq_eq _ := rfl

end NR

end Unc
