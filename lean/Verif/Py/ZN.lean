import Verif.Model.Umath

/-
`ZN`: integers with NaN. It is an instance of the float operations that can be evaluated, and that
satisfies the laws of `ExactLin`. It is only used for concrete examples: that the hypotheses of
theorems are met, and counterexamples.
-/

namespace Unc

/-- An integer or NaN. -/
inductive ZN where
  | nan
  | fin (x : Int)
  deriving DecidableEq, Repr

namespace ZN

def lift2 (f : Int → Int → Int) : ZN → ZN → ZN
  | fin x, fin y => fin (f x y)
  | _, _ => nan

def lift1 (f : Int → Int) : ZN → ZN
  | fin x => fin (f x)
  | nan => nan

/-- Quotient (rounded: this instance is only for examples). -/
def quot (f : Int → Int → Int) : ZN → ZN → PyRes ZN
  | fin x, fin y => if y = 0 then .error .zeroDivisionError else .ok (fin (f x y))
  | nan, fin y => if y = 0 then .error .zeroDivisionError else .ok nan
  | _, nan => .ok nan

/-- Integer square root. -/
def isqrt : Nat → Nat
  | 0 => 0
  | n + 1 => if (isqrt n + 1) * (isqrt n + 1) ≤ n + 1 then isqrt n + 1 else isqrt n

instance : PyFloat ZN where
  zero := fin 0
  one := fin 1
  add := lift2 (· + ·)
  sub := lift2 (· - ·)
  mul := lift2 (· * ·)
  neg := lift1 (fun x => -x)
  nan := nan
  abs := lift1 (fun x => (x.natAbs : Int))
  truediv := quot Int.tdiv
  sq x := .ok (lift2 (· * ·) x x)
  sqrt
    | fin x => if x < 0 then .error .valueError else .ok (fin (isqrt x.toNat))
    | nan => .ok nan
  two := fin 2
  eqb
    | fin x, fin y => x == y
    | _, _ => false
  ltb
    | fin x, fin y => decide (x < y)
    | _, _ => false
  isInf _ := false
  stepSize := fin 1

instance : Halts ZN where
  truediv a b := by
    simp only [PyFloat.truediv, quot]
    split <;> (try split) <;> simp
  sq a := by simp [PyFloat.sq]
  sqrt a := by
    simp only [PyFloat.sqrt]
    split <;> (try split) <;> simp

instance : PyOps ZN where
  floordiv := quot Int.fdiv
  mod := quot Int.fmod
  pow
    | fin x, fin y =>
      if y < 0 then (if x = 0 then .error .zeroDivisionError else .ok (.real nan))
      else .ok (.real (fin (x ^ y.toNat)))
    | _, _ => .ok (.real nan)
  log
    | fin x => if x ≤ 0 then .error .valueError else .ok nan
    | nan => .ok nan
  trunc
    | fin x => .ok (fin x)
    | nan => .error .valueError

instance : PyMath ZN where
  fn1 _ x := .ok x
  fn2 _ x _ := .ok x
  logb x _ := .ok x
  lcst _ x := .ok (.flt x)
  modf x := (0, x)
  ldexp x i := .ok (if 0 ≤ i then x * fin (2 ^ i.toNat) else nan)
  frexp x := (x, 0)
  pow2 i := if 0 ≤ i then fin (2 ^ i.toNat) else nan
  fsum l := .ok (l.foldl (· + ·) 0)
  ten := fin 10
  half := nan
  erfCoef := fin 1

theorem zero_eq : (0 : ZN) = fin 0 := rfl
theorem one_eq : (1 : ZN) = fin 1 := rfl
theorem fin_add (x y : Int) : (fin x + fin y : ZN) = fin (x + y) := rfl
theorem fin_mul (x y : Int) : (fin x * fin y : ZN) = fin (x * y) := rfl
theorem nan_add (x : ZN) : nan + x = nan := rfl
theorem add_nan (x : ZN) : x + nan = nan := by cases x <;> rfl
theorem nan_mul (x : ZN) : nan * x = nan := rfl
theorem mul_nan (x : ZN) : x * nan = nan := by cases x <;> rfl

instance : ExactLin ZN where
  add_assoc a b c := by
    cases a <;> cases b <;> cases c <;> simp only [fin_add, nan_add, add_nan, Int.add_assoc]
  add_comm a b := by cases a <;> cases b <;> simp only [fin_add, nan_add, add_nan, Int.add_comm]
  zero_add a := by cases a <;> simp only [zero_eq, fin_add, add_nan, Int.zero_add]
  mul_assoc a b c := by
    cases a <;> cases b <;> cases c <;> simp only [fin_mul, nan_mul, mul_nan, Int.mul_assoc]
  mul_comm a b := by cases a <;> cases b <;> simp only [fin_mul, nan_mul, mul_nan, Int.mul_comm]
  one_mul a := by cases a <;> simp only [one_eq, fin_mul, mul_nan, Int.one_mul]
  mul_add a b c := by
    cases a <;> cases b <;> cases c <;>
      simp only [fin_mul, nan_mul, mul_nan, fin_add, nan_add, add_nan, Int.mul_add]
  sq_eq _ := rfl

end ZN

end Unc
