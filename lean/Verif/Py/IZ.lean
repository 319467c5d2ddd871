import Verif.Py.ZN

/-
`IZ`: integers with NaN and the two infinities, with the IEEE rules for infinities. It can be
evaluated, and is only used for concrete examples and counterexamples about infinities.
-/

namespace Unc

/-- An integer, an infinity or NaN. -/
inductive IZ where
  | nan
  | inf (neg : Bool)
  | fin (x : Int)
  deriving DecidableEq, Repr

namespace IZ

def neg : IZ → IZ
  | nan => nan
  | inf b => inf (!b)
  | fin x => fin (-x)

def add : IZ → IZ → IZ
  | nan, _ => nan
  | _, nan => nan
  | inf a, inf b => if a = b then inf a else nan
  | inf a, fin _ => inf a
  | fin _, inf b => inf b
  | fin x, fin y => fin (x + y)

/-- Sign of a number that is not zero: is it negative? -/
def infTimes (b : Bool) (x : Int) : IZ :=
  if x = 0 then nan else if x < 0 then inf (!b) else inf b

def mul : IZ → IZ → IZ
  | nan, _ => nan
  | _, nan => nan
  | inf a, inf b => inf (a != b)
  | inf a, fin y => infTimes a y
  | fin x, inf b => infTimes b x
  | fin x, fin y => fin (x * y)

/-- Quotient (rounded: this instance is only for examples). -/
def quot (f : Int → Int → Int) : IZ → IZ → PyRes IZ
  | _, fin 0 => .error .zeroDivisionError
  | nan, _ => .ok nan
  | _, nan => .ok nan
  | inf _, inf _ => .ok nan
  | inf a, fin y => .ok (infTimes a y)
  | fin _, inf _ => .ok (fin 0)
  | fin x, fin y => .ok (fin (f x y))

instance : PyFloat IZ where
  zero := fin 0
  one := fin 1
  add := add
  sub x y := add x (neg y)
  mul := mul
  neg := neg
  nan := nan
  abs
    | nan => nan
    | inf _ => inf false
    | fin x => fin (x.natAbs : Int)
  truediv := quot Int.tdiv
  sq x := .ok (mul x x)
  sqrt
    | nan => .ok nan
    | inf true => .error .valueError
    | inf false => .ok (inf false)
    | fin x => if x < 0 then .error .valueError else .ok (fin (ZN.isqrt x.toNat))
  two := fin 2
  eqb
    | fin x, fin y => x == y
    | inf a, inf b => a == b
    | _, _ => false
  ltb
    | fin x, fin y => decide (x < y)
    | inf a, inf b => a && !b
    | inf a, fin _ => a
    | fin _, inf b => !b
    | _, _ => false
  isInf
    | inf _ => true
    | _ => false
  stepSize := fin 1

instance : Halts IZ where
  truediv a b := by
    simp only [PyFloat.truediv, quot]
    split <;> (try split) <;> simp
  sq a := by simp [PyFloat.sq]
  sqrt a := by
    simp only [PyFloat.sqrt]
    split <;> (try split) <;> simp

instance : PyOps IZ where
  floordiv := quot Int.fdiv
  mod := quot Int.fmod
  pow
    | fin x, fin y =>
      if y < 0 then (if x = 0 then .error .zeroDivisionError else .ok (.real nan))
      else .ok (.real (fin (x ^ y.toNat)))
    | _, _ => .ok (.real nan)
  log
    | fin x => if x ≤ 0 then .error .valueError else .ok nan
    | inf true => .error .valueError
    | x => .ok x
  trunc
    | fin x => .ok (fin x)
    | inf _ => .error .overflowError
    | nan => .error .valueError

instance : PyMath IZ where
  fn1 _ x := .ok x
  fn2 _ x _ := .ok x
  logb x _ := .ok x
  lcst _ x := .ok (.flt x)
  modf x := (0, x)
  ldexp x i := .ok (if 0 ≤ i then x * fin (2 ^ i.toNat) else nan)
  frexp x := (x, 0)
  pow2 i := if 0 ≤ i then fin (2 ^ i.toNat) else nan
  fsum l := .ok (l.foldl (· + ·) 0)
  ten := fin 10
  half := nan
  erfCoef := fin 1

end IZ

end Unc
