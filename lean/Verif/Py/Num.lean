import Verif.Py.RoundedSign

/-
`Num`: the numbers of a Python program that uses both `int` and `float` objects. Python chooses the operation from the
types of the operands: integers are exact and of any size, and an operation between an `int` and a `float` first converts the
`int` into the nearest `float` (`OverflowError` if it is too large).

The operations of the classes `PyFloat`, etc. are total: the value `raised` represents the integers that are too large to be
converted into a float, and the result of an operation that raises `OverflowError`. No theorem says anything of `raised`: it
is not a finite number. (The effect of the exception itself on the objects of the package is in `Model/IntExpand.lean`.)

Simplification: the operations other than products, squares, square roots and comparisons are only those of integers between
-2**53 and 2**53 (which the conversion into a `float` does not change) and floats; with larger integers, the result is `raised`
or an error. When the integers of a program are in this range, the package itself only multiplies the larger integers, which
are products of coefficients (core.py 1568, 1573). `//`, `%` and `**` between two integers return a `float`.
-/

namespace Unc

set_option autoImplicit false

inductive Num where
  /-- an `int` object -/
  | int (n : ℤ)
  /-- a `float` object -/
  | flt (x : B64)
  /-- `OverflowError` -/
  | raised
  deriving DecidableEq, Repr

namespace Num

/-- The float which is equal to the number, if the integer is in the range. -/
def conv : Num → Option B64
  | int n => if n.natAbs ≤ 2 ^ 53 then some (.fin (n * 2 ^ 1074)) else none
  | flt x => some x
  | raised => none

/-- The nearest float, for a double without limit on the exponent, in units of 2**-1074. -/
def near (n : ℤ) : ℤ := B64.rndInt (n * 2 ^ 1074) 1

theorem near_eq (n : ℤ) : near n = B64.rndInt (n * 2 ^ 1074) 1 := rfl

/-- `float(n)`: the nearest float; `none`: `OverflowError`. -/
def ofInt (n : ℤ) : Option B64 :=
  if (near n).natAbs < 2 ^ 2098 then some (.fin (near n)) else none

attribute [local irreducible] near ofInt conv

/-- The integer, unless it is too large to be converted. -/
def mk (n : ℤ) : Num := if (ofInt n).isSome then int n else raised

/-- The result of an operation on two integers. -/
def mk2 (m n r : ℤ) : Num := if (ofInt m).isSome ∧ (ofInt n).isSome then mk r else raised

theorem conv_flt (x : B64) : conv (flt x) = some x := by with_unfolding_all rfl
theorem conv_raised : conv raised = none := by with_unfolding_all rfl
theorem conv_int (n : ℤ) : conv (int n) = if n.natAbs ≤ 2 ^ 53 then some (.fin (n * 2 ^ 1074)) else none := by
  with_unfolding_all rfl

/-- An operation on floats. -/
def lift1 (f : B64 → PyRes B64) (a : Num) : PyRes Num :=
  match conv a with
  | some x => (f x).map flt
  | none => .error .overflowError

/-- Idem. -/
def lift2 (f : B64 → B64 → PyRes B64) (a b : Num) : PyRes Num :=
  match conv a, conv b with
  | some x, some y => (f x y).map flt
  | _, _ => .error .overflowError

/-- An operation on floats that does not raise exceptions. -/
def total (f : B64 → B64 → B64) (a b : Num) : Num :=
  match conv a, conv b with
  | some x, some y => flt (f x y)
  | _, _ => raised

/-- `a + b` -/
def add : Num → Num → Num
  | int m, int n => mk2 m n (m + n)
  | a, b => total (· + ·) a b

/-- `a - b` -/
def sub : Num → Num → Num
  | int m, int n => mk2 m n (m - n)
  | a, b => total (· - ·) a b

/-- `a * b` -/
def mul : Num → Num → Num
  | int m, int n => mk2 m n (m * n)
  | int m, flt y =>
    match ofInt m with
    | some x => flt (x * y)
    | none => raised
  | flt x, int n =>
    match ofInt n with
    | some y => flt (x * y)
    | none => raised
  | flt x, flt y => flt (x * y)
  | _, _ => raised

/-- The number as a float, for exact comparisons: Python compares an `int` and a `float` exactly. -/
def exact : Num → B64
  | int n => .fin (n * 2 ^ 1074)
  | flt x => x
  | raised => .nan

instance : PyFloat Num where
  zero := flt 0
  one := flt 1
  add := add
  sub := sub
  mul := mul
  neg
    | int n => int (-n)
    | flt x => flt (-x)
    | raised => raised
  nan := flt .nan
  abs
    | int n => int |n|
    | flt x => flt (PyFloat.abs x)
    | raised => raised
  truediv := lift2 PyFloat.truediv
  sq
    | int n => if (ofInt n).isSome ∧ (ofInt (n ^ 2)).isSome then .ok (int (n ^ 2)) else .error .overflowError
    | flt x => (PyFloat.sq x).map flt
    | raised => .error .overflowError
  sqrt
    | int n =>
      match ofInt n with
      | some x => (PyFloat.sqrt x).map flt
      | none => .error .overflowError
    | flt x => (PyFloat.sqrt x).map flt
    | raised => .error .overflowError
  two := flt PyFloat.two
  eqb a b := PyFloat.eqb a.exact b.exact
  ltb a b := PyFloat.ltb a.exact b.exact
  isInf a := PyFloat.isInf a.exact
  stepSize := flt PyFloat.stepSize

theorem lift1_ne {f : B64 → PyRes B64} (h : ∀ x, f x ≠ .error .outOfFuel) (a : Num) : lift1 f a ≠ .error .outOfFuel := by
  unfold lift1
  split
  · rename_i x _
    cases hf : f x with
    | ok y => exact fun h => by cases h
    | error e => rintro ⟨⟩; exact h x hf
  · exact fun h => by cases h

theorem lift2_ne {f : B64 → B64 → PyRes B64} (h : ∀ x y, f x y ≠ .error .outOfFuel) (a b : Num) :
    lift2 f a b ≠ .error .outOfFuel := by
  unfold lift2
  split
  · rename_i x y _ _
    cases hf : f x y with
    | ok y => exact fun h => by cases h
    | error e => rintro ⟨⟩; exact h x y hf
  · exact fun h => by cases h

instance : Halts Num where
  truediv := lift2_ne Halts.truediv
  sq a := by
    cases a with
    | int n =>
      change (if (ofInt n).isSome ∧ (ofInt (n ^ 2)).isSome then _ else _ : PyRes Num) ≠ _
      split <;> exact fun h => by cases h
    | flt x =>
      change (PyFloat.sq x).map flt ≠ _
      cases hf : PyFloat.sq x with
      | ok y => exact fun h => by cases h
      | error e => rintro ⟨⟩; exact Halts.sq x hf
    | raised => exact fun h => by cases h
  sqrt a := by
    have main : ∀ x : B64, (PyFloat.sqrt x).map flt ≠ .error .outOfFuel := by
      intro x
      cases hf : PyFloat.sqrt x with
      | ok y => exact fun h => by cases h
      | error e => rintro ⟨⟩; exact Halts.sqrt x hf
    cases a with
    | int n =>
      change (match ofInt n with | some x => (PyFloat.sqrt x).map flt | none => .error .overflowError : PyRes Num) ≠ _
      split
      · exact main _
      · exact fun h => by cases h
    | flt x => exact main x
    | raised => exact fun h => by cases h

instance : PyOps Num where
  floordiv := lift2 PyOps.floordiv
  mod := lift2 PyOps.mod
  pow a b :=
    match conv a, conv b with
    | some x, some y =>
      match PyOps.pow x y with
      | .ok (.real z) => .ok (.real (flt z))
      | .ok .complex => .ok .complex
      | .error e => .error e
    | _, _ => .error .overflowError
  log := lift1 PyOps.log
  trunc := lift1 PyOps.trunc

/-- A Python value, with floats. -/
def ofVal : PyVal B64 → PyVal Num
  | .flt x => .flt (flt x)
  | .cplx => .cplx
  | .notImpl => .notImpl
  | .other n => .other n

instance : PyMath Num where
  fn1 f := lift1 (PyMath.fn1 f)
  fn2 f := lift2 (PyMath.fn2 f)
  logb := lift2 PyMath.logb
  lcst f a :=
    match conv a with
    | some x => (PyMath.lcst f x).map ofVal
    | none => .error .overflowError
  modf a :=
    match conv a with
    | some x => (flt (PyMath.modf x).1, flt (PyMath.modf x).2)
    | none => (raised, raised)
  ldexp a i := lift1 (PyMath.ldexp · i) a
  frexp a :=
    match conv a with
    | some x => (flt (PyMath.frexp x).1, (PyMath.frexp x).2)
    | none => (raised, 0)
  pow2 i := flt (PyMath.pow2 i)
  fsum l :=
    match l.mapM conv with
    | some l => (PyMath.fsum l).map flt
    | none => .error .overflowError
  ten := int 10
  half := flt PyMath.half
  erfCoef := flt PyMath.erfCoef

/-! ### Rounding errors -/

/-- Neither infinite nor NaN. -/
def Fin : Num → Prop
  | int n => (ofInt n).isSome
  | flt x => Rounded.Fin x
  | raised => False

/-- The real number. -/
noncomputable def val : Num → ℝ
  | int n => n
  | flt x => Rounded.val x
  | raised => 0

theorem B64_val_int (n : ℤ) : Rounded.val (B64.fin (n * 2 ^ 1074)) = n := by
  change ((n * 2 ^ 1074 : ℤ) : ℝ) * (2 : ℝ)⁻¹ ^ 1074 = n
  rw [Int.cast_mul, Int.cast_pow, mul_assoc, Int.cast_ofNat, ← mul_pow, mul_inv_cancel₀ (by norm_num), one_pow, mul_one]

theorem ofInt_some {n : ℤ} {x : B64} (h : ofInt n = some x) :
    Rounded.Fin x ∧ |Rounded.val x - n| ≤ (2 : ℝ)⁻¹ ^ 53 * |(n : ℝ)| ∧ (0 ≤ n → 0 ≤ Rounded.val x) := by
  unfold ofInt at h
  have hp : (0 : ℝ) < (2 : ℝ)⁻¹ ^ 1074 := by positivity
  have he := B64.rndInt_err (n * 2 ^ 1074) 1 one_pos
  split at h
  · cases h
    rw [← near_eq] at he
    have hn := B64_val_int n
    change ((n * 2 ^ 1074 : ℤ) : ℝ) * (2 : ℝ)⁻¹ ^ 1074 = n at hn
    refine ⟨trivial, ?_, ?_⟩
    · simp only [Nat.cast_one, div_one, if_true, add_zero] at he
      change |(near n : ℝ) * (2 : ℝ)⁻¹ ^ 1074 - n| ≤ _
      have e1 : (near n : ℝ) * (2 : ℝ)⁻¹ ^ 1074 - n = ((near n : ℝ) - ((n * 2 ^ 1074 : ℤ) : ℝ)) * (2 : ℝ)⁻¹ ^ 1074 := by
        rw [sub_mul, hn]
      have e2 : |(n : ℝ)| = |((n * 2 ^ 1074 : ℤ) : ℝ)| * (2 : ℝ)⁻¹ ^ 1074 := by
        rw [← hn, abs_mul, abs_of_pos hp]
      rw [e1, e2, abs_mul, abs_of_pos hp, ← mul_assoc]
      exact mul_le_mul_of_nonneg_right he hp.le
    · intro h0
      have : 0 ≤ near n := near_eq n ▸ B64.rndInt_nonneg 1 (mul_nonneg h0 (by positivity))
      have : (0 : ℝ) ≤ near n := by exact_mod_cast this
      exact mul_nonneg this hp.le
  · cases h

theorem near_neg (n : ℤ) : near (-n) = -near n := by
  unfold near B64.rndInt
  rw [neg_mul, Int.sign_neg, Int.natAbs_neg, neg_mul]

theorem fits_neg {n : ℤ} (h : (ofInt n).isSome) : (ofInt (-n)).isSome := by
  unfold ofInt at *
  rw [near_neg, Int.natAbs_neg]
  split at h
  · rename_i h'
    rw [if_pos h']
    rfl
  · cases h

theorem fits_small {n : ℤ} (h : n.natAbs ≤ 2 ^ 53) : (ofInt n).isSome := by
  have he := B64.rndInt_err (n * 2 ^ 1074) 1 one_pos
  rw [← near_eq] at he
  simp only [Nat.cast_one, div_one, if_true, add_zero] at he
  have h1 : |((n * 2 ^ 1074 : ℤ) : ℝ)| ≤ 2 ^ 53 * 2 ^ 1074 := by
    rw [Int.cast_mul, abs_mul]
    refine mul_le_mul ?_ ?_ (abs_nonneg _) (by positivity)
    · rw [← Int.cast_abs, Int.abs_eq_natAbs]
      exact_mod_cast h
    · rw [Int.cast_pow, abs_pow]
      norm_num
  have h2 : |((near n : ℤ) : ℝ)| ≤ 2 * (2 ^ 53 * 2 ^ 1074) := by
    have h3 := abs_sub_abs_le_abs_sub ((near n : ℤ) : ℝ) ((n * 2 ^ 1074 : ℤ) : ℝ)
    have h4 : (2 : ℝ)⁻¹ ^ 53 ≤ 1 := pow_le_one₀ (by norm_num) (by norm_num)
    generalize (2 : ℝ)⁻¹ ^ 53 = u at *
    generalize ((n * 2 ^ 1074 : ℤ) : ℝ) = z at *
    generalize (2 : ℝ) ^ 53 * 2 ^ 1074 = M at *
    have := mul_le_mul_of_nonneg_right h4 (abs_nonneg z)
    linarith
  have h3 : (near n).natAbs < 2 ^ 2098 := by
    have h4 : |near n| ≤ 2 * (2 ^ 53 * 2 ^ 1074) := by exact_mod_cast h2
    rw [Int.abs_eq_natAbs] at h4
    have h5 : (near n).natAbs ≤ 2 * (2 ^ 53 * 2 ^ 1074) := by exact_mod_cast h4
    refine h5.trans_lt ?_
    rw [← pow_add, ← pow_succ']
    exact Nat.pow_lt_pow_right (by norm_num) (by norm_num)
  unfold ofInt
  rw [if_pos h3]
  rfl

theorem abs_fits {n : ℤ} (h : (ofInt |n|).isSome) : (ofInt n).isSome := by
  rcases abs_choice n with e | e <;> rw [e] at h
  · exact h
  · rw [← neg_neg n]
    exact fits_neg h

theorem mk2_fin {m n r : ℤ} (h : (mk2 m n r).Fin) : (int m).Fin ∧ (int n).Fin ∧ mk2 m n r = int r := by
  unfold mk2 mk at *
  split at h
  · rename_i h1
    split at h
    · rename_i h2
      rw [if_pos h1, if_pos h2]
      exact ⟨h1.1, h1.2, rfl⟩
    · exact h.elim
  · exact h.elim

/-- The unit roundoff of the mixed operations: the conversion of an integer, then the operation on floats. -/
noncomputable def unit : ℝ := (2 : ℝ)⁻¹ ^ 51

theorem unit_ge : (2 : ℝ)⁻¹ ^ 53 ≤ unit := by unfold unit; norm_num

theorem unit_two : (2 : ℝ)⁻¹ ^ 53 * (1 + (2 : ℝ)⁻¹ ^ 53) + (2 : ℝ)⁻¹ ^ 53 ≤ unit := by unfold unit; norm_num

theorem unit_nonneg : 0 ≤ unit := by unfold unit; positivity

/-- Product of an integer, which is converted, and of a float. -/
theorem mul_int {n : ℤ} {x y : B64} (h : ofInt n = some x) (hf : Rounded.Fin (x * y)) :
    Rounded.Fin y ∧ |Rounded.val (x * y) - n * Rounded.val y| ≤ unit * |n * Rounded.val y| + Rounded.η B64 := by
  obtain ⟨-, h1, -⟩ := ofInt_some h
  obtain ⟨-, h2, h3⟩ := Rounded.mul x y hf
  refine ⟨h2, ?_⟩
  have hu : Rounded.u B64 = (2 : ℝ)⁻¹ ^ 53 := rfl
  rw [hu] at h3
  have ht := unit_two
  generalize Rounded.η B64 = η at *
  generalize Rounded.val (x * y) = z at *
  generalize Rounded.val x = a at *
  generalize Rounded.val y = b at *
  have hu0 : (0 : ℝ) ≤ (2 : ℝ)⁻¹ ^ 53 := by positivity
  generalize (2 : ℝ)⁻¹ ^ 53 = u at *
  generalize unit = w at *
  generalize (n : ℝ) = n at *
  have ha : |a| ≤ (1 + u) * |n| := by
    have := abs_sub_abs_le_abs_sub a n
    linarith
  have h4 : |a * b - n * b| ≤ u * |n * b| := by
    rw [← sub_mul, abs_mul, abs_mul, ← mul_assoc]
    exact mul_le_mul_of_nonneg_right h1 (abs_nonneg b)
  have h5 : |a * b| ≤ (1 + u) * |n * b| := by
    rw [abs_mul, abs_mul, ← mul_assoc]
    exact mul_le_mul_of_nonneg_right ha (abs_nonneg b)
  have h6 : u * |a * b| ≤ u * ((1 + u) * |n * b|) := mul_le_mul_of_nonneg_left h5 hu0
  have h7 : (u * (1 + u) + u) * |n * b| ≤ w * |n * b| := mul_le_mul_of_nonneg_right ht (abs_nonneg _)
  have h8 : |z - n * b| ≤ |z - a * b| + |a * b - n * b| := abs_sub_le _ _ _
  nlinarith

theorem total_fin {f : B64 → B64 → B64} {a b : Num} (h : (total f a b).Fin) :
    ∃ x y, conv a = some x ∧ conv b = some y ∧ total f a b = flt (f x y) ∧ Rounded.Fin (f x y) := by
  unfold total at *
  cases ha : conv a with
  | none => rw [ha] at h; exact h.elim
  | some x =>
    cases hb : conv b with
    | none => rw [ha, hb] at h; exact h.elim
    | some y =>
      rw [ha, hb] at h
      exact ⟨x, y, rfl, rfl, rfl, h⟩

theorem conv_some {a : Num} {x : B64} (h : conv a = some x) : (a.Fin ↔ Rounded.Fin x) ∧ val a = Rounded.val x := by
  cases a with
  | int n =>
    rw [conv_int] at h
    split at h
    · rename_i hn
      cases h
      exact ⟨⟨fun _ => trivial, fun _ => fits_small hn⟩, (B64_val_int n).symm⟩
    · cases h
  | flt y => rw [conv_flt] at h; cases h; exact ⟨Iff.rfl, rfl⟩
  | raised => rw [conv_raised] at h; cases h

theorem lift1_ok {f : B64 → PyRes B64} {a c : Num} (h : lift1 f a = .ok c) :
    ∃ x z, conv a = some x ∧ f x = .ok z ∧ c = flt z := by
  unfold lift1 at h
  cases ha : conv a with
  | none => rw [ha] at h; cases h
  | some x =>
    rw [ha] at h
    cases hf : f x with
    | error e => simp only [hf, Except.map] at h; cases h
    | ok z => simp only [hf, Except.map] at h; cases h; exact ⟨x, z, rfl, hf, rfl⟩

theorem lift2_ok {f : B64 → B64 → PyRes B64} {a b c : Num} (h : lift2 f a b = .ok c) :
    ∃ x y z, conv a = some x ∧ conv b = some y ∧ f x y = .ok z ∧ c = flt z := by
  unfold lift2 at h
  cases ha : conv a with
  | none => rw [ha] at h; cases h
  | some x =>
    cases hb : conv b with
    | none => rw [ha, hb] at h; cases h
    | some y =>
      rw [ha, hb] at h
      cases hf : f x y with
      | error e => simp only [hf, Except.map] at h; cases h
      | ok z => simp only [hf, Except.map] at h; cases h; exact ⟨x, y, z, rfl, rfl, hf, rfl⟩

theorem le_unit {x e t : ℝ} (h : x ≤ (2 : ℝ)⁻¹ ^ 53 * |t| + e) : x ≤ unit * |t| + e :=
  h.trans (add_le_add (mul_le_mul_of_nonneg_right unit_ge (abs_nonneg t)) le_rfl)

theorem le_unit' {x t : ℝ} (h : x ≤ (2 : ℝ)⁻¹ ^ 53 * |t|) : x ≤ unit * |t| :=
  h.trans (mul_le_mul_of_nonneg_right unit_ge (abs_nonneg t))

theorem add_law (a b : Num) (h : (add a b).Fin) : a.Fin ∧ b.Fin ∧ |val (add a b) - (val a + val b)| ≤ unit * |val a + val b| := by
  have main : ∀ a b : Num, add a b = total (· + ·) a b → (add a b).Fin →
      a.Fin ∧ b.Fin ∧ |val (add a b) - (val a + val b)| ≤ unit * |val a + val b| := by
    intro a b e h
    rw [e] at h ⊢
    obtain ⟨x, y, hx, hy, e', hf⟩ := total_fin h
    obtain ⟨h1, h2⟩ := conv_some hx
    obtain ⟨h3, h4⟩ := conv_some hy
    obtain ⟨k1, k2, k3⟩ := Rounded.add x y hf
    rw [e', h2, h4]
    exact ⟨h1.2 k1, h3.2 k2, le_unit' k3⟩
  cases a with
  | int m =>
    cases b with
    | int n =>
      obtain ⟨h1, h2, h3⟩ := mk2_fin h
      refine ⟨h1, h2, ?_⟩
      rw [show add (int m) (int n) = int (m + n) from h3]
      simp only [val, Int.cast_add, sub_self, abs_zero]
      exact mul_nonneg unit_nonneg (abs_nonneg _)
    | flt y => exact main _ _ rfl h
    | raised => exact main _ _ rfl h
  | flt x => exact main _ _ rfl h
  | raised => exact main _ _ rfl h

theorem sub_law (a b : Num) (h : (sub a b).Fin) : a.Fin ∧ b.Fin ∧ |val (sub a b) - (val a - val b)| ≤ unit * |val a - val b| := by
  have main : ∀ a b : Num, sub a b = total (· - ·) a b → (sub a b).Fin →
      a.Fin ∧ b.Fin ∧ |val (sub a b) - (val a - val b)| ≤ unit * |val a - val b| := by
    intro a b e h
    rw [e] at h ⊢
    obtain ⟨x, y, hx, hy, e', hf⟩ := total_fin h
    obtain ⟨h1, h2⟩ := conv_some hx
    obtain ⟨h3, h4⟩ := conv_some hy
    obtain ⟨k1, k2, k3⟩ := RoundedStep.sub x y hf
    rw [e', h2, h4]
    exact ⟨h1.2 k1, h3.2 k2, le_unit' k3⟩
  cases a with
  | int m =>
    cases b with
    | int n =>
      obtain ⟨h1, h2, h3⟩ := mk2_fin h
      refine ⟨h1, h2, ?_⟩
      rw [show sub (int m) (int n) = int (m - n) from h3]
      simp only [val, Int.cast_sub, sub_self, abs_zero]
      exact mul_nonneg unit_nonneg (abs_nonneg _)
    | flt y => exact main _ _ rfl h
    | raised => exact main _ _ rfl h
  | flt x => exact main _ _ rfl h
  | raised => exact main _ _ rfl h

theorem mul_law (a b : Num) (h : (mul a b).Fin) : a.Fin ∧ b.Fin ∧
    |val (mul a b) - val a * val b| ≤ unit * |val a * val b| + Rounded.η B64 := by
  cases a with
  | raised => cases b <;> exact h.elim
  | int m =>
    cases b with
    | raised => exact h.elim
    | int n =>
      obtain ⟨h1, h2, h3⟩ := mk2_fin h
      refine ⟨h1, h2, ?_⟩
      rw [show mul (int m) (int n) = int (m * n) from h3]
      simp only [val, Int.cast_mul, sub_self, abs_zero]
      exact add_nonneg (mul_nonneg unit_nonneg (abs_nonneg _)) Rounded.η_nonneg
    | flt y =>
      simp only [mul] at h ⊢
      cases hm : ofInt m with
      | none => rw [hm] at h; exact h.elim
      | some x =>
        rw [hm] at h
        obtain ⟨h1, h2⟩ := mul_int hm h
        exact ⟨by simp only [Fin, hm]; rfl, h1, h2⟩
  | flt x =>
    cases b with
    | raised => exact h.elim
    | int n =>
      simp only [mul] at h ⊢
      cases hn : ofInt n with
      | none => rw [hn] at h; exact h.elim
      | some y =>
        rw [hn] at h
        have hc : x * y = y * x := by
          change B64.mul x y = B64.mul y x
          cases x <;> cases y <;> simp only [B64.mul, mul_comm, bne_comm]
        have hf : Rounded.Fin (y * x) := hc ▸ h
        obtain ⟨h1, h2⟩ := mul_int hn hf
        rw [← hc] at h2
        refine ⟨h1, by simp only [Fin, hn]; rfl, ?_⟩
        simp only [val]
        rw [mul_comm (Rounded.val x)]
        exact h2
    | flt y =>
      obtain ⟨h1, h2, h3⟩ := Rounded.mul x y h
      exact ⟨h1, h2, le_unit h3⟩

theorem exact_fin {a : Num} (h : a.Fin) : Rounded.Fin a.exact ∧ Rounded.val a.exact = val a := by
  cases a with
  | int n => exact ⟨trivial, B64_val_int n⟩
  | flt x => exact ⟨h, rfl⟩
  | raised => exact h.elim

theorem mul_nonneg' (a b : Num) (h : (mul a b).Fin) (ha : 0 ≤ val a) (hb : 0 ≤ val b) : 0 ≤ val (mul a b) := by
  cases a with
  | raised => cases b <;> exact h.elim
  | int m =>
    cases b with
    | raised => exact h.elim
    | int n =>
      rw [show mul (int m) (int n) = int (m * n) from (mk2_fin h).2.2]
      simp only [val, Int.cast_mul]
      exact mul_nonneg ha hb
    | flt y =>
      simp only [mul] at h ⊢
      cases hm : ofInt m with
      | none => rw [hm] at h; exact h.elim
      | some x =>
        rw [hm] at h
        exact RoundedStep.mul_nonneg x y h ((ofInt_some hm).2.2 (Int.cast_nonneg_iff.1 ha)) hb
  | flt x =>
    cases b with
    | raised => exact h.elim
    | int n =>
      simp only [mul] at h ⊢
      cases hn : ofInt n with
      | none => rw [hn] at h; exact h.elim
      | some y =>
        rw [hn] at h
        exact RoundedStep.mul_nonneg x y h ha ((ofInt_some hn).2.2 (Int.cast_nonneg_iff.1 hb))
    | flt y => exact RoundedStep.mul_nonneg x y h ha hb

theorem eqb_exact (a : Num) : PyFloat.eqb a 0 = PyFloat.eqb a.exact (0 : B64) := rfl
theorem ltb_exact (a : Num) : PyFloat.ltb a 0 = PyFloat.ltb a.exact (0 : B64) := rfl

theorem sq_int {n : ℤ} {y : Num} (h : PyFloat.sq (int n) = .ok y) : ((int n).Fin ∧ (int (n ^ 2)).Fin) ∧ y = int (n ^ 2) := by
  change (if (ofInt n).isSome ∧ (ofInt (n ^ 2)).isSome then _ else _ : PyRes Num) = _ at h
  split at h
  · rename_i h'
    cases h
    exact ⟨h', rfl⟩
  · cases h

theorem sqrt_near {u w n x y : ℝ} (hu0 : 0 ≤ u) (hw : u * (1 + u) + u ≤ w) (h1 : |x - n| ≤ u * |n|) (hu1 : u < 1)
    (h0 : 0 ≤ x) (h2 : |y - √x| ≤ u * √x) : 0 ≤ n ∧ |y - √n| ≤ w * √n := by
  have hn : 0 ≤ n := by
    by_contra hn
    have hn := not_le.1 hn
    rw [abs_of_neg hn] at h1
    have := le_abs_self (x - n)
    nlinarith
  refine ⟨hn, ?_⟩
  rw [abs_of_nonneg hn] at h1
  have hs : √x ≤ (1 + u) * √n := by
    have h3 : x ≤ (1 + u) ^ 2 * n := by
      have := le_abs_self (x - n)
      nlinarith
    calc √x ≤ √((1 + u) ^ 2 * n) := Real.sqrt_le_sqrt h3
      _ = (1 + u) * √n := by rw [Real.sqrt_mul (sq_nonneg _), Real.sqrt_sq (by linarith)]
  have hs' : (1 - u) * √n ≤ √x := by
    have h3 : (1 - u) ^ 2 * n ≤ x := by
      have := neg_abs_le (x - n)
      nlinarith
    calc (1 - u) * √n = √((1 - u) ^ 2 * n) := by rw [Real.sqrt_mul (sq_nonneg _), Real.sqrt_sq (by linarith)]
      _ ≤ √x := Real.sqrt_le_sqrt h3
  have h4 : |√x - √n| ≤ u * √n := by
    rw [abs_le]
    constructor <;> linarith
  have h5 : |y - √n| ≤ |y - √x| + |√x - √n| := abs_sub_le _ _ _
  have h6 := mul_le_mul_of_nonneg_left hs hu0
  have h7 := mul_le_mul_of_nonneg_right hw (Real.sqrt_nonneg n)
  nlinarith

noncomputable instance : RoundedOps Num where
  val := val
  Fin := Fin
  u := unit
  η := Rounded.η B64
  u_nonneg := unit_nonneg
  η_nonneg := Rounded.η_nonneg
  fin_zero := Rounded.fin_zero (F := B64)
  val_zero := Rounded.val_zero (F := B64)
  fin_one := Rounded.fin_one (F := B64)
  val_one := Rounded.val_one (F := B64)
  add := add_law
  zero_add a h := by
    have h' : (total (· + ·) (flt 0) a).Fin := h
    obtain ⟨x, y, hx, hy, e', hf⟩ := total_fin h'
    rw [conv_flt] at hx
    cases hx
    obtain ⟨h3, h4⟩ := conv_some hy
    have : val ((0 : Num) + a) = Rounded.val ((0 : B64) + y) := by
      change val (total (· + ·) (flt 0) a) = _
      rw [e']
      rfl
    rw [this, h4]
    exact Rounded.zero_add y hf
  mul := mul_law
  abs a h := by
    cases a with
    | int n =>
      refine ⟨abs_fits h, ?_⟩
      change ((|n| : ℤ) : ℝ) = |(n : ℝ)|
      exact Int.cast_abs
    | flt x => exact Rounded.abs x h
    | raised => exact h.elim
  sq a y h hy := by
    cases a with
    | int n =>
      obtain ⟨h1, rfl⟩ := sq_int h
      refine ⟨h1.1, ?_⟩
      change |((n ^ 2 : ℤ) : ℝ) - (n : ℝ) ^ 2| ≤ _
      rw [Int.cast_pow, sub_self, abs_zero]
      exact add_nonneg (mul_nonneg unit_nonneg (sq_nonneg _)) Rounded.η_nonneg
    | flt x =>
      change (PyFloat.sq x).map flt = .ok y at h
      cases hs : PyFloat.sq x with
      | error e => rw [hs] at h; cases h
      | ok z =>
        rw [hs] at h
        cases h
        obtain ⟨h1, h2⟩ := Rounded.sq x z hs hy
        refine ⟨h1, h2.trans ?_⟩
        exact add_le_add (mul_le_mul_of_nonneg_right unit_ge (sq_nonneg _)) le_rfl
    | raised => cases h
  sqrt a y h hy := by
    cases a with
    | int n =>
      change (match ofInt n with | some x => (PyFloat.sqrt x).map flt | none => .error .overflowError : PyRes Num) = _ at h
      cases hn : ofInt n with
      | none => rw [hn] at h; cases h
      | some x =>
        simp only [hn] at h
        cases hs : PyFloat.sqrt x with
        | error e => rw [hs] at h; cases h
        | ok z =>
          rw [hs] at h
          cases h
          obtain ⟨-, k2, k3⟩ := Rounded.sqrt x z hs hy
          obtain ⟨-, k4, -⟩ := ofInt_some hn
          obtain ⟨k5, k6⟩ := sqrt_near (by positivity) unit_two k4 (by norm_num) k2 k3
          exact ⟨by simp only [Fin, hn]; rfl, k5, k6⟩
    | flt x =>
      change (PyFloat.sqrt x).map flt = _ at h
      cases hs : PyFloat.sqrt x with
      | error e => rw [hs] at h; cases h
      | ok z =>
        rw [hs] at h
        cases h
        obtain ⟨k1, k2, k3⟩ := Rounded.sqrt x z hs hy
        exact ⟨k1, k2, k3.trans (mul_le_mul_of_nonneg_right unit_ge (Real.sqrt_nonneg _))⟩
    | raised => cases h
  ltb_zero a h h0 := by
    obtain ⟨h1, h2⟩ := exact_fin h
    rw [← h2]
    exact Rounded.ltb_zero a.exact h1 h0
  isInf a h := Rounded.isInf a.exact (exact_fin h).1
  eqb_zero a h := by
    obtain ⟨h1, h2⟩ := Rounded.eqb_zero a.exact h
    cases a with
    | int n =>
      have e : (n : ℝ) = 0 := (B64_val_int n).symm.trans h2
      have e : n = 0 := by exact_mod_cast e
      subst e
      exact ⟨fits_small (by simp), e⟩
    | flt x => exact ⟨h1, h2⟩
    | raised => exact h1.elim
  div a b y h hy hb := by
    obtain ⟨x, z, q, hx, hz, hq, rfl⟩ := lift2_ok h
    obtain ⟨h1, h2⟩ := conv_some hx
    obtain ⟨h3, h4⟩ := conv_some hz
    obtain ⟨k1, k2, k3⟩ := RoundedDiv.div x z q hq hy (h3.1 hb)
    rw [h2, h4]
    exact ⟨h1.2 k1, k2, le_unit k3⟩
  not_fin_nan := RoundedDiv.not_fin_nan (F := B64)
  sqrt_ok a h h0 := by
    cases a with
    | int n =>
      change ∃ y, (match ofInt n with | some x => (PyFloat.sqrt x).map flt | none => .error .overflowError : PyRes Num) = .ok y ∧ y.Fin
      cases hn : ofInt n with
      | none => simp only [Fin, hn] at h; cases h
      | some x =>
        obtain ⟨k1, -, k2⟩ := ofInt_some hn
        obtain ⟨y, h1, h2⟩ := RoundedDiv.sqrt_ok x k1 (k2 (Int.cast_nonneg_iff.1 h0))
        exact ⟨flt y, by simp only [h1]; rfl, h2⟩
    | flt x =>
      obtain ⟨y, h1, h2⟩ := RoundedDiv.sqrt_ok x h h0
      exact ⟨flt y, by change (PyFloat.sqrt x).map flt = _; rw [h1]; rfl, h2⟩
    | raised => exact h.elim
  sub := sub_law
  fin_two := RoundedStep.fin_two (F := B64)
  val_two := RoundedStep.val_two (F := B64)
  fin_step := RoundedStep.fin_step (F := B64)
  val_step := RoundedStep.val_step (F := B64)
  mul_nonneg := mul_nonneg'
  ne_zero a h h0 := by
    obtain ⟨h1, h2⟩ := exact_fin h
    rw [← h2]
    exact RoundedStep.ne_zero a.exact h1 h0
  neg a h := by
    cases a with
    | int n =>
      refine ⟨by have := fits_neg h; rwa [neg_neg] at this, ?_⟩
      change ((-n : ℤ) : ℝ) = -(n : ℝ)
      exact Int.cast_neg n
    | flt x => exact RoundedOps.neg x h
    | raised => exact h.elim
  zero_ltb a h := by
    obtain ⟨h1, h2⟩ := exact_fin h
    rw [← h2]
    exact RoundedOps.zero_ltb a.exact h1
  sq_fin a y h ha := by
    cases a with
    | int n => obtain ⟨h1, rfl⟩ := sq_int h; exact h1.2
    | flt x =>
      change (PyFloat.sq x).map flt = .ok y at h
      cases hs : PyFloat.sq x with
      | error e => rw [hs] at h; cases h
      | ok z =>
        rw [hs] at h
        cases h
        exact RoundedOps.sq_fin x z hs ha
    | raised => cases h

instance : RoundedSign Num where
  u_lt_one := by change unit < 1; unfold unit; norm_num
  ltb_neg a h h0 := by
    obtain ⟨h1, h2⟩ := exact_fin h
    change val a < 0
    rw [← h2]
    exact RoundedSign.ltb_neg a.exact h1 h0

end Num
end Unc
