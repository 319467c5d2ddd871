import Mathlib.Analysis.SpecialFunctions.Pow.Real
import Mathlib.Data.Nat.Sqrt
import Mathlib.Data.Nat.Log
import Verif.Model.Umath
import Verif.Py.Rounded

/-
`B64`: floating-point numbers with 53 significant bits, rounding to nearest (ties to even), gradual
underflow, overflow, infinities and NaN: `+`, `-`, `*`, `/`, `//`, `%`, `sqrt`, `abs` and the
comparisons of IEEE 754 doubles (without the sign of zeros). It can be evaluated.

The other functions are *not* those of Python: the powers are correctly rounded powers for natural
exponents and NaN otherwise; the other mathematical functions except `fmod` return NaN. This type shows that the laws
of `Rounded` are satisfied, and is used for concrete examples about rounding.
-/

namespace Unc

set_option autoImplicit false

/-- A finite float is an integer multiple of the smallest positive double, `2^-1074`. (The doubles are
the multiples by the integers that have at most 53 significant bits; all the operations return such
numbers.) -/
inductive B64 where
  | nan
  | inf (neg : Bool)
  | fin (m : ℤ)
  deriving DecidableEq, Repr

namespace B64

/-- The integer nearest to `n/d`, ties to even. -/
def rdiv (n d : ℕ) : ℕ :=
  if 2 * (n % d) < d ∨ (2 * (n % d) = d ∧ (n / d) % 2 = 0) then n / d else n / d + 1

/-- `n/d` rounded to an integer with 53 significant bits. -/
def rndTo (n d : ℕ) : ℕ :=
  rdiv n (d * 2 ^ (Nat.log2 (n / d) + 1 - 53)) * 2 ^ (Nat.log2 (n / d) + 1 - 53)

/-- `m/d` rounded. -/
def rndInt (m : ℤ) (d : ℕ) : ℤ := m.sign * rndTo m.natAbs d

/-- The float nearest to `m/d * 2^-1074`. -/
def round (m : ℤ) (d : ℕ) : B64 :=
  if (rndInt m d).natAbs < 2 ^ 2098 then fin (rndInt m d) else inf (decide (m < 0))

/-- `√N`, rounded to 53 significant bits, for `N ≥ 2^1074`. -/
def rndSqrt (N : ℕ) : ℕ :=
  let s := Nat.sqrt N
  let k := Nat.log2 s - 53
  let r := s / 2 ^ (k + 1)
  if N ≤ ((2 * r + 1) * 2 ^ k) ^ 2 then r * 2 ^ (k + 1) else (r + 1) * 2 ^ (k + 1)

def neg : B64 → B64
  | nan => nan
  | inf b => inf (!b)
  | fin m => fin (-m)

def add : B64 → B64 → B64
  | nan, _ => nan
  | _, nan => nan
  | inf a, inf b => if a = b then inf a else nan
  | inf a, fin _ => inf a
  | fin _, inf b => inf b
  | fin x, fin y => if x = 0 then fin y else if y = 0 then fin x else round (x + y) 1

def infTimes (b : Bool) (x : ℤ) : B64 :=
  if x = 0 then nan else if x < 0 then inf (!b) else inf b

def mul : B64 → B64 → B64
  | nan, _ => nan
  | _, nan => nan
  | inf a, inf b => inf (a != b)
  | inf a, fin y => infTimes a y
  | fin x, inf b => infTimes b x
  | fin x, fin y => round (x * y) (2 ^ 1074)

/-- Quotients. -/
def quot (f : ℤ → ℤ → B64) : B64 → B64 → PyRes B64
  | _, fin 0 => .error .zeroDivisionError
  | nan, _ => .ok nan
  | _, nan => .ok nan
  | inf _, inf _ => .ok nan
  | inf a, fin y => .ok (infTimes a y)
  | fin _, inf _ => .ok (fin 0)
  | fin x, fin y => .ok (f x y)

/-- Raises `OverflowError` when the result of an operation on finite numbers is infinite. -/
def checked : B64 → PyRes B64
  | inf _ => .error .overflowError
  | x => .ok x

def sq : B64 → PyRes B64
  | fin x => checked (mul (fin x) (fin x))
  | inf _ => .ok (inf false)
  | nan => .ok nan

def sqrt : B64 → PyRes B64
  | nan => .ok nan
  | inf true => .error .valueError
  | inf false => .ok (inf false)
  | fin m =>
    if m < 0 then .error .valueError
    else if m = 0 then .ok (fin 0)
    else .ok (fin (rndSqrt (m.natAbs * 2 ^ 1074)))

instance : PyFloat B64 where
  zero := fin 0
  one := fin (2 ^ 1074)
  add := add
  sub x y := add x (neg y)
  mul := mul
  neg := neg
  nan := nan
  abs
    | nan => nan
    | inf _ => inf false
    | fin x => fin |x|
  truediv := quot (fun x y => round (x * 2 ^ 1074 * y.sign) y.natAbs)
  sq := sq
  sqrt := sqrt
  two := fin (2 ^ 1075)
  eqb
    | fin x, fin y => x == y
    | inf a, inf b => a == b
    | _, _ => false
  ltb
    | fin x, fin y => decide (x < y)
    | inf a, inf b => a && !b
    | inf a, fin _ => a
    | fin _, inf b => !b
    | _, _ => false
  isInf
    | inf _ => true
    | _ => false
  stepSize := fin (2 ^ 1048)

instance : Halts B64 where
  truediv a b := by
    simp only [PyFloat.truediv, quot]
    split <;> (try split) <;> exact fun h => by cases h
  sq a := by
    simp only [PyFloat.sq, sq]
    split
    · simp only [checked]
      split <;> exact fun h => by cases h
    · exact fun h => by cases h
    · exact fun h => by cases h
  sqrt a := by
    simp only [PyFloat.sqrt, sqrt]
    split <;> (try split) <;> (try split) <;> exact fun h => by cases h

instance : PyOps B64 where
  floordiv := quot (fun x y => round (Int.fdiv x y * 2 ^ 1074) 1)
  mod := quot (fun x y => round (Int.fmod x y) 1)
  pow
    | fin x, fin y =>
      if 0 ≤ y ∧ y % 2 ^ 1074 = 0 then
        (checked (round (x ^ (y / 2 ^ 1074).toNat * 2 ^ 1074) (2 ^ (1074 * (y / 2 ^ 1074).toNat)))).map .real
      else .ok (.real nan)
    | _, _ => .ok (.real nan)
  log
    | fin x => if x ≤ 0 then .error .valueError else .ok nan
    | inf true => .error .valueError
    | x => .ok x
  trunc
    | fin x => .ok (fin (Int.tdiv x (2 ^ 1074) * 2 ^ 1074))
    | inf _ => .error .overflowError
    | nan => .error .valueError

/-- `math.fmod`, which is exact. -/
def fmod : B64 → B64 → PyRes B64
  | nan, _ => .ok nan
  | _, nan => .ok nan
  | inf _, _ => .error .valueError
  | _, fin 0 => .error .valueError
  | fin x, inf _ => .ok (fin x)
  | fin x, fin y => .ok (fin (Int.tmod x y))

instance : PyMath B64 where
  fn1
    | .sqrt, x => PyFloat.sqrt x
    | .fabs, x => .ok (PyFloat.abs x)
    | _, _ => .ok nan
  fn2
    | .fmod, x, y => fmod x y
    | _, _, _ => .ok nan
  logb _ _ := .ok nan
  lcst _ _ := .ok (.flt nan)
  modf
    | fin x => (fin (x - Int.tdiv x (2 ^ 1074) * 2 ^ 1074), fin (Int.tdiv x (2 ^ 1074) * 2 ^ 1074))
    | x => (x, x)
  ldexp x i :=
    match x with
    | fin m => checked (if 0 ≤ i then round (m * 2 ^ i.toNat) 1 else round m (2 ^ (-i).toNat))
    | x => .ok x
  frexp x := (x, 0)
  pow2 i := if 0 ≤ i then round (2 ^ (1074 + i.toNat)) 1 else round (2 ^ 1074) (2 ^ (-i).toNat)
  fsum l := .ok (l.foldl (· + ·) 0)
  ten := fin (10 * 2 ^ 1074)
  half := fin (2 ^ 1073)
  erfCoef := nan

/-! ### Rounding errors -/

theorem rdiv_err (n d : ℕ) (hd : 0 < d) : |(rdiv n d : ℝ) - n / d| ≤ 1 / 2 := by
  have hd' : (0 : ℝ) < d := by exact_mod_cast hd
  have e : (n : ℝ) = d * (n / d : ℕ) + (n % d : ℕ) := by exact_mod_cast (Nat.div_add_mod n d).symm
  have hr : n % d < d := Nat.mod_lt n hd
  have hr' : ((n % d : ℕ) : ℝ) < d := by exact_mod_cast hr
  have hr0 : (0 : ℝ) ≤ (n % d : ℕ) := Nat.cast_nonneg _
  have q : (n : ℝ) / d = (n / d : ℕ) + (n % d : ℕ) / d := by
    rw [eq_comm]
    field_simp
    linarith
  simp only [rdiv]
  split
  · rename_i h
    have h2 : 2 * (n % d) ≤ d := by omega
    have h2' : 2 * ((n % d : ℕ) : ℝ) ≤ d := by exact_mod_cast h2
    have h3 : ((n % d : ℕ) : ℝ) / d ≤ 1 / 2 := by rw [div_le_div_iff₀ hd' (by norm_num)]; linarith
    have h4 : (0 : ℝ) ≤ (n % d : ℕ) / d := by positivity
    rw [q, abs_le]
    constructor <;> linarith
  · rename_i h
    have h2 : d ≤ 2 * (n % d) := by
      by_contra hc
      exact h (Or.inl (by omega))
    have h2' : (d : ℝ) ≤ 2 * ((n % d : ℕ) : ℝ) := by exact_mod_cast h2
    have h3 : 1 / 2 ≤ ((n % d : ℕ) : ℝ) / d := by rw [div_le_div_iff₀ (by norm_num) hd']; linarith
    have h4 : ((n % d : ℕ) : ℝ) / d ≤ 1 := by rw [div_le_one hd']; linarith
    rw [q, abs_le]
    push_cast
    constructor <;> linarith

theorem rdiv_one (n : ℕ) : rdiv n 1 = n := by simp [rdiv, Nat.mod_one]

/-- Rounding to 53 bits. -/
theorem rndTo_err (n d : ℕ) (hd : 0 < d) :
    |(rndTo n d : ℝ) - n / d| ≤ (2 : ℝ)⁻¹ ^ 53 * (n / d) + (if d = 1 then 0 else 1 / 2) := by
  have hd' : (0 : ℝ) < d := by exact_mod_cast hd
  simp only [rndTo, Nat.log2_eq_log_two]
  set k := Nat.log 2 (n / d) + 1 - 53 with hk
  have hp : (0 : ℝ) < 2 ^ k := by positivity
  have h1 := rdiv_err n (d * 2 ^ k) (by positivity)
  have h2 : |((rdiv n (d * 2 ^ k) * 2 ^ k : ℕ) : ℝ) - n / d| ≤ 1 / 2 * 2 ^ k := by
    have e : ((rdiv n (d * 2 ^ k) * 2 ^ k : ℕ) : ℝ) - n / d =
        ((rdiv n (d * 2 ^ k) : ℝ) - n / ((d * 2 ^ k : ℕ) : ℝ)) * 2 ^ k := by
      push_cast
      field_simp
    rw [e, abs_mul, abs_of_pos hp]
    exact mul_le_mul_of_nonneg_right h1 hp.le
  have hn0 : (0 : ℝ) ≤ (n : ℝ) / d := by positivity
  by_cases hk0 : k = 0
  · by_cases hd1 : d = 1
    · subst hd1
      rw [hk0] at h2 ⊢
      simp only [pow_zero, mul_one, rdiv_one, if_true, Nat.cast_one, div_one, sub_self, abs_zero]
      positivity
    · rw [hk0] at h2 ⊢
      simp only [hd1, if_false]
      have : (0 : ℝ) ≤ (2 : ℝ)⁻¹ ^ 53 * (n / d) := by positivity
      simp only [pow_zero, mul_one] at h2 ⊢
      linarith
  · have hlog : Nat.log 2 (n / d) = k + 52 := by omega
    have hne : n / d ≠ 0 := by
      intro h0
      rw [h0] at hlog
      simp at hlog
    have h3 : 2 ^ (k + 52) ≤ n / d := by
      rw [← hlog]; exact Nat.pow_log_le_self 2 hne
    have h4 : ((2 : ℝ)) ^ (k + 52) ≤ n / d := by
      have : ((2 ^ (k + 52) : ℕ) : ℝ) ≤ ((n / d : ℕ) : ℝ) := by exact_mod_cast h3
      refine le_trans (by push_cast at this; exact this) Nat.cast_div_le
    have h5 : 1 / 2 * (2 : ℝ) ^ k = (2 : ℝ)⁻¹ ^ 53 * 2 ^ (k + 52) := by
      rw [pow_add]
      have : (2 : ℝ)⁻¹ ^ 53 * (2 ^ k * 2 ^ 52) = (2⁻¹ ^ 53 * 2 ^ 52) * 2 ^ k := by ring
      rw [this]
      norm_num
    have h6 : (0 : ℝ) ≤ (if d = 1 then 0 else 1 / 2) := by split <;> norm_num
    have h7 := mul_le_mul_of_nonneg_left h4 (by positivity : (0 : ℝ) ≤ (2 : ℝ)⁻¹ ^ 53)
    linarith

theorem rndInt_err (m : ℤ) (d : ℕ) (hd : 0 < d) :
    |(rndInt m d : ℝ) - m / d| ≤ (2 : ℝ)⁻¹ ^ 53 * |(m : ℝ) / d| + (if d = 1 then 0 else 1 / 2) := by
  have h := rndTo_err m.natAbs d hd
  have hd' : (0 : ℝ) < d := by exact_mod_cast hd
  have hm : ((m.natAbs : ℕ) : ℝ) = |(m : ℝ)| := by
    rw [← Int.cast_abs, Int.abs_eq_natAbs]; simp
  rw [hm] at h
  rw [abs_div, abs_of_pos hd']
  rcases lt_trichotomy m 0 with h0 | h0 | h0
  · have h0' : (m : ℝ) < 0 := by exact_mod_cast h0
    simp only [rndInt, Int.sign_eq_neg_one_of_neg h0]
    rw [abs_of_neg h0'] at h ⊢
    have e : (((-1 : ℤ) * (rndTo m.natAbs d : ℤ) : ℤ) : ℝ) - m / d =
        -((rndTo m.natAbs d : ℝ) - (-m) / d) := by push_cast; ring
    rw [e, abs_neg]
    exact h
  · subst h0
    simp only [rndInt, Int.sign_zero, zero_mul, Int.cast_zero, zero_div, sub_zero, abs_zero, mul_zero,
      zero_add]
    split <;> norm_num
  · have h0' : (0 : ℝ) < m := by exact_mod_cast h0
    simp only [rndInt, Int.sign_eq_one_of_pos h0]
    rw [abs_of_pos h0'] at h ⊢
    have e : (((1 : ℤ) * (rndTo m.natAbs d : ℤ) : ℤ) : ℝ) - m / d =
        ((rndTo m.natAbs d : ℝ) - m / d) := by push_cast; ring
    rw [e]
    exact h

theorem rndSqrt_err (N : ℕ) (hN : 2 ^ 1074 ≤ N) :
    |(rndSqrt N : ℝ) - √(N : ℝ)| ≤ (2 : ℝ)⁻¹ ^ 53 * √(N : ℝ) := by
  simp only [rndSqrt, Nat.log2_eq_log_two]
  set s := Nat.sqrt N with hs
  set k := Nat.log 2 s - 53 with hk
  set r := s / 2 ^ (k + 1) with hr
  have hs1 : s * s ≤ N := Nat.sqrt_le N
  have hs2 : N < (s + 1) * (s + 1) := Nat.lt_succ_sqrt N
  have hs3 : 2 ^ 537 ≤ s := by
    rw [hs, Nat.le_sqrt]
    calc 2 ^ 537 * 2 ^ 537 = 2 ^ 1074 := by rw [← pow_add]
      _ ≤ N := hN
  have hlog : 537 ≤ Nat.log 2 s := by
    apply Nat.le_log_of_pow_le (by norm_num) hs3
  have hlog' : Nat.log 2 s = k + 53 := by omega
  have hs4 : 2 ^ (k + 53) ≤ s := by
    rw [← hlog']
    apply Nat.pow_log_le_self
    intro h0; rw [h0] at hlog; simp at hlog
  have h1 : (s : ℝ) ≤ √(N : ℝ) := by
    apply Real.le_sqrt_of_sq_le
    have : ((s * s : ℕ) : ℝ) ≤ N := by exact_mod_cast hs1
    push_cast at this
    nlinarith
  have h2 : √(N : ℝ) < (s : ℝ) + 1 := by
    rw [Real.sqrt_lt' (by positivity)]
    have : (N : ℝ) < (((s + 1) * (s + 1) : ℕ) : ℝ) := by exact_mod_cast hs2
    push_cast at this
    nlinarith
  have h3 : r * 2 ^ (k + 1) ≤ s := Nat.div_mul_le_self s _
  have h4 : s < (r + 1) * 2 ^ (k + 1) := by
    rw [hr, mul_comm]
    exact Nat.lt_mul_div_succ s (by positivity)
  have h3' : (r : ℝ) * 2 ^ (k + 1) ≤ s := by exact_mod_cast h3
  have h4' : (s : ℝ) + 1 ≤ ((r : ℝ) + 1) * 2 ^ (k + 1) := by exact_mod_cast h4
  have h5 : (2 : ℝ) ^ (k + 53) ≤ √(N : ℝ) := le_trans (by exact_mod_cast hs4) h1
  have h6 : (2 : ℝ) ^ k ≤ (2 : ℝ)⁻¹ ^ 53 * √(N : ℝ) := by
    calc (2 : ℝ) ^ k = (2 : ℝ)⁻¹ ^ 53 * 2 ^ (k + 53) := by
          rw [pow_add]
          have : (2 : ℝ)⁻¹ ^ 53 * (2 ^ k * 2 ^ 53) = (2⁻¹ ^ 53 * 2 ^ 53) * 2 ^ k := by ring
          rw [this]
          norm_num
      _ ≤ _ := mul_le_mul_of_nonneg_left h5 (by positivity)
  have hpk : (2 : ℝ) ^ (k + 1) = 2 * 2 ^ k := by rw [pow_succ]; ring
  split
  · rename_i h7
    have h8 : √(N : ℝ) ≤ (2 * r + 1) * 2 ^ k := by
      rw [Real.sqrt_le_left (by positivity)]
      exact_mod_cast h7
    push_cast
    rw [abs_le]
    constructor
    · rw [hpk]; linarith
    · have : (0 : ℝ) ≤ 2⁻¹ ^ 53 * √(N : ℝ) := by positivity
      linarith
  · rename_i h7
    push Not at h7
    have h8 : (2 * r + 1) * 2 ^ k ≤ √(N : ℝ) := by
      apply Real.le_sqrt_of_sq_le
      have : ((((2 * r + 1) * 2 ^ k) ^ 2 : ℕ) : ℝ) ≤ N := by exact_mod_cast h7.le
      push_cast at this
      exact this
    push_cast
    rw [abs_le]
    constructor
    · have : (0 : ℝ) ≤ 2⁻¹ ^ 53 * √(N : ℝ) := by positivity
      linarith
    · rw [hpk]; linarith

/-! ### The laws -/

set_option maxRecDepth 8000

/-- The real number represented by a finite float. -/
noncomputable def val : B64 → ℝ
  | fin m => (m : ℝ) * (2 : ℝ)⁻¹ ^ 1074
  | _ => 0

def Fin : B64 → Prop
  | fin _ => True
  | _ => False

theorem fin_iff (x : B64) : x.Fin ↔ ∃ m, x = fin m := by
  cases x <;> simp [Fin]

theorem round_fin (m : ℤ) (d : ℕ) (h : (round m d).Fin) : round m d = fin (rndInt m d) := by
  simp only [round] at h ⊢
  split at h
  · rename_i h'
    rw [if_pos h']
  · exact h.elim

theorem infTimes_not_fin (b : Bool) (x : ℤ) : ¬ (infTimes b x).Fin := by
  simp only [infTimes]
  split
  · exact id
  · split <;> exact id

theorem add_law (a b : B64) (h : (add a b).Fin) : a.Fin ∧ b.Fin ∧
    |val (add a b) - (val a + val b)| ≤ (2 : ℝ)⁻¹ ^ 53 * |val a + val b| := by
  cases a with
  | nan => exact h.elim
  | inf a =>
    cases b with
    | nan => exact h.elim
    | inf b =>
      simp only [add] at h
      split at h <;> exact h.elim
    | fin y => exact h.elim
  | fin x =>
    cases b with
    | nan => exact h.elim
    | inf b => exact h.elim
    | fin y =>
      refine ⟨trivial, trivial, ?_⟩
      simp only [add] at h ⊢
      split
      · rename_i hx
        subst hx
        simp only [val, Int.cast_zero, zero_mul, zero_add, sub_self, abs_zero]
        positivity
      · rename_i hx
        rw [if_neg hx] at h
        split
        · rename_i hy
          subst hy
          simp only [val, Int.cast_zero, zero_mul, add_zero, sub_self, abs_zero]
          positivity
        · rename_i hy
          rw [if_neg hy] at h
          rw [round_fin _ _ h]
          have he := rndInt_err (x + y) 1 (by norm_num)
          simp only [Nat.cast_one, div_one, if_true, add_zero] at he
          simp only [val]
          have hp : (0 : ℝ) < (2 : ℝ)⁻¹ ^ 1074 := by positivity
          rw [← add_mul, ← sub_mul, abs_mul, abs_mul, abs_of_pos hp, ← mul_assoc]
          push_cast at he
          exact mul_le_mul_of_nonneg_right he hp.le

theorem mul_law (a b : B64) (h : (mul a b).Fin) : a.Fin ∧ b.Fin ∧
    |val (mul a b) - val a * val b| ≤ (2 : ℝ)⁻¹ ^ 53 * |val a * val b| + (2 : ℝ)⁻¹ ^ 1075 := by
  cases a with
  | nan => exact h.elim
  | inf a =>
    cases b with
    | nan => exact h.elim
    | inf b => exact h.elim
    | fin y => exact (infTimes_not_fin _ _ h).elim
  | fin x =>
    cases b with
    | nan => exact h.elim
    | inf b => exact (infTimes_not_fin _ _ h).elim
    | fin y =>
      refine ⟨trivial, trivial, ?_⟩
      simp only [mul] at h ⊢
      rw [round_fin _ _ h]
      have he := rndInt_err (x * y) (2 ^ 1074) (by positivity)
      have hne : (2 : ℕ) ^ 1074 ≠ 1 := by
        intro h1
        have := Nat.pow_eq_one.1 h1
        omega
      rw [if_neg hne] at he
      generalize rndInt (x * y) (2 ^ 1074) = r at he
      simp only [val]
      have hp : (0 : ℝ) < (2 : ℝ)⁻¹ ^ 1074 := by positivity
      have e1 : ((x * y : ℤ) : ℝ) / ((2 ^ 1074 : ℕ) : ℝ) = x * y * (2 : ℝ)⁻¹ ^ 1074 := by
        rw [Nat.cast_pow, inv_pow, div_eq_mul_inv]
        push_cast
        rfl
      rw [e1] at he
      have e2 : (x : ℝ) * (2 : ℝ)⁻¹ ^ 1074 * (y * (2 : ℝ)⁻¹ ^ 1074) =
          (x * y * (2 : ℝ)⁻¹ ^ 1074) * (2 : ℝ)⁻¹ ^ 1074 := by ring
      have e3 : (2 : ℝ)⁻¹ ^ 1075 = 1 / 2 * (2 : ℝ)⁻¹ ^ 1074 := by
        rw [pow_succ]; ring
      rw [e2, e3, ← sub_mul, abs_mul, abs_mul, abs_of_pos hp, ← mul_assoc, ← add_mul]
      exact mul_le_mul_of_nonneg_right he hp.le

theorem sqrt_law (a y : B64) (h : sqrt a = .ok y) (hy : y.Fin) : a.Fin ∧ 0 ≤ val a ∧
    |val y - √(val a)| ≤ (2 : ℝ)⁻¹ ^ 53 * √(val a) := by
  cases a with
  | nan => cases h; exact hy.elim
  | inf b =>
    cases b
    · cases h; exact hy.elim
    · cases h
  | fin m =>
    refine ⟨trivial, ?_⟩
    simp only [sqrt] at h
    split at h
    · cases h
    · rename_i hm
      split at h
      · rename_i h0
        cases h
        subst h0
        simp [val]
      · rename_i h0
        have hpos : 0 < m := by omega
        have hpos' : (0 : ℝ) < m := by exact_mod_cast hpos
        have hp : (0 : ℝ) < (2 : ℝ)⁻¹ ^ 1074 := by positivity
        have hN : 2 ^ 1074 ≤ m.natAbs * 2 ^ 1074 := by
          apply Nat.le_mul_of_pos_left
          omega
        have he := rndSqrt_err _ hN
        rw [Except.ok.injEq] at h
        subst h
        generalize hr : rndSqrt (m.natAbs * 2 ^ 1074) = r at he
        refine ⟨by simp only [val]; positivity, ?_⟩
        simp only [val]
        have e0 : ((m.natAbs : ℕ) : ℝ) = m := by
          rw [Nat.cast_natAbs, abs_of_pos hpos]
        have e1 : √(((m.natAbs * 2 ^ 1074 : ℕ) : ℝ)) = √((m : ℝ) * 2⁻¹ ^ 1074) * 2 ^ 1074 := by
          rw [Nat.cast_mul, e0, Nat.cast_pow, Real.sqrt_eq_iff_mul_self_eq (by positivity) (by positivity)]
          have e2 := Real.mul_self_sqrt (by positivity : 0 ≤ (m : ℝ) * 2⁻¹ ^ 1074)
          have e3 : √((m : ℝ) * 2⁻¹ ^ 1074) * 2 ^ 1074 * (√((m : ℝ) * 2⁻¹ ^ 1074) * 2 ^ 1074) =
              (√((m : ℝ) * 2⁻¹ ^ 1074) * √((m : ℝ) * 2⁻¹ ^ 1074)) * 2 ^ 1074 * 2 ^ 1074 := by ring
          rw [e3, e2]
          have e4 : (2 : ℝ)⁻¹ ^ 1074 * 2 ^ 1074 = 1 := by
            rw [← mul_pow]; norm_num
          rw [mul_assoc (m : ℝ), e4, mul_one]
          rfl
        rw [e1] at he
        generalize √((m : ℝ) * 2⁻¹ ^ 1074) = t at he ⊢
        have e4 : (2 : ℝ) ^ 1074 * 2⁻¹ ^ 1074 = 1 := by
          rw [← mul_pow]; norm_num
        have h5 := mul_le_mul_of_nonneg_right he hp.le
        rw [← abs_of_pos hp, ← abs_mul, abs_of_pos hp, sub_mul, mul_assoc t, e4, mul_one,
          mul_assoc (_ : ℝ) (t * _), mul_assoc t, e4, mul_one] at h5
        exact_mod_cast h5

noncomputable instance : Rounded B64 where
  val := val
  Fin := Fin
  u := (2 : ℝ)⁻¹ ^ 53
  η := (2 : ℝ)⁻¹ ^ 1075
  u_nonneg := by positivity
  η_nonneg := by positivity
  fin_zero := trivial
  val_zero := by show val (fin 0) = 0; simp [val]
  fin_one := trivial
  val_one := by
    show val (fin (2 ^ 1074)) = 1
    simp only [val]
    rw [Int.cast_pow, ← mul_pow]
    norm_num
  add := add_law
  zero_add a h := by
    show val (add (fin 0) a) = val a
    cases a <;> rfl
  mul := mul_law
  abs a h := by
    cases a with
    | nan => exact h.elim
    | inf b => exact h.elim
    | fin m =>
      refine ⟨trivial, ?_⟩
      show val (fin |m|) = _
      simp only [val]
      rw [abs_mul, abs_of_pos (by positivity : (0 : ℝ) < (2 : ℝ)⁻¹ ^ 1074), Int.cast_abs]
  sq a y h hy := by
    cases a with
    | nan => cases h; exact hy.elim
    | inf b => cases h; exact hy.elim
    | fin m =>
      have h' : checked (mul (fin m) (fin m)) = .ok y := h
      have e : mul (fin m) (fin m) = y := by
        generalize mul (fin m) (fin m) = z at h'
        cases z <;> cases h' <;> rfl
      subst e
      obtain ⟨h1, _, h2⟩ := mul_law _ _ hy
      refine ⟨h1, ?_⟩
      have e2 : val (fin m) ^ 2 = val (fin m) * val (fin m) := by ring
      have e3 : |val (fin m) * val (fin m)| = val (fin m) * val (fin m) :=
        abs_of_nonneg (mul_self_nonneg _)
      rw [e3] at h2
      rw [e2]
      exact h2
  sqrt := sqrt_law
  ltb_zero a h h0 := by
    cases a with
    | nan => exact h.elim
    | inf b => exact h.elim
    | fin m =>
      have h1 : decide (m < 0) = false := h0
      have h2 : 0 ≤ m := by simpa using h1
      have h3 : (0 : ℝ) ≤ m := by exact_mod_cast h2
      simp only [val]
      positivity
  isInf a h := by
    cases a with
    | nan => rfl
    | inf b => exact h.elim
    | fin m => rfl
  eqb_zero a h := by
    cases a with
    | nan => cases h
    | inf b => cases h
    | fin m =>
      have h1 : (m == 0) = true := h
      have h2 : m = 0 := by simpa using h1
      subst h2
      exact ⟨trivial, by simp [val]⟩

end B64

end Unc
