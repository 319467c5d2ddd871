import Mathlib.Analysis.SpecialFunctions.Log.Base
import Mathlib.Analysis.Complex.ExponentialBounds
import Mathlib.Algebra.Order.Round
import Verif.Py.B64
import Verif.Lemmas.FloatDigits

/-!
# Formatting with IEEE 754 doubles

The operations of `FlOps` for 64-bit floats, with two versions of `int(math.floor(math.log10(v)))`: the correctly rounded
logarithm, and a computable one which is only too large for the floats that represent a power of ten.  Both are `Sound`.
-/

set_option autoImplicit false

namespace Unc

namespace FlOps

/-- The double nearest to `q` (ties to even), without overflow. -/
def rnd64 (q : ℚ) : ℚ := (B64.rndInt (q.num * 2 ^ 1074) q.den : ℚ) / 2 ^ 1074

/-- Doubles, for a given integer part of the logarithm. -/
def double (log : ℚ → ℤ) : FlOps where
  rnd := rnd64
  logFloor := log
  ten e := rnd64 ((10 : ℚ) ^ e)

/-- A real number rounded to 53 significant bits (in case of a tie, upwards: a logarithm of a rational number is either an
integer or irrational, so that there are no ties). -/
noncomputable def rndReal (x : ℝ) : ℝ :=
  if x = 0 then 0 else _root_.round (x / (2 : ℝ) ^ (Int.log 2 |x| - 52)) * (2 : ℝ) ^ (Int.log 2 |x| - 52)

/-- The integer part of the correctly rounded logarithm. -/
noncomputable def logRounded (v : ℚ) : ℤ := ⌊rndReal (Real.logb 10 (v : ℝ))⌋

/-- The integer part of the logarithm, except for the doubles that represent a power of ten (from below). -/
def logSharp (v : ℚ) : ℤ :=
  if rnd64 ((10 : ℚ) ^ (Int.log 10 v + 1)) ≤ v then Int.log 10 v + 1 else Int.log 10 v

theorem rnd64_err (q : ℚ) : |rnd64 q - q| ≤ |q| / 2 ^ 53 + 1 / 2 ^ 1075 := by
  have h := B64.rndInt_err (q.num * 2 ^ 1074) q.den q.den_pos
  have h' : |((B64.rndInt (q.num * 2 ^ 1074) q.den : ℚ) : ℝ) - ((q * 2 ^ 1074 : ℚ) : ℝ)| ≤
      (((2 : ℚ)⁻¹ ^ 53 * |q * 2 ^ 1074| + 1 / 2 : ℚ) : ℝ) := by
    have e : (((q.num * 2 ^ 1074 : ℤ) : ℝ)) / (q.den : ℝ) = ((q * 2 ^ 1074 : ℚ) : ℝ) := by
      have hq : (q : ℝ) = (q.num : ℝ) / (q.den : ℝ) := by exact_mod_cast (Rat.num_div_den q).symm
      push_cast
      rw [hq]
      ring
    rw [e] at h
    have e2 : (((2 : ℚ)⁻¹ ^ 53 * |q * 2 ^ 1074| + 1 / 2 : ℚ) : ℝ) = (2 : ℝ)⁻¹ ^ 53 * |((q * 2 ^ 1074 : ℚ) : ℝ)| + 1 / 2 := by
      push_cast
      ring
    rw [e2, Rat.cast_intCast]
    refine h.trans ?_
    split_ifs <;> linarith
  have h2 : |(B64.rndInt (q.num * 2 ^ 1074) q.den : ℚ) - q * 2 ^ 1074| ≤ (2 : ℚ)⁻¹ ^ 53 * |q * 2 ^ 1074| + 1 / 2 := by
    rw [← Rat.cast_sub, ← Rat.cast_abs] at h'
    exact_mod_cast h'
  unfold rnd64
  have hP : (0 : ℚ) < 2 ^ 1074 := by positivity
  have e75 : (2 : ℚ) ^ 1075 = 2 ^ 1074 * 2 := pow_succ _ _
  rw [e75]
  generalize (2 : ℚ) ^ 1074 = P at *
  rw [abs_mul, abs_of_pos hP] at h2
  have e3 : (B64.rndInt (q.num * 2 ^ 1074) q.den : ℚ) / P - q = ((B64.rndInt (q.num * 2 ^ 1074) q.den : ℚ) - q * P) / P := by
    field_simp
  rw [e3, abs_div, abs_of_pos hP, div_le_iff₀ hP]
  refine h2.trans (le_of_eq ?_)
  field_simp

theorem tiny : (1 : ℚ) / 2 ^ 1075 ≤ (10 : ℚ) ^ (-300 : ℤ) / 10 ^ 20 := by
  have h : 10 ^ 320 ≤ 2 ^ 1075 := by decide +kernel
  have h2 : (10 : ℚ) ^ 320 ≤ 2 ^ 1075 := by exact_mod_cast h
  have e : (10 : ℚ) ^ (-300 : ℤ) / 10 ^ 20 = 1 / 10 ^ 320 := by
    rw [zpow_neg, show (300 : ℤ) = ((300 : ℕ) : ℤ) from rfl, zpow_natCast, inv_eq_one_div, div_div, ← pow_add]
  rw [e]
  exact one_div_le_one_div_of_le (by positivity) h2

theorem rnd64_near {q : ℚ} (h : (10 : ℚ) ^ (-300 : ℤ) ≤ |q|) : |rnd64 q - q| ≤ |q| * (1 / 2 ^ 53 + 1 / 10 ^ 20) := by
  refine (rnd64_err q).trans ?_
  have := tiny
  have : (10 : ℚ) ^ (-300 : ℤ) / 10 ^ 20 ≤ |q| / 10 ^ 20 := div_le_div_of_nonneg_right h (by positivity)
  linarith

theorem rnd64_zero : rnd64 0 = 0 := by
  unfold rnd64 B64.rndInt
  simp

theorem rnd64_rel {q : ℚ} (h : (10 : ℚ) ^ (-300 : ℤ) ≤ |q|) : |rnd64 q - q| ≤ |q| / 10 ^ 15 := by
  refine (rnd64_near h).trans ?_
  have := abs_nonneg q
  have e : (1 : ℚ) / 2 ^ 53 + 1 / 10 ^ 20 ≤ 1 / 10 ^ 15 := by norm_num
  have := mul_le_mul_of_nonneg_left e this
  linarith

/-- Doubles, for logarithms with the required accuracy. -/
theorem double_sound {log : ℚ → ℤ}
    (h1 : ∀ (v : ℚ) (d : ℤ), -300 ≤ d → v ≤ (10 : ℚ) ^ (300 : ℤ) → (10 : ℚ) ^ d ≤ v → d ≤ log v)
    (h2 : ∀ (v : ℚ) (d : ℤ), d ≤ 300 → (10 : ℚ) ^ (-300 : ℤ) ≤ v → v < (10 : ℚ) ^ (d + 1) * (1 - 2 / 10 ^ 13) → log v ≤ d)
    (h3 : ∀ d : ℤ, -300 ≤ d → d ≤ 300 → log (rnd64 ((10 : ℚ) ^ d)) = d) : (double log).Sound where
  rnd_zero := rnd64_zero
  rnd_near q h _ := rnd64_rel h
  ten_near e h _ := by
    have hp := ten_pos e
    have := rnd64_rel (q := (10 : ℚ) ^ e) (by rw [abs_of_pos hp]; exact ten_le_iff.2 h)
    rwa [abs_of_pos hp] at this
  log_ge := h1
  log_le := h2
  log_pow := h3

theorem int_log_spec {v : ℚ} (h : 0 < v) : (10 : ℚ) ^ Int.log 10 v ≤ v ∧ v < (10 : ℚ) ^ (Int.log 10 v + 1) :=
  ⟨by simpa using Int.zpow_log_le_self (b := 10) (by norm_num) h,
    by simpa using Int.lt_zpow_succ_log_self (b := 10) (by norm_num) v⟩

theorem sharp_sound : (double logSharp).Sound := by
  refine double_sound ?_ ?_ ?_
  · intro v d h1 h2 h3
    have hv : 0 < v := (ten_pos d).trans_le h3
    have hs := (int_log_spec hv).2
    have : d < Int.log 10 v + 1 := ten_lt_iff.1 (h3.trans_lt hs)
    unfold logSharp
    split_ifs <;> omega
  · intro v d h1 h2 h3
    have hv : 0 < v := (ten_pos _).trans_le h2
    have hs := (int_log_spec hv).1
    have hp := ten_pos (d + 1)
    have hd : Int.log 10 v < d + 1 := by
      refine ten_lt_iff.1 (hs.trans_lt (h3.trans_le ?_))
      nlinarith
    have h300 : -300 < Int.log 10 v + 1 := ten_lt_iff.1 (h2.trans_lt (int_log_spec hv).2)
    unfold logSharp
    split_ifs with hc
    · have hq := ten_pos (Int.log 10 v + 1)
      have hn := rnd64_rel (q := (10 : ℚ) ^ (Int.log 10 v + 1)) (by rw [abs_of_pos hq]; exact ten_le_iff.2 (by omega))
      rw [abs_of_pos hq, abs_le] at hn
      have : Int.log 10 v + 1 < d + 1 := by
        refine ten_lt_iff.1 ?_
        generalize (10 : ℚ) ^ (Int.log 10 v + 1) = A at *
        generalize (10 : ℚ) ^ (d + 1) = B at *
        nlinarith [hn.1]
      omega
    · omega
  · intro d h1 h2
    have hp := ten_pos d
    have hn := rnd64_rel (q := (10 : ℚ) ^ d) (by rw [abs_of_pos hp]; exact ten_le_iff.2 (by omega))
    rw [abs_of_pos hp, abs_le] at hn
    have e1 : (10 : ℚ) ^ (d + 1) = (10 : ℚ) ^ d * 10 := by rw [ten_add, zpow_one]
    have e0 : (10 : ℚ) ^ d = (10 : ℚ) ^ (d - 1) * 10 := by
      rw [← zpow_add_one₀ (by norm_num : (10 : ℚ) ≠ 0), sub_add_cancel]
    have hp1 := ten_pos (d - 1)
    have hv : 0 < rnd64 ((10 : ℚ) ^ d) := by linarith [hn.1]
    obtain ⟨s1, s2⟩ := int_log_spec hv
    have l1 : Int.log 10 (rnd64 ((10 : ℚ) ^ d)) < d + 1 := by
      refine ten_lt_iff.1 (s1.trans_lt ?_)
      rw [e1]
      linarith [hn.2]
    have l2 : d - 1 < Int.log 10 (rnd64 ((10 : ℚ) ^ d)) + 1 := by
      refine ten_lt_iff.1 (lt_of_le_of_lt ?_ s2)
      linarith [hn.1]
    have hcases : Int.log 10 (rnd64 ((10 : ℚ) ^ d)) = d ∨ Int.log 10 (rnd64 ((10 : ℚ) ^ d)) = d - 1 := by omega
    unfold logSharp
    rcases hcases with hc | hc
    · rw [hc, if_neg]
      have hp1 := ten_pos (d + 1)
      have hn1 := rnd64_rel (q := (10 : ℚ) ^ (d + 1)) (by rw [abs_of_pos hp1]; exact ten_le_iff.2 (by omega))
      rw [abs_of_pos hp1, abs_le] at hn1
      rw [e1] at hn1 ⊢
      linarith [hn1.1, hn.2]
    · rw [hc, if_pos]
      · ring
      · rw [sub_add_cancel]

/-! ### The correctly rounded logarithm -/

theorem int_log2_spec {x : ℝ} (h : x ≠ 0) : (2 : ℝ) ^ Int.log 2 |x| ≤ |x| ∧ |x| < (2 : ℝ) ^ (Int.log 2 |x| + 1) :=
  ⟨by simpa using Int.zpow_log_le_self (b := 2) (by norm_num) (abs_pos.2 h),
    by simpa using Int.lt_zpow_succ_log_self (b := 2) (by norm_num) |x|⟩

/-- The spacing of the floats. -/
theorem grid_le {x : ℝ} (h : x ≠ 0) (h2 : |x| ≤ 400) : Int.log 2 |x| ≤ 8 := by
  have h1 := (int_log2_spec h).1
  by_contra hc
  have : (2 : ℝ) ^ (9 : ℤ) ≤ (2 : ℝ) ^ Int.log 2 |x| := zpow_le_zpow_right₀ (by norm_num) (by omega)
  norm_num at this
  linarith

theorem int_on_grid (d : ℤ) {k : ℤ} (hk : k ≤ 8) : ∃ N : ℤ, (d : ℝ) = N * (2 : ℝ) ^ (k - 52) := by
  refine ⟨d * 2 ^ (52 - k).toNat, ?_⟩
  push_cast
  rw [← zpow_natCast, Int.toNat_of_nonneg (by omega), mul_assoc, ← zpow_add₀ (by norm_num)]
  simp

theorem rndReal_ge {x : ℝ} {d : ℤ} (h2 : |x| ≤ 400) (h : (d : ℝ) ≤ x) : (d : ℝ) ≤ rndReal x := by
  unfold rndReal
  split_ifs with h0
  · rw [h0] at h; exact h
  · have hk := grid_le h0 h2
    obtain ⟨N, hN⟩ := int_on_grid d hk
    have hg : (0 : ℝ) < (2 : ℝ) ^ (Int.log 2 |x| - 52) := by positivity
    rw [hN]
    refine mul_le_mul_of_nonneg_right ?_ hg.le
    have : (N : ℝ) ≤ x / (2 : ℝ) ^ (Int.log 2 |x| - 52) := by
      rw [le_div_iff₀ hg, ← hN]
      exact h
    have h3 : N ≤ _root_.round (x / (2 : ℝ) ^ (Int.log 2 |x| - 52)) := by
      rw [round_eq, Int.le_floor]
      linarith
    exact_mod_cast h3

theorem rndReal_err {x : ℝ} (h2 : |x| ≤ 400) : |rndReal x - x| ≤ 1 / 2 ^ 45 := by
  unfold rndReal
  split_ifs with h0
  · rw [h0]; norm_num
  · have hk := grid_le h0 h2
    have hg : (0 : ℝ) < (2 : ℝ) ^ (Int.log 2 |x| - 52) := by positivity
    have hg2 : (2 : ℝ) ^ (Int.log 2 |x| - 52) ≤ 1 / 2 ^ 44 := by
      have : (2 : ℝ) ^ (Int.log 2 |x| - 52) ≤ (2 : ℝ) ^ (-44 : ℤ) := zpow_le_zpow_right₀ (by norm_num) (by omega)
      refine this.trans (le_of_eq ?_)
      norm_num
    have hr := abs_sub_round (x / (2 : ℝ) ^ (Int.log 2 |x| - 52))
    generalize (2 : ℝ) ^ (Int.log 2 |x| - 52) = g at *
    have e : (_root_.round (x / g) : ℝ) * g - x = -(x / g - _root_.round (x / g)) * g := by
      field_simp
      ring
    rw [e, abs_mul, abs_neg, abs_of_pos hg]
    have := mul_le_mul_of_nonneg_right hr hg.le
    have e45 : (1 : ℝ) / 2 ^ 45 = 1 / 2 ^ 44 / 2 := by norm_num
    rw [e45]
    linarith

theorem rndReal_close {x : ℝ} {d : ℤ} (hd : d ≠ 0) (hd2 : |d| ≤ 300) (h : |x - d| < 1 / 2 ^ 54) : rndReal x = d := by
  have hd1 : (1 : ℝ) ≤ |(d : ℝ)| := by
    have : 1 ≤ |d| := Int.one_le_abs hd
    exact_mod_cast this
  have hd3 : |(d : ℝ)| ≤ 300 := by exact_mod_cast hd2
  have hx1 : 1 / 2 ≤ |x| := by
    have := abs_sub_abs_le_abs_sub (d : ℝ) x
    rw [abs_sub_comm] at this
    have h54 : (1 : ℝ) / 2 ^ 54 ≤ 1 / 2 := by norm_num
    linarith
  have hx2 : |x| ≤ 400 := by
    have := abs_sub_abs_le_abs_sub x (d : ℝ)
    have h54 : (1 : ℝ) / 2 ^ 54 ≤ 1 / 2 := by norm_num
    linarith
  have h0 : x ≠ 0 := by
    rintro rfl
    rw [abs_zero] at hx1
    norm_num at hx1
  have hk := grid_le h0 hx2
  have hk2 : -1 ≤ Int.log 2 |x| := by
    have h2 := (int_log2_spec h0).2
    by_contra hc
    have : (2 : ℝ) ^ (Int.log 2 |x| + 1) ≤ (2 : ℝ) ^ (-1 : ℤ) := zpow_le_zpow_right₀ (by norm_num) (by omega)
    norm_num at this
    linarith
  obtain ⟨N, hN⟩ := int_on_grid d hk
  have hg : (0 : ℝ) < (2 : ℝ) ^ (Int.log 2 |x| - 52) := by positivity
  have hg2 : (1 : ℝ) / 2 ^ 53 ≤ (2 : ℝ) ^ (Int.log 2 |x| - 52) := by
    have : (2 : ℝ) ^ (-53 : ℤ) ≤ (2 : ℝ) ^ (Int.log 2 |x| - 52) := zpow_le_zpow_right₀ (by norm_num) (by omega)
    refine le_trans (le_of_eq ?_) this
    norm_num
  unfold rndReal
  rw [if_neg h0]
  rw [hN] at h ⊢
  generalize (2 : ℝ) ^ (Int.log 2 |x| - 52) = g at *
  have e : x - N * g = (x / g - N) * g := by field_simp
  rw [e, abs_mul, abs_of_pos hg] at h
  have h5 : |x / g - N| < 1 / 2 := by
    by_contra hc
    have := mul_le_mul_of_nonneg_right (not_lt.1 hc) hg.le
    have e54 : (1 : ℝ) / 2 ^ 54 = 1 / 2 ^ 53 / 2 := by norm_num
    rw [e54] at h
    linarith
  have h6 : _root_.round (x / g) = N := by
    rw [round_eq, Int.floor_eq_iff]
    rw [abs_lt] at h5
    constructor <;> linarith [h5.1, h5.2]
  rw [h6]

theorem log10_gt : (2 : ℝ) < Real.log 10 := by
  have h : Real.log 8 = 3 * Real.log 2 := by
    rw [show (8 : ℝ) = 2 ^ 3 by norm_num, Real.log_pow]
    norm_num
  have h1 : Real.log 8 < Real.log 10 := Real.log_lt_log (by norm_num) (by norm_num)
  have := Real.log_two_gt_d9
  linarith

theorem log10_lt : Real.log 10 < 3 := by
  have h : Real.log 16 = 4 * Real.log 2 := by
    rw [show (16 : ℝ) = 2 ^ 4 by norm_num, Real.log_pow]
    norm_num
  have h1 : Real.log 10 < Real.log 16 := Real.log_lt_log (by norm_num) (by norm_num)
  have := Real.log_two_lt_d9
  linarith

theorem logb_zpow (d : ℤ) : Real.logb 10 ((10 : ℝ) ^ d) = d := by
  unfold Real.logb
  rw [Real.log_zpow, mul_div_assoc, div_self (by linarith [log10_gt]), mul_one]

theorem cast_ten (d : ℤ) : (((10 : ℚ) ^ d : ℚ) : ℝ) = (10 : ℝ) ^ d := by
  push_cast
  rfl

theorem logb_range {v : ℚ} (h1 : (10 : ℚ) ^ (-300 : ℤ) ≤ v) (h2 : v ≤ (10 : ℚ) ^ (301 : ℤ)) : |Real.logb 10 (v : ℝ)| ≤ 400 := by
  have hv : 0 < v := (ten_pos _).trans_le h1
  have hv' : (0 : ℝ) < v := by exact_mod_cast hv
  have a1 := (Rat.cast_le (K := ℝ)).2 h1
  have a2 := (Rat.cast_le (K := ℝ)).2 h2
  rw [cast_ten] at a1 a2
  have b1 := Real.logb_le_logb_of_le (b := 10) (by norm_num) (by positivity) a1
  have b2 := Real.logb_le_logb_of_le (b := 10) (by norm_num) hv' a2
  rw [logb_zpow] at b1 b2
  push_cast at b1 b2
  rw [abs_le]
  constructor <;> linarith

theorem rounded_sound : (double logRounded).Sound := by
  refine double_sound ?_ ?_ ?_
  · intro v d h1 h2 h3
    have hv : 0 < v := (ten_pos d).trans_le h3
    have hr := logb_range ((ten_le_iff.2 h1).trans h3) (h2.trans (ten_le_iff.2 (by norm_num)))
    have a1 := (Rat.cast_le (K := ℝ)).2 h3
    rw [cast_ten] at a1
    have b1 := Real.logb_le_logb_of_le (b := 10) (by norm_num) (by positivity) a1
    rw [logb_zpow] at b1
    unfold logRounded
    rw [Int.le_floor]
    exact rndReal_ge hr b1
  · intro v d h1 h2 h3
    have hv : 0 < v := (ten_pos _).trans_le h2
    have hv' : (0 : ℝ) < v := by exact_mod_cast hv
    have hp := ten_pos (d + 1)
    have hr := logb_range h2 (le_trans (h3.le.trans (by nlinarith : _ ≤ (10 : ℚ) ^ (d + 1))) (ten_le_iff.2 (by omega)))
    have a1 := (Rat.cast_lt (K := ℝ)).2 h3
    rw [Rat.cast_mul, cast_ten] at a1
    push_cast at a1
    have hpr : (0 : ℝ) < (10 : ℝ) ^ (d + 1) := by positivity
    have b1 := Real.logb_lt_logb (b := 10) (by norm_num) hv' a1
    rw [Real.logb_mul hpr.ne' (by norm_num), logb_zpow] at b1
    have c1 : Real.logb 10 (1 - 2 / 10 ^ 13) ≤ -(1 / 2 ^ 44) := by
      have hl := Real.log_le_sub_one_of_pos (show (0 : ℝ) < 1 - 2 / 10 ^ 13 by norm_num)
      unfold Real.logb
      rw [div_le_iff₀ (by linarith [log10_gt])]
      have := log10_lt
      have e : (1 : ℝ) - 2 / 10 ^ 13 - 1 ≤ -(1 / 2 ^ 44) * 3 := by norm_num
      nlinarith
    have hrr := abs_le.1 (rndReal_err hr)
    unfold logRounded
    have : rndReal (Real.logb 10 (v : ℝ)) < ((d + 1 : ℤ) : ℝ) := by
      have e44 : (1 : ℝ) / 2 ^ 45 < 1 / 2 ^ 44 := by norm_num
      linarith [hrr.2]
    have := Int.floor_lt.2 this
    omega
  · intro d h1 h2
    by_cases hd : d = 0
    · subst hd
      have : rnd64 ((10 : ℚ) ^ (0 : ℤ)) = 1 := by
        rw [zpow_zero]
        decide +kernel
      rw [this]
      unfold logRounded rndReal
      simp
    · have hp := ten_pos d
      have hn := rnd64_near (q := (10 : ℚ) ^ d) (by rw [abs_of_pos hp]; exact ten_le_iff.2 (by omega))
      rw [abs_of_pos hp, abs_le] at hn
      have hv : 0 < rnd64 ((10 : ℚ) ^ d) := by
        have : (10 : ℚ) ^ d * (1 / 2 ^ 53 + 1 / 10 ^ 20) ≤ (10 : ℚ) ^ d * (1 / 2) := mul_le_mul_of_nonneg_left (by norm_num) hp.le
        linarith [hn.1]
      set v := rnd64 ((10 : ℚ) ^ d) with hvd
      obtain ⟨t, ht⟩ : ∃ t : ℚ, v = (10 : ℚ) ^ d * (1 + t) := ⟨v / (10 : ℚ) ^ d - 1, by field_simp; ring⟩
      have ht1 : -(1 / 2 ^ 53 + 1 / 10 ^ 20) ≤ t ∧ t ≤ 1 / 2 ^ 53 + 1 / 10 ^ 20 := by
        rw [ht] at hn
        constructor
        · have := hn.1
          nlinarith
        · have := hn.2
          nlinarith
      have htr1 : -(1 / 2 ^ 53 + 1 / 10 ^ 20) ≤ (t : ℝ) := by
        have := (Rat.cast_le (K := ℝ)).2 ht1.1
        push_cast at this
        exact this
      have htr2 : (t : ℝ) ≤ 1 / 2 ^ 53 + 1 / 10 ^ 20 := by
        have := (Rat.cast_le (K := ℝ)).2 ht1.2
        push_cast at this
        exact this
      have hpr : (0 : ℝ) < (10 : ℝ) ^ d := by positivity
      have h1t : (0 : ℝ) < 1 + t := by
        have : (1 : ℝ) / 2 ^ 53 + 1 / 10 ^ 20 ≤ 1 / 2 := by norm_num
        linarith
      have hlog : Real.logb 10 (v : ℝ) = d + Real.log (1 + t) / Real.log 10 := by
        rw [ht, Rat.cast_mul, cast_ten]
        push_cast
        rw [Real.logb_mul hpr.ne' h1t.ne', logb_zpow]
        rfl
      have u1 : Real.log (1 + t) ≤ 1 / 2 ^ 53 + 1 / 10 ^ 20 := by
        have := Real.log_le_sub_one_of_pos h1t
        linarith
      have u2 : -(1 / 2 ^ 53 + 2 / 10 ^ 20) ≤ Real.log (1 + t) := by
        have := Real.one_sub_inv_le_log_of_pos h1t
        refine le_trans ?_ this
        have h3 : (1 + (t : ℝ))⁻¹ ≤ 1 + (1 / 2 ^ 53 + 2 / 10 ^ 20) := by
          rw [inv_le_iff_one_le_mul₀ h1t]
          have : (1 - (1 / 2 ^ 53 + 1 / 10 ^ 20 : ℝ)) * (1 + (1 / 2 ^ 53 + 2 / 10 ^ 20)) ≤ (1 + (t : ℝ)) * (1 + (1 / 2 ^ 53 + 2 / 10 ^ 20)) :=
            mul_le_mul_of_nonneg_right (by linarith) (by norm_num)
          have e : (1 : ℝ) ≤ (1 - (1 / 2 ^ 53 + 1 / 10 ^ 20 : ℝ)) * (1 + (1 / 2 ^ 53 + 2 / 10 ^ 20)) := by norm_num
          linarith
        linarith
      have hL := log10_gt
      have hl2 : (2069 / 1000 : ℝ) < Real.log 10 := by
        have h : Real.log 8 = 3 * Real.log 2 := by
          rw [show (8 : ℝ) = 2 ^ 3 by norm_num, Real.log_pow]
          norm_num
        have h1 : Real.log 8 < Real.log 10 := Real.log_lt_log (by norm_num) (by norm_num)
        have := Real.log_two_gt_d9
        linarith
      have hc : |Real.logb 10 (v : ℝ) - d| < 1 / 2 ^ 54 := by
        rw [hlog, add_sub_cancel_left, abs_lt]
        have e : (1 : ℝ) / 2 ^ 53 + 2 / 10 ^ 20 < 1 / 2 ^ 54 * (2069 / 1000) := by norm_num
        constructor
        · rw [lt_div_iff₀ (by linarith)]
          nlinarith
        · rw [div_lt_iff₀ (by linarith)]
          nlinarith
      unfold logRounded
      rw [rndReal_close hd (abs_le.2 ⟨by omega, by omega⟩) hc, Int.floor_intCast]

end FlOps

end Unc
