import Verif.Py.RoundedSign

/-
Sums and differences do not overflow when the result is not large.
-/

set_option autoImplicit false

namespace Unc

/-- Absence of overflow in sums and differences that are at most `2**1000`. -/
class RoundedRange (F : Type) [PyFloat F] [Rounded F] : Prop where
  add_fin : ∀ a b : F, Rounded.Fin a → Rounded.Fin b → |Rounded.val a + Rounded.val b| ≤ (2 : ℝ) ^ 1000 → Rounded.Fin (a + b)
  sub_fin : ∀ a b : F, Rounded.Fin a → Rounded.Fin b → |Rounded.val a - Rounded.val b| ≤ (2 : ℝ) ^ 1000 → Rounded.Fin (a - b)

namespace B64

theorem round_is_fin {m : ℤ} {d : ℕ} (h : (rndInt m d).natAbs < 2 ^ 2098) : (round m d).Fin := by
  unfold round
  rw [if_pos h]
  trivial

attribute [local irreducible] B64.round

theorem two_pow_bound : (2 : ℝ) * (2 : ℝ) ^ 1000 < (2 : ℝ) ^ 2098 * (2 : ℝ)⁻¹ ^ 1074 := by
  have h : (2 : ℝ) ^ 2098 * (2 : ℝ)⁻¹ ^ 1074 = (2 : ℝ) ^ 1024 := by
    have : (2 : ℝ) ^ 2098 = (2 : ℝ) ^ 1024 * (2 : ℝ) ^ 1074 := by rw [← pow_add]
    rw [this, mul_assoc, ← mul_pow, mul_inv_cancel₀ (by norm_num), one_pow, mul_one]
  have h2 : (2 : ℝ) * (2 : ℝ) ^ 1000 = (2 : ℝ) ^ 1001 := by rw [← pow_succ']
  rw [h, h2]
  exact pow_lt_pow_right₀ (by norm_num) (by norm_num)

theorem add_fin (a b : B64) (ha : a.Fin) (hb : b.Fin) (h : |val a + val b| ≤ (2 : ℝ) ^ 1000) : (add a b).Fin := by
  obtain ⟨x, rfl⟩ := (fin_iff a).1 ha
  obtain ⟨y, rfl⟩ := (fin_iff b).1 hb
  by_cases hx : x = 0
  · subst hx; exact trivial
  by_cases hy : y = 0
  · subst hy; simp only [add, if_neg hx]; exact trivial
  simp only [add, if_neg hx, if_neg hy]
  have hp : (0 : ℝ) < (2 : ℝ)⁻¹ ^ 1074 := pow_pos (by norm_num) _
  have e := rndInt_err (x + y) 1 one_pos
  simp only [Nat.cast_one, div_one, if_true, add_zero] at e
  have h' : |((x + y : ℤ) : ℝ)| * (2 : ℝ)⁻¹ ^ 1074 ≤ (2 : ℝ) ^ 1000 := by
    simp only [val, ← add_mul, abs_mul, abs_of_pos hp] at h
    push_cast
    exact h
  have hu : (2 : ℝ)⁻¹ ^ 53 ≤ 1 := pow_le_one₀ (by norm_num) (by norm_num)
  have hr : |((rndInt (x + y) 1 : ℤ) : ℝ)| ≤ 2 * |((x + y : ℤ) : ℝ)| := by
    have e1 : ((rndInt (x + y) 1 : ℤ) : ℝ) = ((x + y : ℤ) : ℝ) + (((rndInt (x + y) 1 : ℤ) : ℝ) - ((x + y : ℤ) : ℝ)) := by ring
    rw [e1]
    refine (abs_add_le _ _).trans ?_
    have := mul_le_mul_of_nonneg_right hu (abs_nonneg (((x + y : ℤ) : ℝ)))
    linarith
  have hlt : ((rndInt (x + y) 1).natAbs : ℝ) < (2 : ℝ) ^ 2098 := by
    have e2 : ((rndInt (x + y) 1).natAbs : ℝ) = |((rndInt (x + y) 1 : ℤ) : ℝ)| := by
      rw [← Int.cast_abs, Int.abs_eq_natAbs]; simp
    rw [e2]
    refine lt_of_mul_lt_mul_right (a := (2 : ℝ)⁻¹ ^ 1074) ?_ hp.le
    refine lt_of_le_of_lt ?_ two_pow_bound
    calc |((rndInt (x + y) 1 : ℤ) : ℝ)| * (2 : ℝ)⁻¹ ^ 1074 ≤ 2 * |((x + y : ℤ) : ℝ)| * (2 : ℝ)⁻¹ ^ 1074 :=
          mul_le_mul_of_nonneg_right hr hp.le
      _ = 2 * (|((x + y : ℤ) : ℝ)| * (2 : ℝ)⁻¹ ^ 1074) := by ring
      _ ≤ 2 * (2 : ℝ) ^ 1000 := mul_le_mul_of_nonneg_left h' (by norm_num)
  have hlt' : (rndInt (x + y) 1).natAbs < 2 ^ 2098 := by exact_mod_cast hlt
  exact round_is_fin hlt'

instance : RoundedRange B64 where
  add_fin a b ha hb h := add_fin a b ha hb h
  sub_fin a b ha hb h := by
    obtain ⟨y, rfl⟩ := (fin_iff b).1 hb
    refine add_fin a (fin (-y)) ha trivial ?_
    have : val (fin (-y)) = -val (fin y) := by simp [val]
    rw [this, ← sub_eq_add_neg]
    exact h

end B64

instance : RoundedRange NR where
  add_fin a b ha hb _ := by
    cases a <;> cases b <;> first | exact ha.elim | exact hb.elim | trivial
  sub_fin a b ha hb _ := by
    cases a <;> cases b <;> first | exact ha.elim | exact hb.elim | trivial

end Unc
