import Verif.Py.RoundedDiv

/-
Laws of floating-point numbers used by numerical differentiation, in addition to those of `Py/Rounded.lean` and
`Py/RoundedDiv.lean`, and the proof that double precision numbers (`Py/B64.lean`) satisfy them.
-/

set_option autoImplicit false

namespace Unc

/-- Subtraction, the number 2, `STEP_SIZE` (core.py 295), products of numbers that are not negative, and comparison with 0. -/
class RoundedStep (F : Type) [PyFloat F] extends RoundedDiv F where
  sub : ∀ a b : F, Fin (a - b) → Fin a ∧ Fin b ∧ |val (a - b) - (val a - val b)| ≤ u * |val a - val b|
  fin_two : Fin PyFloat.two
  val_two : val PyFloat.two = 2
  fin_step : Fin PyFloat.stepSize
  val_step : val PyFloat.stepSize = (2 : ℝ)⁻¹ ^ 26
  mul_nonneg : ∀ a b : F, Fin (a * b) → 0 ≤ val a → 0 ≤ val b → 0 ≤ val (a * b)
  ne_zero : ∀ a : F, Fin a → PyFloat.eqb a 0 = false → val a ≠ 0

namespace B64

theorem neg_fin {a : B64} (h : (neg a).Fin) : a.Fin ∧ val (neg a) = -val a := by
  cases a with
  | nan => exact h.elim
  | inf s => exact h.elim
  | fin m => exact ⟨trivial, by simp [neg, val]⟩

attribute [local irreducible] B64.round

theorem rndInt_nonneg {m : ℤ} (d : ℕ) (h : 0 ≤ m) : 0 ≤ rndInt m d := by
  unfold rndInt
  exact mul_nonneg (Int.sign_nonneg_iff.2 h) (Int.natCast_nonneg _)

theorem mul_nonneg' (a b : B64) (h : (mul a b).Fin) (ha : 0 ≤ val a) (hb : 0 ≤ val b) : 0 ≤ val (mul a b) := by
  obtain ⟨fa, fb, -⟩ := mul_law a b h
  obtain ⟨x, rfl⟩ := (fin_iff a).1 fa
  obtain ⟨y, rfl⟩ := (fin_iff b).1 fb
  have hp : (0 : ℝ) < (2 : ℝ)⁻¹ ^ 1074 := by positivity
  have hx : 0 ≤ x := by
    by_contra hx
    have h1 : (x : ℝ) < 0 := by exact_mod_cast not_le.1 hx
    exact absurd ha (not_le.2 (mul_neg_of_neg_of_pos h1 hp))
  have hy : 0 ≤ y := by
    by_contra hy
    have h1 : (y : ℝ) < 0 := by exact_mod_cast not_le.1 hy
    exact absurd hb (not_le.2 (mul_neg_of_neg_of_pos h1 hp))
  have e : mul (fin x) (fin y) = fin (rndInt (x * y) (2 ^ 1074)) := eq_rnd rfl h
  rw [e]
  have h0 := rndInt_nonneg (2 ^ 1074) (mul_nonneg hx hy)
  generalize rndInt (x * y) (2 ^ 1074) = r at h0
  have h1 : (0 : ℝ) ≤ r := by exact_mod_cast h0
  exact mul_nonneg h1 hp.le

theorem val_pow {k : ℕ} (hk : k ≤ 1074) : val (fin (2 ^ k)) = (2 : ℝ)⁻¹ ^ (1074 - k) := by
  simp only [val]
  obtain ⟨j, hj⟩ := Nat.exists_eq_add_of_le hk
  rw [hj, Nat.add_sub_cancel_left, pow_add, Int.cast_pow, ← mul_assoc, ← mul_pow]
  norm_num

noncomputable instance : RoundedStep B64 where
  sub a b h := by
    have h' : (add a (neg b)).Fin := h
    obtain ⟨h1, h2, h3⟩ := add_law a (neg b) h'
    obtain ⟨h4, h5⟩ := neg_fin h2
    refine ⟨h1, h4, ?_⟩
    rw [h5, ← sub_eq_add_neg] at h3
    exact h3
  fin_two := trivial
  val_two := by
    show val (fin (2 ^ 1075)) = 2
    simp only [val]
    rw [Int.cast_pow, pow_succ, mul_assoc, mul_comm _ ((2 : ℝ)⁻¹ ^ 1074), ← mul_assoc, Int.cast_ofNat, ← mul_pow]
    norm_num
  fin_step := trivial
  val_step := by
    show val (fin (2 ^ 1048)) = _
    rw [val_pow (by norm_num)]
  mul_nonneg := mul_nonneg'
  ne_zero a h h0 := by
    obtain ⟨m, rfl⟩ := (fin_iff a).1 h
    have h1 : (m == 0) = false := h0
    have h2 : m ≠ 0 := by simpa using h1
    have h3 : (m : ℝ) ≠ 0 := by exact_mod_cast h2
    exact mul_ne_zero h3 (by positivity)

end B64
end Unc
