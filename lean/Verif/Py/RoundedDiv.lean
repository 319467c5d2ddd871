import Verif.Py.B64

/-
Floating-point division and square roots, for numbers which obey the laws of `Py/Rounded.lean`, and the proof that double
precision numbers (`Py/B64.lean`) satisfy these laws.
-/

set_option autoImplicit false

namespace Unc

/-- The laws of division and of square roots. A finite quotient of a number by a finite number comes from the division of a
finite number by a non-zero number, and has the relative error `u`, up to the absolute error `η` (underflow). The square root of
a finite number which is not negative is a finite number. -/
class RoundedDiv (F : Type) [PyFloat F] extends Rounded F where
  div : ∀ a b y : F, PyFloat.truediv a b = .ok y → Fin y → Fin b → Fin a ∧ val b ≠ 0 ∧
    |val y - val a / val b| ≤ u * |val a / val b| + η
  not_fin_nan : ¬ Fin PyFloat.nan
  sqrt_ok : ∀ a : F, Fin a → 0 ≤ val a → ∃ y, PyFloat.sqrt a = .ok y ∧ Fin y

namespace B64

theorem quot_fin (f : ℤ → ℤ → B64) (m : ℤ) {n : ℤ} (hn : n ≠ 0) : quot f (fin m) (fin n) = .ok (f m n) := by
  cases n with
  | ofNat k => cases k with
    | zero => exact (hn rfl).elim
    | succ k => rfl
  | negSucc k => rfl

attribute [local irreducible] B64.round

theorem eq_rnd {y : B64} {m : ℤ} {d : ℕ} (e : y = round m d) (hy : y.Fin) : y = fin (rndInt m d) :=
  e.trans (round_fin m d ((congrArg Fin e).mp hy))

theorem div_law (a b y : B64) (h : PyFloat.truediv a b = .ok y) (hy : y.Fin) (hb : b.Fin) : a.Fin ∧ val b ≠ 0 ∧
    |val y - val a / val b| ≤ (2 : ℝ)⁻¹ ^ 53 * |val a / val b| + (2 : ℝ)⁻¹ ^ 1075 := by
  obtain ⟨n, rfl⟩ := (fin_iff b).1 hb
  have hp : (0 : ℝ) < (2 : ℝ)⁻¹ ^ 1074 := by positivity
  by_cases hn : n = 0
  · subst hn
    change quot _ a (fin 0) = .ok y at h
    cases a <;> simp [quot] at h
  have hn' : (n : ℝ) ≠ 0 := by exact_mod_cast hn
  have hv : val (fin n) ≠ 0 := by
    simp only [val]
    exact mul_ne_zero hn' hp.ne'
  cases a with
  | nan =>
    change quot _ nan (fin n) = .ok y at h
    cases n with
    | ofNat k => cases k with
      | zero => exact (hn rfl).elim
      | succ k => simp only [quot, Except.ok.injEq] at h; subst h; exact hy.elim
    | negSucc k => simp only [quot, Except.ok.injEq] at h; subst h; exact hy.elim
  | inf s =>
    have e : y = infTimes s n := by
      change quot _ (inf s) (fin n) = .ok y at h
      cases n with
      | ofNat k => cases k with
        | zero => exact (hn rfl).elim
        | succ k => simp only [quot, Except.ok.injEq] at h; exact h.symm
      | negSucc k => simp only [quot, Except.ok.injEq] at h; exact h.symm
    subst e
    exact (infTimes_not_fin _ _ hy).elim
  | fin m =>
    refine ⟨trivial, hv, ?_⟩
    have e : y = round (m * 2 ^ 1074 * n.sign) n.natAbs := by
      have h' : quot (fun x y => round (x * 2 ^ 1074 * y.sign) y.natAbs) (fin m) (fin n) = .ok y := h
      rw [quot_fin _ _ hn, Except.ok.injEq] at h'
      exact h'.symm
    clear h
    have e' : y = fin (rndInt (m * 2 ^ 1074 * n.sign) n.natAbs) :=
      eq_rnd e hy
    clear e
    have he := rndInt_err (m * 2 ^ 1074 * n.sign) n.natAbs (by omega)
    generalize rndInt (m * 2 ^ 1074 * n.sign) n.natAbs = r at he e'
    rw [e']
    have hq : ((m * 2 ^ 1074 * n.sign : ℤ) : ℝ) / (n.natAbs : ℝ) = (m : ℝ) / n * 2 ^ 1074 := by
      have e1 : ((n.natAbs : ℕ) : ℝ) = |(n : ℝ)| := by rw [← Int.cast_abs, Int.abs_eq_natAbs]; simp
      rw [e1, Int.cast_mul, Int.cast_mul, Int.cast_pow]
      have e2 : ((n.sign : ℤ) : ℝ) / |(n : ℝ)| = 1 / n := by
        rcases lt_or_gt_of_ne hn with h0 | h0
        · rw [Int.sign_eq_neg_one_of_neg h0, abs_of_neg (by exact_mod_cast h0)]
          push_cast
          rw [neg_div_neg_eq]
        · rw [Int.sign_eq_one_of_pos h0, abs_of_pos (by exact_mod_cast h0)]
          push_cast
          rfl
      rw [mul_div_assoc, e2]
      push_cast
      ring
    rw [hq] at he
    have h1 : |(r : ℝ) - (m : ℝ) / n * 2 ^ 1074| ≤ (2 : ℝ)⁻¹ ^ 53 * |(m : ℝ) / n * 2 ^ 1074| + 1 / 2 := by
      refine he.trans ?_
      split <;> norm_num
    have e3 : val (fin m) / val (fin n) = (m : ℝ) / n := by
      simp only [val]
      rw [mul_div_mul_right _ _ hp.ne']
    rw [e3]
    simp only [val]
    have e4 : (2 : ℝ)⁻¹ ^ 1075 = 1 / 2 * (2 : ℝ)⁻¹ ^ 1074 := by rw [pow_succ]; ring
    have e5 : (2 : ℝ) ^ 1074 * (2 : ℝ)⁻¹ ^ 1074 = 1 := by rw [← mul_pow]; norm_num
    rw [e4]
    generalize hP : (2 : ℝ)⁻¹ ^ 1074 = P at *
    generalize (2 : ℝ) ^ 1074 = Q at *
    generalize (2 : ℝ)⁻¹ ^ 53 = u at *
    generalize (m : ℝ) / n = q at *
    have h2 := mul_le_mul_of_nonneg_right h1 hp.le
    rw [← abs_of_pos hp, ← abs_mul, abs_of_pos hp, sub_mul, mul_assoc q, e5, mul_one, abs_mul q] at h2
    have h3 : |Q| * P = 1 := by
      have : 0 < Q := by
        by_contra hQ
        have := mul_nonpos_of_nonpos_of_nonneg (not_lt.1 hQ) hp.le
        linarith
      rw [abs_of_pos this, e5]
    calc |(r : ℝ) * P - q| ≤ (u * (|q| * |Q|) + 1 / 2) * P := h2
      _ = u * |q| * (|Q| * P) + 1 / 2 * P := by ring
      _ = u * |q| + 1 / 2 * P := by rw [h3, mul_one]

noncomputable instance : RoundedDiv B64 where
  div := div_law
  not_fin_nan := id
  sqrt_ok a h h0 := by
    obtain ⟨m, rfl⟩ := (fin_iff a).1 h
    show ∃ y, sqrt (fin m) = .ok y ∧ y.Fin
    have hp : (0 : ℝ) < (2 : ℝ)⁻¹ ^ 1074 := by positivity
    have hm : ¬ m < 0 := by
      intro hm
      have h1 : (m : ℝ) < 0 := by exact_mod_cast hm
      have h2 : 0 ≤ (m : ℝ) * (2 : ℝ)⁻¹ ^ 1074 := h0
      exact absurd h2 (not_le.2 (mul_neg_of_neg_of_pos h1 hp))
    simp only [sqrt]
    rw [if_neg hm]
    split
    · exact ⟨_, rfl, trivial⟩
    · exact ⟨_, rfl, trivial⟩

end B64
end Unc
